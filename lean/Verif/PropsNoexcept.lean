import Verif.Back
import Verif.DemoMore

/-!
# C64: what is declared `noexcept` does not throw

An exception that leaves a function declared `noexcept` ends the program (`std::terminate`), whatever the caller does.  The library
declares nearly everything but construction and transfer of control `noexcept`, destructors included; yet a destructor of a coroutine
object switches to another stack and unwinds it, and the member functions used there can themselves be unwound.
-/
namespace Verif
variable {L G V E : Type}
variable {P : Prog L G V E} {l0 : L} {g0 : G} {s s' s1 : St L G V E}

/-- The calls whose functions are declared `noexcept`: `get()` (pull_coroutine.hpp:68, 179), `operator bool` and `operator!`
(pull_coroutine.hpp:64-66, 175-177, 284-286; push_coroutine.hpp:65-67, 148-150, 231-233), move construction and move assignment
(pull_coroutine.hpp:55-57, 166-168, 275-277; push_coroutine.hpp:53-55, 138-140, 221-223), the destructors
(pull_coroutine.hpp:50, push_coroutine.hpp:48; implicitly), the iterator constructors (pull_coroutine.hpp:101, 212; push_coroutine.hpp:82,
165) and the pull iterator's `operator*` (pull_coroutine.hpp:123, 234).  Not declared so: the constructors that make a coroutine,
`operator()`, the pull iterator's `operator++` and the push iterator's `operator=`. -/
def Op.declaredNoexcept : Op L V E → Bool
  | .get _ | .valid _ | .bang _ | .moveCtor _ | .moveAssign _ _ | .destroy _ | .itBegin _ | .itDeref _ => true
  | .mk .. | .resume _ | .push .. | .itNext _ | .itPut .. => false

namespace Aux

theorem okU_noWait {fs : List (Frame L V E)} (h : okU fs = true) : Frame.wait ∉ fs := by
  intro hm
  simp only [okU, List.all_eq_true] at h
  have := h _ hm
  simp [Frame.isU] at this

theorem okPost_noWait {fs : List (Frame L V E)} (h : okPost fs = true) : Frame.wait ∉ fs := by
  have hu : ∀ t : List (Frame L V E), okUsr t = true → Frame.wait ∉ t := by
    intro t ht
    cases t with
    | nil => simp
    | cons f t => cases f <;> simp [okUsr] at ht; simpa using okU_noWait ht
  cases fs with
  | nil => simp
  | cons f t =>
    cases f <;> simp [okPost] at h
    · simpa using okU_noWait h
    all_goals simpa using hu _ h

theorem okRaiseU_noWait {b : Base L} {fs : List (Frame L V E)} (h : okRaiseU b fs = true) : Frame.wait ∉ fs := by
  simp only [okRaiseU, Bool.and_eq_true, Bool.or_eq_true] at h
  exact h.1.elim okU_noWait okPost_noWait

theorem okRaiseF_noWait {b : Base L} {fs : List (Frame L V E)} (h : okRaiseF b fs = true) : Frame.wait ∉ fs := by
  have hu : ∀ t : List (Frame L V E), okUsr t = true → Frame.wait ∉ t := by
    intro t ht
    cases t with
    | nil => simp
    | cons f t => cases f <;> simp [okUsr] at ht; simpa using okU_noWait ht
  cases fs with
  | nil => simp
  | cons f t =>
    cases f <;> simp only [okRaiseF, Bool.and_eq_true] at h
    case asg => simpa using okPost_noWait h.1
    case pullCtor => simpa using hu _ h.1
    case pushCtor => simpa using hu _ h.1
    all_goals exact okRaiseU_noWait h

/-- the destructor call made in `s` is waiting in `~fiber()`, is about to return, or has returned -/
def InDtor (s : St L G V E) (k : Res V → L) (s' : St L G V E) : Prop :=
  s'.frames s.cur = .wait :: .usr k :: s.frames s.cur ∧ (s'.cur = s.cur → s'.ctl = .recv) ∨
  s'.cur = s.cur ∧ s'.frames s.cur = .usr k :: s.frames s.cur ∧ (∃ v, s'.ctl = .deliver v) ∨
  ∃ v, Returned s k v s'

/-- with `wait` on top of its stack the running context has just been resumed -/
theorem wait_recv {t : List (Frame L V E)} (hr : Reach P l0 g0 s) (h : s.fr = .wait :: t) : s.ctl = .recv := by
  have hc := (inv_reach hr).ctl
  have h' : s.frames s.cur = .wait :: t := h
  cases hx : s.ctl with
  | recv => rfl
  | eval => rw [hx] at hc; simp [CtlOk, h', okU, Frame.isU] at hc
  | retn => rw [hx] at hc; simp [CtlOk, h', okU, Frame.isU] at hc
  | deliver => rw [hx] at hc; simp [CtlOk, h', okRet] at hc
  | raise x =>
    rw [hx] at hc
    cases x <;> simp [CtlOk, h', okRaiseF, okRaiseU, okU, Frame.isU, okPost] at hc

theorem InDtor.step {k : Res V → L} (hr : Reach P l0 g0 s') (h : InDtor s k s') (hu : ¬ UserRuns s')
    (e : step P s' = .next s1) : InDtor s k s1 := by
  have hr1 := hr.step e
  rcases h with ⟨hf, hc⟩ | ⟨hcur, hf, v, hv⟩ | ⟨v, _, _, hv⟩
  · by_cases hcur : s'.cur = s.cur
    · have hc := hc hcur
      have hfr : s'.fr = .wait :: .usr k :: s.frames s.cur := by rw [← hf, ← hcur]; rfl
      refine .inr (.inl ?_)
      have hcs := hc
      simp only [Verif.step, hc, recvStep, hfr] at e
      cases e
      refine ⟨hcur, ?_, .unit, rfl⟩
      simp [St.setFr, St.withCtl, St.setFib, ← hcur]
    · refine .inl ⟨?_, ?_⟩
      · rw [← hf]
        exact (step_rel (inv_reach hr) e).framesOther (Ne.symm hcur)
      · intro hc1
        refine wait_recv (P := P) (t := .usr k :: s.frames s.cur) hr1 ?_
        show s1.frames s1.cur = _
        rw [hc1, (step_rel (inv_reach hr) e).framesOther (Ne.symm hcur), hf]
  · refine .inr (.inr ⟨v, ?_⟩)
    have hfr : s'.fr = .usr k :: s.frames s.cur := by rw [← hf, ← hcur]; rfl
    simp only [Verif.step, hv, deliverStep, hfr] at e
    cases e
    refine ⟨hcur, ?_, rfl⟩
    simp [St.setFr, St.withCtl, hcur]
  · exact absurd ⟨_, hv⟩ hu

theorem InDtor.run {k : Res V → L} {a b : St L G V E} (hn : NoUser P a b) (hr : Reach P l0 g0 a) (h : InDtor s k a) : InDtor s k b := by
  induction hn with
  | refl => exact h
  | step hu e _ ih => exact ih (hr.step e) (h.step hr hu e)

theorem inDtor_drop {t : St L G V E} {f : Option Nat} {k : Res V → L} (hc : t.cur = s.cur)
    (hf : t.frames s.cur = .usr k :: s.frames s.cur) (h1 : Reach P l0 g0 s1) (hr : fiberDrop t f = .next s1) : InDtor s k s1 := by
  cases f with
  | none =>
    simp only [fiberDrop] at hr
    cases hr
    exact .inr (.inl ⟨hc, hf, _, rfl⟩)
  | some i =>
    simp only [fiberDrop] at hr
    cases hr
    have : (upd t.frames t.cur (.wait :: t.fr)) s.cur = .wait :: .usr k :: s.frames s.cur := by
      rw [hc, upd_same, ← hf, ← hc]; rfl
    refine .inl ⟨this, fun hcur => ?_⟩
    refine wait_recv (t := .usr k :: s.frames s.cur) h1 ?_
    rw [← this, ← hcur]; rfl

theorem dtorSlot_same {t t' : St L G V E} {r : CbRef} (h : dtorSlot t r = some t') : t'.cur = t.cur ∧ t'.frames = t.frames := by
  unfold dtorSlot at h
  split at h
  · split at h
    · cases h; exact ⟨rfl, rfl⟩
    · cases h
  · cases h; exact ⟨rfl, rfl⟩

theorem inDtor_first {t : St L G V E} {h : Nat} {k : Res V → L} (hc : t.cur = s.cur)
    (hf : t.frames s.cur = .usr k :: s.frames s.cur) (h1 : Reach P l0 g0 s1) (hr : destroyHandle t h = .next s1) : InDtor s k s1 := by
  unfold destroyHandle at hr
  split at hr
  · cases hr
  · split at hr
    · cases hr; exact .inr (.inl ⟨hc, hf, _, rfl⟩)
    · unfold deallocate at hr
      dsimp only at hr
      split at hr
      · split at hr
        · unfold destroyCb at hr
          dsimp only at hr
          split at hr
          · cases hr
          · rename_i t' ht
            obtain ⟨e1, e2⟩ := dtorSlot_same ht
            refine inDtor_drop (t := t'.setCb _ _) (e1.trans hc) ?_ h1 hr
            show t'.frames s.cur = _
            rw [e2]; exact hf
        · cases hr; exact .inr (.inl ⟨hc, hf, _, rfl⟩)
      · cases hr

/-- a call to a function declared `noexcept` other than a destructor: its first step -/
theorem immediate_call {op : Op L V E} {k : Res V → L} (hca : Calls P s op k) (hn : op.declaredNoexcept = true)
    (hd : ∀ h, op ≠ .destroy h) (e : step P s = .next s1) :
    s1.cur = s.cur ∧ s1.frames s.cur = .usr k :: s.frames s.cur ∧ ∃ v, s1.ctl = .deliver v := by
  obtain ⟨l, hl, hcode⟩ := hca
  simp only [Verif.step, hl, evalStep, hcode] at e
  have hf : (s.pushFr (.usr k)).frames s.cur = .usr k :: s.frames s.cur := by simp [St.pushFr, St.setFr, St.fr]
  cases op <;> simp only [Op.declaredNoexcept, Bool.false_eq_true] at hn <;> simp only [apiStep] at e
  case destroy h => exact absurd rfl (hd h)
  case get h =>
    split at e
    · rename_i o ho
      unfold readSlot at ho
      grind
    · cases e
      refine ⟨?_, ?_, _, rfl⟩
      · show (St.cur (ite _ _ _)) = _
        split <;> rfl
      · show (St.frames (ite _ _ _)) s.cur = _
        split <;> exact hf
  case itDeref i =>
    cases i with
    | none => cases e
    | some h =>
      dsimp only at e
      split at e
      · rename_i o ho
        unfold readSlot at ho
        grind
      · cases e
        exact ⟨rfl, hf, _, rfl⟩
  case valid h => split at e <;> cases e; exact ⟨rfl, hf, _, rfl⟩
  case bang h => split at e <;> cases e; exact ⟨rfl, hf, _, rfl⟩
  case moveCtor h => split at e <;> cases e; exact ⟨rfl, hf, _, rfl⟩
  case moveAssign d c =>
    split at e
    · split at e
      · split at e <;> cases e <;> exact ⟨rfl, hf, _, rfl⟩
      · cases e
    · cases e
  case itBegin h =>
    split at e
    · cases e
    · split at e
      · cases e
      · split at e
        · cases e; exact ⟨rfl, hf, _, rfl⟩
        · split at e <;> cases e; exact ⟨rfl, hf, _, rfl⟩

/-- a call to a function declared `noexcept`: its first step -/
theorem inDtor_call {op : Op L V E} {k : Res V → L} (hr : Reach P l0 g0 s) (hca : Calls P s op k) (hn : op.declaredNoexcept = true)
    (e : step P s = .next s1) : InDtor s k s1 := by
  by_cases hd : ∃ h, op = .destroy h
  · obtain ⟨h, rfl⟩ := hd
    have h1 := hr.step e
    obtain ⟨l, hl, hcode⟩ := hca
    simp only [Verif.step, hl, evalStep, hcode, apiStep] at e
    exact inDtor_first (t := s.pushFr (.usr k)) rfl (by simp [St.pushFr, St.setFr, St.fr]) h1 e
  · exact .inr (.inl (immediate_call hca hn (fun h hh => hd ⟨h, hh⟩) e))

end Aux

/-- C64, for every program: while a call to a function declared `noexcept` is in progress no exception, neither one of the user's nor
`forced_unwind`, propagates in the context of the caller; when the call is over it has returned. -/
theorem C64_noexcept_calls {op : Op L V E} {k : Res V → L} (hr : Reach P l0 g0 s) (hca : Calls P s op k)
    (hn : op.declaredNoexcept = true) (h : CallRuns P s s') (hcur : s'.cur = s.cur) :
    (∀ x, s'.ctl ≠ .raise x) ∧ (UserRuns s' → ∃ v, Returned s k v s') := by
  obtain ⟨s1, e, hnu⟩ := h
  rcases (Aux.inDtor_call hr hca hn e).run hnu (hr.step e) with ⟨_, hx⟩ | ⟨_, _, v, hv⟩ | ⟨v, hv⟩
  · have hx := hx hcur
    exact ⟨fun x h => (by rw [hx] at h; cases h), fun ⟨_, h⟩ => by rw [hx] at h; cases h⟩
  · exact ⟨fun x h => (by rw [hv] at h; cases h), fun ⟨_, h⟩ => by rw [hv] at h; cases h⟩
  · exact ⟨fun x h => (by rw [hv.2.2] at h; cases h), fun _ => ⟨v, hv⟩⟩

/-- C64, for every program: all of them except destructors never give up control, and return at once. -/
theorem C64_immediate {op : Op L V E} {k : Res V → L} (hca : Calls P s op k)
    (hn : op.declaredNoexcept = true) (hd : ∀ h, op ≠ .destroy h) (e : step P s = .next s1) :
    s1.cur = s.cur ∧ ∃ s2 v, step P s1 = .next s2 ∧ Returned s k v s2 := by
  obtain ⟨hc, hf, v, hv⟩ := Aux.immediate_call hca hn hd e
  have hfr : s1.fr = .usr k :: s.frames s.cur := by rw [← hf, ← hc]; rfl
  refine ⟨hc, (s1.setFr (s.frames s.cur)).withCtl (.eval (k v)), v, ?_, hc, ?_, rfl⟩
  · simp only [Verif.step, hv, deliverStep, hfr]
  · simp [St.setFr, St.withCtl, hc]

/-- C64, for every program: a context that is inside the destructor of a coroutine object, however the destructor came to run (called,
end of a scope, return from a function, unwinding, failing or finished constructor), is not unwound and no exception propagates in it. -/
theorem C64_destructor_not_interrupted (hr : Reach P l0 g0 s) (hw : .wait ∈ s.fr) (x : Exn E) : s.ctl ≠ .raise x := by
  intro hx
  have hc := (inv_reach hr).ctl
  rw [hx] at hc
  cases x with
  | user e => exact Aux.okRaiseU_noWait hc.1 hw
  | forced => exact Aux.okRaiseF_noWait hc.1 hw

/-! ### Non-vacuity -/

namespace Demo

/-- user code does not run in the `m` states that follow the one at step `n` -/
def quietB (c : C) (n m : Nat) : Bool :=
  (List.range m).all (fun i => match (stateAt c (n + i)).ctl with | .eval _ => false | _ => true) &&
  decide ((run Demo.P (n + m) (init c [])).verdict = .running)

theorem noUserAt (c : C) (m : Nat) : ∀ n, quietB c n m = true → NoUser Demo.P (stateAt c n) (stateAt c (n + m)) := by
  induction m with
  | zero => intro n _; exact .refl
  | succ m ih =>
    intro n h
    simp only [quietB, Bool.and_eq_true, List.all_eq_true, List.mem_range, decide_eq_true_eq] at h
    obtain ⟨h1, h2⟩ := h
    obtain ⟨e, h3⟩ := step_at c (n + m) h2
    refine (ih n ?_).trans (.step ?_ e .refl)
    · simp only [quietB, Bool.and_eq_true, List.all_eq_true, List.mem_range, decide_eq_true_eq]
      exact ⟨fun i hi => h1 i (by omega), h3⟩
    · rintro ⟨l, hl⟩
      have := h1 m (by omega)
      rw [hl] at this
      cases this

theorem callRunsAt (c : C) (n m : Nat) (h : quietB c (n + 1) m = true) (h1 : (run Demo.P (n + 1) (init c [])).verdict = .running) :
    CallRuns Demo.P (stateAt c n) (stateAt c (n + 1 + m)) :=
  ⟨_, (step_at c n h1).1, noUserAt c m (n + 1) h⟩

end Demo

open Demo in
/-- C64: in `pullMain` step 18 destroys an unfinished generator: `forced_unwind` destroys two local objects on the stack of the generator, and
nine steps later main is back inside the destructor; after two more it goes on. -/
example : (∃ op k, Calls Demo.P (stateAt pullMain 18) op k ∧ op.declaredNoexcept = true) ∧
    CallRuns Demo.P (stateAt pullMain 18) (stateAt pullMain 23) ∧ (stateAt pullMain 23).ctl = .raise .forced ∧
    CallRuns Demo.P (stateAt pullMain 18) (stateAt pullMain 27) ∧ (stateAt pullMain 27).cur = (stateAt pullMain 18).cur ∧
    Frame.wait ∈ (stateAt pullMain 27).fr ∧
    CallRuns Demo.P (stateAt pullMain 18) (stateAt pullMain 29) ∧ UserRuns (stateAt pullMain 29) :=
  ⟨⟨_, _, ⟨_, rfl, rfl⟩, rfl⟩, callRunsAt pullMain 18 4 (by decide +kernel) (by decide +kernel), rfl,
    callRunsAt pullMain 18 8 (by decide +kernel) (by decide +kernel), by decide +kernel, .head _,
    callRunsAt pullMain 18 10 (by decide +kernel) (by decide +kernel), ⟨_, rfl⟩⟩

open Demo in
/-- C64: `get()` in step 6 of `pullMain`. -/
example : ∃ op k s1, Calls Demo.P (stateAt pullMain 6) op k ∧ op.declaredNoexcept = true ∧ (∀ h, op ≠ .destroy h) ∧
    step Demo.P (stateAt pullMain 6) = .next s1 :=
  ⟨_, _, _, ⟨_, rfl, rfl⟩, rfl, fun _ h => (by cases h), (step_at pullMain 6 (by decide +kernel)).1⟩

open Demo in
/-- The other calls do throw: `operator()` in step 6 of `throwMain` throws what the function threw. -/
example : (∃ op k, Calls Demo.P (stateAt throwMain 6) op k ∧ op.declaredNoexcept = false) ∧
    Later Demo.P (stateAt throwMain 6) (stateAt throwMain 14) ∧ Threw (stateAt throwMain 6) 9 (stateAt throwMain 14) :=
  ⟨⟨_, _, ⟨_, rfl, rfl⟩, rfl⟩, later throwMain 6 8 (by decide +kernel), by decide +kernel, rfl, rfl⟩

end Verif
