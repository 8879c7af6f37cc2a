import Verif.SpecStack
import Verif.Rel2
import Verif.PropsLoop
import Verif.DemoTick

/-! # C60: the library takes up a bounded amount of every stack

A stack obtained from a stack allocator has a fixed size.  The library's own activation records on it are never more than three deep,
they are always the innermost ones, and they are gone when user code runs: neither passing control back and forth any number of times
nor iterating, nor destroying, makes a stack grow. -/
namespace Verif
variable {L G V E : Type} {P : Prog L G V E} {l0 : L} {g0 : G}

/-! ## Helpers -/

theorem okU_scope {fs : List (Frame L V E)} (h : okU fs = true) : ∀ f ∈ fs, isScope f = true := by
  intro f hf
  simp only [okU, List.all_eq_true] at h
  have := h f hf
  cases f <;> simp_all [Frame.isU, isScope]

/-- at most `n` library frames, all above the scopes -/
def Split (n : Nat) (fs : List (Frame L V E)) : Prop :=
  ∃ lib usr, fs = lib ++ usr ∧ lib.length ≤ n ∧ (∀ f ∈ lib, isScope f = false) ∧ ∀ f ∈ usr, isScope f = true

theorem Split.cons {n : Nat} {f : Frame L V E} {fs : List (Frame L V E)} (h : Split n fs) (hf : isScope f = false) : Split (n+1) (f :: fs) := by
  obtain ⟨lib, usr, rfl, h1, h2, h3⟩ := h
  refine ⟨f :: lib, usr, rfl, by simpa using h1, ?_, h3⟩
  intro f' hf'
  rcases List.mem_cons.1 hf' with rfl | h
  · exact hf
  · exact h2 _ h

theorem Split.mono {n m : Nat} {fs : List (Frame L V E)} (h : Split n fs) (hm : n ≤ m) : Split m fs := by
  obtain ⟨lib, usr, e, h1, h2⟩ := h
  exact ⟨lib, usr, e, by omega, h2⟩

theorem split_okU {fs : List (Frame L V E)} (h : okU fs = true) : Split 0 fs := ⟨[], fs, rfl, Nat.le_refl _, by simp, okU_scope h⟩

theorem split_okUsr {fs : List (Frame L V E)} (h : okUsr fs = true) : Split 1 fs := by
  cases fs with
  | nil => simp [okUsr] at h
  | cons f t =>
    cases f <;> simp [okUsr] at h
    exact (split_okU h).cons rfl

theorem split_okPost {fs : List (Frame L V E)} (h : okPost fs = true) : Split 2 fs := by
  cases fs with
  | nil => simp [okPost] at h
  | cons f t =>
    cases f <;> simp [okPost] at h
    all_goals first
      | exact ((split_okU h).cons rfl).mono (by omega)
      | exact (split_okUsr h).cons rfl

theorem split_okRet {b : Base L} {fs : List (Frame L V E)} (h : okRet b fs = true) : Split 2 fs := by
  cases fs with
  | nil => exact (split_okU rfl).mono (by omega)
  | cons f t =>
    cases f <;> simp [okRet] at h
    all_goals first
      | exact ((split_okU h.1).cons rfl).mono (by omega)
      | exact (split_okUsr h.1).cons rfl
      | exact h.1.elim (fun h => ((split_okU h).cons rfl).mono (by omega)) fun h => (split_okUsr h).cons rfl

theorem split_okSw {b : Base L} {fs : List (Frame L V E)} (h : okSw b fs = true) : Split 3 fs := by
  cases fs with
  | nil => exact (split_okU rfl).mono (by omega)
  | cons f t =>
    cases f <;> simp [okSw] at h
    all_goals first
      | exact (split_okPost h.1).cons rfl
      | exact ((split_okUsr h.1).cons rfl).mono (by omega)
      | exact (split_okRet h).cons rfl

theorem split_okRaiseU {b : Base L} {fs : List (Frame L V E)} (h : okRaiseU b fs = true) : Split 2 fs := by
  simp only [okRaiseU, Bool.and_eq_true, Bool.or_eq_true] at h
  exact h.1.elim (fun h => (split_okU h).mono (by omega)) split_okPost

theorem split_okRaiseF {b : Base L} {fs : List (Frame L V E)} (h : okRaiseF b fs = true) : Split 3 fs := by
  cases fs with
  | nil => exact (split_okU rfl).mono (by omega)
  | cons f t =>
    cases f
    case asg => simp [okRaiseF] at h; exact (split_okPost h.1).cons rfl
    case pullCtor => simp [okRaiseF] at h; exact ((split_okUsr h.1).cons rfl).mono (by omega)
    case pushCtor => simp [okRaiseF] at h; exact ((split_okUsr h.1).cons rfl).mono (by omega)
    all_goals exact (split_okRaiseU (b := b) (by simpa only [okRaiseF] using h)).mono (by omega)

theorem split_inv {s : St L G V E} (h : Inv s) (i : Nat) : Split 3 (s.frames i) := by
  by_cases hi : i = s.cur
  · subst hi
    have hc := h.ctl
    unfold CtlOk at hc
    split at hc
    · exact (split_okU hc.1).mono (by omega)
    · exact (split_okU hc.1).mono (by omega)
    · exact (split_okRet hc.1).mono (by omega)
    · exact (split_okRaiseU hc.1).mono (by omega)
    · exact split_okRaiseF hc.1
    · exact split_okSw hc.1
  · by_cases hb : s.base i = .none
    · rw [h.sched.dead_frames i hb]; exact (split_okU rfl).mono (by omega)
    · exact split_okSw (h.sched.sus i hi hb)

theorem Local.scopes {s : St L G V E} {g : G} {fs : List (Frame L V E)} {c : Ctl L V E} {evs : List (Ev V E)} (h : Local P s g fs c evs)
    (hn : OpensNothing P s) : fs.filter isScope = s.fr.filter isScope := by
  unfold OpensNothing at hn
  cases h <;> simp_all [isScope]

theorem Scope.scopes {s s1 : St L G V E} {h : Nat} (hs : Scope P s h s1) (i : Nat) (hn : s.cur = i → OpensNothing P s) :
    s1.cur = s.cur ∧ Verif.scopes s1 i = Verif.scopes s i := by
  unfold OpensNothing at hn
  by_cases hi : s.cur = i
  · subst hi
    cases hs <;> simp_all [Verif.scopes, isScope, St.fr]
  · have hi' : i ≠ s.cur := fun h => hi h.symm
    cases hs <;> simp [Verif.scopes, upd_apply, hi']

theorem Dying.scopes {s s0 : St L G V E} {f : Option Nat} (hs : Dying P s f s0) (i : Nat) (hn : s.cur = i → OpensNothing P s) :
    s0.cur = s.cur ∧ Verif.scopes s0 i = Verif.scopes s i := by
  cases hs with
  | handle h => exact h.scopes i hn
  | ctorInvalid | ctorThrow | ctorUnw | syn =>
    by_cases hi : s.cur = i
    · subst hi
      have := hn rfl
      unfold OpensNothing at this
      simp_all [Verif.scopes, isScope, St.fr]
    · have hi' : i ≠ s.cur := fun h => hi h.symm
      simp [Verif.scopes, upd_apply, hi']

theorem Step.scopes {s s' : St L G V E} (hs : Step P s s') (i : Nat) (hn : s.cur = i → OpensNothing P s) :
    Verif.scopes s' i = Verif.scopes s i := by
  by_cases hi : s.cur = i
  · have hn' := hn hi
    subst hi
    cases hs with
    | loc h => simpa [Verif.scopes, St.fr] using h.scopes hn'
    | nop h => exact (h.scopes s.cur hn).2
    | dropNone h => exact (h.scopes s.cur hn).2
    | dropSome h =>
      obtain ⟨h1, h2⟩ := h.scopes s.cur hn
      rw [← h2]
      simp [Verif.scopes, isScope, St.fr, ← h1]
    | push _ _ hp => cases hp <;> simp [Verif.scopes, isScope, St.fr] <;> split <;> simp [isScope]
    | pull _ _ hp => cases hp <;> simp [Verif.scopes, isScope, St.fr]
    | mk => rename_i kd _ _ _ _ _; cases kd <;> simp [Verif.scopes, isScope, St.fr, ctorFrame]
    | _ => unfold OpensNothing at hn'; simp_all [Verif.scopes, isScope, St.fr]
  · have hi' : i ≠ s.cur := fun h => hi h.symm
    cases hs with
    | nop h => exact (h.scopes i hn).2
    | dropNone h => exact (h.scopes i hn).2
    | dropSome h =>
      obtain ⟨h1, h2⟩ := h.scopes i hn
      rw [← h2]
      simp [Verif.scopes, upd_apply, h1, hi']
    | _ => simp [Verif.scopes, upd_apply, hi']

theorem Steady.reach {i : Nat} {s s' : St L G V E} (h : Steady P i s s') (hr : Reach P l0 g0 s) : Reach P l0 g0 s' := by
  induction h with
  | refl => exact hr
  | step _ _ he ih => exact ih.step he

/-! ## Theorems -/

/-- C60: on every stack, in every reachable state of any program, the entries of the library are at most three, and they are the
innermost ones: whatever lies below them is user code's. -/
theorem C60_bound {s : St L G V E} (hr : Reach P l0 g0 s) (i : Nat) :
    libDepth s i ≤ 3 ∧ s.frames i = (s.frames i).take (libDepth s i) ++ scopes s i := by
  obtain ⟨lib, usr, e, h1, h2, h3⟩ := split_inv (inv_reach hr) i
  have hl : lib.filter isScope = [] := by simpa [List.filter_eq_nil_iff] using h2
  have hu : usr.filter (fun f => !isScope f) = [] := by simpa [List.filter_eq_nil_iff] using h3
  have hl' : lib.filter (fun f => !isScope f) = lib := by simpa [List.filter_eq_self] using h2
  have hu' : usr.filter isScope = usr := by simpa [List.filter_eq_self] using h3
  have hd : libDepth s i = lib.length := by simp [libDepth, e, hl', hu]
  refine ⟨by omega, ?_⟩
  simp [hd, scopes, e, hl, hu']

open Demo in
/-- Non-trivial case (the bound is reached): with an object of its own, main is inside `operator++` of an iterator - for the switch,
for `fetch_()`, for the operator - while the generator is inside `operator()`. -/
example : Reach Demo.P loopMain [] (stateAt loopMain 15) ∧ libDepth (stateAt loopMain 15) 0 = 3 ∧
    libDepth (stateAt loopMain 15) 1 = 3 ∧ scopes (stateAt loopMain 15) 0 = [.gObj 3] ∧ ((stateAt loopMain 15).frames 0).length = 4 :=
  ⟨reach _ _ rfl, rfl, rfl, rfl, rfl⟩

/-- C60: while user code runs there is nothing of the library on its stack. -/
theorem C60_gone {s : St L G V E} (hr : Reach P l0 g0 s) (hu : UserRuns s) : libDepth s s.cur = 0 ∧ s.frames s.cur = scopes s s.cur := by
  obtain ⟨l, hl⟩ := hu
  have hc := (inv_reach hr).ctl
  simp only [CtlOk, hl] at hc
  have := okU_scope hc.1
  refine ⟨by simpa [libDepth, List.filter_eq_nil_iff] using this, ?_⟩
  rw [scopes, eq_comm, List.filter_eq_self]
  exact this

open Demo in
/-- Non-trivial case: main continues after that `operator++`; the generator is still inside its operation. -/
example : Reach Demo.P loopMain [] (stateAt loopMain 18) ∧ UserRuns (stateAt loopMain 18) ∧
    (stateAt loopMain 18).frames 0 = [.gObj 3] ∧ libDepth (stateAt loopMain 18) 1 = 3 :=
  ⟨reach _ _ rfl, ⟨_, rfl⟩, rfl, rfl⟩

/-- C60: only the running context's own block entries and exits, calls, returns and exceptions change what is open in it. -/
theorem C60_scopes {s s' : St L G V E} (hr : Reach P l0 g0 s) (he : step P s = .next s') (i : Nat)
    (hn : s.cur = i → OpensNothing P s) : scopes s' i = scopes s i :=
  (step_rel (inv_reach hr) he).scopes i hn

open Demo in
/-- Non-trivial case: the step that switches from main, in `operator++`, to the generator. -/
example : Reach Demo.P loopMain [] (stateAt loopMain 10) ∧ step Demo.P (stateAt loopMain 10) = .next (stateAt loopMain 11) ∧
    (stateAt loopMain 10).cur = 0 ∧ (stateAt loopMain 11).cur = 1 ∧ OpensNothing Demo.P (stateAt loopMain 10) ∧
    scopes (stateAt loopMain 10) 0 = [.gObj 3] :=
  ⟨reach _ _ rfl, (step_at loopMain 10 rfl).1, rfl, rfl, .inr ⟨_, _, rfl⟩, rfl⟩

/-- C60: context `i` executes user code, and executes user code again later, having in between entered and left no block: its stack is
exactly what it was, however many operations on coroutines were made in between, whatever these coroutines did. -/
theorem C60_steady {s s' : St L G V E} (hr : Reach P l0 g0 s) (h : Steady P s.cur s s') (hu : UserRuns s) (hu' : UserRuns s')
    (hc : s'.cur = s.cur) : s'.frames s.cur = s.frames s.cur := by
  have hs : scopes s' s.cur = scopes s s.cur := by
    clear hu' hc
    induction h with
    | refl => rfl
    | step h1 hn he ih => rw [C60_scopes (h1.reach hr) he _ hn, ih]
  rw [(C60_gone hr hu).2, ← hs, ← hc, ← (C60_gone (h.reach hr) hu').2]

namespace Demo

/-- executable form of `Steady` for the demonstration programs -/
def calmB (c : C) (n i : Nat) : Bool :=
  let s := stateAt c n
  s.cur != i || match s.ctl with
    | .eval l => match Demo.P.code l s.g with
      | .tau _ _ | .api _ _ => true
      | _ => false
    | .deliver _ | .recv => true
    | _ => false

theorem calm {c : C} {n i : Nat} (h : calmB c n i = true) (hi : (stateAt c n).cur = i) : OpensNothing Demo.P (stateAt c n) := by
  unfold OpensNothing
  simp only [calmB, hi, bne_self_eq_false, Bool.false_or] at h
  split at h
  · rename_i l hl
    simp only [hl]
    split at h
    · exact .inl ⟨_, _, by assumption⟩
    · exact .inr ⟨_, _, by assumption⟩
    · cases h
  · rename_i hl; simp only [hl]
  · rename_i hl; simp only [hl]
  · cases h

theorem steady (c : C) (n m i : Nat) (hv : ∀ j < m, (run Demo.P (n + j + 1) (init c [])).verdict = .running)
    (h : ∀ j < m, calmB c (n + j) i = true) : Steady Demo.P i (stateAt c n) (stateAt c (n + m)) := by
  induction m with
  | zero => exact .refl
  | succ m ih =>
    exact .step (ih (fun j hj => hv j (by omega)) fun j hj => h j (by omega)) (calm (h m (by omega))) (step_at c (n + m) (hv m (by omega))).1

end Demo

open Demo in
/-- Non-trivial case: between these two moments main has gone twice through the generator, which ends the second time. -/
example : Reach Demo.P loopMain [] (stateAt loopMain 10) ∧
    Steady Demo.P 0 (stateAt loopMain 10) (stateAt loopMain (10 + 19)) ∧ UserRuns (stateAt loopMain 10) ∧ UserRuns (stateAt loopMain 29) ∧
    (stateAt loopMain 10).cur = 0 ∧ (stateAt loopMain 29).cur = 0 ∧ (stateAt loopMain 10).frames 0 = [.gObj 3] :=
  ⟨reach _ _ rfl, steady _ _ _ _ (by decide +kernel) (by decide +kernel), ⟨_, rfl⟩, ⟨_, rfl⟩, rfl, rfl, rfl⟩

theorem depth_sum_le (f g c : Nat → Nat) (h : ∀ i, f i ≤ g i + 3 * c i) (hc : ∀ i, c i ≤ 1) (n : Nat) :
    ((List.range n).map f).sum ≤ ((List.range n).map g).sum + 3 * ((List.range n).filter fun i => c i != 0).length := by
  induction n with
  | zero => simp
  | succ n ih =>
    simp only [List.range_succ, List.map_append, List.sum_append, List.map_cons, List.map_nil, List.sum_cons, List.sum_nil,
      List.filter_append, List.length_append]
    have h1 := h n
    have h2 := hc n
    by_cases h0 : c n = 0
    · simp [h0] at h1 ⊢; omega
    · have : c n = 1 := by omega
      simp [this] at h1 ⊢; omega

/-- C60: all stacks together hold what user code has open plus at most three entries per context that is waiting in a library call. -/
theorem C60_total {s : St L G V E} (hr : Reach P l0 g0 s) : allDepth s ≤ allScopes s + 3 * busy s := by
  have := depth_sum_le (fun i => (s.frames i).length) (fun i => (scopes s i).length) (fun i => if libDepth s i = 0 then 0 else 1)
    (fun i => by
      obtain ⟨h1, h2⟩ := C60_bound hr i
      have h3 := congrArg List.length h2
      simp only [List.length_append, List.length_take] at h3
      by_cases h0 : libDepth s i = 0 <;> simp [h0] at h3 ⊢ <;> omega)
    (fun i => by by_cases h0 : libDepth s i = 0 <;> simp [h0]) s.nk
  unfold allDepth allScopes busy
  refine Nat.le_trans this (Nat.le_of_eq ?_)
  have e : (fun i => (if libDepth s i = 0 then 0 else 1) != 0) = fun i => libDepth s i != 0 := by
    funext i
    by_cases h0 : libDepth s i = 0 <;> simp [h0]
  rw [e]

open Demo in
/-- Non-trivial case: there both contexts have three entries of the library and main has one object; the bound is reached. -/
example : Reach Demo.P loopMain [] (stateAt loopMain 15) ∧ allDepth (stateAt loopMain 15) = 7 ∧ allScopes (stateAt loopMain 15) = 1 ∧
    busy (stateAt loopMain 15) = 2 :=
  ⟨reach _ _ rfl, rfl, rfl, rfl⟩

end Verif
