import Verif.Assert
import Verif.PropsLoop
import Verif.PropsRefine
import Verif.PropsAlloc

/-! # C61: the assertions

The library documents its iterators with assertions.  With assertions on, a program that keeps to the rules behaves as with
assertions off; and an assertion that fails has always caught a real error. -/
namespace Verif
variable {L G V E : Type} {P : Prog L G V E} {l0 : L} {g0 : G} {s : St L G V E}

/-! ## Helpers -/

open AuxLoop

/-- a push coroutine that has got past its creation has passed the control back once -/
def SynJumped (s : St L G V E) : Prop :=
  ∀ k, s.kind k = .push → (s.base k).synAlive = true → nJump ⟨k, .syn⟩ s.log ≠ 0

theorem nJump_app {r : CbRef} {evs l : List (Ev V E)} (h : nJump r l ≠ 0) : nJump r (evs ++ l) ≠ 0 := by
  unfold nJump at *
  rw [List.countP_append]
  omega

theorem SynJumped.keep {s s' : St L G V E} {evs : List (Ev V E)} (h : SynJumped s)
    (hk : ∀ k, s'.kind k = .push → (s'.base k).synAlive = true → s.kind k = .push ∧ (s.base k).synAlive = true)
    (hl : s'.log = evs ++ s.log) : SynJumped s' := by
  intro k h1 h2
  obtain ⟨h3, h4⟩ := hk k h1 h2
  rw [hl]
  exact nJump_app (h k h3 h4)

theorem Scope.synJumped {s s1 : St L G V E} {h : Nat} (hs : Scope P s h s1) :
    (∃ evs, s1.log = evs ++ s.log) ∧ ∀ k, s1.kind k = .push → (s1.base k).synAlive = true → s.kind k = .push ∧ (s.base k).synAlive = true := by
  constructor
  · cases hs <;> first | exact ⟨[], rfl⟩ | exact ⟨[_], rfl⟩
  · intro k h1 h2
    cases hs <;> refine ⟨h1, ?_⟩ <;> first | exact h2 | skip
    all_goals
      by_cases hc : k = s.cur
      · subst hc; simp_all [Base.synAlive]
      · simpa [upd, hc] using h2

theorem Dying.synJumped {s s0 : St L G V E} {f : Option Nat} (hs : Dying P s f s0) :
    (∃ evs, s0.log = evs ++ s.log) ∧ ∀ k, s0.kind k = .push → (s0.base k).synAlive = true → s.kind k = .push ∧ (s.base k).synAlive = true := by
  cases hs with
  | handle h =>
    obtain ⟨⟨e, he⟩, h2⟩ := h.synJumped
    exact ⟨⟨_, by rw [he, ← List.append_assoc]⟩, h2⟩
  | syn =>
    refine ⟨⟨_, rfl⟩, fun k h1 h2 => ⟨h1, ?_⟩⟩
    by_cases hc : k = s.cur
    · subst hc; simp [Base.synAlive] at h2
    · simpa [upd, hc] using h2
  | ctorInvalid => exact ⟨⟨_, rfl⟩, fun k h1 h2 => ⟨h1, h2⟩⟩
  | ctorThrow => exact ⟨⟨[_], rfl⟩, fun k h1 h2 => ⟨h1, h2⟩⟩
  | ctorUnw => exact ⟨⟨[], rfl⟩, fun k h1 h2 => ⟨h1, h2⟩⟩

theorem Step.synJumped {s s' : St L G V E} (hs : Step P s s') (h : SynJumped s) : SynJumped s' := by
  cases hs with
  | loc => exact h.keep (fun _ h1 h2 => ⟨h1, h2⟩) rfl
  | get => exact h.keep (evs := [_]) (fun _ h1 h2 => ⟨h1, h2⟩) rfl
  | mkFn => exact h.keep (evs := [_]) (fun _ h1 h2 => ⟨h1, h2⟩) rfl
  | mk =>
    refine h.keep (evs := [_, _, _]) (fun k h1 h2 => ?_) rfl
    by_cases hc : k = s.nk
    · subst hc; simp [Base.synAlive] at h2
    · simpa [upd, hc] using And.intro h1 h2
  | pushThrow => exact h.keep (fun _ h1 h2 => ⟨h1, h2⟩) rfl
  | push => exact h.keep (evs := _ :: _) (fun _ h1 h2 => ⟨h1, h2⟩) rfl
  | pull => exact h.keep (evs := [_]) (fun _ h1 h2 => ⟨h1, h2⟩) rfl
  | enterPull _ _ hb hk =>
    refine h.keep (evs := [_]) (fun k h1 h2 => ⟨h1, ?_⟩) rfl
    by_cases hc : k = s.cur
    · subst hc; rw [show _ = Kind.push from h1] at hk; cases hk
    · simpa [upd, hc] using h2
  | enterPush _ _ hb hk =>
    intro k h1 h2
    by_cases hc : k = s.cur
    · subst hc; rw [nJump_cons_eq]; omega
    · exact nJump_app (evs := [_]) (h k h1 (by simpa [upd, hc] using h2))
  | startPush _ _ hb =>
    refine h.keep (evs := [_]) (fun k h1 h2 => ⟨h1, ?_⟩) rfl
    by_cases hc : k = s.cur
    · subst hc; rw [hb]; rfl
    · simpa [upd, hc] using h2
  | fin _ _ hb =>
    refine h.keep (evs := [_, _, _]) (fun k h1 h2 => ⟨h1, ?_⟩) rfl
    by_cases hc : k = s.cur
    · subst hc; rw [hb]; rfl
    · simpa [upd, hc] using h2
  | exit =>
    refine h.keep (evs := _ :: _) (fun k h1 h2 => ⟨h1, ?_⟩) rfl
    by_cases hc : k = s.cur
    · subst hc; simp [Base.synAlive] at h2
    · simpa [upd, hc] using h2
  | asgThrow => exact h.keep (evs := [_]) (fun _ h1 h2 => ⟨h1, h2⟩) rfl
  | nop hs => obtain ⟨⟨e, he⟩, h2⟩ := hs.synJumped; exact h.keep h2 he
  | dropNone hs => obtain ⟨⟨e, he⟩, h2⟩ := hs.synJumped; exact h.keep h2 he
  | dropSome hs => obtain ⟨⟨e, he⟩, h2⟩ := hs.synJumped; exact h.keep (evs := .unwind _ _ :: e) h2 (show Ev.unwind _ _ :: _ = _ by rw [he]; rfl)
  | _ => exact h.keep (evs := []) (fun _ h1 h2 => ⟨h1, h2⟩) rfl

theorem synJumped_reach (hr : Reach P l0 g0 s) : SynJumped s := by
  induction hr with
  | init => intro k h1 h2; simp [init] at h2; split at h2 <;> simp [Base.synAlive] at h2
  | step hr he ih => exact (step_rel (inv_reach hr) he).synJumped ih

/-- the function's pull end is false only as long as nothing was pushed; then it cannot be resumed -/
theorem syn_false (hr : Reach P l0 g0 s) {c : Nat} (hal : (s.cbs ⟨c, .syn⟩).life = .alive) (hv : cbValid s ⟨c, .syn⟩ = false) :
    s.fib (.cb ⟨c, .syn⟩) = none := by
  have hi := inv_reach hr
  cases hf : s.fib (.cb ⟨c, .syn⟩) with
  | none => rfl
  | some t =>
    exfalso
    obtain ⟨j, hj⟩ := (jinv_reach hr).held _ t hf
    have hot := hi.cb.syn_other c hal
    have hst := (hi.cb.syn_state c hal).1
    have hst : StateT.has (s.cbs ⟨c, .syn⟩).state StateT.complete = false := by rw [hst]; rfl
    unfold cbValid at hv
    simp only [hst, hot] at hv
    cases hk : s.kind c with
    | pull => simp [isPullSide, hk] at hv
    | push =>
      by_cases hva : s.va c = .void
      · simp [isPullSide, hk, hva] at hv
      · have h1 := synJumped_reach hr c hk ((hi.cb.syn_life c).1 hal)
        have h2 := jumps_count (c := c) (jinv_reach hr).chain
        have h3 : lastOwn c s.log = 1 := by simp [lastOwn, hj]
        have h4 := pushed_of_jumps hk hva (tinv_reach hr).tr (by omega)
        have h5 := congrArg Prod.snd ((slot_reach hr c).rep (by rw [hk]; exact hal))
        rw [slotRep_valid, hk] at h5
        have h6 : (s.cbs ⟨c, .syn⟩).bvalid = true := by
          rw [show (s.cbs ⟨c, .syn⟩).bvalid = (lastPushed c s.log).isSome from h5.symm]
          cases hx : lastPushed c s.log with
          | none => exact absurd hx h4
          | some _ => rfl
        simp [isPullSide, hk, hva, h6] at hv

theorem runA_run (h : ∀ t, Reach P l0 g0 t → stepA P t = .out (step P t)) : ∀ (n : Nat) {s : St L G V E}, Reach P l0 g0 s → runA P n s = .out (run P n s) := by
  intro n
  induction n with
  | zero => intro s _; rfl
  | succ n ih =>
    intro s hr
    simp only [runA, run, h s hr]
    cases hs : step P s with
    | next t => exact ih (hr.step hs)
    | _ => rfl

/-! ## Theorems -/

/-- C61: the assertions that can fail: an end iterator is incremented or assigned through, or an iterator is incremented whose object is
not-a-coroutine, or whose coroutine has ended, or which is the object of a function that has got no value yet. -/
theorem C61_which (hr : Reach P l0 g0 s) {x : Assertion} {t : St L G V E} (ha : stepA P s = .failed x t) :
    (∃ k, Calls P s (.itNext none) k) ∨ (∃ a k, Calls P s (.itPut none a) k) ∨
      ∃ h k r, Calls P s (.itNext (some h)) k ∧ Refers s h .pull r ∧
        (r = none ∨ (∃ c, r = some ⟨c, .own⟩ ∧ nFin c s.log ≠ 0) ∨ ∃ c, r = some ⟨c, .syn⟩ ∧ s.fib (.cb ⟨c, .syn⟩) = none) := by
  unfold stepA at ha
  split at ha
  · rename_i l hl
    split at ha
    · rename_i i k hk
      unfold incrementA at ha
      split at ha
      · exact .inl ⟨k, l, hl, hk⟩
      · rename_i h
        refine .inr (.inr ⟨h, k, ?_⟩)
        split at ha
        · cases ha
        · rename_i hd hh
          split at ha
          · rename_i hty
            have hc : Calls P s (.itNext (some h)) k := ⟨l, hl, hk⟩
            refine ⟨hd.cb, hc, ⟨hd, hh, hty, rfl⟩, ?_⟩
            split at ha
            · cases ha
            · rename_i hb
              unfold handleBool at hb
              rw [hh] at hb
              cases hcb : hd.cb with
              | none => exact .inl rfl
              | some r =>
                simp only [hcb] at hb
                split at hb
                · rename_i hal
                  rcases r with ⟨c, _ | _⟩
                  · refine .inr (.inl ⟨c, rfl, ?_⟩)
                    have := valid_own hr hc.user ⟨hd, hh, hty, hcb⟩
                    simp only [Except.ok.injEq] at hb
                    rw [hb] at this
                    simpa using this.symm
                  · simp only [Except.ok.injEq] at hb
                    exact .inr (.inr ⟨c, rfl, syn_false hr hal hb⟩)
                · cases hb
            · cases ha
          · cases ha
    · rename_i i a k hk
      unfold assignA at ha
      split at ha
      · exact .inr (.inl ⟨a, k, l, hl, hk⟩)
      · cases ha
    · cases ha
  · cases ha

/-- C61: an assertion that fails has caught a real error: the same program, compiled without assertions, has undefined behaviour
before any other user code runs. -/
theorem C61_real (hr : Reach P l0 g0 s) {x : Assertion} {t : St L G V E} (ha : stepA P s = .failed x t) : CallCrashes P s := by
  rcases C61_which hr ha with ⟨k, hc⟩ | ⟨a, k, hc⟩ | ⟨h, k, r, hc, hh, rfl | ⟨c, rfl, hf⟩ | ⟨c, rfl, hf⟩⟩
  · obtain ⟨t, h⟩ := C33_end_iterator (a := .unit) (.inl hc); exact .inl ⟨_, t, h⟩
  · obtain ⟨t, h⟩ := C33_end_iterator (.inr (.inr hc)); exact .inl ⟨_, t, h⟩
  · obtain ⟨t, h⟩ := C33_not_a_coroutine_pull (.inr hc) hh; exact .inl ⟨_, t, h⟩
  · exact C33_completed_pull hr (.inr hc) hh hf
  · left
    obtain ⟨hd, h1, h2, h3⟩ := hh
    obtain ⟨l, op, post, -, -, -, he⟩ := PullsFrom.call (.inr hc)
    rw [he]
    unfold pullOp
    have h1' : (s.pushFr (.usr k)).hs h = some hd := h1
    simp only [h1', h2, h3, if_true]
    exact cbResume_empty (s := (s.pushFr (.usr k)).setFr _) hf

/-- C61: these errors are caught: incrementing an end iterator or assigning through one, … -/
theorem C61_end {k : Res V → L} {a : PushArg V E} (hc : Calls P s (.itNext none) k ∨ Calls P s (.itPut none a) k) :
    ∃ x, stepA P s = .failed x s := by
  rcases hc with ⟨l, h1, h2⟩ | ⟨l, h1, h2⟩ <;> exact ⟨_, by simp only [stepA, h1, h2, incrementA, assignA]; rfl⟩

/-- C61: … incrementing an iterator whose object is not-a-coroutine, or whose coroutine has ended. -/
theorem C61_false {h : Nat} {k : Res V → L} {r : Option CbRef} (hr : Reach P l0 g0 s) (hc : Calls P s (.itNext (some h)) k)
    (hh : Refers s h .pull r) (hf : r = none ∨ ∃ c, r = some ⟨c, .own⟩ ∧ nFin c s.log ≠ 0) : stepA P s = .failed .incFalse s := by
  have hu := hc.user
  obtain ⟨l, h1, h2⟩ := hc
  have hb : handleBool s h = .ok false := by
    rcases hf with rfl | ⟨c, rfl, hf⟩
    · obtain ⟨hd, a1, a2, a3⟩ := hh
      simp only [handleBool, a1, a3]
    · have hv := valid_own hr hu hh
      have hal := own_alive hr hh
      obtain ⟨hd, a1, a2, a3⟩ := hh
      simp only [handleBool, a1, a3, hal, if_true, hv]
      simp [hf]
  obtain ⟨hd, a1, a2, a3⟩ := hh
  simp only [stepA, h1, h2, incrementA, a1, a2, if_true, hb]

/-- C61: as long as no assertion fails, assertions make no difference (where one evaluates a dangling pointer, the behaviour is
undefined with and without). -/
theorem C61_otherwise (ha : ∀ x t, stepA P s ≠ .failed x t) :
    stepA P s = .out (step P s) ∨ (∃ u t, stepA P s = .out (.ub u t)) ∧ ∃ u t, step P s = .ub u t := by
  unfold stepA at ha ⊢
  split
  · rename_i l hl
    simp only [hl] at ha
    split
    · rename_i i k hk
      simp only [hk] at ha
      have he : step P s = apiStep P (s.pushFr (.usr k)) (.itNext i) := by simp only [step, hl, evalStep, hk]
      unfold incrementA at ha ⊢
      split
      · exact absurd rfl (ha .incEnd s)
      · rename_i h
        have hhs : (s.pushFr (.usr k)).hs h = s.hs h := rfl
        split
        · rename_i hh
          refine .inr ⟨⟨_, _, rfl⟩, ?_⟩
          rw [he]
          exact ⟨_, _, by simp only [apiStep, pullOp, hhs, hh]; rfl⟩
        · rename_i hd hh
          simp only [hh] at ha
          split
          · rename_i hty
            simp only [hty, if_true] at ha
            split
            · exact .inl rfl
            · rename_i hb; simp only [hb] at ha; exact absurd rfl (ha .incFalse s)
            · rename_i u hb
              refine .inr ⟨⟨_, _, rfl⟩, ?_⟩
              rw [he]
              unfold handleBool at hb
              rw [hh] at hb
              cases hcb : hd.cb with
              | none => simp [hcb] at hb
              | some r =>
                simp only [hcb] at hb
                split at hb
                · cases hb
                · rename_i hal
                  have hal' : (((s.pushFr (.usr k)).setFr ([.fetch h] ++ (s.pushFr (.usr k)).fr)).cbs r).life ≠ .alive := hal
                  simp only [apiStep, pullOp, hhs, hh, hty, if_true, hcb]
                  unfold cbResume
                  split
                  · exact absurd (by assumption) hal'
                  · exact ⟨_, _, rfl⟩
          · exact .inl rfl
    · rename_i i a k hk
      simp only [hk] at ha
      unfold assignA at ha ⊢
      split
      · exact absurd rfl (ha .putEnd s)
      · exact .inl rfl
    · exact .inl rfl
  · exact .inl rfl

/-- C61: in a program that keeps to the rules no assertion fails: it runs exactly as it does without assertions. -/
theorem C61_same (ho : Obeys P l0 g0) (n : Nat) : runA P n (init l0 g0) = .out (run P n (init l0 g0)) := by
  refine runA_run (fun t hr => ?_) n .init
  have hn := C32_calls_do_not_crash (ho.reachOk hr) (ho.callOk hr)
  rcases C61_otherwise (fun x u hx => hn (C61_real hr hx)) with h | ⟨_, u, t', h⟩
  · exact h
  · exact absurd (.inl ⟨u, t', h⟩) hn

/-- C61: the same for programs the documentation gives a meaning (C55). -/
theorem C61_meaningful (hm : Coro.Meaningful P l0 g0) (n : Nat) : runA P n (init l0 g0) = .out (run P n (init l0 g0)) :=
  C61_same (C55_contract hm) n

/-- C61: the assertion of `create_control_block` never fails, however small the stack is: it is no check for that (C29). -/
theorem C61_placement (c : StackCtx) (fs : Nat) : ∃ p, placeAligned c fs = some p :=
  ⟨_, placeAligned_of rfl rfl (by have := roundUp_le (al := 64) (by decide) (subSz (subSz c.sp fs) 64); omega)⟩

/-! ## Cases -/

namespace Demo
open Code

/-- The generator pushes 1; main increments its iterator twice. -/
def overrun : C :=
  mk .pull .val (fun h => push h 1 ret) fun h => op (.itBegin h) fun
    | .it i => op (.itNext i) fun
      | .it j => op (.itNext j) fun _ => ret
      | _ => ret
    | _ => ret

/-- Two iterators into one coroutine; the first increment exhausts it, the second iterator does not know. -/
def overrunOther : C :=
  mk .pull .val (fun h => push h 1 ret) fun h => op (.itBegin h) fun
    | .it i => op (.itBegin h) fun
      | .it j => op (.itNext i) fun _ => op (.itNext j) fun _ => ret
      | _ => ret
    | _ => ret

/-- The consumer takes one value; main writes two through an iterator. -/
def overwrite : C :=
  mk .push .val (fun h => get h fun _ => ret) fun h => op (.itBegin h) fun
    | .it i => op (.itPut i (.copy 1)) fun
      | .it j => op (.itPut j (.copy 2)) fun _ => ret
      | _ => ret
    | _ => ret

end Demo

open Demo in
/-- C61_which, C61_real, C61_end, C61_false: the second `++` on an end iterator, the second `=` on an end iterator, and `++` on the
first of two iterators after the other one has exhausted the coroutine. -/
example : (Reach Demo.P overrun [] (stateAt overrun 16) ∧ (∃ k, Calls Demo.P (stateAt overrun 16) (.itNext none) k) ∧
      ∃ t, stepA Demo.P (stateAt overrun 16) = .failed .incEnd t) ∧
    (Reach Demo.P overwrite [] (stateAt overwrite 15) ∧ (∃ k, Calls Demo.P (stateAt overwrite 15) (.itPut none (.copy 2)) k) ∧
      ∃ t, stepA Demo.P (stateAt overwrite 15) = .failed .putEnd t) ∧
    (Reach Demo.P overrunOther [] (stateAt overrunOther 18) ∧ (∃ k, Calls Demo.P (stateAt overrunOther 18) (.itNext (some 1)) k) ∧
      ∃ t, stepA Demo.P (stateAt overrunOther 18) = .failed .incFalse t) :=
  ⟨⟨reach _ _ rfl, ⟨_, _, rfl, rfl⟩, ⟨_, rfl⟩⟩, ⟨reach _ _ rfl, ⟨_, _, rfl, rfl⟩, ⟨_, rfl⟩⟩, ⟨reach _ _ rfl, ⟨_, _, rfl, rfl⟩, ⟨_, rfl⟩⟩⟩

open Demo in
/-- C61_same: the loop of C07, with assertions. -/
example : Obeys Demo.P loopMain [] := obeys _ 40 rfl

open Demo in
/-- C61: assertions do not catch everything: calling `operator()` of an object whose coroutine has ended is undefined and not asserted. -/
theorem C61_not_caught : ∃ s : S, Reach Demo.P againMain [] s ∧ stepA Demo.P s = .out (step Demo.P s) ∧ CallCrashes Demo.P s :=
  ⟨stateAt againMain 13, reach _ _ rfl, rfl,
    C33_completed_pull (reach againMain 13 rfl) (h := 1) (c := 1) (k := fun _ => Code.ret) (.inl ⟨_, rfl, rfl⟩) ⟨_, rfl, rfl, rfl⟩ (by decide)⟩

end Verif
