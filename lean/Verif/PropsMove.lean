import Verif.SpecMove
import Verif.PropsValid

/-!
# Moving coroutine objects (C19, C20, C21)

`Undisturbed s s'` (SpecMove.lean): nothing but the coroutine objects differs.
-/
namespace Verif
variable {L G V E : Type}
variable {P : Prog L G V E} {l0 : L} {g0 : G} {s s' t : St L G V E} {h h' c d : Nat} {k : Res V → L} {ty : Kind} {r r' : Option CbRef}

section Aux

theorem moveCtor_runs (hr : Reach P l0 g0 s) (hc : Calls P s (.moveCtor h) k) {hd : Handle} (hh : s.hs h = some hd) :
    CallRuns P s { s with ctl := .eval (k (.handle s.nh)), hs := upd (upd s.hs h (some { hd with cb := none })) s.nh (some hd), nh := s.nh + 1 } := by
  obtain ⟨l, h1, h2⟩ := hc
  have e1 := reach_step hr (.moveCtor h1 h2 hh)
  have r1 := hr.step e1
  have e2 := reach_step r1 (.loc (.dUsr rfl (upd_at ..)))
  simp only [upd_upd, List.nil_append, upd_self' s.frames s.cur (b := s.fr) rfl] at e2
  exact ⟨_, e1, .step (by rintro ⟨_, h⟩; cases h) e2 .refl⟩

theorem moveAssign_runs (hr : Reach P l0 g0 s) (hc : Calls P s (.moveAssign d c) k) {hd hc' : Handle} (hh : s.hs d = some hd)
    (hh' : s.hs c = some hc') (ht : hd.ty = hc'.ty ∧ hd.va = hc'.va) :
    CallRuns P s { s with ctl := .eval (k .unit), hs := upd (upd s.hs d (some { hd with cb := hc'.cb })) c (some { hc' with cb := hd.cb }) } := by
  obtain ⟨l, h1, h2⟩ := hc
  have e1 := reach_step hr (.moveAssign h1 h2 hh hh' ht)
  have r1 := hr.step e1
  have e2 := reach_step r1 (.loc (.dUsr rfl (upd_at ..)))
  simp only [upd_upd, List.nil_append, upd_self' s.frames s.cur (b := s.fr) rfl] at e2
  exact ⟨_, e1, .step (by rintro ⟨_, h⟩; cases h) e2 .refl⟩

/-- a call that needs two steps has one possible result -/
theorem CallRuns.unique {a b : St L G V E} (h1 : CallRuns P s a) (ha : UserRuns a) (h2 : CallRuns P s b) (hb : UserRuns b) : a = b := by
  obtain ⟨s1, e1, n1⟩ := h1
  obtain ⟨s2, e2, n2⟩ := h2
  rw [e1] at e2; cases e2
  clear e1
  induction n1 with
  | refl =>
    cases n2 with
    | refl => rfl
    | step hu _ _ => exact absurd ha hu
  | step hu hs _ ih =>
    cases n2 with
    | refl => exact absurd hb hu
    | step hu' hs' h' => rw [hs] at hs'; cases hs'; exact ih ha h'

theorem cbResume_same {H : Nat → Option Handle} {N : Nat} {C : Ctl L V E} (a : St L G V E) (r : CbRef) (ht : t.hs = H ∧ t.nh = N) :
    SameOutcome t (cbResume a r) (cbResume { a with ctl := C, hs := H, nh := N } r) := by
  obtain ⟨rfl, rfl⟩ := ht
  simp only [cbResume, fiberResume, St.pushFr, St.setFr, St.fr]
  cases (a.cbs r).life <;> simp only <;> try rfl
  cases a.fib (.cb r) <;> rfl

theorem pushTail_same {H : Nat → Option Handle} {N : Nat} {C : Ctl L V E} {u : St L G V E} {q r : CbRef} {post : Option V → List (Frame L V E)}
    (a : PushArg V E) (ht : t.hs = H ∧ t.nh = N) :
    SameOutcome t
      (match cbSet P u q a with
        | .ub u s' => .ub u s'
        | .ill s' => .ill s'
        | .throws s' e => .next (s'.withCtl (.raise (.user e)))
        | .ok s' v => cbResume (s'.setFr (post v ++ s'.fr)) r)
      (match cbSet P { u with ctl := C, hs := H, nh := N } q a with
        | .ub u s' => .ub u s'
        | .ill s' => .ill s'
        | .throws s' e => .next (s'.withCtl (.raise (.user e)))
        | .ok s' v => cbResume (s'.setFr (post v ++ s'.fr)) r) := by
  simp only [cbSet]
  cases u.va q.co with
  | void => exact cbResume_same (C := C) _ r ht
  | ref =>
    cases a with
    | copy v => exact cbResume_same (C := C) (St.setFr ((u.setCb q { u.cbs q with slot := .live v, bvalid := true }).emit (.pushed q.co v)) _) r ht
    | _ => trivial
  | val =>
    simp only [setDestroyOld]
    cases hb : (u.cbs q).bvalid with
    | false =>
      simp only [Bool.false_eq_true, if_false]
      cases a with
      | copy v => exact cbResume_same (C := C) (St.setFr (setNew u q v) _) r ht
      | move v => exact cbResume_same (C := C) (St.setFr (setNew u q v) _) r ht
      | faulty e => obtain ⟨rfl, rfl⟩ := ht; rfl
      | unit => trivial
      | alias =>
        simp only
        cases (u.cbs q).slot with
        | live v => exact cbResume_same (C := C) (St.setFr (setNew u q v) _) r ht
        | _ => rfl
    | true =>
      simp only [if_true]
      cases hsl : (u.cbs q).slot with
      | live w =>
        simp only
        cases a with
        | copy v => exact cbResume_same (C := C) (St.setFr (setNew ((u.setCb q { u.cbs q with slot := .dead, bvalid := true }).emit (.tdtor q.co)) q v) _) r ht
        | move v => exact cbResume_same (C := C) (St.setFr (setNew ((u.setCb q { u.cbs q with slot := .dead, bvalid := true }).emit (.tdtor q.co)) q v) _) r ht
        | faulty e => obtain ⟨rfl, rfl⟩ := ht; rfl
        | unit => trivial
        | alias => simp [St.setCb, St.emit, upd, SameOutcome]
      | _ => cases a <;> first | rfl | trivial

end Aux

/-- C19: move construction returns a new object, which refers to what the source referred to; the source is not-a-coroutine, no other
object changes, no context switch happens, and no coroutine is disturbed. -/
theorem C19_move_construction (hr : Reach P l0 g0 s) (hc : Calls P s (.moveCtor h) k) (hh : Refers s h ty r) :
    ∃ s' n, CallRuns P s s' ∧ Returned s k (.handle n) s' ∧ s.hs n = none ∧ Refers s' n ty r ∧ Refers s' h ty none ∧
      (∀ x, x ≠ h → x ≠ n → s'.hs x = s.hs x) ∧ Undisturbed s s' := by
  obtain ⟨hd, h1, h2, h3⟩ := hh
  have hlt := (inv_reach hr).hok.lt h (by rw [h1]; simp)
  have hne : h ≠ s.nh := by omega
  refine ⟨_, s.nh, moveCtor_runs hr hc h1, ⟨rfl, rfl, rfl⟩, ?_, ⟨hd, ?_, h2, h3⟩, ⟨{ hd with cb := none }, ?_, h2, rfl⟩, ?_, rfl⟩
  · cases hx : s.hs s.nh with
    | none => rfl
    | some _ => exact absurd ((inv_reach hr).hok.lt s.nh (by rw [hx]; simp)) (by omega)
  · exact upd_at ..
  · show upd _ _ _ h = _
    rw [upd_off _ _ hne, upd_at]
  · intro x hx hn
    show upd _ _ _ x = _
    rw [upd_off _ _ hn, upd_off _ _ hx]

/-- C19: after move construction `operator bool` of the source returns false. -/
theorem C19_source_false (hr : Reach P l0 g0 s) (hc : Calls P s (.moveCtor h) k) (hh : Refers s h ty r) (hm : CallRuns P s s')
    (hu : UserRuns s') {k' : Res V → L} (hv : Calls P s' (.valid h) k') :
    ∃ s2, CallRuns P s' s2 ∧ OnlyResult s' k' (.bool false) s2 := by
  obtain ⟨s1, n, h1, h2, -, -, h3, -⟩ := C19_move_construction hr hc hh
  have := CallRuns.unique hm hu h1 ⟨_, h2.2.2⟩
  subst this
  exact C08_empty (hm.reach hr) hv h3

/-- C20 is false, for every program: move assignment exchanges what the two objects refer to and destroys nothing. -/
theorem C20_swaps (hr : Reach P l0 g0 s) (hc : Calls P s (.moveAssign d c) k) {hd hc' : Handle} (hd1 : s.hs d = some hd)
    (hc1 : s.hs c = some hc') (hty : hd.ty = hc'.ty) (hva : hd.va = hc'.va) :
    ∃ s', CallRuns P s s' ∧ Returned s k .unit s' ∧ Refers s' d hd.ty hc'.cb ∧ Refers s' c hd.ty hd.cb ∧
      (∀ x, x ≠ d → x ≠ c → s'.hs x = s.hs x) ∧ Undisturbed s s' := by
  refine ⟨_, moveAssign_runs hr hc hd1 hc1 ⟨hty, hva⟩, ⟨rfl, rfl, rfl⟩, ?_, ⟨{ hc' with cb := hd.cb }, ?_, hty.symm, rfl⟩, ?_, rfl⟩
  · by_cases hdc : d = c
    · subst hdc
      rw [hd1] at hc1; cases hc1
      exact ⟨{ hd with cb := hd.cb }, upd_at .., rfl, rfl⟩
    · exact ⟨{ hd with cb := hc'.cb }, by show upd _ _ _ d = _; rw [upd_off _ _ hdc, upd_at], rfl, rfl⟩
  · exact upd_at ..
  · intro x hx hy
    show upd _ _ _ x = _
    rw [upd_off _ _ hy, upd_off _ _ hx]

/-- C20, partial: if the target is not-a-coroutine and is not the source, move assignment does what is documented.  Missing: a target
that refers to a coroutine, for which it is false (`C20_not_released`). -/
theorem C20_partial (hr : Reach P l0 g0 s) (hc : Calls P s (.moveAssign d c) k) {hd hc' : Handle} (hd1 : s.hs d = some hd)
    (hc1 : s.hs c = some hc') (hty : hd.ty = hc'.ty) (hva : hd.va = hc'.va) (he : hd.cb = none) :
    ∃ s', CallRuns P s s' ∧ Returned s k .unit s' ∧ Refers s' d hd.ty hc'.cb ∧ Refers s' c hd.ty none ∧ Undisturbed s s' := by
  obtain ⟨s', h1, h2, h3, h4, -, h5⟩ := C20_swaps hr hc hd1 hc1 hty hva
  exact ⟨s', h1, h2, h3, he ▸ h4, h5⟩

/-- C20 is false whenever the target owns a coroutine: afterwards the source refers to that coroutine, which is not destroyed. -/
theorem C20_not_released (hr : Reach P l0 g0 s) (hc : Calls P s (.moveAssign d c) k) {hd hc' : Handle} (hd1 : s.hs d = some hd)
    (hc1 : s.hs c = some hc') (hty : hd.ty = hc'.ty) (hva : hd.va = hc'.va) {q : CbRef} (hq : hd.cb = some q) (hm : CallRuns P s s')
    (hu : UserRuns s') : Refers s' c hd.ty (some q) ∧ s'.log = s.log ∧ s'.cbs = s.cbs := by
  obtain ⟨s1, h1, h2, h3, h4, -, h5⟩ := C20_swaps hr hc hd1 hc1 hty hva
  have := CallRuns.unique hm hu h1 ⟨_, h2.2.2⟩
  subst this
  refine ⟨hq ▸ h4, ?_, ?_⟩ <;> (rw [h5])

/-- C21: any sequence of move constructions and move assignments leaves every coroutine undisturbed: no context switch, no change of
a control block (transferred value, completion, pending exception), of a stack, of a suspended context, of the history. -/
theorem C21_moves (hr : Reach P l0 g0 s) (hm : Moves P s s') :
    Undisturbed s s' ∧ s'.cur = s.cur ∧ s'.cbs = s.cbs ∧ s'.fib = s.fib ∧ s'.frames = s.frames ∧ s'.log = s.log := by
  suffices h : Reach P l0 g0 s' ∧ Undisturbed s s' by
    have h' := h.2
    unfold Undisturbed at h'
    refine ⟨h.2, ?_, ?_, ?_, ?_, ?_⟩ <;> rw [h']
  induction hm with
  | refl => exact ⟨hr, rfl⟩
  | @ctor s1 s2 h k _ hc hrun hu ih =>
    refine ⟨hrun.reach ih.1, ?_⟩
    cases hh : s1.hs h with
    | none =>
      obtain ⟨l, h1, h2⟩ := hc
      obtain ⟨_, e, -⟩ := hrun
      simp [step, h1, evalStep, h2, apiStep, St.pushFr, St.setFr, hh] at e
    | some hd =>
      have := CallRuns.unique hrun hu (moveCtor_runs ih.1 hc hh) ⟨_, rfl⟩
      subst this
      have h2 := ih.2
      unfold Undisturbed at h2 ⊢
      rw [h2]
  | @assign s1 s2 d c k _ hc hrun hu ih =>
    refine ⟨hrun.reach ih.1, ?_⟩
    obtain ⟨l, h1, h2⟩ := hc
    cases hd : s1.hs d with
    | none =>
      obtain ⟨_, e, -⟩ := hrun
      simp [step, h1, evalStep, h2, apiStep, St.pushFr, St.setFr, hd] at e
    | some hd' =>
      cases hc : s1.hs c with
      | none =>
        obtain ⟨_, e, -⟩ := hrun
        simp [step, h1, evalStep, h2, apiStep, St.pushFr, St.setFr, hd, hc] at e
      | some hc' =>
        by_cases ht : hd'.ty = hc'.ty ∧ hd'.va = hc'.va
        · have := CallRuns.unique hrun hu (moveAssign_runs ih.1 ⟨l, h1, h2⟩ hd hc ht) ⟨_, rfl⟩
          subst this
          have h2 := ih.2
          unfold Undisturbed at h2 ⊢
          rw [h2]
        · obtain ⟨_, e, -⟩ := hrun
          simp [step, h1, evalStep, h2, apiStep, St.pushFr, St.setFr, hd, hc, ht] at e

/-- C21: calling an operation through an object has the effect it would have had through another object that refers to the same
coroutine (in particular: after moves, through the new object, compared with before, through the old object).  `s` and `t` may be any
states that differ only in the coroutine objects; the outcome is the same up to the objects, also if it is undefined behaviour. -/
theorem C21_same_effect {op : Nat → Op L V E} (ho : Uses op) (hu : Undisturbed s t) (hc : Calls P s (op h) k) (hc' : Calls P t (op h') k)
    {hd hd' : Handle} (h1 : s.hs h = some hd) (h2 : t.hs h' = some hd') (hsame : hd' = hd) :
    SameOutcome t (step P s) (step P t) := by
  subst hsame
  obtain ⟨C, H, N, rfl⟩ : ∃ C H N, t = { s with ctl := C, hs := H, nh := N } := ⟨_, _, _, hu⟩
  obtain ⟨l, a1, a2⟩ := hc
  obtain ⟨l', b1, b2⟩ := hc'
  dsimp only at b1 b2 h2
  subst b1
  have e1 : step P s = apiStep P (s.pushFr (.usr k)) (op h) := by simp only [step, a1, evalStep, a2]
  have e2 : step P { s with ctl := .eval l', hs := H, nh := N } = apiStep P (({ s with ctl := .eval l', hs := H, nh := N } : St L G V E).pushFr (.usr k)) (op h') := by
    simp only [step, evalStep, b2]
  rw [e1, e2]
  clear e1 e2 a1 a2 b2 hu
  obtain ⟨ty, va, cb⟩ := hd'
  cases ho with
  | valid =>
    simp only [apiStep, handleBool, St.pushFr, St.setFr, St.fr, h1, h2]
    cases cb with
    | none => rfl
    | some r =>
      simp only
      by_cases hl : (s.cbs r).life = .alive <;> simp only [hl, if_true, if_false] <;> rfl
  | bang =>
    simp only [apiStep, handleBang, St.pushFr, St.setFr, St.fr, h1, h2]
    cases cb with
    | none => rfl
    | some r =>
      simp only
      by_cases hl : (s.cbs r).life = .alive <;> simp only [hl, if_true, if_false] <;> rfl
  | resume =>
    simp only [apiStep, pullOp, St.pushFr, St.setFr, St.fr, h1, h2]
    by_cases hty : ty = .pull
    · subst hty
      simp only [if_true]
      cases cb with
      | none => rfl
      | some r =>
        simp only [cbResume, fiberResume, St.pushFr, St.setFr]
        cases (s.cbs r).life <;> simp only <;> try rfl
        cases s.fib (.cb r) <;> rfl
    · rw [if_neg hty, if_neg hty]; trivial
  | get =>
    simp only [apiStep, readSlot, St.pushFr, St.setFr, St.fr, h1, h2]
    by_cases hty : ty = .pull ∧ va ≠ .void
    · rw [if_pos hty, if_pos hty]
      cases cb with
      | none => rfl
      | some r =>
        simp only
        cases (s.cbs r).life <;> simp only <;> try rfl
        cases (s.cbs r).slot <;> simp only <;> try rfl
        by_cases hv : s.va r.co = .val <;> simp only [hv, if_true, if_false] <;> rfl
    · rw [if_neg hty, if_neg hty]; trivial
  | deref =>
    simp only [apiStep, readSlot, St.pushFr, St.setFr, St.fr, h1, h2]
    by_cases hty : ty = .pull ∧ va ≠ .void
    · rw [if_pos hty, if_pos hty]
      cases cb with
      | none => rfl
      | some r =>
        simp only
        cases (s.cbs r).life <;> simp only <;> try rfl
        cases (s.cbs r).slot <;> simp only <;> rfl
    · rw [if_neg hty, if_neg hty]; trivial
  | @push a =>
    simp only [apiStep, pushOp, St.pushFr, St.setFr, St.fr, h1, h2]
    by_cases hty : ty = .push
    · subst hty
      simp only [if_true]
      cases cb with
      | none => rfl
      | some r =>
        simp only
        cases hl : (s.cbs r).life <;> simp only <;> try rfl
        cases (s.cbs r).other with
        | none => rfl
        | some q =>
          simp only
          cases hlq : (s.cbs q).life <;> simp only <;> try rfl
          exact pushTail_same a ⟨rfl, rfl⟩
    · rw [if_neg hty, if_neg hty]; trivial

/-! ### The hypotheses are satisfiable -/

namespace Demo
open Code

/-- Two producers; the object of the second is moved to the object of the first, then moved to a new object, which is used. -/
def shuffleMain : C :=
  mk .pull .val gen fun h1 => mk .pull .val (fun y => push y 7 (push y 8 ret)) fun h2 =>
    op (.moveAssign h1 h2) fun _ => op (.moveCtor h1) fun
      | .handle h3 => op (.valid h1) fun _ => get h3 fun _ => get h2 fun _ => resume h3 (get h3 fun _ => ret)
      | _ => ret

end Demo

open Demo in
/-- C19: step 13 of `shuffleMain` moves object 1, which refers to coroutine 2; in step 15 the source is asked. -/
example : Reach Demo.P shuffleMain [] (stateAt shuffleMain 13) ∧ (∃ k, Calls Demo.P (stateAt shuffleMain 13) (.moveCtor 1) k) ∧
    Refers (stateAt shuffleMain 13) 1 .pull (some ⟨2, .own⟩) ∧
    CallRuns Demo.P (stateAt shuffleMain 13) (stateAt shuffleMain 15) ∧ (∃ k, Calls Demo.P (stateAt shuffleMain 15) (.valid 1) k) ∧
    Refers (stateAt shuffleMain 15) 4 .pull (some ⟨2, .own⟩) :=
  ⟨reach _ _ rfl, ⟨_, _, rfl, rfl⟩, ⟨_, rfl, rfl, rfl⟩, ⟨stateAt shuffleMain 14, rfl, .step (by rintro ⟨_, h⟩; cases h) rfl .refl⟩,
    ⟨_, _, rfl, rfl⟩, ⟨_, rfl, rfl, rfl⟩⟩

open Demo in
/-- C20 is false: in step 11 of `shuffleMain` object 1 owns coroutine 1 and is assigned object 3, which owns coroutine 2.  Afterwards
object 3 owns coroutine 1, which has not been destroyed. -/
theorem C20_refuted : ∃ (c : C) (n m : Nat), Reach Demo.P c [] (stateAt c n) ∧ (∃ k, Calls Demo.P (stateAt c n) (.moveAssign 1 3) k) ∧
    Refers (stateAt c n) 1 .pull (some ⟨1, .own⟩) ∧ Refers (stateAt c n) 3 .pull (some ⟨2, .own⟩) ∧
    CallRuns Demo.P (stateAt c n) (stateAt c m) ∧ UserRuns (stateAt c m) ∧
    Refers (stateAt c m) 1 .pull (some ⟨2, .own⟩) ∧ Refers (stateAt c m) 3 .pull (some ⟨1, .own⟩) ∧
    ((stateAt c m).cbs ⟨1, .own⟩).life = .alive ∧ nDealloc 1 (stateAt c m).log = 0 :=
  ⟨shuffleMain, 11, 13, reach _ _ rfl, ⟨_, _, rfl, rfl⟩, ⟨_, rfl, rfl, rfl⟩, ⟨_, rfl, rfl, rfl⟩,
    ⟨stateAt shuffleMain 12, rfl, .step (by rintro ⟨_, h⟩; cases h) rfl .refl⟩, ⟨_, rfl⟩, ⟨_, rfl, rfl, rfl⟩, ⟨_, rfl, rfl, rfl⟩, rfl, rfl⟩

open Demo Code in
/-- C20: an assignment to an empty object (`C20_partial`). -/
example : let c := mk .pull .val gen fun h => op (.moveCtor h) fun _ => op (.moveAssign 1 2) fun _ => ret
    Reach Demo.P c [] (stateAt c 8) ∧ (∃ k, Calls Demo.P (stateAt c 8) (.moveAssign 1 2) k) ∧
    (stateAt c 8).hs 1 = some ⟨.pull, .val, none⟩ ∧ (stateAt c 8).hs 2 = some ⟨.pull, .val, some ⟨1, .own⟩⟩ :=
  ⟨reach _ _ rfl, ⟨_, _, rfl, rfl⟩, rfl, rfl⟩

open Demo in
/-- C21: from step 11 to step 15 objects are moved.  `get()` through object 3 before is compared with `get()` through object 4 after
the moves. -/
example : Moves Demo.P (stateAt shuffleMain 11) (stateAt shuffleMain 15) ∧
    (∃ k, Calls Demo.P { stateAt shuffleMain 11 with ctl := .eval (Code.op (.get 3) fun _ => .ret) } (.get 3) k) ∧
    (∃ k, Calls Demo.P { stateAt shuffleMain 15 with ctl := .eval (Code.op (.get 4) fun _ => .ret) } (.get 4) k) ∧
    Undisturbed { stateAt shuffleMain 11 with ctl := .eval (Code.op (.get 3) fun _ => .ret) }
      { stateAt shuffleMain 15 with ctl := .eval (Code.op (.get 4) fun _ => .ret) } ∧
    (stateAt shuffleMain 15).hs 4 = (stateAt shuffleMain 11).hs 3 ∧ ((stateAt shuffleMain 11).hs 3).isSome :=
  have hm : Moves Demo.P (stateAt shuffleMain 11) (stateAt shuffleMain 15) :=
    .ctor (.assign .refl ⟨_, rfl, rfl⟩ ⟨stateAt shuffleMain 12, rfl, .step (by rintro ⟨_, h⟩; cases h) rfl .refl⟩ ⟨_, rfl⟩)
      ⟨_, rfl, rfl⟩ ⟨stateAt shuffleMain 14, rfl, .step (by rintro ⟨_, h⟩; cases h) rfl .refl⟩ ⟨_, rfl⟩
  have hu : Undisturbed (stateAt shuffleMain 11) (stateAt shuffleMain 15) :=
    (C21_moves (reach _ _ rfl) hm).1
  ⟨hm, ⟨_, _, rfl, rfl⟩, ⟨_, _, rfl, rfl⟩, by
    unfold Undisturbed at hu ⊢
    exact congrArg (fun s : S => { s with ctl := .eval (Code.op (.get 4) fun _ => .ret) }) hu, rfl, rfl⟩

end Verif
