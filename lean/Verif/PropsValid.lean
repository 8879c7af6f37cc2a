import Verif.Value
import Verif.DemoMore

/-!
# Validity: `operator bool`, `operator!` (C08, C09, C10, C28)

`OnlyResult s k v s'` (SpecValue.lean): nothing but user code's position changes; `nFin c log` (Spec.lean): how often the function of
coroutine `c` has ended.
-/
namespace Verif
variable {L G V E : Type}
variable {P : Prog L G V E} {l0 : L} {g0 : G} {s s' : St L G V E} {h c : Nat} {k : Res V → L} {ty : Kind}

/-- C08: `operator bool` of an owning object returns true exactly if the function of its coroutine has not ended, and changes nothing. -/
theorem C08_owner (hr : Reach P l0 g0 s) (hc : Calls P s (.valid h) k) (hh : Refers s h ty (some ⟨c, .own⟩)) :
    ∃ s' b, CallRuns P s s' ∧ OnlyResult s k (.bool b) s' ∧ (b = true ↔ nFin c s.log = 0) := by
  have hv := valid_own hr hc.user hh
  have hal := own_alive hr hh
  obtain ⟨hd, h1, h2, h3⟩ := hh
  obtain ⟨s', hrun, ho⟩ := ask_valid hr hc (b := decide (nFin c s.log = 0)) (by
    unfold handleBool; simp only [h1, h3, hal, if_true, hv])
  exact ⟨s', _, hrun, ho, by simp⟩

/-- C08: `operator bool` of an empty (moved-from or never valid) object returns false, and changes nothing. -/
theorem C08_empty (hr : Reach P l0 g0 s) (hc : Calls P s (.valid h) k) (hh : Refers s h ty none) :
    ∃ s', CallRuns P s s' ∧ OnlyResult s k (.bool false) s' := by
  obtain ⟨hd, h1, h2, h3⟩ := hh
  exact ask_valid hr hc (by unfold handleBool; simp only [h1, h3])

/-- C08: an owning `pull_type` of values or references holds a value that was pushed; if no copy of a pushed value has thrown while another one was held, `get()`
returns one. -/
theorem C08_true_has_value (hr : Reach P l0 g0 s) (hh : Refers s h .pull (some ⟨c, .own⟩)) (hv : s.va c ≠ .void)
    (ht : spoiled c s.log = false) :
    (∃ v, lastPushed c s.log = some v) ∧
    ∀ k, Calls P s (.get h) k → ∃ s' v, CallRuns P s s' ∧ Returned s k (.val v) s' := by
  have hk : s.kind c = .pull := by
    have := end_of hr hh
    revert this; cases s.kind c <;> simp [pullSide]
  have hal := own_alive hr hh
  have hh' := hh
  obtain ⟨hd, h1, h2, h3⟩ := hh
  have hb := (owner_reach hr).full h hd c h1 h3 hk hv
  have hrep := (slot_reach hr c).rep (by rw [hk]; exact hal)
  rw [hk] at hrep
  have hsnd := congrArg Prod.snd hrep
  rw [slotRep_valid] at hsnd
  have hex : ∃ v, lastPushed c s.log = some v := by
    cases hx : lastPushed c s.log with
    | none => rw [hx] at hsnd; exact absurd (hsnd.trans hb) (by simp)
    | some v => exact ⟨v, rfl⟩
  refine ⟨hex, fun k hc => ?_⟩
  obtain ⟨v, hvv⟩ := hex
  obtain ⟨w, hw⟩ := slot_of_pushed hr hal hh' hvv ht
  obtain ⟨s', hrun, hret, -⟩ := get_returns hr hc hh' hal hw.1
  exact ⟨s', _, hrun, hret⟩

/-- C09: `operator!` asked right after `operator bool` returns the opposite, and neither changes anything. -/
theorem C09_negation (hr : Reach P l0 g0 s) (hc : Calls P s (.valid h) k) :
    (∃ s1 b, CallRuns P s s1 ∧ OnlyResult s k (.bool b) s1 ∧
      ∀ k', Calls P s1 (.bang h) k' → ∃ s2, CallRuns P s1 s2 ∧ OnlyResult s1 k' (.bool (!b)) s2) ∨
    (∃ u t, step P s = .ub u t) := by
  cases hb : handleBool s h with
  | error u => exact .inr ⟨u, not_ok_valid hc hb⟩
  | ok b =>
    obtain ⟨s1, hrun, ho⟩ := ask_valid hr hc hb
    refine .inl ⟨s1, b, hrun, ho, fun k' hc' => ?_⟩
    have hr1 : Reach P l0 g0 s1 := hrun.reach hr
    refine ask_bang hr1 hc' ?_
    have e : handleBang s1 h = handleBang s h := by rw [OnlyResult] at ho; subst ho; rfl
    rw [e, bang_not, hb]
    rfl

/-- C09: in two states that agree on the coroutine objects and control blocks, `operator bool` called in the one and `operator!` called
in the other return opposite results and change nothing, or both calls are undefined. -/
theorem C09_opposite (hr : Reach P l0 g0 s) {t : St L G V E} {k' : Res V → L} (ht : Reach P l0 g0 t)
    (e1 : t.hs = s.hs) (e2 : t.cbs = s.cbs) (e3 : t.kind = s.kind) (e4 : t.va = s.va)
    (hc : Calls P s (.valid h) k) (hc' : Calls P t (.bang h) k') :
    (∃ s1 t1 b, CallRuns P s s1 ∧ OnlyResult s k (.bool b) s1 ∧ CallRuns P t t1 ∧ OnlyResult t k' (.bool (!b)) t1) ∨
    (∃ u x y, step P s = .ub u x ∧ step P t = .ub u y) := by
  have e : handleBang t h = handleBang s h := by
    unfold handleBang cbValid; rw [e1, e2, e3, e4]
  rw [bang_not (s := s)] at e
  cases hb : handleBool s h with
  | error u =>
    obtain ⟨x, hx⟩ := not_ok_valid hc hb
    rw [hb] at e
    obtain ⟨y, hy⟩ := not_ok_bang hc' e
    exact .inr ⟨u, x, y, hx, hy⟩
  | ok b =>
    rw [hb] at e
    obtain ⟨s1, a1, a2⟩ := ask_valid hr hc hb
    obtain ⟨t1, b1, b2⟩ := ask_bang ht hc' e
    exact .inl ⟨s1, t1, b, a1, a2, b1, b2⟩

/-- C09: `operator!` of an owning object is never undefined: it returns true exactly if the function of its coroutine has ended, and changes
nothing. -/
theorem C09_owner (hr : Reach P l0 g0 s) (hc : Calls P s (.bang h) k) (hh : Refers s h ty (some ⟨c, .own⟩)) :
    ∃ s' b, CallRuns P s s' ∧ OnlyResult s k (.bool b) s' ∧ (b = true ↔ nFin c s.log ≠ 0) := by
  have hv := valid_own hr hc.user hh
  have hal := own_alive hr hh
  obtain ⟨hd, h1, h2, h3⟩ := hh
  obtain ⟨s', hrun, ho⟩ := ask_bang hr hc (b := !decide (nFin c s.log = 0)) (by
    unfold handleBang; simp only [h1, h3, hal, if_true, hv])
  exact ⟨s', _, hrun, ho, by simp⟩

/-- C09: `operator!` of an empty object returns true, and changes nothing. -/
theorem C09_empty (hr : Reach P l0 g0 s) (hc : Calls P s (.bang h) k) (hh : Refers s h ty none) :
    ∃ s', CallRuns P s s' ∧ OnlyResult s k (.bool true) s' := by
  obtain ⟨hd, h1, h2, h3⟩ := hh
  exact ask_bang hr hc (by unfold handleBang; simp only [h1, h3])

/-- C09: `operator!` of the object passed to the running function returns false, and changes nothing. -/
theorem C09_inside (hr : Reach P l0 g0 s) (hc : Calls P s (.bang h) k) (hh : Refers s h ty (some ⟨s.cur, .syn⟩)) :
    ∃ s', CallRuns P s s' ∧ OnlyResult s k (.bool false) s' := by
  have h0 := refers_ne0 hr hh
  have hal := syn_alive hr hc.user rfl h0
  have hv := valid_syn hr hal (entered_of_user hr hc.user h0).1
  obtain ⟨hd, h1, h2, h3⟩ := hh
  exact ask_bang hr hc (by unfold handleBang; simp only [h1, h3, hal, if_true, hv, Bool.not_true])

/-- C10: once the function of a coroutine has ended, `operator bool` of any object that refers to it - then or after any number of
moves, whatever else happens - returns false. -/
theorem C10_permanent (hr : Reach P l0 g0 s) (hf : nFin c s.log ≠ 0) (hl : Later P s s') (hc : Calls P s' (.valid h) k)
    (hh : Refers s' h ty (some ⟨c, .own⟩)) :
    ∃ s1, CallRuns P s' s1 ∧ OnlyResult s' k (.bool false) s1 := by
  obtain ⟨s1, b, h1, h2, h3⟩ := C08_owner (hl.reach hr) hc hh
  have hne : nFin c s'.log ≠ 0 := by
    have : nFin c s.log ≤ nFin c s'.log := count_mono (hl.log hr)
    omega
  cases b with
  | false => exact ⟨s1, h1, h2⟩
  | true => exact absurd (h3.1 rfl) hne

/-- C28: while the function runs, `operator bool` of an object referring to its counterpart end returns true, and changes nothing. -/
theorem C28_inside (hr : Reach P l0 g0 s) (hc : Calls P s (.valid h) k) (hh : Refers s h ty (some ⟨s.cur, .syn⟩)) :
    ∃ s', CallRuns P s s' ∧ OnlyResult s k (.bool true) s' := by
  have h0 := refers_ne0 hr hh
  have hal := syn_alive hr hc.user rfl h0
  have hv := valid_syn hr hal (entered_of_user hr hc.user h0).1
  obtain ⟨hd, h1, h2, h3⟩ := hh
  exact ask_valid hr hc (by unfold handleBool; simp only [h1, h3, hal, if_true, hv])

/-- C28: also outside the function, the counterpart (once the function has been entered) is never reported false: the answer is true, or the
call is undefined because the function has ended. -/
theorem C28_never_false (hr : Reach P l0 g0 s) (hc : Calls P s (.valid h) k) (hh : Refers s h ty (some ⟨c, .syn⟩))
    (he : nEnter c s.log ≠ 0) :
    (∃ s', CallRuns P s s' ∧ OnlyResult s k (.bool true) s') ∨ (∃ t, step P s = .ub .dangling t) := by
  by_cases hal : (s.cbs ⟨c, .syn⟩).life = .alive
  · have hv := valid_syn hr hal he
    obtain ⟨hd, h1, h2, h3⟩ := hh
    exact .inl (ask_valid hr hc (by unfold handleBool; simp only [h1, h3, hal, if_true, hv]))
  · obtain ⟨hd, h1, h2, h3⟩ := hh
    exact .inr (not_ok_valid hc (by unfold handleBool; simp only [h1, h3, hal, if_false]))

/-! ### The hypotheses are satisfiable -/

namespace Demo
open Code

/-- Main asks an owning object before and after the function has ended, moves it, asks both; the function asks its counterpart. -/
def askMain : C :=
  mk .pull .val (fun h => op (.valid h) fun _ => push h 4 ret) fun h =>
    op (.valid h) fun _ => op (.bang h) fun _ => get h fun _ => resume h (op (.moveCtor h) fun
      | .handle h' => op (.valid h') fun _ => op (.valid h) fun _ => op (.destroy h) fun _ => op (.destroy h') fun _ => ret
      | _ => ret)

/-- A consumer whose function asks its counterpart. -/
def askPushMain : C :=
  mk .push .val (fun h => op (.valid h) fun _ => get h fun _ => resume h ret) fun h =>
    op (.valid h) fun _ => push h 5 (op (.valid h) fun _ => op (.destroy h) fun _ => ret)

end Demo

open Demo in
/-- C08, C10: in step 7 the function has not ended; in step 23 it has, and the coroutine has been moved to object 2; in step 25 the
moved-from object 1 is asked. -/
example : Reach Demo.P askMain [] (stateAt askMain 7) ∧ (∃ k, Calls Demo.P (stateAt askMain 7) (.valid 1) k) ∧
    Refers (stateAt askMain 7) 1 .pull (some ⟨1, .own⟩) ∧ nFin 1 (stateAt askMain 7).log = 0 ∧
    Reach Demo.P askMain [] (stateAt askMain 19) ∧ nFin 1 (stateAt askMain 19).log ≠ 0 ∧
    Later Demo.P (stateAt askMain 19) (stateAt askMain 23) ∧
    (∃ k, Calls Demo.P (stateAt askMain 23) (.valid 2) k) ∧ Refers (stateAt askMain 23) 2 .pull (some ⟨1, .own⟩) ∧
    (∃ k, Calls Demo.P (stateAt askMain 25) (.valid 1) k) ∧ Refers (stateAt askMain 25) 1 .pull none :=
  ⟨reach _ _ rfl, ⟨_, _, rfl, rfl⟩, ⟨_, rfl, rfl, rfl⟩, rfl, reach _ _ rfl, by decide, later _ 19 4 rfl, ⟨_, _, rfl, rfl⟩,
    ⟨_, rfl, rfl, rfl⟩, ⟨_, _, rfl, rfl⟩, ⟨_, rfl, rfl, rfl⟩⟩

open Demo in
/-- C08: the value held in step 11. -/
example : Reach Demo.P askMain [] (stateAt askMain 11) ∧ (∃ k, Calls Demo.P (stateAt askMain 11) (.get 1) k) ∧
    Refers (stateAt askMain 11) 1 .pull (some ⟨1, .own⟩) ∧ (stateAt askMain 11).va 1 ≠ .void ∧
    spoiled 1 (stateAt askMain 11).log = false :=
  ⟨reach _ _ rfl, ⟨_, _, rfl, rfl⟩, ⟨_, rfl, rfl, rfl⟩, by decide, rfl⟩

open Demo in
/-- C09: `operator bool` in step 7, `operator!` in step 9. -/
example : (∃ k, Calls Demo.P (stateAt askMain 7) (.valid 1) k) ∧ (∃ k, Calls Demo.P (stateAt askMain 9) (.bang 1) k) ∧
    CallRuns Demo.P (stateAt askMain 7) (stateAt askMain 9) ∧ (stateAt askMain 9).hs = (stateAt askMain 7).hs ∧
    (stateAt askMain 9).cbs = (stateAt askMain 7).cbs :=
  ⟨⟨_, _, rfl, rfl⟩, ⟨_, _, rfl, rfl⟩, ⟨stateAt askMain 8, rfl, .step (by rintro ⟨_, h⟩; cases h) rfl .refl⟩, rfl, rfl⟩

namespace Demo
open Code

/-- `operator!` of the owning object, of the object moved from, and of the object passed to the function. -/
def bangMain : C :=
  mk .pull .val (fun h => op (.bang h) fun _ => push h 4 ret) fun h => op (.bang h) fun _ => op (.moveCtor h) fun _ => op (.bang h) fun _ => ret

end Demo

open Demo in
/-- C09: `operator!` of the owning object (step 7), of the moved-from object (step 11) and of the object passed to the function (step 2). -/
example : Reach Demo.P bangMain [] (stateAt bangMain 2) ∧ (∃ k, Calls Demo.P (stateAt bangMain 2) (.bang 0) k) ∧
    Refers (stateAt bangMain 2) 0 .push (some ⟨(stateAt bangMain 2).cur, .syn⟩) ∧
    Reach Demo.P bangMain [] (stateAt bangMain 7) ∧ (∃ k, Calls Demo.P (stateAt bangMain 7) (.bang 1) k) ∧
    Refers (stateAt bangMain 7) 1 .pull (some ⟨1, .own⟩) ∧
    Reach Demo.P bangMain [] (stateAt bangMain 11) ∧ (∃ k, Calls Demo.P (stateAt bangMain 11) (.bang 1) k) ∧
    Refers (stateAt bangMain 11) 1 .pull none :=
  ⟨reach _ _ rfl, ⟨_, _, rfl, rfl⟩, ⟨_, rfl, rfl, rfl⟩, reach _ _ rfl, ⟨_, _, rfl, rfl⟩, ⟨_, rfl, rfl, rfl⟩, reach _ _ rfl,
    ⟨_, _, rfl, rfl⟩, ⟨_, rfl, rfl, rfl⟩⟩

open Demo in
/-- C28: in both kinds of coroutine the function asks its counterpart. -/
example : Reach Demo.P askMain [] (stateAt askMain 2) ∧ (∃ k, Calls Demo.P (stateAt askMain 2) (.valid 0) k) ∧
    Refers (stateAt askMain 2) 0 .push (some ⟨(stateAt askMain 2).cur, .syn⟩) ∧ nEnter 1 (stateAt askMain 2).log ≠ 0 ∧
    Reach Demo.P askPushMain [] (stateAt askPushMain 8) ∧ (∃ k, Calls Demo.P (stateAt askPushMain 8) (.valid 0) k) ∧
    Refers (stateAt askPushMain 8) 0 .pull (some ⟨(stateAt askPushMain 8).cur, .syn⟩) :=
  ⟨reach _ _ rfl, ⟨_, _, rfl, rfl⟩, ⟨_, rfl, rfl, rfl⟩, by decide, reach _ _ rfl, ⟨_, _, rfl, rfl⟩, ⟨_, rfl, rfl, rfl⟩⟩

end Verif
