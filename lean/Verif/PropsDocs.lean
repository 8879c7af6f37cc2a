import Verif.PropsUnwind
import Verif.PropsValid
import Verif.PropsValue

/-!
# The preconditions in the reference documentation: C54

doc/asymmetric.qbk:471-492: `operator()` and `get()` of `pull_type` demand only that the object is not not-a-coroutine, and `get()` "Throws:
invalid_result".
-/
namespace Verif
open Aux
variable {L G V E : Type} {P : Prog L G V E} {l0 : L} {g0 : G} {s : St L G V E} {h c : Nat} {k : Res V → L}

/-- The documented precondition of `operator()` and `get()` of a `pull_type`. -/
def DocOk (s : St L G V E) (h : Nat) : Prop := ∃ c, Refers s h .pull (some ⟨c, .own⟩)

/-- C54, partial: under the documented precondition `get()` of an object of values or references is defined (if no copy of a value into a coroutine that held one has
thrown); it never throws, and returns a value that was pushed (or what an earlier `get()` has left of it).  Missing: it does not tell
when there is no new value, and the precondition is not sufficient for `operator()`, see below. -/
theorem C54_get_partial (hr : Reach P l0 g0 s) (hc : Calls P s (.get h) k) (hh : Refers s h .pull (some ⟨c, .own⟩)) (hv : s.va c ≠ .void)
    (ht : spoiled c s.log = false) :
    ∃ s' v w, CallRuns P s s' ∧ Returned s k (.val v) s' ∧ lastPushed c s.log = some w ∧ (gotSince c s.log = none → v = w) := by
  obtain ⟨⟨w, hw⟩, h1⟩ := C08_true_has_value hr hh hv ht
  cases hg : gotSince c s.log with
  | none =>
    obtain ⟨s', h2, h3⟩ := C04_last_pushed hr hc hh hw hg ht
    exact ⟨s', w, w, h2, h3, hw, fun _ => rfl⟩
  | some _ =>
    obtain ⟨s', v, h2, h3⟩ := h1 k hc
    exact ⟨s', v, w, h2, h3, hw, fun h => by cases h⟩

namespace Demo
open Code

/-- The generator pushes 5 and ends; main resumes it and then reads. -/
def staleMain : C := mk .pull .val (fun h => push h 5 ret) fun h => resume h (op (.get h) fun _ => ret)

end Demo

open Demo in
/-- C54, refuted: a program that keeps to the rules so far, and calls `operator()` on an object that is not not-a-coroutine, as documented:
the behaviour is undefined, because the function has ended. -/
theorem C54_refuted : ∃ s : S, ReachOk Demo.P againMain [] s ∧ DocOk s 1 ∧ Calls Demo.P s (.resume 1) (fun _ => Code.ret) ∧
    CallCrashes Demo.P s :=
  ⟨stateAt againMain 13, reachOk _ _ rfl, ⟨1, ⟨_, rfl, rfl, rfl⟩⟩, ⟨_, rfl, rfl⟩,
    C33_completed_pull (reach againMain 13 rfl) (h := 1) (c := 1) (k := fun _ => Code.ret) (.inl ⟨_, rfl, rfl⟩) ⟨_, rfl, rfl, rfl⟩ (by decide)⟩

open Demo in
/-- C54, refuted: the function has ended without pushing a further value, and `get()` returns the old one; it does not throw `invalid_result`. -/
theorem C54_get_refuted : ∃ s s' : S, ∃ k, ReachOk Demo.P staleMain [] s ∧ DocOk s 1 ∧ nFin 1 s.log = 1 ∧ Calls Demo.P s (.get 1) k ∧
    CallRuns Demo.P s s' ∧ Returned s k (.val 5) s' :=
  have hc : Calls Demo.P (stateAt staleMain 13) (.get 1) (fun _ => Code.ret) := ⟨_, rfl, rfl⟩
  have ⟨s', h1, h2⟩ := C04_last_pushed (v := 5) (reach staleMain 13 rfl) hc (⟨_, rfl, rfl, rfl⟩ : Refers _ 1 .pull (some ⟨1, .own⟩)) rfl rfl rfl
  ⟨_, s', _, reachOk _ _ rfl, ⟨1, ⟨_, rfl, rfl, rfl⟩⟩, rfl, hc, h1, h2⟩

open Demo in
/-- Non-trivial case: the generator is suspended after its second value, which has not been read. -/
example : Reach Demo.P pullMain [] (stateAt pullMain 16) ∧ Refers (stateAt pullMain 16) 1 .pull (some ⟨1, .own⟩) ∧
    (∃ k, Calls Demo.P (stateAt pullMain 16) (.get 1) k) ∧ lastPushed 1 (stateAt pullMain 16).log = some 2 ∧
    gotSince 1 (stateAt pullMain 16).log = none :=
  ⟨reach _ _ rfl, ⟨_, rfl, rfl, rfl⟩, ⟨_, _, rfl, rfl⟩, rfl, rfl⟩

end Verif
