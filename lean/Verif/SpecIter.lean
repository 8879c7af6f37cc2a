import Verif.SpecValue

/-!
# Vocabulary of the specification: what a call would return

Used to state the properties of iterators; nothing here models library code.
-/
namespace Verif
variable {L G V E : Type}

/-- If user code made the call `op` in `s`, it would be returned `v`; nothing else would change, and the history would only gain `evs`. -/
def WouldReturn (s : St L G V E) (op : Op L V E) (v : Res V) (evs : List (Ev V E)) : Prop :=
  ∀ (P : Prog L G V E) (l : L) (k : Res V → L), P.code l s.g = .api op k →
    CallRuns P { s with ctl := .eval l } { s with ctl := .eval (k v), log := evs ++ s.log }

/-- `operator bool` of object `h` is `b` in `s`. -/
def BoolIs (s : St L G V E) (h : Nat) (b : Bool) : Prop := WouldReturn s (.valid h) (.bool b) []

end Verif
