import Verif.SpecObj

/-!
# Vocabulary of the specification: alternation, live contexts

Used to state the properties; nothing here models library code.
-/
namespace Verif
variable {L G V E : Type}

/-- the event is a transfer of control over coroutine `k`; the end it is made through -/
def sideOf (k : Nat) : Ev V E → Option Side
  | .jump r _ _ => if r.co = k then some r.side else none
  | _ => none

/-- The transfers of control over coroutine `k`: the ends they are made through, newest first. -/
def sides (k : Nat) (log : List (Ev V E)) : List Side := log.filterMap (sideOf k)

/-- Neighbouring ends differ, and the oldest (last) one is the owner's. -/
def Alternates : List Side → Prop
  | [] => True
  | [x] => x = .own
  | x :: y :: t => x ≠ y ∧ Alternates (y :: t)

/-- Context `i` is alive: it is the main context, or a coroutine that has been created and whose stack has not been given back. -/
def LiveCtx (i : Nat) (log : List (Ev V E)) : Prop := i = 0 ∨ (nCreated i log = 1 ∧ nDealloc i log = 0)

/-- The other end of a coroutine. -/
def otherSide : Side → Side
  | .own => .syn
  | .syn => .own

/-- A run from `s0` to `s` during which context `i` does not run (`s0` included, `s` not). -/
inductive Asleep (P : Prog L G V E) (i : Nat) (s0 : St L G V E) : St L G V E → Prop
  | refl : Asleep P i s0 s0
  | step {s s' : St L G V E} : Asleep P i s0 s → s.cur ≠ i → step P s = .next s' → Asleep P i s0 s'

end Verif
