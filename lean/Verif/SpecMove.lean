import Verif.SpecValue

/-!
# Vocabulary of the specification: moving coroutine objects

Used to state the properties; nothing here models library code.
-/
namespace Verif
variable {L G V E : Type}

/-- Nothing but the coroutine objects (and the position of user code) differs: the control blocks with their transferred values, flags
and exceptions, the suspended contexts, all stacks, the history are the same. -/
def Undisturbed (s s' : St L G V E) : Prop := s' = { s with ctl := s'.ctl, hs := s'.hs, nh := s'.nh }

/-- User code moves coroutine objects: zero or more move constructions and move assignments, one after the other. -/
inductive Moves (P : Prog L G V E) (s : St L G V E) : St L G V E → Prop
  | refl : Moves P s s
  | ctor {s1 s2 : St L G V E} {h : Nat} {k : Res V → L} : Moves P s s1 → Calls P s1 (.moveCtor h) k → CallRuns P s1 s2 →
      UserRuns s2 → Moves P s s2
  | assign {s1 s2 : St L G V E} {d c : Nat} {k : Res V → L} : Moves P s s1 → Calls P s1 (.moveAssign d c) k → CallRuns P s1 s2 →
      UserRuns s2 → Moves P s s2

/-- The operations that use the coroutine an object refers to. -/
inductive Uses : (Nat → Op L V E) → Prop
  | resume : Uses fun h => .resume h
  | push {a} : Uses fun h => .push h a
  | get : Uses fun h => .get h
  | valid : Uses fun h => .valid h
  | bang : Uses fun h => .bang h
  | deref : Uses fun h => .itDeref (some h)

/-- `s` with the coroutine objects of `t`. -/
def withObjects (t s : St L G V E) : St L G V E := { s with hs := t.hs, nh := t.nh }

/-- Two outcomes that agree but for the coroutine objects, which in the second are those of `t`. -/
def SameOutcome (t : St L G V E) : Out (St L G V E) → Out (St L G V E) → Prop
  | .next a, .next b => b = withObjects t a
  | .ub u _, .ub u' _ => u = u'
  | .ill _, .ill _ => True
  | _, _ => False

end Verif
