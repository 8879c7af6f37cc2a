import Verif.SpecApi

/-!
# Vocabulary of the specification: what belongs to one coroutine, and which coroutines a step is about

Used to state that coroutines do not interfere (C25); nothing here models library code.
-/
namespace Verif
variable {L G V E : Type}

/-- Everything that belongs to coroutine `d`, except the frames on its stack, is the same in `s'` as in `s`: both control blocks (with the
transferred value, the completion state and the pending exception), the continuations they hold, where the entry function is, the copy of
the coroutine-function, and the stack memory. -/
def SameCo (s s' : St L G V E) (d : Nat) : Prop :=
  (∀ r : CbRef, r.co = d → s'.cbs r = s.cbs r ∧ s'.fib (.cb r) = s.fib (.cb r)) ∧
  s'.base d = s.base d ∧ s'.fnObj d = s.fnObj d ∧ s'.stk d = s.stk d ∧ s'.kind d = s.kind d ∧ s'.va d = s.va d

/-- `op` is an operation on the coroutine object `h` that may change the coroutine: `h()`, `h(a)`, `h.get()`, `++it`, `*it = a`, and the
destruction of `h`. -/
inductive ActsOn : Op L V E → Nat → Prop
  | resume {h} : ActsOn (.resume h) h
  | push {h a} : ActsOn (.push h a) h
  | get {h} : ActsOn (.get h) h
  | next {h} : ActsOn (.itNext (some h)) h
  | put {h a} : ActsOn (.itPut (some h) a) h
  | destroy {h} : ActsOn (.destroy h) h

/-- Coroutine `d` is one the next step from `s` is about. -/
inductive Subject (P : Prog L G V E) (s : St L G V E) : Nat → Prop
  /-- user code makes a call on an object that refers to coroutine `r.co` -/
  | call {op k h ty r} : Calls P s op k → ActsOn op h → Refers s h ty (some r) → Subject P s r.co
  /-- user code creates the coroutine -/
  | create {kd va f fn k} : Calls P s (.mk kd va f fn) k → Subject P s s.nk
  /-- a call on the coroutine is pending in the running context, which has just been switched to -/
  | pending {r t} : s.ctl = .recv → s.fr = .asg r :: t → Subject P s r.co
  /-- the constructor of the coroutine is pending in the running context -/
  | ctor {c t} : ¬ UserRuns s → (s.fr = .pullCtor c :: t ∨ s.fr = .pushCtor c :: t) → Subject P s c
  /-- the scope of a coroutine object that refers to coroutine `r.co` is left -/
  | scope {h t ty r} : (¬ UserRuns s ∨ ∃ l l', s.ctl = .eval l ∧ P.code l s.g = .leave l') → s.fr = .gCoro h :: t → Refers s h ty (some r) → Subject P s r.co
  /-- the running coroutine itself starts, ends or is being unwound -/
  | own : ¬ UserRuns s → s.fr = [] → Subject P s s.cur
  /-- the running coroutine destroys the object it was started with, which refers to coroutine `r.co` -/
  | counterpart {h ty r} : ¬ UserRuns s → s.fr = [] → (s.base s.cur = .inFn h ∨ (∃ fn, s.base s.cur = .pushEntry h fn) ∨ s.base s.cur = .final h) →
      Refers s h ty (some r) → Subject P s r.co

/-- The execution from `s` leads to `s'`; on the way coroutine `d` does not run, and no step is about it. -/
inductive Without (P : Prog L G V E) (d : Nat) (s : St L G V E) : St L G V E → Prop
  | refl : Without P d s s
  | step {s1 s2 : St L G V E} : Without P d s s1 → s1.cur ≠ d → ¬ Subject P s1 d → step P s1 = .next s2 → Without P d s s2

end Verif
