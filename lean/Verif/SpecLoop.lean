import Verif.SpecFrame
import Verif.SpecIter
import Verif.SpecObj

/-!
# Vocabulary of the specification: a range-for loop

Used to state the property of range-for loops (C07); nothing here models library code.
-/
namespace Verif
variable {L G V E : Type}

/-- `*it` is evaluated in `s` with an iterator on the object `h`, which refers to coroutine `c`; it yields `v`, in `s'`. -/
def Reads (P : Prog L G V E) (h c : Nat) (s : St L G V E) (v : V) (s' : St L G V E) : Prop :=
  ∃ k, Calls P s (.itDeref (some h)) k ∧ Refers s h .pull (some ⟨c, .own⟩) ∧ CallRuns P s s' ∧ Returned s k (.val v) s' ∧
    s'.log = .peeked c v :: s.log

/-- The code that gets the iterator tells `end()` from an iterator on `h`. -/
def Tests (k : Res V → L) (h : Nat) : Prop := k (.it (some h)) ≠ k (.it none)

/-- `++it` is called in `s` with an iterator on the object `h`, which refers to coroutine `c`; in `t` control has come back to it. -/
def Increments (P : Prog L G V E) (h c : Nat) (s t : St L G V E) : Prop :=
  (∃ k, Calls P s (.itNext (some h)) k) ∧ Refers s h .pull (some ⟨c, .own⟩) ∧ ComesBack P s t ∧ t.ctl = .recv ∧
  Refers t h .pull (some ⟨c, .own⟩)

/-- `for (auto & x : h) body`, up to the comparison of the iterator with `end()` at the start of a round: in `s0` user code calls `begin()`
of the object `h`, which refers to coroutine `c`; in `s` the iterator is (again) different from `end()`; the body was executed with the
values `xs`, in this order, meanwhile.  The body may do anything that does not concern coroutine `c`.  `s'.log = t.log`: no exception was
thrown (and caught by the caller) between the return of control to `++it` and `s'`. -/
inductive Looping (P : Prog L G V E) (h c : Nat) (s0 : St L G V E) : List V → St L G V E → Prop
  | start {s : St L G V E} {k : Res V → L} : Calls P s0 (.itBegin h) k → Refers s0 h .pull (some ⟨c, .own⟩) → CallRuns P s0 s →
      OnlyResult s0 k (.it (some h)) s → Tests k h → Looping P h c s0 [] s
  | round {xs : List V} {v : V} {s s1 s2 s3 t s' : St L G V E} {k : Res V → L} : Looping P h c s0 xs s →
      Without P c s s1 → Reads P h c s1 v s2 → Without P c s2 s3 → Increments P h c s3 t → Calls P s3 (.itNext (some h)) k →
      CallRuns P t s' → Returned s3 k (.it (some h)) s' → s'.log = t.log → Tests k h →
      Looping P h c s0 (xs ++ [v]) s'

/-- The loop has executed the body with `xs` (the last element in the current round); in `t` control has come back to the `++it` at the end
of the round, which was called in `s`. -/
def LoopedTo (P : Prog L G V E) (h c : Nat) (s0 : St L G V E) (xs : List V) (s t : St L G V E) : Prop :=
  ∃ ys v s1 s2 s3, xs = ys ++ [v] ∧ Looping P h c s0 ys s1 ∧ Without P c s1 s2 ∧ Reads P h c s2 v s3 ∧ Without P c s3 s ∧
    Increments P h c s t

end Verif
