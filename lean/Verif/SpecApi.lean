import Verif.Spec

/-!
# Vocabulary of the specification: calls, results, runs

What it means that user code makes an API call, that the call returns or throws, that one state is later than another.
Used to state the properties; nothing here models library code.
-/
namespace Verif
variable {L G V E : Type}

/-- In `s` user code (of the running context) makes the API call `op`; `k` says how it continues with the result. -/
def Calls (P : Prog L G V E) (s : St L G V E) (op : Op L V E) (k : Res V → L) : Prop :=
  ∃ l, s.ctl = .eval l ∧ P.code l s.g = .api op k

/-- In `s` user code pushes the argument `a` through the push coroutine object `h`: `h(a)`, or `*it = a` with an iterator on `h`. -/
def PushesTo (P : Prog L G V E) (s : St L G V E) (h : Nat) (a : PushArg V E) (k : Res V → L) : Prop :=
  Calls P s (.push h a) k ∨ (Calls P s (.itPut (some h) a) k ∧ a ≠ .alias)

/-- In `s` user code resumes through the pull coroutine object `h`: `h()`, or `++it` with an iterator on `h`. -/
def PullsFrom (P : Prog L G V E) (s : St L G V E) (h : Nat) (k : Res V → L) : Prop :=
  Calls P s (.resume h) k ∨ Calls P s (.itNext (some h)) k

/-- In `s` user code makes a call that transfers control through the object `h`: `h()`, `h(a)`, `++it` or `*it = a`. -/
def Switches (P : Prog L G V E) (s : St L G V E) (h : Nat) (k : Res V → L) : Prop :=
  PullsFrom P s h k ∨ ∃ a, PushesTo P s h a k

/-- The argument is an ordinary one for a coroutine of this variant (its copy does not throw, it is not the stored object). -/
def Fits : Var → PushArg V E → Prop
  | .void, _ => True
  | .ref, .copy _ => True
  | .val, .copy _ => True
  | .val, .move _ => True
  | _, _ => False

/-- User code runs in state `s`. -/
def UserRuns (s : St L G V E) : Prop := ∃ l, s.ctl = .eval l

/-- In `s'` a call made in `s` has returned `v` to its caller, whose stack is as it was. -/
def Returned (s : St L G V E) (k : Res V → L) (v : Res V) (s' : St L G V E) : Prop :=
  s'.cur = s.cur ∧ s'.frames s.cur = s.frames s.cur ∧ s'.ctl = .eval (k v)

/-- In `s'` a call made in `s` has thrown `e` into its caller, whose stack is as it was. -/
def Threw (s : St L G V E) (e : E) (s' : St L G V E) : Prop :=
  s'.cur = s.cur ∧ s'.frames s.cur = s.frames s.cur ∧ s'.ctl = .raise (.user e)

/-- `s'` is reached from `s` in zero or more steps. -/
inductive Later (P : Prog L G V E) (s : St L G V E) : St L G V E → Prop
  | refl : Later P s s
  | step {s1 s2 : St L G V E} : Later P s s1 → step P s1 = .next s2 → Later P s s2

/-- `s'` is reached from `s` in zero or more steps, and no user code runs on the way (`s` included, `s'` not). -/
inductive NoUser (P : Prog L G V E) : St L G V E → St L G V E → Prop
  | refl {s : St L G V E} : NoUser P s s
  | step {s s1 s2 : St L G V E} : ¬ UserRuns s → step P s = .next s1 → NoUser P s1 s2 → NoUser P s s2

/-- The coroutine object at address `h` exists, is of class `ty`, and refers to end `r` (or is not-a-coroutine). -/
def Refers (s : St L G V E) (h : Nat) (ty : Kind) (r : Option CbRef) : Prop :=
  ∃ hd, s.hs h = some hd ∧ hd.ty = ty ∧ hd.cb = r

/-- The program ends up in undefined behaviour, or `forced_unwind` leaves `main` (`std::terminate`), without any user code running
before. -/
def Crashes (P : Prog L G V E) (s : St L G V E) : Prop :=
  ∃ s1 s2, NoUser P s s1 ∧ ¬ UserRuns s1 ∧ ((∃ u, step P s1 = .ub u s2) ∨ (s1.ctl = .raise .forced ∧ step P s1 = .uncaught s2))

/-- The API call user code makes in `s` leads to `s'`, and no user code runs in between. -/
def CallRuns (P : Prog L G V E) (s s' : St L G V E) : Prop := ∃ s1, step P s = .next s1 ∧ NoUser P s1 s'

/-- The API call user code makes in `s` crashes before any (other) user code runs. -/
def CallCrashes (P : Prog L G V E) (s : St L G V E) : Prop :=
  (∃ u t, step P s = .ub u t) ∨ ∃ s1, step P s = .next s1 ∧ Crashes P s1

theorem NoUser.trans {P : Prog L G V E} {s s1 s2 : St L G V E} (h : NoUser P s s1) (h' : NoUser P s1 s2) : NoUser P s s2 := by
  induction h with
  | refl => exact h'
  | step hu hs _ ih => exact .step hu hs (ih h')

theorem Later.trans {P : Prog L G V E} {s s1 s2 : St L G V E} (h : Later P s s1) (h' : Later P s1 s2) : Later P s s2 := by
  induction h' with
  | refl => exact h
  | step _ hs ih => exact .step ih hs

theorem NoUser.later {P : Prog L G V E} {s s1 : St L G V E} (h : NoUser P s s1) : Later P s s1 := by
  induction h with
  | refl => exact .refl
  | step _ hs _ ih => exact (Later.step .refl hs).trans ih

theorem Later.reach {P : Prog L G V E} {l0 : L} {g0 : G} {s s1 : St L G V E} (h : Later P s s1) (hr : Reach P l0 g0 s) :
    Reach P l0 g0 s1 := by
  induction h with
  | refl => exact hr
  | step _ hs ih => exact ih.step hs

/-- Live local objects on a stack, innermost (most recently constructed) first. -/
def locals : List (Frame L V E) → List Nat
  | [] => []
  | .gObj o :: t => o :: locals t
  | _ :: t => locals t

/-- Local coroutine objects on a stack, innermost first. -/
def coLocals : List (Frame L V E) → List Nat
  | [] => []
  | .gCoro h :: t => h :: coLocals t
  | _ :: t => coLocals t

/-- The object for the other side that the function of a coroutine was given (the local `synthesized` of the entry lambda,
pull_control_block_cc.ipp:70-88, push_control_block_cc.ipp:69-90), while the lambda has not been left. -/
def Base.sink : Base L → Option Nat
  | .inFn h | .pushEntry h _ | .final h => some h
  | _ => Option.none

end Verif
