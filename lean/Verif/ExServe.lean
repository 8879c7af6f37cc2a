import Verif.SpecServe
import Verif.Machine

/-!
# A scheduler that follows any plan, as a program of the model

As `ExRobin.lean` (doc/intro.qbk:45-46), but the main function resumes the tasks in an order that is given, and stops when the plan is at its
end: tasks that have not ended by then are destroyed while they are suspended.
-/
namespace Verif.Serve

/-- Program points of the scheduler and of its tasks (doc/intro.qbk:45-46; the code is not in the repository). -/
inductive Pt (V : Type)
  | task (out : Nat) (t : Robin.Task V)                       -- the function of a task, or one it has called; `out` is its sink
  | spawn (todo : List (Robin.Task V)) (hs js : List Nat)     -- the coroutines are constructed one by one
  | pick (hs js : List Nat)                             -- the next turn of the plan
  | look (hs js : List Nat) (j : Nat) (it : Option Nat) -- `it == end(src)` ?
  | put (hs js : List Nat) (j i : Nat) (v : V)          -- the value `*it` is noted
  | next (hs js : List Nat) (i : Nat)                   -- `++it`
  | clean (hs : List Nat)                               -- the coroutines are destroyed one by one
  | stop                                                -- end of main

variable {V E : Type}

/-- The result of an API call is of one kind only, the other results do not occur: a constructor gives an object (pull.ipp:43-59). -/
def onHandle (k : Nat → Pt V) : Res V → Pt V
  | .handle h => k h
  | _ => .stop
/-- `begin()` gives an iterator (pull_coroutine.hpp:99-104, 134). -/
def onIt (k : Option Nat → Pt V) : Res V → Pt V
  | .it i => k i
  | _ => .stop
/-- `*it` gives a value (pull_coroutine.hpp:123-125). -/
def onVal (k : V → Pt V) : Res V → Pt V
  | .val v => k v
  | _ => .stop

/-- The code: constructors (pull.ipp:43-59), `begin()` (pull_coroutine.hpp:134), `*it` and `++it` (pull_coroutine.hpp:114-125),
the destructor (pull.ipp:61-66), and `sink(v)` in the tasks (push.ipp:63-68).  Memory is the list of values noted so far, each with the
number of its task.  A turn for a task that does not exist is skipped. -/
def code : Pt V → Unit × List (Nat × V) → Act (Pt V) (Unit × List (Nat × V)) V E
  | .task _ .ret, _ => .ret
  | .task out (.say v t), _ => .api (.push out (.copy v)) fun _ => .task out t
  | .task out (.sub t u), _ => .call (.task out t) (.task out u)
  | .task out (.obj o t), _ => .newObj o (.task out t)
  | .spawn [] hs js, g => .tau g (.pick hs js)
  | .spawn (t :: ts) hs js, _ => .api (.mk .pull .val .ok fun out => .task out t) <| onHandle fun h => .spawn ts (hs ++ [h]) js
  | .pick hs [], g => .tau g (.clean hs)
  | .pick hs (j :: js), g =>
    match hs[j]? with
    | some h => .api (.itBegin h) <| onIt fun i => .look hs js j i
    | none => .tau g (.pick hs js)
  | .look hs js _ none, g => .tau g (.pick hs js)
  | .look hs js j (some i), _ => .api (.itDeref (some i)) <| onVal fun v => .put hs js j i v
  | .put hs js j i v, (a, m) => .tau (a, m ++ [(j, v)]) (.next hs js i)
  | .next hs js i, _ => .api (.itNext (some i)) fun _ => .pick hs js
  | .clean [], _ => .ret
  | .clean (h :: hs), _ => .api (.destroy h) fun _ => .clean hs
  | .stop, _ => .ret

/-- The program (doc/intro.qbk:45-46). -/
def prog (mv : V → V) (gl : Bool) : Prog (Pt V) (Unit × List (Nat × V)) V E where
  code := code
  mv := mv
  genericLambda := gl

end Verif.Serve
