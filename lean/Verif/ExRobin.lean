import Verif.SpecRobin
import Verif.Machine

/-!
# A round-robin scheduler, as a program of the model

No example of the repository does this; the documentation says that it can be done ("provides cooperative multitasking convenient to C++.
Coroutines provide quasi parallelism.", doc/intro.qbk:45-46).  Every task is a pull coroutine; the main function reads one value of each
in turn, and destroys the coroutine of a task that has ended.
-/
namespace Verif.Robin

/-- Program points of the scheduler and of its tasks (doc/intro.qbk:45-46; the code is not in the repository). -/
inductive Pt (V : Type)
  | task (out : Nat) (t : Task V)                       -- the function of a task, or one it has called; `out` is its sink
  | spawn (todo : List (Task V)) (hs : List Nat)        -- the coroutines are constructed one by one
  | round (done todo : List Nat)                        -- the next coroutine is looked at; `done` have had their turn
  | look (done todo : List Nat) (h : Nat) (it : Option Nat)     -- `it == end(src)` ?
  | put (done todo : List Nat) (h i : Nat) (v : V)      -- the value `*it` is noted
  | next (done todo : List Nat) (h i : Nat)             -- `++it`
  | stop                                                -- end of main

variable {V E : Type}

/-- The result of an API call is of one kind only, the other results do not occur: a constructor gives an object (pull.ipp:43-59). -/
def onHandle (k : Nat → Pt V) : Res V → Pt V
  | .handle h => k h
  | _ => .stop
/-- `begin()` gives an iterator (pull_coroutine.hpp:99-104, 134). -/
def onIt (k : Option Nat → Pt V) : Res V → Pt V
  | .it i => k i
  | _ => .stop
/-- `*it` gives a value (pull_coroutine.hpp:123-125). -/
def onVal (k : V → Pt V) : Res V → Pt V
  | .val v => k v
  | _ => .stop

/-- The code: constructors (pull.ipp:43-59), `begin()` (pull_coroutine.hpp:134), `*it` and `++it` (pull_coroutine.hpp:114-125),
the destructor (pull.ipp:61-66), and `sink(v)` in the tasks (push.ipp:63-68).  Memory is the list of values noted so far. -/
def code : Pt V → Unit × List V → Act (Pt V) (Unit × List V) V E
  | .task _ .ret, _ => .ret
  | .task out (.say v t), _ => .api (.push out (.copy v)) fun _ => .task out t
  | .task out (.sub t u), _ => .call (.task out t) (.task out u)
  | .task out (.obj o t), _ => .newObj o (.task out t)
  | .spawn [] hs, g => .tau g (.round [] hs)
  | .spawn (t :: ts) hs, _ => .api (.mk .pull .val .ok fun out => .task out t) <| onHandle fun h => .spawn ts (hs ++ [h])
  | .round [] [], _ => .ret
  | .round (h :: hs) [], g => .tau g (.round [] (h :: hs))
  | .round done (h :: todo), _ => .api (.itBegin h) <| onIt fun i => .look done todo h i
  | .look done todo h none, _ => .api (.destroy h) fun _ => .round done todo
  | .look done todo h (some i), _ => .api (.itDeref (some i)) <| onVal fun v => .put done todo h i v
  | .put done todo h i v, (a, m) => .tau (a, m ++ [v]) (.next done todo h i)
  | .next done todo h i, _ => .api (.itNext (some i)) fun _ => .round (done ++ [h]) todo
  | .stop, _ => .ret

/-- The program (doc/intro.qbk:45-46). -/
def prog (mv : V → V) (gl : Bool) : Prog (Pt V) (Unit × List V) V E where
  code := code
  mv := mv
  genericLambda := gl

end Verif.Robin
