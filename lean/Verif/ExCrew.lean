import Verif.SpecCrew
import Verif.Machine

/-!
# A scheduler whose tasks may fail, as a program of the model

As `ExServe.lean`, but tasks may throw.  An exception that leaves the function of a task comes out of the constructor or out of `++it`
(doc/asymmetric.qbk:233-237); the scheduler catches it there, notes it, and goes on with the other tasks.
-/
namespace Verif.Crew

/-- Program points of the scheduler and of its tasks (doc/intro.qbk:45-46, doc/asymmetric.qbk:233-237; the code is not in the repository).
`hs` are the objects made so far, `none` for a task whose constructor has thrown; `js` is the rest of the plan. -/
inductive Pt (V E : Type)
  | task (out : Nat) (t : Job V E)                                      -- the function of a task, or one it has called; `out` is its sink
  | spawn (todo : List (Job V E)) (hs : List (Option Nat)) (js : List Nat)                      -- `try {`
  | make (t : Job V E) (todo : List (Job V E)) (hs : List (Option Nat)) (js : List Nat)         -- a coroutine is constructed
  | made (todo : List (Job V E)) (hs : List (Option Nat)) (js : List Nat) (h : Nat)             -- `}`
  | lost (todo : List (Job V E)) (hs : List (Option Nat)) (js : List Nat) (e : E)               -- `catch ( E e)`
  | pick (hs : List (Option Nat)) (js : List Nat)                       -- the next turn of the plan
  | look (hs : List (Option Nat)) (js : List Nat) (j : Nat) (it : Option Nat)   -- `it == end(src)` ?
  | put (hs : List (Option Nat)) (js : List Nat) (j i : Nat) (v : V)    -- the value `*it` is noted
  | next (hs : List (Option Nat)) (js : List Nat) (j i : Nat)           -- `try {`
  | inc (hs : List (Option Nat)) (js : List Nat) (i : Nat)              -- `++it`
  | went (hs : List (Option Nat)) (js : List Nat)                       -- `}`
  | caught (hs : List (Option Nat)) (js : List Nat) (j : Nat) (e : E)   -- `catch ( E e)`
  | clean (hs : List (Option Nat))                                      -- the coroutines are destroyed one by one
  | stop                                                                -- end of main

variable {V E : Type}

/-- The result of an API call is of one kind only, the other results do not occur: a constructor gives an object (pull.ipp:43-59). -/
def onHandle (k : Nat → Pt V E) : Res V → Pt V E
  | .handle h => k h
  | _ => .stop
/-- `begin()` gives an iterator (pull_coroutine.hpp:99-104, 134). -/
def onIt (k : Option Nat → Pt V E) : Res V → Pt V E
  | .it i => k i
  | _ => .stop
/-- `*it` gives a value (pull_coroutine.hpp:123-125). -/
def onVal (k : V → Pt V E) : Res V → Pt V E
  | .val v => k v
  | _ => .stop

/-- The code: constructors (pull.ipp:43-59), `begin()` (pull_coroutine.hpp:134), `*it` and `++it` (pull_coroutine.hpp:114-125),
the destructor (pull.ipp:61-66), and `sink(v)` in the tasks (push.ipp:63-68).  Memory is the list of notes taken so far, each with the
number of its task.  A turn for a task that does not exist is skipped. -/
def code : Pt V E → Unit × List (Nat × Note V E) → Act (Pt V E) (Unit × List (Nat × Note V E)) V E
  | .task _ .ret, _ => .ret
  | .task _ (.fail e), _ => .throw e
  | .task out (.say v t), _ => .api (.push out (.copy v)) fun _ => .task out t
  | .task out (.sub t u), _ => .call (.task out t) (.task out u)
  | .task out (.obj o t), _ => .newObj o (.task out t)
  | .spawn [] hs js, g => .tau g (.pick hs js)
  | .spawn (t :: ts) hs js, _ => .try_ false (fun e => .lost ts hs js e) (.make t ts hs js)
  | .make t ts hs js, _ => .api (.mk .pull .val .ok fun out => .task out t) <| onHandle fun h => .made ts hs js h
  | .made ts hs js h, _ => .endTry (.spawn ts (hs ++ [some h]) js)
  | .lost ts hs js e, (a, m) => .tau (a, m ++ [(hs.length, .failed e)]) (.spawn ts (hs ++ [none]) js)
  | .pick hs [], g => .tau g (.clean hs)
  | .pick hs (j :: js), g =>
    match hs[j]? with
    | some (some h) => .api (.itBegin h) <| onIt fun i => .look hs js j i
    | _ => .tau g (.pick hs js)
  | .look hs js _ none, g => .tau g (.pick hs js)
  | .look hs js j (some i), _ => .api (.itDeref (some i)) <| onVal fun v => .put hs js j i v
  | .put hs js j i v, (a, m) => .tau (a, m ++ [(j, .said v)]) (.next hs js j i)
  | .next hs js j i, _ => .try_ false (fun e => .caught hs js j e) (.inc hs js i)
  | .inc hs js i, _ => .api (.itNext (some i)) fun _ => .went hs js
  | .went hs js, _ => .endTry (.pick hs js)
  | .caught hs js j e, (a, m) => .tau (a, m ++ [(j, .failed e)]) (.pick hs js)
  | .clean [], _ => .ret
  | .clean (none :: hs), g => .tau g (.clean hs)
  | .clean (some h :: hs), _ => .api (.destroy h) fun _ => .clean hs
  | .stop, _ => .ret

/-- The program (doc/intro.qbk:45-46, doc/asymmetric.qbk:233-237). -/
def prog (mv : V → V) (gl : Bool) : Prog (Pt V E) (Unit × List (Nat × Note V E)) V E where
  code := code
  mv := mv
  genericLambda := gl

end Verif.Crew
