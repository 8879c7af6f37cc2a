import Verif.SpecCursors
import Verif.Machine

/-!
# Cursors that are opened, advanced, moved, exchanged and closed at any time, as a program of the model

Every cursor is a pull coroutine.  A list of commands makes coroutines, reads values from them, moves the coroutine objects to other addresses,
assigns one to another and destroys them, in any order; at last those that are left are destroyed.  The repository contains no such program; the
calls are those of doc/asymmetric.qbk:43-80, 233-237.
-/
namespace Verif.Cursors
open Crew (Job Note)

/-- Program points of main and of the functions of the cursors (the code is not in the repository).  `hs` are the objects, `none` for a cursor whose
constructor has thrown or that has been closed; `cs` the commands to come (doc/asymmetric.qbk:43-80, 233-237). -/
inductive Pt (V E : Type)
  | task (out : Nat) (t : Job V E)                                                    -- the function of a cursor, or one it has called; `out` is its sink
  | run (hs : List (Option Nat)) (cs : List (Cmd V E))                                -- the next command
  | make (t : Job V E) (hs : List (Option Nat)) (cs : List (Cmd V E))                 -- `try {` a coroutine is constructed
  | made (hs : List (Option Nat)) (cs : List (Cmd V E)) (h : Nat)                     -- `}`
  | lost (hs : List (Option Nat)) (cs : List (Cmd V E)) (e : E)                       -- `catch ( E e)`
  | look (hs : List (Option Nat)) (cs : List (Cmd V E)) (j : Nat) (it : Option Nat)   -- `it == end(src)` ?
  | put (hs : List (Option Nat)) (cs : List (Cmd V E)) (j i : Nat) (v : V)            -- the value `*it` is noted
  | next (hs : List (Option Nat)) (cs : List (Cmd V E)) (j i : Nat)                   -- `try {`
  | inc (hs : List (Option Nat)) (cs : List (Cmd V E)) (i : Nat)                      -- `++it`
  | went (hs : List (Option Nat)) (cs : List (Cmd V E))                               -- `}`
  | caught (hs : List (Option Nat)) (cs : List (Cmd V E)) (j : Nat) (e : E)           -- `catch ( E e)`
  | moved (hs : List (Option Nat)) (cs : List (Cmd V E)) (j h h' : Nat)               -- the old object is destroyed
  | clean (hs : List (Option Nat))                                                    -- the coroutines are destroyed one by one
  | stop                                                                              -- end of main

variable {V E : Type}

/-- The result of an API call is of one kind only, the other results do not occur: a constructor gives an object (pull.ipp:43-59, 68-72). -/
def onHandle (k : Nat → Pt V E) : Res V → Pt V E
  | .handle h => k h
  | _ => .stop
/-- `begin()` gives an iterator (pull_coroutine.hpp:99-104, 134). -/
def onIt (k : Option Nat → Pt V E) : Res V → Pt V E
  | .it i => k i
  | _ => .stop
/-- `*it` gives a value (pull_coroutine.hpp:123-125). -/
def onVal (k : V → Pt V E) : Res V → Pt V E
  | .val v => k v
  | _ => .stop

/-- The code: constructors (pull.ipp:43-59), the move constructor (pull.ipp:68-72), the assignment (pull_coroutine.hpp:57-60), `begin()`
(pull_coroutine.hpp:134), `*it` and `++it` (pull_coroutine.hpp:114-125), the destructor (pull.ipp:61-66), and `sink(v)` in the functions
(push.ipp:63-68).  Memory is the list of notes taken so far, each with the number of the cursor.  Commands for cursors that do not exist are
skipped. -/
def code : Pt V E → Unit × List (Nat × Note V E) → Act (Pt V E) (Unit × List (Nat × Note V E)) V E
  | .task _ .ret, _ => .ret
  | .task _ (.fail e), _ => .throw e
  | .task out (.say v t), _ => .api (.push out (.copy v)) fun _ => .task out t
  | .task out (.sub t u), _ => .call (.task out t) (.task out u)
  | .task out (.obj o t), _ => .newObj o (.task out t)
  | .run hs [], g => .tau g (.clean hs)
  | .run hs (.open_ t :: cs), _ => .try_ false (fun e => .lost hs cs e) (.make t hs cs)
  | .make t hs cs, _ => .api (.mk .pull .val .ok fun out => .task out t) <| onHandle fun h => .made hs cs h
  | .made hs cs h, _ => .endTry (.run (hs ++ [some h]) cs)
  | .lost hs cs e, (a, m) => .tau (a, m ++ [(hs.length, .failed e)]) (.run (hs ++ [none]) cs)
  | .run hs (.next j :: cs), g =>
    match hs[j]? with
    | some (some h) => .api (.itBegin h) <| onIt fun i => .look hs cs j i
    | _ => .tau g (.run hs cs)
  | .look hs cs _ none, g => .tau g (.run hs cs)
  | .look hs cs j (some i), _ => .api (.itDeref (some i)) <| onVal fun v => .put hs cs j i v
  | .put hs cs j i v, (a, m) => .tau (a, m ++ [(j, .said v)]) (.next hs cs j i)
  | .next hs cs j i, _ => .try_ false (fun e => .caught hs cs j e) (.inc hs cs i)
  | .inc hs cs i, _ => .api (.itNext (some i)) fun _ => .went hs cs
  | .went hs cs, _ => .endTry (.run hs cs)
  | .caught hs cs j e, (a, m) => .tau (a, m ++ [(j, .failed e)]) (.run hs cs)
  | .run hs (.move j :: cs), g =>
    match hs[j]? with
    | some (some h) => .api (.moveCtor h) <| onHandle fun h' => .moved hs cs j h h'
    | _ => .tau g (.run hs cs)
  | .moved hs cs j h h', _ => .api (.destroy h) fun _ => .run (hs.set j (some h')) cs
  | .run hs (.assign i j :: cs), g =>
    match hs[i]?, hs[j]? with
    | some (some d), some (some c) => .api (.moveAssign d c) fun _ => .run hs cs
    | _, _ => .tau g (.run hs cs)
  | .run hs (.close j :: cs), g =>
    match hs[j]? with
    | some (some h) => .api (.destroy h) fun _ => .run (hs.set j none) cs
    | _ => .tau g (.run hs cs)
  | .clean [], _ => .ret
  | .clean (none :: hs), g => .tau g (.clean hs)
  | .clean (some h :: hs), _ => .api (.destroy h) fun _ => .clean hs
  | .stop, _ => .ret

/-- The program (doc/asymmetric.qbk:43-80, 233-237). -/
def prog (mv : V → V) (gl : Bool) : Prog (Pt V E) (Unit × List (Nat × Note V E)) V E where
  code := code
  mv := mv
  genericLambda := gl

end Verif.Cursors
