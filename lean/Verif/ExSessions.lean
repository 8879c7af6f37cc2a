import Verif.SpecSessions
import Verif.Machine
import Mathlib.Data.Nat.Pairing

/-!
# Sessions that are opened, served, moved and closed at any time, as a program of the model

Every session is a push coroutine.  A list of commands makes coroutines, gives them values, moves the coroutine objects to other addresses and
destroys them, in any order; at last those that are left are destroyed.  Sessions have local objects whose destructors write to memory.  The
documentation describes such programs (doc/motivation.qbk:17-75, doc/asymmetric.qbk:122-128, 260-262); the repository contains none.
-/
namespace Verif.Sessions
open Events (React)

/-- Program points of main and of the sessions (doc/motivation.qbk:17-75; the code is not in the repository).  `hs` are the objects, `none` for a
session that has been closed; `cs` the commands to come. -/
inductive Pt (Q V E : Type)
  | wake (src j : Nat) (q : Q)                              -- the function of session `j`, or one it has called: an event has come; `src` is its source
  | got (src j : Nat) (q : Q) (v : V)                       -- it is noted
  | act (src j : Nat) (r : React Q E)                       -- the session does what it does
  | sub (src j o : Nat) (q : Q)                             -- a called function: a local object
  | kept (src j o : Nat) (q : Q)                            -- it is noted
  | ask (src j : Nat) (q : Q)                               -- `src()`
  | leave                                                   -- return
  | run (hs : List (Option Nat)) (cs : List (Cmd Q V))                                 -- the next command
  | check (hs : List (Option Nat)) (cs : List (Cmd Q V)) (j h : Nat) (v : V) (b : Bool) -- `if ( sink)`
  | send (hs : List (Option Nat)) (cs : List (Cmd Q V)) (h : Nat) (v : V)              -- `try { sink( v);`
  | went (hs : List (Option Nat)) (cs : List (Cmd Q V))                                -- `}`
  | caught (hs : List (Option Nat)) (cs : List (Cmd Q V)) (j : Nat) (e : E)            -- `catch ( E e)`
  | moved (hs : List (Option Nat)) (cs : List (Cmd Q V)) (j h h' : Nat)                -- the old object is destroyed
  | clean (hs : List (Option Nat))                                                     -- the coroutines are destroyed one by one

variable {Q V E : Type}

/-- The result of an API call is of one kind only, the other results do not occur: a constructor gives an object (push.ipp:44-48, 57-61). -/
def onHandle (k : Nat → Pt Q V E) : Res V → Pt Q V E
  | .handle h => k h
  | _ => .leave
/-- `get()` gives a value (pull.ipp:92-96). -/
def onVal (k : V → Pt Q V E) : Res V → Pt Q V E
  | .val v => k v
  | _ => .leave
/-- `operator bool` gives a truth value (push.ipp:77-80). -/
def onBool (k : Bool → Pt Q V E) : Res V → Pt Q V E
  | .bool b => k b
  | _ => .leave

/-- The code: constructors (push.ipp:44-48), the move constructor (push.ipp:57-61), `operator bool` (push.ipp:77-80), `sink(v)` (push.ipp:63-68),
the destructor (push.ipp:50-55), and `src.get()`, `src()` in the sessions (pull.ipp:74-79, 92-96).  Memory is the list of notes taken so far, each
with the number of its session.  Local object `o` of session `j` has the number `Nat.pair j o`. -/
def code (δ : Q → V → React Q E) : Pt Q V E → Unit × List (Nat × Note V E) → Act (Pt Q V E) (Unit × List (Nat × Note V E)) V E
  | .wake src j q, _ => .api (.get src) <| onVal fun v => .got src j q v
  | .got src j q v, (a, m) => .tau (a, m ++ [(j, .heard v)]) (.act src j (δ q v))
  | .act src j (.again q), _ => .api (.resume src) fun _ => .wake src j q
  | .act src j (.deep o q), _ => .call (.sub src j o q) .leave
  | .act _ _ .quit, _ => .ret
  | .act _ _ (.fail e), _ => .throw e
  | .sub src j o q, _ => .newObj (Nat.pair j o) (.kept src j o q)
  | .kept src j o q, (a, m) => .tau (a, m ++ [(j, .held o)]) (.ask src j q)
  | .ask src j q, _ => .api (.resume src) fun _ => .wake src j q
  | .leave, _ => .ret
  | .run hs [], g => .tau g (.clean hs)
  | .run hs (.open_ q :: cs), _ => .api (.mk .push .val .ok fun src => .wake src hs.length q) <| onHandle fun h => .run (hs ++ [some h]) cs
  | .run hs (.send j v :: cs), (a, m) =>
    match hs[j]? with
    | some (some h) => .api (.valid h) <| onBool fun b => .check hs cs j h v b
    | some none => .tau (a, m ++ [(j, .lost v)]) (.run hs cs)
    | none => .tau (a, m) (.run hs cs)
  | .run hs (.move j :: cs), g =>
    match hs[j]? with
    | some (some h) => .api (.moveCtor h) <| onHandle fun h' => .moved hs cs j h h'
    | _ => .tau g (.run hs cs)
  | .run hs (.close j :: cs), g =>
    match hs[j]? with
    | some (some h) => .api (.destroy h) fun _ => .run (hs.set j none) cs
    | _ => .tau g (.run hs cs)
  | .moved hs cs j h h', _ => .api (.destroy h) fun _ => .run (hs.set j (some h')) cs
  | .check hs cs j _ v false, (a, m) => .tau (a, m ++ [(j, .lost v)]) (.run hs cs)
  | .check hs cs j h v true, _ => .try_ false (fun e => .caught hs cs j e) (.send hs cs h v)
  | .send hs cs h v, _ => .api (.push h (.copy v)) fun _ => .went hs cs
  | .went hs cs, _ => .endTry (.run hs cs)
  | .caught hs cs j e, (a, m) => .tau (a, m ++ [(j, .failed e)]) (.run hs cs)
  | .clean [], _ => .ret
  | .clean (none :: hs), g => .tau g (.clean hs)
  | .clean (some h :: hs), _ => .api (.destroy h) fun _ => .clean hs

/-- The program, with destructors that note that they have run (doc/asymmetric.qbk:260-262). -/
def prog (δ : Q → V → React Q E) (mv : V → V) (gl : Bool) : Prog (Pt Q V E) (Unit × List (Nat × Note V E)) V E where
  code := code δ
  mv := mv
  genericLambda := gl
  dtor := fun p (a, m) => (a, m ++ [(p.unpair.1, .freed p.unpair.2)])

end Verif.Sessions
