import Verif.SpecEvents
import Verif.Machine

/-!
# An event loop whose handlers are push coroutines, as a program of the model

Any number of push coroutines is made, one for each handler; then there is a list of events, each for one of the handlers; at last all
coroutines are destroyed.  The documentation describes such programs (doc/motivation.qbk:17-75, doc/asymmetric.qbk:122-128); the repository
contains none.
-/
namespace Verif.Events

/-- Program points of the event loop and of the handlers (doc/motivation.qbk:17-75; the code is not in the repository). `hs` are the objects
made so far, `es` the events to come. -/
inductive Pt (Q V E : Type)
  | wake (src j : Nat) (q : Q)                              -- the function of handler `j`, or one it has called: an event has come; `src` is its source
  | got (src j : Nat) (q : Q) (v : V)                       -- it is noted
  | act (src j : Nat) (r : React Q E)                       -- the handler does what it does
  | sub (src j o : Nat) (q : Q)                             -- a called function: a local object
  | ask (src j : Nat) (q : Q)                               -- `src()`
  | leave                                                   -- return
  | spawn (qs : List Q) (hs : List Nat) (es : List (Nat × V))                  -- a coroutine is made for every handler
  | pick (hs : List Nat) (es : List (Nat × V))                                 -- the next event
  | check (hs : List Nat) (es : List (Nat × V)) (j h : Nat) (v : V) (b : Bool) -- `if ( sink)`
  | send (hs : List Nat) (es : List (Nat × V)) (h : Nat) (v : V)               -- `try { sink( v);`
  | went (hs : List Nat) (es : List (Nat × V))                                 -- `}`
  | caught (hs : List Nat) (es : List (Nat × V)) (j : Nat) (e : E)             -- `catch ( E e)`
  | clean (hs : List Nat)                                                      -- the coroutines are destroyed one by one

variable {Q V E : Type}

/-- The result of an API call is of one kind only, the other results do not occur: a constructor gives an object (push.ipp:44-48). -/
def onHandle (k : Nat → Pt Q V E) : Res V → Pt Q V E
  | .handle h => k h
  | _ => .leave
/-- `get()` gives a value (pull.ipp:92-96). -/
def onVal (k : V → Pt Q V E) : Res V → Pt Q V E
  | .val v => k v
  | _ => .leave
/-- `operator bool` gives a truth value (push.ipp:77-80). -/
def onBool (k : Bool → Pt Q V E) : Res V → Pt Q V E
  | .bool b => k b
  | _ => .leave

/-- The code: constructors (push.ipp:44-48), `operator bool` (push.ipp:77-80), `sink(v)` (push.ipp:63-68), the destructor (push.ipp:50-55), and
`src.get()`, `src()` in the handlers (pull.ipp:74-79, 92-96).  Memory is the list of notes taken so far, each with the number of its handler. -/
def code (δ : Q → V → React Q E) : Pt Q V E → Unit × List (Nat × Note V E) → Act (Pt Q V E) (Unit × List (Nat × Note V E)) V E
  | .wake src j q, _ => .api (.get src) <| onVal fun v => .got src j q v
  | .got src j q v, (a, m) => .tau (a, m ++ [(j, .heard v)]) (.act src j (δ q v))
  | .act src j (.again q), _ => .api (.resume src) fun _ => .wake src j q
  | .act src j (.deep o q), _ => .call (.sub src j o q) .leave
  | .act _ _ .quit, _ => .ret
  | .act _ _ (.fail e), _ => .throw e
  | .sub src j o q, _ => .newObj o (.ask src j q)
  | .ask src j q, _ => .api (.resume src) fun _ => .wake src j q
  | .leave, _ => .ret
  | .spawn [] hs es, g => .tau g (.pick hs es)
  | .spawn (q :: qs) hs es, _ => .api (.mk .push .val .ok fun src => .wake src hs.length q) <| onHandle fun h => .spawn qs (hs ++ [h]) es
  | .pick hs [], g => .tau g (.clean hs)
  | .pick hs ((j, v) :: es), g =>
    match hs[j]? with
    | some h => .api (.valid h) <| onBool fun b => .check hs es j h v b
    | none => .tau g (.pick hs es)
  | .check hs es j _ v false, (a, m) => .tau (a, m ++ [(j, .lost v)]) (.pick hs es)
  | .check hs es j h v true, _ => .try_ false (fun e => .caught hs es j e) (.send hs es h v)
  | .send hs es h v, _ => .api (.push h (.copy v)) fun _ => .went hs es
  | .went hs es, _ => .endTry (.pick hs es)
  | .caught hs es j e, (a, m) => .tau (a, m ++ [(j, .failed e)]) (.pick hs es)
  | .clean [], _ => .ret
  | .clean (h :: hs), _ => .api (.destroy h) fun _ => .clean hs

/-- The program (doc/motivation.qbk:17-75). -/
def prog (δ : Q → V → React Q E) (mv : V → V) (gl : Bool) : Prog (Pt Q V E) (Unit × List (Nat × Note V E)) V E where
  code := code δ
  mv := mv
  genericLambda := gl

end Verif.Events
