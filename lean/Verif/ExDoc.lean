import Verif.Machine

/-!
# The push examples of the documentation, as programs of the model

asymmetric.qbk shows two consumers (a range-for over `source`, 200-205, and a `while` loop, 356-362) and two ways to feed them (a loop of
`sink(i)`, 207-210, and `std::copy` into `begin(sink)`, 364-365).  All four combinations are modelled.  What the consumer does with a value
(the documentation prints it) is a parameter `eff` working on user memory `M`; `V` stands for `int`.
-/
namespace Verif.Doc

/-- The consumer: `while(source){ … source.get() …; source(); }` (asymmetric.qbk:358-361) or `for(int i:source) …` (202-204). -/
inductive Taker
  | loop
  | range
/-- The feeding code: `for(int i:v) sink(i)` (asymmetric.qbk:208-210) or `std::copy(begin(v),end(v),begin(sink))` (365). -/
inductive Giver
  | loop
  | copy

/-- Program points. -/
inductive Pt (V : Type)
  | lam (src : Nat)                        -- the coroutine-function is entered
  | test (src : Nat)                       -- `while(source)`
  | read (src : Nat)                       -- `source.get()`
  | use (src : Nat) (v : V)                -- the body of the `while` loop
  | ask (src : Nat)                        -- `source()`
  | rtest (src : Nat) (it : Option Nat)    -- range-for: `it != end(source)`
  | ruse (src it : Nat) (v : V)            -- the body of the range-for, with `*it`
  | rnext (src it : Nat)                   -- `++it`
  | leave                                  -- the coroutine-function returns
  | main (vs : List V)                     -- `sink` is constructed
  | scope (h : Nat) (vs : List V)          -- `sink` is a local from here on
  | give (h : Nat) (vs : List V)           -- the feeding code begins
  | put (h : Nat) (vs : List V)            -- `sink(i)`
  | copy (it : Option Nat) (vs : List V)   -- std::copy: `*result = *first`
  | stop                                   -- the end of the block: `sink` is destroyed

variable {V M : Type}

/-- A constructor gives an object (push.ipp:44-51). -/
def onHandle (k : Nat → Pt V) : Res V → Pt V
  | .handle h => k h
  | _ => .leave
/-- `begin()`, `++` and the assignment through a push iterator give an iterator (pull_coroutine.hpp:70-130, push_coroutine.hpp:69-109). -/
def onIt (k : Option Nat → Pt V) : Res V → Pt V
  | .it i => k i
  | _ => .leave
/-- `get()` and `*it` give a value (pull.ipp:92-96). -/
def onVal (k : V → Pt V) : Res V → Pt V
  | .val v => k v
  | _ => .leave
/-- `operator bool` gives a truth value (pull.ipp:81-84). -/
def onBool (k : Bool → Pt V) : Res V → Pt V
  | .bool b => k b
  | _ => .leave

/-- The code (doc/asymmetric.qbk:200-210, 356-365). -/
def code {E : Type} (eff : V → M → M) (tk : Taker) (gv : Giver) : Pt V → M → Act (Pt V) M V E
  | .lam src, g => match tk with
    | .loop => .tau g (.test src)
    | .range => .api (.itBegin src) <| onIt fun i => .rtest src i
  | .test src, _ => .api (.valid src) <| onBool fun b => if b then .read src else .leave
  | .read src, _ => .api (.get src) <| onVal fun v => .use src v
  | .use src v, g => .tau (eff v g) (.ask src)
  | .ask src, _ => .api (.resume src) fun _ => .test src
  | .rtest _ none, _ => .ret
  | .rtest src (some i), _ => .api (.itDeref (some i)) <| onVal fun v => .ruse src i v
  | .ruse src i v, g => .tau (eff v g) (.rnext src i)
  | .rnext src i, _ => .api (.itNext (some i)) <| onIt fun j => .rtest src j
  | .leave, _ => .ret
  | .main vs, _ => .api (.mk .push .val .ok fun src => .lam src) <| onHandle fun h => .scope h vs
  | .scope h vs, _ => .guard h (.give h vs)
  | .give h vs, g => match gv with
    | .loop => .tau g (.put h vs)
    | .copy => .api (.itBegin h) <| onIt fun i => .copy i vs
  | .put _ [], g => .tau g .stop
  | .put h (v :: vs), _ => .api (.push h (.copy v)) fun _ => .put h vs
  | .copy _ [], g => .tau g .stop
  | .copy it (v :: vs), _ => .api (.itPut it (.copy v)) <| onIt fun i => .copy i vs
  | .stop, _ => .ret

/-- The programs (doc/asymmetric.qbk:200-210, 356-365). -/
def prog {E : Type} (eff : V → M → M) (tk : Taker) (gv : Giver) (mv : V → V) (gl : Bool) : Prog (Pt V) M V E where
  code := code eff tk gv
  mv := mv
  genericLambda := gl

end Verif.Doc
