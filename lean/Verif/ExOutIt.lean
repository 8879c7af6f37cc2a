import Verif.Machine

/-!
# The test `test_output_iterator`, as a program of the model

test/test_coroutine.cpp:576-603: a consumer that stops by itself, fed through an output iterator whose comparison with `end` is the only way
to notice.  The limit (5 in the test) is a parameter.  `Feed.list` is the same consumer fed by `std::copy` from a list instead.
-/
namespace Verif.OutIt

/-- Program points of test_output_iterator. -/
inductive Pt
  | lam (c : Nat)                        -- `int x = c.get()` (585)
  | test (c x : Nat)                     -- `while ( 5 > x)` (586)
  | store (c x : Nat)                    -- `vec.push_back( x)` (588)
  | ask (c : Nat)                        -- `c()` (589)
  | read (c : Nat)                       -- `x = ….get()` (589)
  | leave                                -- the consumer returns (591)
  | main                                 -- `coro` is constructed, `counter = 0` (581-583)
  | scope (h : Nat)                      -- `coro` is a local from here on
  | start (h : Nat)                      -- `i( begin( coro) )` (593)
  | loop (it : Option Nat) (n : Nat)     -- `i != e` (594), then `i = ++counter` (596)
  | lmain (vs : List Nat)                -- the other program: `coro` is constructed
  | lscope (h : Nat) (vs : List Nat)     -- … and is a local from here on
  | lstart (h : Nat) (vs : List Nat)     -- `begin( coro)`
  | copy (it : Option Nat) (vs : List Nat)  -- std::copy: `*result = *first`
  | stop                                 -- the end of the function: `coro` is destroyed (603)

/-- A constructor gives an object (push.ipp:44-51). -/
def onHandle (k : Nat → Pt) : Res Nat → Pt
  | .handle h => k h
  | _ => .leave
/-- `begin()` and the assignment through a push iterator give an iterator (push_coroutine.hpp:69-109). -/
def onIt (k : Option Nat → Pt) : Res Nat → Pt
  | .it i => k i
  | _ => .leave
/-- `get()` gives a value (pull.ipp:92-96). -/
def onVal (k : Nat → Pt) : Res Nat → Pt
  | .val v => k v
  | _ => .leave

/-- The code (test/test_coroutine.cpp:576-603) with limit `lim`; `int` is represented by `Nat`.  Memory: `vec`. -/
def code {E : Type} (lim : Nat) : Pt → List Nat → Act Pt (List Nat) Nat E
  | .lam c, _ => .api (.get c) <| onVal fun x => .test c x
  | .test c x, g => if lim > x then .tau g (.store c x) else .ret
  | .store c x, vec => .tau (vec ++ [x]) (.ask c)
  | .ask c, _ => .api (.resume c) fun _ => .read c
  | .read c, _ => .api (.get c) <| onVal fun x => .test c x
  | .leave, _ => .ret
  | .main, _ => .api (.mk .push .val .ok fun c => .lam c) <| onHandle fun h => .scope h
  | .scope h, _ => .guard h (.start h)
  | .start h, _ => .api (.itBegin h) <| onIt fun i => .loop i 0
  | .loop none _, g => .tau g .stop
  | .loop (some h) n, _ => .api (.itPut (some h) (.copy (n + 1))) <| onIt fun i => .loop i (n + 1)
  | .lmain vs, _ => .api (.mk .push .val .ok fun c => .lam c) <| onHandle fun h => .lscope h vs
  | .lscope h vs, _ => .guard h (.lstart h vs)
  | .lstart h vs, _ => .api (.itBegin h) <| onIt fun i => .copy i vs
  | .copy _ [], g => .tau g .stop
  | .copy it (v :: vs), _ => .api (.itPut it (.copy v)) <| onIt fun i => .copy i vs
  | .stop, _ => .ret

/-- The program (test/test_coroutine.cpp:576-603). -/
def prog {E : Type} (lim : Nat) (mv : Nat → Nat) (gl : Bool) : Prog Pt (List Nat) Nat E where
  code := code lim
  mv := mv
  genericLambda := gl

end Verif.OutIt
