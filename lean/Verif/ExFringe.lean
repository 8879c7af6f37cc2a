import Verif.SpecFringe
import Verif.Machine

/-!
# The example `same_fringe.cpp`, as a program of the model

`Fringe.prog` is the user code of example/same_fringe.cpp: the recursive `traverse`, a reader passed to `std::copy`, and two readers passed
to `std::equal`.  The trees are parameters (the example builds fixed ones, same_fringe.cpp:44-78); `V` stands for `std::string`.
-/
namespace Verif.Fringe

/-- Program points of example/same_fringe.cpp. -/
inductive Pt (V : Type)
  | lam (out : Nat) (t : Tree V)        -- the lambda passed to the reader's constructor (lines 95-98 and five more)
  | trav (out : Nat) (t : Tree V)       -- `traverse(n, out)` entered (81)
  | emit (out : Nat) (t : Tree V)       -- after the left subtree: `out(n->value)` (84)
  | right (out : Nat) (t : Tree V)      -- `if (n->right) traverse(n->right,out)` (85-86)
  | done                                -- a function returns
  | copy (t : Tree V)                   -- a reader is constructed and copied (95-103)
  | copyScope (h : Nat)                 -- the reader is a local from here on
  | copyBegin (h : Nat)                 -- `std::begin(reader)`
  | copyLoop (it : Option Nat)          -- `first != last` in std::copy
  | copyPut (h : Nat) (v : V)           -- `*result = *first`
  | copyNext (h : Nat)                  -- `++first`
  | equal (t u : Tree V)                -- two readers are constructed and compared (129-145)
  | equalScope1 (u : Tree V) (h : Nat)  -- the first reader is a local from here on
  | equal2 (u : Tree V) (h : Nat)       -- the second reader is constructed (134-137)
  | equalScope2 (h i : Nat)             -- the second reader is a local from here on
  | equalBegin1 (h i : Nat)             -- `std::begin(first reader)`
  | equalBegin2 (i : Nat) (it : Option Nat)             -- `std::begin(second reader)`
  | equalLoop (it jt : Option Nat)      -- `first1 != last1` in std::equal
  | equalRead (h : Nat) (jt : Option Nat) (v : V)       -- `*first2`
  | equalTest (h : Nat) (jt : Option Nat) (v w : V)     -- `*first1 == *first2`
  | equalNext2 (it jt : Option Nat)     -- `++first2`
  | equalDone (b : Bool)                -- the result is printed
  | equalEnd                            -- end of the block: the second reader is destroyed
  | equalEnd2                           -- … and the first
  | stop                                -- end of main

/-- Memory of the consumer: what std::copy has written, what std::equal has returned. -/
structure Mem (V : Type) where
  out : List V := []
  res : Option Bool := none

variable {V E : Type}

/-- The result of an API call is of one kind only, the other results do not occur: a constructor gives an object (pull.ipp:43-59). -/
def onHandle (k : Nat → Pt V) : Res V → Pt V
  | .handle h => k h
  | _ => .stop
/-- `begin()` and `++` give an iterator (pull_coroutine.hpp:70-130). -/
def onIt (k : Option Nat → Pt V) : Res V → Pt V
  | .it i => k i
  | _ => .stop
/-- `*it` gives a value (pull_coroutine.hpp:123-125). -/
def onVal (k : V → Pt V) : Res V → Pt V
  | .val v => k v
  | _ => .stop

/-- The code (same_fringe.cpp:81-87 and 95-103, 128-145); `std::copy` and `std::equal` as the C++ standard specifies them
([alg.copy], [alg.equal], one comparison and one increment of each iterator per round).  A pointer dereferenced at `nil` would be a fault of
the user program: those points return. -/
def code [DecidableEq V] : Pt V → Unit × Mem V → Act (Pt V) (Unit × Mem V) V E
  | .lam out t, _ => .call (.trav out t) .done
  | .trav out (.node .nil v r), g => .tau g (.emit out (.node .nil v r))
  | .trav out (.node (.node a b c) v r), _ => .call (.trav out (.node a b c)) (.emit out (.node (.node a b c) v r))
  | .emit out (.node l v r), _ => .api (.push out (.copy v)) fun _ => .right out (.node l v r)
  | .right _ (.node _ _ .nil), g => .tau g .done
  | .right out (.node _ _ (.node a b c)), _ => .call (.trav out (.node a b c)) .done
  | .trav _ .nil, _ => .ret
  | .emit _ .nil, _ => .ret
  | .right _ .nil, _ => .ret
  | .done, _ => .ret
  | .copy t, _ => .api (.mk .pull .val .ok fun out => .lam out t) <| onHandle fun h => .copyScope h
  | .copyScope h, _ => .guard h (.copyBegin h)
  | .copyBegin h, _ => .api (.itBegin h) <| onIt fun i => .copyLoop i
  | .copyLoop none, _ => .leave .stop
  | .copyLoop (some h), _ => .api (.itDeref (some h)) <| onVal fun v => .copyPut h v
  | .copyPut h v, (a, m) => .tau (a, { m with out := m.out ++ [v] }) (.copyNext h)
  | .copyNext h, _ => .api (.itNext (some h)) <| onIt fun i => .copyLoop i
  | .equal t u, _ => .api (.mk .pull .val .ok fun out => .lam out t) <| onHandle fun h => .equalScope1 u h
  | .equalScope1 u h, _ => .guard h (.equal2 u h)
  | .equal2 u h, _ => .api (.mk .pull .val .ok fun out => .lam out u) <| onHandle fun i => .equalScope2 h i
  | .equalScope2 h i, _ => .guard i (.equalBegin1 h i)
  | .equalBegin1 h i, _ => .api (.itBegin h) <| onIt fun x => .equalBegin2 i x
  | .equalBegin2 i x, _ => .api (.itBegin i) <| onIt fun y => .equalLoop x y
  | .equalLoop none _, g => .tau g (.equalDone true)
  | .equalLoop (some h) jt, _ => .api (.itDeref (some h)) <| onVal fun v => .equalRead h jt v
  | .equalRead h jt v, _ => .api (.itDeref jt) <| onVal fun w => .equalTest h jt v w
  | .equalTest h jt v w, g =>
    if v = w then .api (.itNext (some h)) (onIt fun x => .equalNext2 x jt) else .tau g (.equalDone false)
  | .equalNext2 x jt, _ => .api (.itNext jt) <| onIt fun y => .equalLoop x y
  | .equalDone b, (a, m) => .tau (a, { m with res := some b }) .equalEnd
  | .equalEnd, _ => .leave .equalEnd2
  | .equalEnd2, _ => .leave .stop
  | .stop, _ => .ret

/-- The program (example/same_fringe.cpp). -/
def prog [DecidableEq V] (mv : V → V) (gl : Bool) : Prog (Pt V) (Unit × Mem V) V E where
  code := code
  mv := mv
  genericLambda := gl

end Verif.Fringe
