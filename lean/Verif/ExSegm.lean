import Verif.Machine

/-!
# The example `segmented.cpp`, as a program of the model

A coroutine calls a recursive function; the depth of the recursion (384 in the example, segmented.cpp:32) is a parameter.  What the example
prints before the coroutine is constructed (33-41) depends on how Boost.Context was built, and is a parameter too.  `buf` and `access`
(16-23, 25-27) only use up stack; they are left out.
-/
namespace Verif.Segm

/-- A line of output (segmented.cpp:28, 46); `other` stands for the lines printed first (33-41). -/
inductive Line
  | other (s : String)
  | iteration (i : Int)
  | done
  deriving DecidableEq

/-- Program points of example/segmented.cpp. -/
inductive Pt
  | main                      -- lines 33-41
  | make                      -- `coro` is constructed (42-45)
  | scope (h : Nat)           -- `coro` is a local from here on
  | finish                    -- `"main: done"` (46)
  | stop                      -- `return EXIT_SUCCESS` (47): `coro` is destroyed
  | lam                       -- the lambda is entered (43)
  | bar (i : Int)             -- `bar( i)` is entered, `i > 0` (24-26)
  | print (i : Int)           -- `cout << i << ". iteration"` (28)
  | again (i : Int)             -- `bar( i - 1)` (29)
  | back                      -- `bar` returns (31), the lambda returns (45)

/-- A constructor gives an object (pull.ipp:173-197). -/
def onHandle (k : Nat → Pt) : Res Unit → Pt
  | .handle h => k h
  | _ => .stop

/-- The code (segmented.cpp:24-48) with recursion depth `n`.  Memory: the output. -/
def code {E : Type} (first : List String) (n : Int) : Pt → List Line → Act Pt (List Line) Unit E
  | .main, out => .tau (out ++ first.map .other) .make
  | .make, _ => .api (.mk .pull .void .ok fun _ => .lam) <| onHandle fun h => .scope h
  | .scope h, _ => .guard h .finish
  | .finish, out => .tau (out ++ [.done]) .stop
  | .stop, _ => .ret
  | .lam, _ => .call (.bar n) .back
  | .bar i, out => if i > 0 then .tau out (.print i) else .tau out .back
  | .print i, out => .tau (out ++ [.iteration i]) (.again i)
  | .again i, _ => .call (.bar (i - 1)) .back
  | .back, _ => .ret

/-- The program (example/segmented.cpp). -/
def prog {E : Type} (first : List String) (n : Int) (gl : Bool) : Prog Pt (List Line) Unit E where
  code := code first n
  mv := id
  genericLambda := gl

end Verif.Segm
