import Verif.Machine

/-!
# The example `fibonacci.cpp`, as a program of the model

The number of rounds is a parameter (the example makes 8, fibonacci.cpp:17).  `int` is represented by `Nat`; `C47_no_overflow` shows for how
many rounds the difference does not matter.
-/
namespace Verif.Fib

/-- A piece of output: `i << " "` (fibonacci.cpp:25), `"\nDone"` (27). -/
inductive Tok
  | num (n : Nat)
  | done
  deriving DecidableEq

/-- Program points of example/fibonacci.cpp. -/
inductive Pt
  | lam (sink : Nat)                           -- the lambda is entered (14)
  | second (sink : Nat)                        -- `sink(second)` (16)
  | loop (sink i first second : Nat)           -- `i < 8` (17)
  | third (sink i first second : Nat)          -- `third = first + second; first = second; second = third` (18-20)
  | emit (sink i first second third : Nat)     -- `sink(third)` (21)
  | done                                       -- the lambda returns (23)
  | main                                       -- `source` is constructed (12)
  | scope (h : Nat)                            -- `source` is a local from here on
  | start (h : Nat)                            -- `begin(source)` of the range-for (24)
  | test (it : Option Nat)                     -- `it != end(source)`
  | print (h v : Nat)                          -- `cout << i << " "` (25)
  | next (h : Nat)                             -- `++it`
  | finish                                     -- `cout << "\nDone"` (27)
  | stop                                       -- `return EXIT_SUCCESS` (28): `source` is destroyed

/-- A constructor gives an object (pull.ipp:43-59). -/
def onHandle (k : Nat → Pt) : Res Nat → Pt
  | .handle h => k h
  | _ => .done
/-- `begin()` and `++` give an iterator (pull_coroutine.hpp:70-130). -/
def onIt (k : Option Nat → Pt) : Res Nat → Pt
  | .it i => k i
  | _ => .done
/-- `*it` gives a value (pull_coroutine.hpp:123-125). -/
def onVal (k : Nat → Pt) : Res Nat → Pt
  | .val v => k v
  | _ => .done

/-- The code (fibonacci.cpp:11-29) with `n` rounds of the loop; the range-for as [stmt.ranged] spells it out.  Memory: the output. -/
def code {E : Type} (n : Nat) : Pt → Unit × List Tok → Act Pt (Unit × List Tok) Nat E
  | .lam sink, _ => .api (.push sink (.copy 1)) fun _ => .second sink
  | .second sink, _ => .api (.push sink (.copy 1)) fun _ => .loop sink 0 1 1
  | .loop sink i a b, g => if i < n then .tau g (.third sink i a b) else .tau g .done
  | .third sink i a b, g => .tau g (.emit sink i b (a + b) (a + b))
  | .emit sink i a b c, _ => .api (.push sink (.copy c)) fun _ => .loop sink (i + 1) a b
  | .done, _ => .ret
  | .main, _ => .api (.mk .pull .val .ok fun sink => .lam sink) <| onHandle fun h => .scope h
  | .scope h, _ => .guard h (.start h)
  | .start h, _ => .api (.itBegin h) <| onIt fun i => .test i
  | .test none, g => .tau g .finish
  | .test (some h), _ => .api (.itDeref (some h)) <| onVal fun v => .print h v
  | .print h v, (_, out) => .tau ((), out ++ [.num v]) (.next h)
  | .next h, _ => .api (.itNext (some h)) <| onIt fun i => .test i
  | .finish, (_, out) => .tau ((), out ++ [.done]) .stop
  | .stop, _ => .ret

/-- The program (example/fibonacci.cpp). -/
def prog {E : Type} (n : Nat) (mv : Nat → Nat) (gl : Bool) : Prog Pt (Unit × List Tok) Nat E where
  code := code n
  mv := mv
  genericLambda := gl

end Verif.Fib
