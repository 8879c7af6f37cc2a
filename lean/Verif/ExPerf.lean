import Verif.Machine

/-!
# The benchmark `performance.cpp`, as a program of the model

`measure_time_void` (performance.cpp:29-41; `measure_cycles_void`, 44-56, is the same with another clock) called by `main` (83).  The number
of jobs is a parameter (`--jobs`, 66).  Reading the clock (31, 35) is a program point; time itself is not modelled.
-/
namespace Verif.Perf

/-- Program points of performance/performance.cpp. -/
inductive Pt
  | main                      -- `measure_time_void( overhead_c)` is called (83)
  | make                      -- `c{ fn }` (30)
  | scope (h : Nat)           -- `c` is a local from here on
  | start (h : Nat)           -- `start( clock_type::now() )` (31)
  | loop (h i : Nat)          -- `i < jobs` (32)
  | resume (h i : Nat)        -- `c()` (33)
  | stop                      -- `clock_type::now() - start` (35)
  | leave                     -- `return total` (40): `c` is destroyed
  | finish                    -- `return EXIT_SUCCESS` (90)
  | fn (c : Nat)              -- `while ( true)` (24-26): `c()`

/-- A constructor gives an object (pull.ipp:173-197). -/
def onHandle (k : Nat → Pt) : Res Unit → Pt
  | .handle h => k h
  | _ => .finish

/-- The code (performance.cpp:23-41, 83-90).  Memory: none. -/
def code {E : Type} (jobs : Nat) : Pt → Unit → Act Pt Unit Unit E
  | .main, _ => .call .make .finish
  | .make, _ => .api (.mk .pull .void .ok .fn) <| onHandle .scope
  | .scope h, _ => .guard h (.start h)
  | .start h, _ => .tau () (.loop h 0)
  | .loop h i, _ => if i < jobs then .tau () (.resume h i) else .tau () .stop
  | .resume h i, _ => .api (.resume h) fun _ => .loop h (i + 1)
  | .stop, _ => .tau () .leave
  | .leave, _ => .ret
  | .finish, _ => .ret
  | .fn c, _ => .api (.push c .unit) fun _ => .fn c

/-- The program (performance/performance.cpp). -/
def prog {E : Type} (jobs : Nat) (gl : Bool) : Prog Pt Unit Unit E where
  code := code jobs
  mv := id
  genericLambda := gl

end Verif.Perf
