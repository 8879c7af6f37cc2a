import Verif.Machine
import Verif.Alloc

/-!
# The library with assertions enabled

`Machine.lean` models a build with `NDEBUG`: `BOOST_ASSERT( e)` is nothing.  Here the same library is run with assertions: an
assertion whose expression is false ends the program.  The assertions of the library are those of the iterators
(pull_coroutine.hpp:75, 83, 84, 186, 194, 195, push_coroutine.hpp:87, 170) and that of `create_control_block`
(create_control_block.ipp:45, for which see `Alloc.placeAligned`).
-/
namespace Verif
variable {L G V E : Type}

/-- Which assertion (pull_coroutine.hpp:83/194, 84/195, push_coroutine.hpp:87/170). -/
inductive Assertion
  | incEnd        -- `increment_`: `nullptr != c_`
  | incFalse      -- `increment_`: `* c_`
  | putEnd        -- `operator=( T)`: `nullptr != c_`
  deriving DecidableEq, Repr

/-- Outcome of a step with assertions on (pull_coroutine.hpp:75-84, push_coroutine.hpp:87). -/
inductive OutA (α : Type)
  | out (o : Out α)               -- as without assertions
  | failed (x : Assertion) (s : α)

/-- `increment_()` (pull_coroutine.hpp:82-87, 193-198): `c_` is not null, then `* c_` is evaluated - `operator bool` of the object
`c_` points to (pull.ipp:81-84) -, then the body runs, `o`. -/
def incrementA (s : St L G V E) (i : Option Nat) (o : Out (St L G V E)) : OutA (St L G V E) :=
  match i with
  | none => .failed .incEnd s
  | some h =>
    match s.hs h with
    | none => .out (.ub .noObject s)
    | some hd =>
      if hd.ty = .pull then
        match handleBool s h with
        | .ok true => .out o
        | .ok false => .failed .incFalse s
        | .error u => .out (.ub u s)
      else .out o

/-- push iterator `operator=( T t)` (push_coroutine.hpp:86-92, 169-175): `c_` is not null, then the body runs, `o`. -/
def assignA (s : St L G V E) (i : Option Nat) (o : Out (St L G V E)) : OutA (St L G V E) :=
  match i with
  | none => .failed .putEnd s
  | some _ => .out o

/-- `fetch_()` (pull_coroutine.hpp:74-80, 185-191): `c_` is not null; it is called by the constructor with the address of an object
(`begin()`, pull_coroutine.hpp:134) and at the end of `increment_`, which has checked it already.  So there is nothing to do for it. -/
def stepA (P : Prog L G V E) (s : St L G V E) : OutA (St L G V E) :=
  match s.ctl with
  | .eval l =>
    match P.code l s.g with
    | .api (.itNext i) _ => incrementA s i (step P s)
    | .api (.itPut i _) _ => assignA s i (step P s)
    | _ => .out (step P s)
  | _ => .out (step P s)

/-- `n` steps with assertions on (pull_coroutine.hpp:75-84, push_coroutine.hpp:87). -/
def runA (P : Prog L G V E) : Nat → St L G V E → OutA (St L G V E)
  | 0, s => .out (.next s)
  | n+1, s => match stepA P s with
    | .out (.next s') => runA P n s'
    | o => o

end Verif
