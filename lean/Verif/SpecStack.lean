import Verif.SpecApi

/-!
# Vocabulary of the specification: what is on a context's stack

Used to state C60; nothing here models library code.
-/
namespace Verif
variable {L G V E : Type}

/-- Entries that stand for something user code has opened and not yet closed: a local object, a local coroutine object, a `try`
block, a function call.  Everything else is there because of a call into the library
(pull_control_block_cc.ipp:111, 147, push_control_block_cc.ipp:111, 137, pull_coroutine.hpp:82-87, push_coroutine.hpp:86-92). -/
def isScope : Frame L V E → Bool
  | .gObj _ => true
  | .gCoro _ => true
  | .hdl _ _ => true
  | .fnRet _ => true
  | _ => false

/-- What user code has open in context `i`, innermost first. -/
def scopes (s : St L G V E) (i : Nat) : List (Frame L V E) := (s.frames i).filter isScope

/-- Number of entries the library has on the stack of context `i`. -/
def libDepth (s : St L G V E) (i : Nat) : Nat := ((s.frames i).filter fun f => !isScope f).length

/-- The next step neither opens nor closes a scope: it is not an entry into or exit from a block, a function call or return,
and no exception is on its way.  Computation and all operations of the library are such steps. -/
def OpensNothing (P : Prog L G V E) (s : St L G V E) : Prop :=
  match s.ctl with
  | .eval l => (∃ g l', P.code l s.g = .tau g l') ∨ ∃ op k, P.code l s.g = .api op k
  | .deliver _ | .recv => True
  | _ => False

/-- An execution from `s` to `s'` in which context `i`, whenever it runs, opens and closes no scope; the other contexts do what they
like: they are switched to and from, end, are destroyed and constructed. -/
inductive Steady (P : Prog L G V E) (i : Nat) (s : St L G V E) : St L G V E → Prop
  | refl : Steady P i s s
  | step {s1 s2 : St L G V E} : Steady P i s s1 → (s1.cur = i → OpensNothing P s1) → step P s1 = .next s2 → Steady P i s s2

/-- Entries on all stacks together. -/
def allDepth (s : St L G V E) : Nat := ((List.range s.nk).map fun i => (s.frames i).length).sum

/-- Scopes open in all contexts together. -/
def allScopes (s : St L G V E) : Nat := ((List.range s.nk).map fun i => (scopes s i).length).sum

/-- Number of contexts that are switched out or in the middle of a library call. -/
def busy (s : St L G V E) : Nat := ((List.range s.nk).filter fun i => libDepth s i != 0).length

end Verif
