import Verif.SpecCo

/-!
# What user code has open in a function

Used to state that two states agree (C55, C62, C63, C65).  Part of the specification; nothing here models library code.
-/
namespace Verif
variable {L G V E : Type}

/-- Something user code has opened and not yet closed: a local object, a local coroutine object, a `try` block, a function call that has
not returned (doc/asymmetric.qbk:58-60, 260-274). -/
inductive Open (L E : Type)
  | obj (o : Nat)
  | co (h : Nat)
  | handler (sw : Bool) (f : E → L)
  | call (back : L)

/-- The entries of a stack of the library model that stand for a scope (doc/asymmetric.qbk:58-60). -/
def scopeOf : Frame L V E → Option (Open L E)
  | .gObj o => some (.obj o)
  | .gCoro h => some (.co h)
  | .hdl sw f => some (.handler sw f)
  | .fnRet l => some (.call l)
  | _ => none

/-- The same for the specification machine (doc/asymmetric.qbk:58-60). -/
def Coro.scopeOf : Coro.Fr L V E → Option (Open L E)
  | .obj o => some (.obj o)
  | .co h => some (.co h)
  | .handler sw f => some (.handler sw f)
  | .caller l => some (.call l)
  | _ => none

/-- What user code has open in context `i`, innermost first (doc/asymmetric.qbk:58-60). -/
def opened (s : St L G V E) (i : Nat) : List (Open L E) := (s.frames i).filterMap scopeOf

/-- The same for the specification machine (doc/asymmetric.qbk:58-60). -/
def Coro.opened (a : Coro.St L G V E) (i : Nat) : List (Open L E) := (a.stack i).filterMap Coro.scopeOf

/-- Number of function calls that have not returned (doc/asymmetric.qbk:58-60). -/
def nCalls (l : List (Open L E)) : Nat := l.countP fun
  | .call _ => true
  | _ => false

end Verif
