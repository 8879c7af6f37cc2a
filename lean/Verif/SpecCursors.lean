import Verif.SpecCrew

/-!
# Specification vocabulary for C76: cursors that are opened, advanced, moved, exchanged and closed at any time

A cursor is described by the list of the values that are left in it, and by the exception that comes after them, if any.
-/
namespace Verif.Cursors
open Crew (Job Note fails left)

/-- What happens to the cursors. -/
inductive Cmd (V E : Type)
  | open_ (t : Job V E)     -- a new cursor; they are numbered in the order in which they are opened
  | next (j : Nat)          -- the next value of cursor `j`
  | move (j : Nat)          -- the coroutine object of cursor `j` is moved to another address
  | assign (i j : Nat)      -- `cursor[i] = std::move( cursor[j])`
  | close (j : Nat)         -- cursor `j` is closed

/-- A new cursor; there is none if the function throws at once. -/
def born {V E : Type} : List V → Option E → Option (List V × Option E)
  | [], some _ => none
  | xs, r => some (xs, r)

/-- All commands: `st` is what is left in the cursors, `none` for one that does not exist any more.  The assignment exchanges the two cursors. -/
def serve {V E : Type} : List (Cmd V E) → List (Option (List V × Option E)) → List (Nat × Note V E)
  | [], _ => []
  | .open_ t :: cs, st => (fails t.said t.ends).map (Prod.mk st.length) ++ serve cs (st ++ [born t.said t.ends])
  | .next j :: cs, st =>
    match st[j]? with
    | some (some (v :: ys, r)) => (j, .said v) :: ((fails ys r).map (Prod.mk j) ++ serve cs (st.set j (some (ys, left ys r))))
    | _ => serve cs st
  | .move _ :: cs, st => serve cs st
  | .assign i j :: cs, st =>
    match st[i]?, st[j]? with
    | some (some p), some (some q) => serve cs ((st.set i (some q)).set j (some p))
    | _, _ => serve cs st
  | .close j :: cs, st => serve cs (st.set j none)

/-- How often cursor `k` is advanced before it is closed. -/
def turns {V E : Type} (k : Nat) : List (Cmd V E) → Nat
  | [] => 0
  | .next j :: cs => if j = k then turns k cs + 1 else turns k cs
  | .close j :: cs => if j = k then 0 else turns k cs
  | _ :: cs => turns k cs

/-- How many cursors are opened. -/
def opened {V E : Type} : List (Cmd V E) → Nat
  | [] => 0
  | .open_ _ :: cs => opened cs + 1
  | _ :: cs => opened cs

end Verif.Cursors
