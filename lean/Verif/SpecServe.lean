import Verif.SpecRobin

/-!
# Specification vocabulary for C72: tasks that are resumed in any order
-/
namespace Verif.Serve

/-- What is read if the tasks, which have `xss` to say, are given turns in the order `js`: task `j` says its next value in its turn, if it
has one. -/
def serve {V : Type} : List Nat → List (List V) → List (Nat × V)
  | [], _ => []
  | j :: js, xss =>
    match xss[j]? with
    | some (v :: ys) => (j, v) :: serve js (xss.set j ys)
    | _ => serve js xss

/-- What task `j` has said. -/
def by_ {V : Type} (j : Nat) (out : List (Nat × V)) : List V := out.filterMap fun p => if p.1 = j then some p.2 else none

end Verif.Serve
