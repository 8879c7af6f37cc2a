/-!
# Specification vocabulary for C73: tasks that may fail
-/
namespace Verif.Crew

/-- The function of a task: a sequence of statements. -/
inductive Job (V E : Type)
  | ret                                  -- the function returns
  | fail (e : E)                         -- an exception is thrown
  | say (v : V) (rest : Job V E)         -- a value is handed over
  | sub (helper rest : Job V E)          -- an ordinary function is called, which may hand over values and throw too
  | obj (o : Nat) (rest : Job V E)       -- a local object, which lives until the function is left

/-- How a task ends when it runs on its own: it returns (`none`), or an exception leaves it. -/
def Job.ends {V E : Type} : Job V E → Option E
  | .ret => none
  | .fail e => some e
  | .say _ t => t.ends
  | .sub t u => match t.ends with
    | some e => some e
    | none => u.ends
  | .obj _ t => t.ends

/-- What a task says when it runs on its own. -/
def Job.said {V E : Type} : Job V E → List V
  | .ret => []
  | .fail _ => []
  | .say v t => v :: t.said
  | .sub t u => t.said ++ match t.ends with
    | some _ => []
    | none => u.said
  | .obj _ t => t.said

/-- What is noted about a task. -/
inductive Note (V E : Type)
  | said (v : V)
  | failed (e : E)
  deriving DecidableEq

/-- A task with the values `xs` left and the end `r` has been resumed: what is noted if it has failed, … -/
def fails {V E : Type} : List V → Option E → List (Note V E)
  | [], some e => [.failed e]
  | _, _ => []
/-- … and what end it still has: a failure is reported once. -/
def left {V E : Type} : List V → Option E → Option E
  | [], _ => none
  | _, r => r

/-- What is noted when the tasks are created, the first one with number `n`: those that fail before they say anything. -/
def opening {V E : Type} : Nat → List (Job V E) → List (Nat × Note V E)
  | _, [] => []
  | n, t :: ts => (fails t.said t.ends).map (Prod.mk n) ++ opening (n + 1) ts

/-- The tasks are given turns as the plan says. -/
def serve {V E : Type} : List Nat → List (List V × Option E) → List (Nat × Note V E)
  | [], _ => []
  | j :: js, st =>
    match st[j]? with
    | some (v :: ys, r) => (j, .said v) :: ((fails ys r).map (Prod.mk j) ++ serve js (st.set j (ys, left ys r)))
    | _ => serve js st

/-- What is to be noted about a task with the values `xs` and the end `r` that is given `n` turns: the first `n` values, and the exception if it
has no more. -/
def report {V E : Type} (xs : List V) (r : Option E) (n : Nat) : List (Note V E) :=
  (xs.take n).map .said ++ if xs.length ≤ n then r.toList.map .failed else []

/-- What has been noted about task `j`. -/
def about {V E : Type} (j : Nat) (out : List (Nat × Note V E)) : List (Note V E) := out.filterMap fun p => if p.1 = j then some p.2 else none

end Verif.Crew
