/-!
# Specification vocabulary for C71: tasks, and what a round-robin scheduler reads from them
-/
namespace Verif.Robin

/-- The function of a task: a sequence of statements. -/
inductive Task (V : Type)
  | ret                                  -- the function returns
  | say (v : V) (rest : Task V)          -- a value is handed over
  | sub (helper rest : Task V)           -- an ordinary function is called, which may hand over values too
  | obj (o : Nat) (rest : Task V)        -- a local object, which lives until the function returns

/-- What a task says when it runs on its own. -/
def Task.said {V : Type} : Task V → List V
  | .ret => []
  | .say v t => v :: t.said
  | .sub t u => t.said ++ u.said
  | .obj _ t => t.said

/-- The i-th values of those tasks that have one, in the order of the tasks. -/
def column {V : Type} (i : Nat) (xss : List (List V)) : List V := xss.filterMap fun xs => xs[i]?

/-- How many values the task with the most values has. -/
def longest {V : Type} (xss : List (List V)) : Nat := (xss.map List.length).foldr max 0

/-- One value of each task, then one more of each task that has more, and so on. -/
def robin {V : Type} (xss : List (List V)) : List V := (List.range (longest xss)).flatMap fun i => column i xss

end Verif.Robin
