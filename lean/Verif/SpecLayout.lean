/-!
# Specification vocabulary for C48: words on lines
-/
namespace Verif.Layout

/-- A piece of output: a word, a line break, "Done". -/
inductive Tok (V : Type)
  | word (v : V)
  | eol
  | done
  deriving DecidableEq

/-- The words in order, with a line break before each word whose number (counted from 0) is a positive multiple of `num`. -/
def layout {V : Type} (num : Nat) (ws : List V) : List (Tok V) :=
  ws.zipIdx.flatMap fun p => if p.2 ≠ 0 ∧ num ∣ p.2 then [.eol, .word p.1] else [.word p.1]

end Verif.Layout
