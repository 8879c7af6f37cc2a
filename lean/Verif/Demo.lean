import Verif.Code
import Verif.Spec

/-!
# Concrete programs for the non-vacuity examples

Values and exceptions are numbers, shared memory is a list of numbers, `mv` (what a moved-from `T` looks like) is `fun _ => 0`,
the destructor of object `o` appends `o` to the memory.
Nothing here models library code.
-/
namespace Verif

theorem reach_run {L G V E : Type} {P : Prog L G V E} {l0 : L} {g0 : G} {n : Nat} :
    ∀ {s s' : St L G V E}, Reach P l0 g0 s → run P n s = .next s' → Reach P l0 g0 s' := by
  induction n with
  | zero => intro s s' h h'; simp only [run, Out.next.injEq] at h'; exact h' ▸ h
  | succ n ih =>
    intro s s' h h'
    simp only [run] at h'
    split at h'
    · rename_i s1 hs
      exact ih (h.step hs) h'
    · rename_i hne
      exact absurd h' (hne s')

namespace Demo
open Code

abbrev C := Code (List Nat) Nat Nat
abbrev S := St C (List Nat) Nat Nat
abbrev P : Prog C (List Nat) Nat Nat := prog (fun _ => 0) (dtor := fun o g => g ++ [o])

/-- State of program `c` after `n` steps. -/
def stateAt (c : C) (n : Nat) : S := (run P n (init c [])).state

theorem next_of {α : Type} {o : Out α} (h : o.verdict = .running) : o = .next o.state := by
  cases o <;> simp_all [Out.verdict, Out.state]

theorem reach (c : C) (n : Nat) (h : (run P n (init c [])).verdict = .running) : Reach P c [] (stateAt c n) :=
  reach_run .init (next_of h)

/-- A generator with a local object that pushes 1, 2, 3. -/
def gen : Nat → C := fun h => obj 7 (push h 1 (obj 8 (push h 2 (leave (push h 3 ret)))))

/-- Main: construct the generator, read two values, destroy it while unfinished. -/
def pullMain : C :=
  mk .pull .val gen fun h => get h fun _ => resume h (get h fun _ => op (.destroy h) fun _ => ret)

/-- Main: construct a consumer, push two values into it, destroy it. -/
def pushMain : C :=
  mk .push .val (fun h => obj 7 (get h fun _ => resume h (get h fun _ => resume h ret))) fun h =>
    push h 5 (push h 6 (op (.destroy h) fun _ => ret))

/-- The generator runs to its end; main then asks and destroys. -/
def fullMain : C :=
  mk .pull .val gen fun h => resume h (resume h (resume h (op (.valid h) fun _ => op (.destroy h) fun _ => ret)))

/-- The function throws 9 after its first value; main catches. -/
def throwMain : C :=
  mk .pull .val (fun h => push h 1 (throw 9)) fun h =>
    tryc (fun _ => op (.destroy h) fun _ => ret) (resume h (endTry ret))

/-- The function throws before its first value. -/
def earlyMain : C :=
  tryc (fun _ => ret) (mk .pull .val (fun _ => obj 3 (throw 9)) fun _ => endTry ret)

end Demo
end Verif
