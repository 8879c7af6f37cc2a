import Verif.Demo
import Verif.SpecObj
import Verif.RulesCheck

/-! # Helpers for the non-vacuity examples.  Nothing here models library code. -/
namespace Verif

theorem run_succ {L G V E : Type} {P : Prog L G V E} {n : Nat} : ∀ {s : St L G V E},
    run P (n + 1) s = match run P n s with | .next s' => step P s' | o => o := by
  induction n with
  | zero => intro s; simp only [run]; cases step P s <;> rfl
  | succ n ih =>
    intro s
    rw [run]
    cases h : step P s with
    | next s1 => simp only [run, h]; rw [← ih]; rfl
    | _ => simp only [run, h]

namespace Demo

theorem step_at (c : C) (n : Nat) (h : (run P (n + 1) (init c [])).verdict = .running) :
    step P (stateAt c n) = .next (stateAt c (n + 1)) ∧ (run P n (init c [])).verdict = .running := by
  unfold stateAt
  rw [run_succ] at h ⊢
  cases h1 : run P n (init c []) with
  | next s1 =>
    rw [h1] at h
    simp only [Out.state, Out.verdict, and_true] at h ⊢
    cases h2 : step P s1 <;> rw [h2] at h <;> simp_all
  | _ => rw [h1] at h; simp [Out.verdict] at h

theorem later (c : C) (n m : Nat) (h : (run P (n + m) (init c [])).verdict = .running) : Later P (stateAt c n) (stateAt c (n + m)) := by
  induction m with
  | zero => exact .refl
  | succ m ih =>
    obtain ⟨h1, h2⟩ := step_at c (n + m) h
    exact .step (ih h2) h1

/-- control leaves the running context at step `n` and comes back first at step `n + m` -/
def backB (c : C) (n m : Nat) : Bool :=
  (List.range m).all (fun i => i == 0 || (stateAt c (n + i)).cur != (stateAt c n).cur) &&
  ((stateAt c (n + m)).cur == (stateAt c n).cur) && decide ((run P (n + m) (init c [])).verdict = .running)

theorem away (c : C) (n m : Nat) (h : ∀ i, 0 < i → i < m + 2 → (stateAt c (n + i)).cur ≠ (stateAt c n).cur)
    (hr : (run P (n + (m + 1)) (init c [])).verdict = .running) : Away P (stateAt c n) (stateAt c (n + (m + 1))) := by
  induction m with
  | zero => exact .first (step_at c n hr).1 (h 1 (by omega) (by omega))
  | succ m ih =>
    obtain ⟨h1, h2⟩ := step_at c (n + (m + 1)) hr
    exact .next (ih (fun i h3 h4 => h i h3 (by omega)) h2) h1 (h (m + 2) (by omega) (by omega))

theorem back (c : C) (n m : Nat) (h : backB c n (m + 2) = true) : ComesBack P (stateAt c n) (stateAt c (n + (m + 2))) := by
  simp only [backB, Bool.and_eq_true, decide_eq_true_eq, beq_iff_eq, List.all_eq_true, List.mem_range, Bool.or_eq_true, bne_iff_ne] at h
  obtain ⟨⟨h1, h2⟩, h3⟩ := h
  obtain ⟨h4, h5⟩ := step_at c (n + (m + 1)) h3
  refine ⟨_, away c n m (fun i h6 h7 => ?_) h5, h4, h2⟩
  rcases h1 i h7 with h | h
  · omega
  · exact h

open Code in
/-- Coroutine 1 is created by main and resumed by the function of coroutine 2. -/
def crossMain : C :=
  mk .pull .val gen fun h => mk .pull .val (fun y => resume h (push y 10 ret)) fun w =>
    op (.destroy w) fun _ => op (.destroy h) fun _ => ret

end Demo
end Verif
