import Verif.SpecFib
import Verif.ExFib
import Verif.Produce

/-!
# C47: the example `fibonacci.cpp`
-/
namespace Verif.Fib
variable {E : Type} {n : Nat} {mv : Nat → Nat} {gl : Bool}

namespace Aux

/-- what is pushed from round `i` on -/
theorem loop_yields {hp : Nat} (d : Nat) : ∀ i, i + d = n → Yields (E := E) (B := List Tok) (prog n mv gl) hp () (.eval (.loop hp i (fib (i + 1)) (fib (i + 2)))) []
    ((List.range d).map fun j => fib (i + j + 3)) none := by
  induction d with
  | zero =>
    intro i hi
    refine .tau (a' := ()) (l' := .done) (fun _ => ?_) (.back (fun _ => rfl) .ret)
    show (if i < n then _ else _) = _
    rw [if_neg (by omega)]
  | succ d ih =>
    intro i hi
    refine .tau (a' := ()) (l' := .third hp i (fib (i + 1)) (fib (i + 2))) (fun _ => ?_) (.tau (fun _ => rfl) ?_)
    · show (if i < n then _ else _) = _
      rw [if_pos (by omega)]
    · rw [List.range_succ_eq_map, List.map_cons, List.map_map]
      refine .push (fun _ => rfl) (by simp) ?_
      have := ih (i + 1) (by omega)
      have e : ((fun j => fib (i + j + 3)) ∘ Nat.succ) = fun j => fib (i + 1 + j + 3) := by
        funext j
        show fib (i + (j + 1) + 3) = _
        congr 1
        omega
      rw [e]
      exact this

theorem lam_yields {hp : Nat} : Yields (E := E) (B := List Tok) (prog n mv gl) hp () (.eval (.lam hp)) []
    ((List.range (n + 2)).map fun j => fib (j + 1)) none := by
  have : (List.range (n + 2)).map (fun j => fib (j + 1)) = 1 :: 1 :: (List.range n).map fun j => fib (0 + j + 3) := by
    rw [List.range_succ_eq_map, List.map_cons, List.map_map, List.range_succ_eq_map, List.map_cons, List.map_map]
    simp [fib, Function.comp_def]
  rw [this]
  exact .push (fun _ => rfl) (by simp) (.push (fun _ => rfl) (by simp) (loop_yields n 0 (by omega)))

theorem print_loop {h c hp : Nat} {l0 : Pt} {g0 : Unit × List Tok} (xs : List Nat) : ∀ (v : Nat) (s : St Pt (Unit × List Tok) Nat E) (m : List Tok),
    Reach (prog n mv gl) l0 g0 s → Ready (prog n mv gl) s h c hp () v xs none → s.ctl = .eval (.test (some h)) → s.g = ((), m) →
    ∃ s', Later (prog n mv gl) s s' ∧ s'.cur = s.cur ∧ s'.fr = s.fr ∧ s'.ctl = .eval (.test none) ∧ s'.base s.cur = s.base s.cur ∧
      s'.g = ((), m ++ (v :: xs).map .num) ∧ Spent s' h c hp none := by
  induction xs with
  | nil =>
    intro v s m hr hq hx hg
    obtain ⟨s1, l1, h1⟩ := op_deref hq ⟨_, hx, rfl⟩
    have r1 := l1.reach hr
    have x1 : s1.ctl = .eval (.print h v) := by rw [h1]; rfl
    have e2 := tau_step (P := prog n mv gl) x1 (g := ((), m ++ [.num v])) (l' := .next h) (by rw [h1]; simp only [hg]; rfl)
    have q2 : Ready (prog n mv gl) { s1 with ctl := .eval (.next h), g := ((), m ++ [.num v]) } h c hp () v [] none :=
      hq.congr (by rw [h1]) (by rw [h1]) (by rw [h1]) (by rw [h1]) (by rw [h1]) (by rw [h1]) (by rw [h1]) (by rw [h1])
    obtain ⟨s3, _, l3, c3, f3, g3, -, k3, hres⟩ := op_next (r1.step e2) q2 ⟨_, rfl, rfl⟩ rfl
    rcases hres with ⟨_, _, h, -⟩ | ⟨-, -, x3, q3⟩ | ⟨_, -, h, -⟩
    · cases h
    · refine ⟨s3, (l1.step e2).trans l3, c3.trans (by rw [h1]), f3.trans (by rw [h1]; rfl), x3, ?_, g3, q3⟩
      rw [k3.base _ hq.ne, h1]
    · cases h
  | cons w ys ih =>
    intro v s m hr hq hx hg
    obtain ⟨s1, l1, h1⟩ := op_deref hq ⟨_, hx, rfl⟩
    have r1 := l1.reach hr
    have x1 : s1.ctl = .eval (.print h v) := by rw [h1]; rfl
    have e2 := tau_step (P := prog n mv gl) x1 (g := ((), m ++ [.num v])) (l' := .next h) (by rw [h1]; simp only [hg]; rfl)
    have q2 : Ready (prog n mv gl) { s1 with ctl := .eval (.next h), g := ((), m ++ [.num v]) } h c hp () v (w :: ys) none :=
      hq.congr (by rw [h1]) (by rw [h1]) (by rw [h1]) (by rw [h1]) (by rw [h1]) (by rw [h1]) (by rw [h1]) (by rw [h1])
    obtain ⟨s3, _, l3, c3, f3, g3, -, k3, hres⟩ := op_next (r1.step e2) q2 ⟨_, rfl, rfl⟩ rfl
    rcases hres with ⟨_, _, h, x3, q3⟩ | ⟨h, -⟩ | ⟨_, h, -⟩
    · cases h
      have c3' : s3.cur = s.cur := c3.trans (by rw [h1])
      obtain ⟨s4, l4, c4, f4, x4, b4, g4, q4⟩ := ih w s3 _ (l3.reach (r1.step e2)) q3 x3 g3
      refine ⟨s4, ((l1.step e2).trans l3).trans l4, c4.trans c3', f4.trans (f3.trans (by rw [h1]; rfl)), x4, ?_, ?_, q4⟩
      · rw [← c3', b4, c3', k3.base _ hq.ne, h1]
      · rw [g4]; simp
    · cases h
    · cases h

end Aux

/-- C47: the program runs to its end, and what it has printed is the first `n + 2` Fibonacci numbers in order, followed by "Done". -/
theorem C47_output (n : Nat) (mv : Nat → Nat) (gl : Bool) :
    ∃ s' : St Pt (Unit × List Tok) Nat E, Later (prog n mv gl) (init .main ((), [])) s' ∧ step (prog n mv gl) s' = .done s' ∧
      s'.g.2 = ((List.range (n + 2)).map fun i => .num (fib (i + 1))) ++ [.done] := by
  have r0 : Reach (E := E) (prog n mv gl) .main ((), []) (init .main ((), [])) := .init
  obtain ⟨s1, _, l1, c1, f1, g1, b1, hres⟩ := op_mk (P := prog n mv gl) r0 ⟨_, rfl, rfl⟩ rfl Aux.lam_yields
  rcases hres with ⟨v, ys, hxs, x1, q1, -⟩ | ⟨h, -⟩ | ⟨_, -, h, -⟩
  · have r1 := l1.reach r0
    have e2 := (Local.guard (P := prog n mv gl) x1 rfl).fwd
    have c1' : s1.cur = 0 := c1
    have q2 := q1.congr (s' := { s1 with g := s1.g, frames := upd s1.frames s1.cur (.gCoro 1 :: s1.fr), ctl := .eval (.start 1), log := [] ++ s1.log })
      rfl rfl rfl rfl rfl rfl (upd_off _ _ q1.ne.symm) rfl
    obtain ⟨s3, l3, h3⟩ := op_begin q2 ⟨_, rfl, rfl⟩
    have r3 := l3.reach (r1.step e2)
    have q3 : Ready (prog n mv gl) s3 _ _ _ () v ys none := q2.congr (by rw [h3]) (by rw [h3]) (by rw [h3]) (by rw [h3]) (by rw [h3]) (by rw [h3]) (by rw [h3]) (by rw [h3])
    obtain ⟨s4, l4, c4, f4, x4, b4, g4, q4⟩ := Aux.print_loop ys v s3 [] r3 q3 (by rw [h3]; rfl) (by rw [h3]; exact g1)
    have f4' : s4.fr = [.gCoro 1] := by
      rw [f4, h3]; show upd _ _ _ _ = _; rw [upd_at, f1]; rfl
    have c3 : s3.cur = 0 := by rw [h3]; exact c1'
    have e5 := tau_step (P := prog n mv gl) x4 (g := s4.g) (l' := .finish) rfl
    have e6 := tau_step (P := prog n mv gl) (s := { s4 with ctl := .eval .finish, g := s4.g }) rfl (g := ((), s4.g.2 ++ [.done])) (l' := .stop) rfl
    have e7 := Local.fwd (P := prog n mv gl) (.ret (s := { s4 with ctl := .eval .stop, g := ((), s4.g.2 ++ [.done]) }) rfl rfl)
    have l7 := ((Later.step .refl e5).step e6).step e7
    have r7 := l7.reach (l4.reach r3)
    have f7 : upd s4.frames s4.cur s4.fr = s4.frames := upd_self' _ _ rfl
    simp only [St.fr, f7] at f4' l7 r7
    obtain ⟨s8, l8, c8, x8, f8, g8, b8, -⟩ := op_drop r7 (q4.idle.congr rfl rfl rfl rfl rfl rfl (by simp [upd_self']) rfl) (by simp)
      (.ret rfl (t := []) (by simp only [St.fr, upd_self']; exact f4')) rfl
    rw [undone_id fun _ _ => rfl] at g8
    have e9 := (Local.dCRet (P := prog n mv gl) x8 f8).fwd
    refine ⟨_, (((((l1.step e2).trans l3).trans l4).trans l7).trans l8).step e9, ?_, ?_⟩
    · have hc5 : s8.cur = 0 := c8.trans (c4.trans c3)
      have hb : s8.base 0 = .main := by
        rw [b8 0 Nat.zero_ne_one]
        show s4.base 0 = _
        rw [← c3, b4, c3, h3]
        show s1.base 0 = _
        rw [b1 0 Nat.zero_ne_one]; rfl
      simp [step, retStep, St.fr, hc5, hb]
    · show s8.g.2 = _
      rw [g8]
      show s4.g.2 ++ _ = _
      rw [g4, ← hxs]
      simp [Function.comp_def]
  · simp [List.range_succ] at h
  · cases h

/-- Fibonacci numbers do not decrease. -/
theorem Aux.fib_mono {a b : Nat} (h : a ≤ b) : fib a ≤ fib b := by
  induction h with
  | refl => exact Nat.le_refl _
  | @step b _ ih =>
    refine Nat.le_trans ih ?_
    cases b with
    | zero => decide
    | succ b => show _ ≤ fib b + fib (b + 1); omega

/-- two neighbours, computed from below -/
def Aux.pair : Nat → Nat × Nat
  | 0 => (0, 1)
  | n + 1 => ((Aux.pair n).2, (Aux.pair n).1 + (Aux.pair n).2)

theorem Aux.pair_eq (n : Nat) : Aux.pair n = (fib n, fib (n + 1)) := by
  induction n with
  | zero => rfl
  | succ n ih => rw [Aux.pair, ih]; rfl

/-- C47: with at most 44 rounds (the example makes 8) every number computed fits into a 32-bit `int`: the arithmetic of the model and of the
example agree. -/
theorem C47_no_overflow (hn : n ≤ 44) : ∀ i < n + 2, fib (i + 1) < 2 ^ 31 := by
  intro i hi
  have h1 : fib (i + 1) ≤ fib 46 := Aux.fib_mono (by omega)
  have h2 : fib 46 = 1836311903 := by
    have := Aux.pair_eq 45
    have e : Aux.pair 45 = (1134903170, 1836311903) := by decide
    rw [e] at this
    exact (Prod.ext_iff.1 this).2.symm
  omega

/-! Non-vacuity: the example itself. -/
example : ((List.range (8 + 2)).map fun i => fib (i + 1)) = [1, 1, 2, 3, 5, 8, 13, 21, 34, 55] := by decide
example : 8 ≤ 44 ∧ ¬ fib 47 < 2 ^ 31 := by
  refine ⟨by decide, ?_⟩
  have := Aux.pair_eq 46
  have e : Aux.pair 46 = (1836311903, 2971215073) := by decide
  rw [e] at this
  have h : fib 47 = 2971215073 := (Prod.ext_iff.1 this).2.symm
  omega

end Verif.Fib
