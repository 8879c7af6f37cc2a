import Verif.ExOutIt
import Verif.Consume

/-!
# C50: a consumer that stops by itself, behind an output iterator
-/
namespace Verif.OutIt
variable {E : Type} {lim : Nat} {mv : Nat → Nat} {gl : Bool}

namespace Aux

/-- where the consumer waits -/
def At (hp : Nat) (l : Pt) (F : List (Frame Pt Nat E)) : Prop := (l = .lam hp ∨ l = .read hp) ∧ F = []

theorem takes_on {hp v : Nat} {g : List Nat} {l : Pt} {F : List (Frame Pt Nat E)} (ha : At hp l F) (hv : v < lim) :
    Takes (prog lim mv gl) hp g v (.eval l) F (g ++ [v]) (.asks (.read hp) []) := by
  obtain ⟨hl, rfl⟩ := ha
  have h1 : Takes (E := E) (prog lim mv gl) hp g (mv v) (.eval (.test hp v)) [] (g ++ [v]) (.asks (.read hp) []) := by
    refine .tau (g1 := g) (l' := .store hp v) ?_ (.tau rfl (.askOp (k := fun _ => Pt.read hp) rfl))
    show (if lim > v then _ else _) = _
    rw [if_pos hv]
  rcases hl with rfl | rfl
  · exact .get rfl h1
  · exact .get rfl h1

theorem takes_off {hp v : Nat} {g : List Nat} {l : Pt} {F : List (Frame Pt Nat E)} (ha : At hp l F) (hv : ¬ v < lim) :
    Takes (prog lim mv gl) hp g v (.eval l) F g (.ends none) := by
  obtain ⟨hl, rfl⟩ := ha
  have h1 : Takes (E := E) (prog lim mv gl) hp g (mv v) (.eval (.test hp v)) [] g (.ends none) := by
    refine .back ?_ .ret
    show (if lim > v then _ else _) = _
    rw [if_neg hv]
  rcases hl with rfl | rfl
  · exact .get rfl h1
  · exact .get rfl h1

/-- the loop of the test, with `d` values still to come before the consumer stops -/
theorem count_loop {h c hp : Nat} {l0 : Pt} {g0 : List Nat} (d : Nat) : ∀ (n : Nat) (l : Pt) (F : List (Frame Pt Nat E)) (s : St Pt (List Nat) Nat E),
    Reach (prog lim mv gl) l0 g0 s → Sink s h c hp l F → At hp l F → s.ctl = .eval (.loop (some h) n) → lim - (n + 1) = d →
    ∃ s', Later (prog lim mv gl) s s' ∧ s'.cur = s.cur ∧ s'.fr = s.fr ∧ s'.ctl = .eval .stop ∧
      s'.base s.cur = s.base s.cur ∧ s'.g = s.g ++ (List.range d).map (fun i => n + 1 + i) ∧ PSpent s' h c hp none := by
  induction d with
  | zero =>
    intro n l F s hr hq ha hx hd
    obtain ⟨s1, t1, c1, f1, g1, -, k1, r, hres, x1, q1⟩ := op_push hr hq ⟨_, hx, rfl⟩ (.it (by simp)) .copy (takes_off (v := n + 1) ha (by omega))
    cases hres
    have e2 := tau_step (P := prog lim mv gl) (l := .loop none (n + 1)) x1 (g := s1.g) (l' := .stop) rfl
    exact ⟨_, t1.step e2, c1, f1, rfl, k1.base _ hq.ne, by simp [g1], q1.tau⟩
  | succ d ih =>
    intro n l F s hr hq ha hx hd
    obtain ⟨s1, t1, c1, f1, g1, -, k1, r, hres, x1, q1⟩ := op_push hr hq ⟨_, hx, rfl⟩ (.it (by simp)) .copy (takes_on (v := n + 1) ha (by omega))
    cases hres
    obtain ⟨s2, t2, c2, f2, x2, b2, g2, q2⟩ := ih (n + 1) _ _ s1 (t1.reach hr) q1 ⟨.inr rfl, rfl⟩ x1 (by omega)
    refine ⟨s2, t1.trans t2, c2.trans c1, f2.trans f1, x2, ?_, ?_, q2⟩
    · rw [← c1, b2, c1, k1.base _ hq.ne]
    · rw [g2, g1, List.range_succ_eq_map]
      simp only [List.map_cons, List.map_map, List.append_assoc, List.singleton_append, Nat.add_zero]
      congr 2
      refine List.map_congr_left fun i _ => ?_
      show n + 1 + 1 + i = n + 1 + (i + 1)
      omega

/-- `std::copy` of values all below the limit -/
theorem copy_loop {h c hp : Nat} {l0 : Pt} {g0 : List Nat} (rest : List Nat) (vs : List Nat) :
    ∀ (l : Pt) (F : List (Frame Pt Nat E)) (s : St Pt (List Nat) Nat E),
    Reach (prog lim mv gl) l0 g0 s → Sink s h c hp l F → At hp l F → s.ctl = .eval (.copy (some h) (vs ++ rest)) → (∀ v ∈ vs, v < lim) →
    ∃ s' l' F', Later (prog lim mv gl) s s' ∧ s'.cur = s.cur ∧ s'.fr = s.fr ∧ s'.ctl = .eval (.copy (some h) rest) ∧
      s'.base s.cur = s.base s.cur ∧ s'.g = s.g ++ vs ∧ Sink s' h c hp l' F' ∧ At hp l' F' := by
  induction vs with
  | nil =>
    intro l F s hr hq ha hx _
    exact ⟨s, l, F, .refl, rfl, rfl, hx, rfl, by simp, hq, ha⟩
  | cons v vs ih =>
    intro l F s hr hq ha hx hv
    obtain ⟨s1, t1, c1, f1, g1, -, k1, r, hres, x1, q1⟩ := op_push hr hq ⟨_, hx, rfl⟩ (.it (by simp)) .copy (takes_on (v := v) ha (hv v (by simp)))
    cases hres
    obtain ⟨s2, l2, F2, t2, c2, f2, x2, b2, g2, q2, a2⟩ := ih _ _ s1 (t1.reach hr) q1 ⟨.inr rfl, rfl⟩ x1 (fun w hw => hv w (by simp [hw]))
    refine ⟨s2, l2, F2, t1.trans t2, c2.trans c1, f2.trans f1, x2, ?_, ?_, q2, a2⟩
    · rw [← c1, b2, c1, k1.base _ hq.ne]
    · rw [g2, g1]; simp

end Aux

/-- C50: the program runs to its end (the iterator becomes the end iterator when the consumer stops), and `vec` holds exactly the values below
the limit, `1, 2, …, lim - 1`. -/
theorem C50_stops (lim : Nat) (mv : Nat → Nat) (gl : Bool) :
    ∃ s' : St Pt (List Nat) Nat E, Later (prog lim mv gl) (init .main []) s' ∧ step (prog lim mv gl) s' = .done s' ∧
      s'.g = (List.range (lim - 1)).map (· + 1) := by
  have r0 : Reach (E := E) (prog lim mv gl) .main [] (init .main []) := .init
  obtain ⟨s1, l1, c1, f1, g1, n1, k1, x1, q1⟩ := op_localPush (P := prog lim mv gl) (l' := .start 1) r0 ⟨_, rfl, rfl⟩ rfl
  have r1 := l1.reach r0
  obtain ⟨s2, l2, h2, q2⟩ := op_beginPush (P := prog lim mv gl) (h := 1) q1 ⟨_, x1, rfl⟩
  have r2 := l2.reach r1
  have c2 : s2.cur = 0 := by rw [h2]; exact c1
  obtain ⟨s3, l3, c3, f3, x3, b3, g3, q3⟩ := Aux.count_loop (lim - 1) 0 _ _ s2 r2 q2 ⟨.inl rfl, rfl⟩ (by rw [h2]; rfl) rfl
  have f3' : s3.fr = [.gCoro 1] := by
    rw [f3, h2]
    exact f1
  have b3' : s3.base 0 = .main := by
    rw [← c2, b3, c2, h2]
    exact k1.base 0 Nat.zero_ne_one
  obtain ⟨s6, l6, d6, g6, -⟩ := main_end (l3.reach r2) q3.idle x3 rfl f3' (c3.trans c2) b3'
  rw [undone_id fun _ _ => rfl] at g6
  refine ⟨s6, ((l1.trans l2).trans l3).trans l6, d6, ?_⟩
  rw [g6, g3, h2]
  show s1.g ++ _ = _
  rw [g1]
  show [] ++ _ = _
  rw [List.nil_append]
  refine List.map_congr_left fun i _ => ?_
  omega

/-- The same consumer fed by `std::copy`: if no value but possibly the last reaches the limit, all goes well and `vec` holds the values below
the limit. -/
theorem C50_copy (lim : Nat) (mv : Nat → Nat) (gl : Bool) (vs : List Nat) (hv : ∀ v ∈ vs, v < lim) (last : List Nat)
    (hl : last = [] ∨ ∃ v, last = [v] ∧ ¬ v < lim) :
    ∃ s' : St Pt (List Nat) Nat E, Later (prog lim mv gl) (init (.lmain (vs ++ last)) []) s' ∧ step (prog lim mv gl) s' = .done s' ∧ s'.g = vs := by
  have r0 : Reach (E := E) (prog lim mv gl) (.lmain (vs ++ last)) [] (init (.lmain (vs ++ last)) []) := .init
  obtain ⟨s1, l1, c1, f1, g1, n1, k1, x1, q1⟩ := op_localPush (P := prog lim mv gl) (l' := .lstart 1 (vs ++ last)) r0 ⟨_, rfl, rfl⟩ rfl
  have r1 := l1.reach r0
  obtain ⟨s2, l2, h2, q2⟩ := op_beginPush (P := prog lim mv gl) (h := 1) q1 ⟨_, x1, rfl⟩
  have r2 := l2.reach r1
  have c2 : s2.cur = 0 := by rw [h2]; exact c1
  obtain ⟨s3, l', F', l3, c3, f3, x3, b3, g3, q3, a3⟩ := Aux.copy_loop last vs _ _ s2 r2 q2 ⟨.inl rfl, rfl⟩ (by rw [h2]; rfl) hv
  have r3 := l3.reach r2
  have f3' : s3.fr = [.gCoro 1] := by
    rw [f3, h2]
    exact f1
  have b3' : s3.base 0 = .main := by
    rw [← c2, b3, c2, h2]
    exact k1.base 0 Nat.zero_ne_one
  have g3' : s3.g = vs := by
    rw [g3, h2]
    show s1.g ++ _ = _
    rw [g1]
    rfl
  rcases hl with rfl | ⟨v, rfl, hv⟩
  · have e4 := tau_step (P := prog lim mv gl) x3 (g := s3.g) (l' := .stop) rfl
    have hF : ∀ f ∈ F', Plain f := by rw [a3.2]; simp
    obtain ⟨s6, l6, d6, g6, -⟩ := main_end (r3.step e4) (q3.tau.idle hF) rfl rfl f3' (c3.trans c2) b3'
    rw [undone_id fun _ _ => rfl] at g6
    exact ⟨s6, (((l1.trans l2).trans l3).step e4).trans l6, d6, g6.trans g3'⟩
  · obtain ⟨s4, t4, c4, f4, g4, -, k4, r, hres, x4, q4⟩ := op_push r3 q3 ⟨_, x3, rfl⟩ (.it (by simp)) .copy (Aux.takes_off a3 hv)
    cases hres
    have e5 := tau_step (P := prog lim mv gl) (l := .copy none []) x4 (g := s4.g) (l' := .stop) rfl
    have b4 : s4.base 0 = .main := by
      have := k4.base 0 (by have := q3.ne; rw [c3, c2] at this; exact this)
      rw [this, b3']
    obtain ⟨s6, l6, d6, g6, -⟩ := main_end ((t4.reach r3).step e5) q4.tau.idle rfl rfl (f4.trans f3') (c4.trans (c3.trans c2)) b4
    rw [undone_id fun _ _ => rfl] at g6
    exact ⟨s6, ((((l1.trans l2).trans l3).trans t4).step e5).trans l6, d6, g6.trans (g4.trans g3')⟩

/-- … and if a value that reaches the limit is followed by another one, `std::copy` assigns through an iterator that no longer refers to a
coroutine: undefined behaviour (the assertion in push_coroutine.hpp:87; `std::copy` never compares its output iterator). -/
theorem C50_overrun (lim : Nat) (mv : Nat → Nat) (gl : Bool) (vs : List Nat) (hv : ∀ v ∈ vs, v < lim) (v w : Nat) (hl : ¬ v < lim) (rest : List Nat) :
    ∃ s' s'' : St Pt (List Nat) Nat E, Later (prog lim mv gl) (init (.lmain (vs ++ v :: w :: rest)) []) s' ∧
      step (prog lim mv gl) s' = .ub .nullIter s'' := by
  have r0 : Reach (E := E) (prog lim mv gl) (.lmain (vs ++ v :: w :: rest)) [] (init (.lmain (vs ++ v :: w :: rest)) []) := .init
  obtain ⟨s1, l1, c1, f1, g1, n1, k1, x1, q1⟩ := op_localPush (P := prog lim mv gl) (l' := .lstart 1 (vs ++ v :: w :: rest)) r0 ⟨_, rfl, rfl⟩ rfl
  have r1 := l1.reach r0
  obtain ⟨s2, l2, h2, q2⟩ := op_beginPush (P := prog lim mv gl) (h := 1) q1 ⟨_, x1, rfl⟩
  have r2 := l2.reach r1
  obtain ⟨s3, l', F', l3, c3, f3, x3, b3, g3, q3, a3⟩ := Aux.copy_loop (v :: w :: rest) vs _ _ s2 r2 q2 ⟨.inl rfl, rfl⟩ (by rw [h2]; rfl) hv
  have r3 := l3.reach r2
  obtain ⟨s4, t4, c4, f4, g4, -, k4, r, hres, x4, q4⟩ := op_push r3 q3 ⟨_, x3, rfl⟩ (.it (by simp)) .copy (Aux.takes_off a3 hl)
  cases hres
  have x4 : s4.ctl = .eval (.copy none (w :: rest)) := x4
  refine ⟨s4, s4.pushFr (.usr (onIt fun i => .copy i rest)), ((l1.trans l2).trans l3).trans t4, ?_⟩
  simp only [step, x4, evalStep, prog, code, apiStep]

/-! Non-vacuity: the test itself, and a list for each of the two theorems about `std::copy`. -/
example : (List.range (5 - 1)).map (· + 1) = [1, 2, 3, 4] := by decide
example : (∀ v ∈ [1, 2, 4], v < 5) ∧ ¬ 7 < 5 := by decide

end Verif.OutIt
