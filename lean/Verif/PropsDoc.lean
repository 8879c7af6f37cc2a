import Verif.ExDoc
import Verif.Consume

/-!
# C49: the push examples of the documentation
-/
namespace Verif.Doc
variable {V M E : Type} {eff : V → M → M} {tk : Taker} {gv : Giver} {mv : V → V} {gl : Bool}

namespace Aux

/-- where the consumer waits -/
def At (tk : Taker) (hp : Nat) (l : Pt V) (F : List (Frame (Pt V) V E)) : Prop :=
  (l = .lam hp ∨ (tk = .loop ∧ l = .test hp) ∨ (tk = .range ∧ l = .rtest hp (some hp))) ∧ F = []

theorem takes {hp : Nat} {v : V} {g : M} {l : Pt V} {F : List (Frame (Pt V) V E)} (ha : At tk hp l F) :
    ∃ l' F', Takes (prog eff tk gv mv gl) hp g v (.eval l) F (eff v g) (.asks l' F') ∧ At tk hp l' F' := by
  obtain ⟨hl, rfl⟩ := ha
  cases tk with
  | loop =>
    have h1 : Takes (E := E) (prog eff .loop gv mv gl) hp g v (.eval (.test hp)) [] (eff v g) (.asks (.test hp) []) :=
      .bool rfl (.get rfl (.tau rfl (.askOp (k := fun _ => Pt.test hp) rfl)))
    refine ⟨.test hp, [], ?_, .inr (.inl ⟨rfl, rfl⟩), rfl⟩
    rcases hl with rfl | ⟨-, rfl⟩ | ⟨h, -⟩
    · exact .tau rfl h1
    · exact h1
    · cases h
  | range =>
    have h1 : Takes (E := E) (prog eff .range gv mv gl) hp g v (.eval (.rtest hp (some hp))) [] (eff v g) (.asks (.rtest hp (some hp)) []) :=
      .deref rfl (.tau rfl (.askIt (k := onIt fun j => Pt.rtest hp j) rfl))
    refine ⟨.rtest hp (some hp), [], ?_, .inr (.inr ⟨rfl, rfl⟩), rfl⟩
    rcases hl with rfl | ⟨h, -⟩ | ⟨-, rfl⟩
    · exact .start rfl h1
    · cases h
    · exact h1

/-- the place of the feeding loop -/
def Here (gv : Giver) (h : Nat) (vs : List V) (l : Pt V) : Prop :=
  match gv with
  | .loop => l = .put h vs
  | .copy => l = .copy (some h) vs

theorem give_loop {h c hp : Nat} {l0 : Pt V} {g0 : M} (vs : List V) :
    ∀ (x l : Pt V) (F : List (Frame (Pt V) V E)) (s : St (Pt V) M V E),
    Reach (prog eff tk gv mv gl) l0 g0 s → Sink s h c hp l F → At tk hp l F → s.ctl = .eval x → Here gv h vs x →
    ∃ s' l', Later (prog eff tk gv mv gl) s s' ∧ s'.cur = s.cur ∧ s'.fr = s.fr ∧ s'.ctl = .eval .stop ∧
      s'.base s.cur = s.base s.cur ∧ s'.g = vs.foldl (fun m v => eff v m) s.g ∧ Sink s' h c hp l' [] := by
  induction vs with
  | nil =>
    intro x l F s hr hq ha hx hh
    obtain ⟨hl, rfl⟩ := ha
    have : (prog (E := E) eff tk gv mv gl).code x s.g = .tau s.g .stop := by
      cases gv <;> obtain rfl : x = _ := hh <;> rfl
    have e1 := tau_step (P := prog eff tk gv mv gl) hx this
    exact ⟨_, l, .step .refl e1, rfl, rfl, rfl, rfl, rfl, hq.tau⟩
  | cons v vs ih =>
    intro x l F s hr hq ha hx hh
    obtain ⟨l1, F1, ht, ha1⟩ := takes (E := E) (eff := eff) (gv := gv) (mv := mv) (gl := gl) (v := v) (g := s.g) ha
    obtain ⟨s1, x1, t1, c1, f1, g1, k1, hx1, hh1, q1⟩ : ∃ s1 x1, Later (prog eff tk gv mv gl) s s1 ∧ s1.cur = s.cur ∧ s1.fr = s.fr ∧ s1.g = eff v s.g ∧
        Keeps c s.cur s s1 ∧ s1.ctl = .eval x1 ∧ Here gv h vs x1 ∧ Sink s1 h c hp l1 F1 := by
      cases gv with
      | loop =>
        obtain rfl : x = _ := hh
        obtain ⟨s1, t1, c1, f1, g1, -, k1, r, hres, x1, q1⟩ := op_push hr hq ⟨_, hx, rfl⟩ .op .copy ht
        exact ⟨s1, _, t1, c1, f1, g1, k1, x1, rfl, q1⟩
      | copy =>
        obtain rfl : x = _ := hh
        obtain ⟨s1, t1, c1, f1, g1, -, k1, r, hres, x1, q1⟩ := op_push hr hq ⟨_, hx, rfl⟩ (.it (by simp)) .copy ht
        cases hres
        exact ⟨s1, _, t1, c1, f1, g1, k1, x1, rfl, q1⟩
    obtain ⟨s2, l2, t2, c2, f2, x2, b2, g2, q2⟩ := ih x1 l1 F1 s1 (t1.reach hr) q1 ha1 hx1 hh1
    refine ⟨s2, l2, t1.trans t2, c2.trans c1, f2.trans f1, x2, ?_, ?_, q2⟩
    · rw [← c1, b2, c1, k1.base _ hq.ne]
    · rw [g2, g1]; rfl

end Aux

/-- C49: whichever of the two consumers is fed in whichever of the two ways, the program runs to its end, and the effect of the consumer has
been applied to exactly the given values, each once and in order; the stack of the coroutine has been freed. -/
theorem C49_fold (eff : V → M → M) (tk : Taker) (gv : Giver) (mv : V → V) (gl : Bool) (vs : List V) (m : M) :
    ∃ s' : St (Pt V) M V E, Later (prog eff tk gv mv gl) (init (.main vs) m) s' ∧ step (prog eff tk gv mv gl) s' = .done s' ∧
      s'.g = vs.foldl (fun m v => eff v m) m ∧ s'.stk 1 = .freed := by
  have r0 : Reach (E := E) (prog eff tk gv mv gl) (.main vs) m (init (.main vs) m) := .init
  obtain ⟨s1, l1, c1, f1, g1, n1, k1, x1, q1⟩ := op_localPush (P := prog eff tk gv mv gl) (l' := .give 1 vs) r0 ⟨_, rfl, rfl⟩ rfl
  have r1 := l1.reach r0
  obtain ⟨s2, x, l2, h2, x2, hh, q2⟩ : ∃ s2 x, Later (prog eff tk gv mv gl) s1 s2 ∧ (s2.cur = s1.cur ∧ s2.fr = s1.fr ∧ s2.base = s1.base ∧ s2.g = s1.g) ∧
      s2.ctl = .eval x ∧ Aux.Here gv 1 vs x ∧ Sink s2 1 1 0 (.lam 0) [] := by
    cases gv with
    | loop =>
      have e1 := tau_step (P := prog eff tk .loop mv gl) x1 (g := s1.g) (l' := .put 1 vs) rfl
      exact ⟨_, _, .step .refl e1, ⟨rfl, rfl, rfl, rfl⟩, rfl, rfl, Sink.tau q1⟩
    | copy =>
      obtain ⟨s2, l2, h2, q2⟩ := op_beginPush (P := prog eff tk .copy mv gl) (h := 1) q1 ⟨_, x1, rfl⟩
      exact ⟨s2, _, l2, ⟨by rw [h2], by rw [h2]; rfl, by rw [h2], by rw [h2]⟩, by rw [h2]; rfl, rfl, q2⟩
  have r2 := l2.reach r1
  have c2 : s2.cur = 0 := h2.1.trans c1
  obtain ⟨s3, l', l3, c3, f3, x3, b3, g3, q3⟩ := Aux.give_loop vs x _ _ s2 r2 q2 ⟨.inl rfl, rfl⟩ x2 hh
  have b3' : s3.base 0 = .main := by
    rw [← c2, b3, c2, h2.2.2.1]
    exact k1.base 0 Nat.zero_ne_one
  obtain ⟨s6, l6, d6, g6, -, st6⟩ := main_end (l3.reach r2) (q3.idle (by simp)) x3 rfl (f3.trans (h2.2.1.trans f1)) (c3.trans c2) b3'
  rw [undone_id fun _ _ => rfl] at g6
  refine ⟨s6, ((l1.trans l2).trans l3).trans l6, d6, ?_, st6⟩
  rw [g6, g3, h2.2.2.2, g1]
  rfl

/-- The documentation's instance: with printing as the effect, exactly the given values are printed in order. -/
theorem C49_prints (tk : Taker) (gv : Giver) (mv : V → V) (gl : Bool) (vs : List V) :
    ∃ s' : St (Pt V) (List V) V E, Later (prog (fun v out => out ++ [v]) tk gv mv gl) (init (.main vs) []) s' ∧
      step (prog (fun v out => out ++ [v]) tk gv mv gl) s' = .done s' ∧ s'.g = vs := by
  obtain ⟨s', l, d, g, -⟩ := C49_fold (E := E) (fun v out => out ++ [v]) tk gv mv gl vs []
  refine ⟨s', l, d, g.trans ?_⟩
  have : ∀ (vs out : List V), vs.foldl (fun m v => m ++ [v]) out = out ++ vs := by
    intro vs
    induction vs with
    | nil => simp
    | cons v vs ih => intro out; rw [List.foldl_cons, ih]; simp
  simpa using this vs []

/-! Non-vacuity: the theorems have no hypotheses; the values of the documentation, summed up and printed. -/
example : [1, 1, 2, 3, 5, 8, 13, 21, 34, 55].foldl (fun m v => v + m) 0 = 143 := by decide
example : [1, 1, 2].foldl (fun m v => m ++ [v]) [] = [1, 1, 2] := by decide

end Verif.Doc
