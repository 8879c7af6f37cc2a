import Verif.OutRun

/-! # A whole chain on the specification machine.  Proof material. -/
namespace Verif.Chain
variable {V G E : Type} {C : Spec V G E} {mv : V → V} {gl : Bool}
open Coro (Leads Goes)

/-- main leaves the block, with `x` -/
structure Leaves (a : A V G E) (k : Nat) (x : Coro.Ctl (Pt V E) V E) : Prop where
  active : a.active = [0]
  stack : a.stack 0 = guards k
  any : ∀ j, j < k → Any a j
  ctl : a.ctl = x

/-- the way a block is left -/
def way : Option E → Coro.Ctl (Pt V E) V E
  | none => .ret
  | some e => .raise (.user e)

theorem destroy {e : Option E} : ∀ {k : Nat} {a : A V G E}, Leaves a k (way e) →
    Leads (prog C mv gl) a fun b => b.active = [0] ∧ b.stack 0 = [] ∧ b.ctl = way e ∧ b.g = a.g
  | 0, a, ⟨h1, h2, _, h4⟩ => Leads.now ⟨h1, h2, h4, rfl⟩
  | k + 1, a, ⟨h1, h2, h3, h4⟩ => by
    have next : ∀ c : A V G E, c.active = [0] → c.ctl = .res .unit → c.stack 0 = .andThen (way e) :: guards k → c.g = a.g → Eqv k a c →
        Leads (prog C mv gl) c fun b => b.active = [0] ∧ b.stack 0 = [] ∧ b.ctl = way e ∧ b.g = a.g := by
      intro c c1 c2 c3 c4 c5
      refine Leads.step (Coro.step_andThen c1 c2 c3) ?_
      rw [← c4]
      refine destroy (k := k) (a := _) ⟨c1, upd_same c.stack 0 _, fun j hj => ((h3 j (by omega)).eqv (k := k) (b := _) ?_ hj), rfl⟩
      refine ⟨c5.hs, fun i hi => ?_, c5.co⟩
      dsimp only
      rw [upd_zero]
      exact c5.stack i hi
    cases h3 k (by omega) with
    | none h5 =>
      cases e with
      | none =>
        refine Leads.step (Coro.step_dropNone_ret h1 h4 h2 h5) (next _ h1 rfl (upd_same a.stack 0 _) rfl ?_)
        exact ⟨fun i hi => upd_ne _ _ (by omega), fun i hi => by dsimp only; rw [upd_zero], fun _ _ => rfl⟩
      | some e =>
        refine Leads.step (Coro.step_dropNone_raise h1 h4 h2 h5) (next _ h1 rfl (upd_same a.stack 0 _) rfl ?_)
        exact ⟨fun i hi => upd_ne _ _ (by omega), fun i hi => by dsimp only; rw [upd_zero], fun _ _ => rfl⟩
    | sus h5 h6 =>
      rename_i p y
      have fin : ∀ b : A V G E, b.active = [k + 1, 0] → b.ctl = .raise .forced → b.stack = upd a.stack 0 (.andThen (way e) :: guards k) →
          b.co = a.co → b.hs = upd a.hs (2 * k + 1) none → b.g = a.g →
          Leads (prog C mv gl) b fun b => b.active = [0] ∧ b.stack 0 = [] ∧ b.ctl = way e ∧ b.g = a.g := by
        intro b b1 b2 b3 b4 b5 b6
        have hS := h6.stack
        refine Leads.bind (sus_dies (p := p) b1 b2 ⟨?_, (congrFun b4 _).trans h6.co, ?_⟩) fun c ⟨c1, c2, c3⟩ => next c c1 c2 ?_ (c3.g.trans b6) ?_
        · rw [b3, upd_zero, hS]
        · unfold Snk; rw [b5, upd_ne _ _ (by omega)]; exact h6.snk
        · rw [c3.stack 0 (by omega), b3, upd_same]
        · refine ⟨fun i hi => ?_, fun i hi => ?_, fun i hi => ?_⟩
          · rw [c3.hs i (by omega), b5, upd_ne _ _ (by omega)]
          · rw [c3.stack _ (by omega), b3, upd_zero]
          · rw [c3.co _ (by omega), b4]
      cases e with
      | none => exact Leads.step (Coro.step_drop_ret h1 h4 h2 h5 (by simp)) (fin _ rfl rfl rfl rfl rfl rfl)
      | some e => exact Leads.step (Coro.step_drop_raise h1 h4 h2 h5 (by simp)) (fin _ rfl rfl rfl rfl rfl rfl)
    | over h5 h6 =>
      have fin : ∀ b : A V G E, b.active = [k + 1, 0] → b.ctl = .raise .forced → b.stack = upd a.stack 0 (.andThen (way e) :: guards k) →
          b.co = a.co → b.hs = upd a.hs (2 * k + 1) none → b.g = a.g →
          Leads (prog C mv gl) b fun b => b.active = [0] ∧ b.stack 0 = [] ∧ b.ctl = way e ∧ b.g = a.g := by
        intro b b1 b2 b3 b4 b5 b6
        have hS := h6.stack
        obtain ⟨v, hv⟩ := h6.co
        refine Leads.bind (over_dies b1 b2 ⟨?_, ⟨v, (congrFun b4 _).trans hv⟩, ?_⟩) fun c ⟨c1, c2, c3⟩ => next c c1 c2 ?_ (c3.g.trans b6) ?_
        · rw [b3, upd_zero, hS]
        · unfold Snk; rw [b5, upd_ne _ _ (by omega)]; exact h6.snk
        · rw [c3.stack 0 (by omega), b3, upd_same]
        · refine ⟨fun i hi => ?_, fun i hi => ?_, fun i hi => ?_⟩
          · rw [c3.hs i (by omega), b5, upd_ne _ _ (by omega)]
          · rw [c3.stack _ (by omega), b3, upd_zero]
          · rw [c3.co _ (by omega), b4]
      cases e with
      | none => exact Leads.step (Coro.step_drop_ret h1 h4 h2 h5 (by simp)) (fin _ rfl rfl rfl rfl rfl rfl)
      | some e => exact Leads.step (Coro.step_drop_raise h1 h4 h2 h5 (by simp)) (fin _ rfl rfl rfl rfl rfl rfl)

/-! ## the push coroutines are destroyed -/

theorem idle_dies {k : Nat} {r : List Nat} {a : A V G E} {fn : Nat → Pt V E} (ha : a.active = (k + 1) :: r) (hc : a.ctl = .raise .forced)
    (h : Idle a k fn) : Leads (prog C mv gl) a fun b => b.active = r ∧ b.ctl = .res .unit ∧ Died a b k := by
  refine Leads.step (Coro.step_unwound_idle ha hc h.stack (h := 2 * k) (fn := fn) (by rw [h.co]) h.src) ?_
  refine Leads.step (Coro.step_left ha rfl h.stack (by simp)) ?_
  refine Leads.now ⟨rfl, rfl, rfl, rfl, rfl, h.stack, fun i hi => rfl, fun i hi => ?_, fun i hi => upd_ne _ _ hi⟩
  exact (upd_ne _ _ hi).trans (upd_ne _ _ hi)

theorem pover_dies {k : Nat} {r : List Nat} {a : A V G E} {e : Option E} (ha : a.active = (k + 1) :: r) (hc : a.ctl = .raise .forced)
    (h : POver a k e) : Leads (prog C mv gl) a fun b => b.active = r ∧ b.ctl = .res .unit ∧ Died a b k := by
  obtain ⟨v, hco⟩ := h.co
  refine Leads.step (Coro.step_unwound ha hc h.stack (h := 2 * k) (.inr (by rw [hco])) h.src) ?_
  refine Leads.step (Coro.step_left ha rfl h.stack (by simp)) ?_
  refine Leads.now ⟨rfl, rfl, rfl, rfl, rfl, h.stack, fun i hi => rfl, fun i hi => ?_, fun i hi => upd_ne _ _ hi⟩
  exact (upd_ne _ _ hi).trans (upd_ne _ _ hi)

theorem next_dies {k : Nat} {r : List Nat} {a : A V G E} (ha : a.active = (k + 1) :: r) (hc : a.ctl = .raise .forced)
    (h : Waits a k (inNext k)) : Leads (prog C mv gl) a fun b => b.active = r ∧ b.ctl = .res .unit ∧ Died a b k := by
  obtain ⟨v, hco⟩ := h.co
  refine Leads.step (Coro.step_unwind_pop ha hc h.stack (.inr (.inr (.inl ⟨_, rfl⟩)))) ?_
  refine Leads.step (Coro.step_unwind_pop ha hc (upd_same _ _ _) (.inr (.inr (.inr ⟨_, rfl⟩)))) ?_
  refine Leads.step (Coro.step_unwind_pop ha hc (upd_same _ _ _) (.inl ⟨_, rfl⟩)) ?_
  simp only [upd_upd]
  refine Leads.step (Coro.step_unwound ha hc (upd_same _ _ _) (h := 2 * k) (.inl (by show (a.co _).phase = _; rw [hco])) h.src) ?_
  refine Leads.step (Coro.step_left ha rfl (upd_same _ _ _) (by simp)) ?_
  refine Leads.now ⟨rfl, rfl, rfl, rfl, rfl, upd_same _ _ _, fun i hi => upd_ne _ _ hi, fun i hi => ?_, fun i hi => upd_ne _ _ hi⟩
  exact (upd_ne _ _ hi).trans (upd_ne _ _ hi)

theorem source_dies {k : Nat} {r : List Nat} {a : A V G E} (ha : a.active = (k + 1) :: r) (hc : a.ctl = .raise .forced)
    (h : Waits a k (inSource k)) :
    Leads (prog C mv gl) a fun b => b.active = r ∧ b.ctl = .res .unit ∧ Died { a with g := C.eol a.g } b k := by
  obtain ⟨v, hco⟩ := h.co
  refine Leads.step (Coro.step_unwind_pop ha hc h.stack (.inr (.inr (.inl ⟨_, rfl⟩)))) ?_
  refine Leads.step (Coro.step_unwind_pop ha hc (upd_same _ _ _) (.inl ⟨_, rfl⟩)) ?_
  refine Leads.step (Coro.step_raise_obj ha hc (upd_same _ _ _)) ?_
  simp only [upd_upd]
  refine Leads.step (Coro.step_unwound ha hc (upd_same _ _ _) (h := 2 * k) (.inl (by show (a.co _).phase = _; rw [hco])) h.src) ?_
  refine Leads.step (Coro.step_left ha rfl (upd_same _ _ _) (by simp)) ?_
  refine Leads.now ⟨rfl, rfl, rfl, rfl, rfl, upd_same _ _ _, fun i hi => upd_ne _ _ hi, fun i hi => ?_, fun i hi => upd_ne _ _ hi⟩
  exact (upd_ne _ _ hi).trans (upd_ne _ _ hi)

/-- A local push coroutine of main is destroyed; `g`: memory after that. -/
theorem drop {k : Nat} {t : List (Coro.Fr (Pt V E) V E)} {a : A V G E} {e : Option E} {g : G} (h1 : a.active = [0])
    (h2 : a.stack 0 = .co (2 * k + 1) :: t) (h3 : POwn a k) (h4 : a.ctl = way e)
    (hd : ∀ b : A V G E, b.active = [k + 1, 0] → b.ctl = .raise .forced → b.stack (k + 1) = a.stack (k + 1) → b.co (k + 1) = a.co (k + 1) →
      b.hs (2 * k) = a.hs (2 * k) → b.g = a.g →
      Leads (prog C mv gl) b fun c => c.active = [0] ∧ c.ctl = .res .unit ∧ Died { b with g := g } c k) :
    Leads (prog C mv gl) a fun c => c.active = [0] ∧ c.stack 0 = t ∧ c.ctl = way e ∧ c.g = g ∧ Eqv k a c := by
  have fin : ∀ b : A V G E, b.active = [k + 1, 0] → b.ctl = .raise .forced → b.stack = upd a.stack 0 (.andThen (way e) :: t) →
      b.co = a.co → b.hs = upd a.hs (2 * k + 1) none → b.g = a.g →
      Leads (prog C mv gl) b fun c => c.active = [0] ∧ c.stack 0 = t ∧ c.ctl = way e ∧ c.g = g ∧ Eqv k a c := by
    intro b b1 b2 b3 b4 b5 b6
    refine Leads.bind (hd b b1 b2 (by rw [b3, upd_zero]) (by rw [b4]) (by rw [b5, upd_ne _ _ (by omega)]) b6) fun c ⟨c1, c2, c3⟩ => ?_
    have hst : c.stack 0 = .andThen (way e) :: t := by rw [c3.stack 0 (by omega)]; show b.stack 0 = _; rw [b3, upd_same]
    refine Leads.step (Coro.step_andThen c1 c2 hst) ?_
    refine Leads.now ⟨c1, upd_same c.stack 0 _, rfl, c3.g, fun i hi => ?_, fun i hi => ?_, fun i hi => ?_⟩
    · show c.hs i = _
      rw [c3.hs i (by omega)]; show b.hs i = _; rw [b5, upd_ne _ _ (by omega)]
    · dsimp only; rw [upd_zero, c3.stack _ (by omega)]; show b.stack _ = _; rw [b3, upd_zero]
    · show c.co _ = _
      rw [c3.co _ (by omega)]; show b.co _ = _; rw [b4]
  cases e with
  | none => exact Leads.step (Coro.step_drop_ret h1 h4 h2 h3 (by simp)) (fin _ rfl rfl rfl rfl rfl rfl)
  | some e => exact Leads.step (Coro.step_drop_raise h1 h4 h2 h3 (by simp)) (fin _ rfl rfl rfl rfl rfl rfl)

/-- main leaves the block, with `x`; `g`: memory after the push coroutines have been destroyed -/
structure PLeaves (C : Spec V G E) (a : A V G E) (i : Nat) (g : G) (x : Coro.Ctl (Pt V E) V E) : Prop where
  active : a.active = [0]
  stack : a.stack 0 = guards (C.num i + 1)
  left : Left C i g a
  any : ∀ j, j < C.num 0 → Any a j
  ctl : a.ctl = x

theorem died_mem {a b c : A V G E} {k : Nat} (h : Died a b k) (hc : c = a) : Died c b k := hc ▸ h

theorem destroyP {e : Option E} {g : G} : ∀ {i : Nat} {a : A V G E}, PLeaves C a i g (way e) →
    Leads (prog C mv gl) a fun b => Leaves b (C.num 0) (way e) ∧ b.g = g
  | 0, a, ⟨h1, h2, h3, h4, h5⟩ => by
    have fin : POwn a (C.num 0) → (∀ b : A V G E, b.active = [C.num 0 + 1, 0] → b.ctl = .raise .forced →
        b.stack (C.num 0 + 1) = a.stack (C.num 0 + 1) → b.co (C.num 0 + 1) = a.co (C.num 0 + 1) →
        b.hs (2 * C.num 0) = a.hs (2 * C.num 0) → b.g = a.g →
        Leads (prog C mv gl) b fun c => c.active = [0] ∧ c.ctl = .res .unit ∧ Died { b with g := g } c (C.num 0)) →
        Leads (prog C mv gl) a fun b => Leaves b (C.num 0) (way e) ∧ b.g = g := by
      intro ho hd
      refine Leads.bind (drop h1 h2 ho h5 hd) fun c ⟨c1, c2, c3, c4, c5⟩ => Leads.now ⟨⟨c1, c2, fun j hj => (h4 j hj).eqv c5 hj, c3⟩, c4⟩
    have same : ∀ b : A V G E, b.g = a.g → g = a.g → ({ b with g := g } : A V G E) = b := by
      intro b hb hg
      rw [hg, ← hb]
    cases h3.wrt with
    | idle h6 h7 h8 =>
      refine fin h6 fun b b1 b2 b3 b4 b5 b6 => ?_
      refine Leads.bind (idle_dies b1 b2 ⟨b3.trans h7.stack, b4.trans h7.co, b5.trans h7.src⟩) fun c ⟨c1, c2, c3⟩ => Leads.now ⟨c1, c2, ?_⟩
      exact died_mem c3 (same b b6 h8)
    | over h6 h7 h8 =>
      refine fin h6 fun b b1 b2 b3 b4 b5 b6 => ?_
      refine Leads.bind (pover_dies b1 b2 ⟨b3.trans h7.stack, h7.co.imp fun _ h => b4.trans h, b5.trans h7.src⟩) fun c ⟨c1, c2, c3⟩ => Leads.now ⟨c1, c2, ?_⟩
      exact died_mem c3 (same b b6 h8)
    | waits h6 h7 h8 =>
      refine fin h6 fun b b1 b2 b3 b4 b5 b6 => ?_
      refine Leads.bind (source_dies b1 b2 ⟨b3.trans h7.stack, h7.co.imp fun _ h => b4.trans h, b5.trans h7.src⟩) fun c ⟨c1, c2, c3⟩ => Leads.now ⟨c1, c2, ?_⟩
      refine died_mem c3 ?_
      rw [h8, b6]
  | i + 1, a, ⟨h1, h2, h3, h4, h5⟩ => by
    have fin : POwn a (C.num (i + 1)) → (∀ b : A V G E, b.active = [C.num (i + 1) + 1, 0] → b.ctl = .raise .forced →
        b.stack (C.num (i + 1) + 1) = a.stack (C.num (i + 1) + 1) → b.co (C.num (i + 1) + 1) = a.co (C.num (i + 1) + 1) →
        b.hs (2 * C.num (i + 1)) = a.hs (2 * C.num (i + 1)) → b.g = a.g →
        Leads (prog C mv gl) b fun c => c.active = [0] ∧ c.ctl = .res .unit ∧ Died { b with g := a.g } c (C.num (i + 1))) →
        Leads (prog C mv gl) a fun b => Leaves b (C.num 0) (way e) ∧ b.g = g := by
      intro ho hd
      refine Leads.bind (drop h1 h2 ho h5 hd) fun c ⟨c1, c2, c3, c4, c5⟩ => ?_
      refine destroyP (i := i) ⟨c1, c2, ?_, fun j hj => (h4 j hj).eqv c5 (by simp only [Spec.num] at hj ⊢; omega), c3⟩
      have hl : Left C i g a := ⟨fun m hm hm' => h3.stg m hm (by omega), h3.wrt⟩
      refine hl.eqv (i := i) ⟨fun x _ hx => c5.hs x ?_, fun m hm => c5.stack _ ?_, fun m hm => c5.co _ ?_⟩ (Nat.le_refl _) c4
      · simp only [Spec.num] at hx ⊢; omega
      · simp only [Spec.num]; omega
      · simp only [Spec.num]; omega
    have same : ∀ b : A V G E, b.g = a.g → ({ b with g := a.g } : A V G E) = b := by
      intro b hb
      rw [← hb]
    cases h3.stg (i + 1) (by omega) (Nat.le_refl _) with
    | idle h6 h7 =>
      refine fin h6 fun b b1 b2 b3 b4 b5 b6 => ?_
      refine Leads.bind (idle_dies b1 b2 ⟨b3.trans h7.stack, b4.trans h7.co, b5.trans h7.src⟩) fun c ⟨c1, c2, c3⟩ => Leads.now ⟨c1, c2, ?_⟩
      exact died_mem c3 (same b b6)
    | over h6 h7 =>
      refine fin h6 fun b b1 b2 b3 b4 b5 b6 => ?_
      refine Leads.bind (pover_dies b1 b2 ⟨b3.trans h7.stack, h7.co.imp fun _ h => b4.trans h, b5.trans h7.src⟩) fun c ⟨c1, c2, c3⟩ => Leads.now ⟨c1, c2, ?_⟩
      exact died_mem c3 (same b b6)
    | waits h6 h7 =>
      refine fin h6 fun b b1 b2 b3 b4 b5 b6 => ?_
      refine Leads.bind (next_dies b1 b2 ⟨b3.trans h7.stack, h7.co.imp fun _ h => b4.trans h, b5.trans h7.src⟩) fun c ⟨c1, c2, c3⟩ => Leads.now ⟨c1, c2, ?_⟩
      exact died_mem c3 (same b b6)

/-- The chain has ended as `r` says. -/
def Ends (P : Prog (Pt V E) G V E) (a : A V G E) : Run G E → Prop
  | .ok g => ∃ n t, Coro.run P n a = .done t ∧ t.g = g
  | .error (g, none) => ∃ n t, Coro.run P n a = .done t ∧ t.g = g
  | .error (g, some e) => ∃ n t, Coro.run P n a = .uncaught t ∧ t.ctl = .raise (.user e) ∧ t.g = g

/-- what it says about the way main is left -/
def wayOf : Run G E → G × Option E
  | .ok g => (g, none)
  | .error p => p

theorem ends_of {r : Run G E} {a : A V G E}
    (h : Leads (prog C mv gl) a fun b => b.active = [0] ∧ b.stack 0 = [] ∧ b.ctl = way (wayOf r).2 ∧ b.g = (wayOf r).1) :
    Ends (prog C mv gl) a r := by
  obtain ⟨b, h1, h2, h3, h4, h5⟩ := h
  have fin : ∀ g, (wayOf r) = (g, none) → ∃ n t, Coro.run (prog C mv gl) n a = .done t ∧ t.g = g := by
    intro g hr
    rw [hr] at h4 h5
    obtain ⟨n, hn⟩ := h1.done (t := b) (by simp [Coro.step, h2, h4, way, Coro.retStep, h3])
    exact ⟨n, b, hn, h5⟩
  match r with
  | .ok g => exact fin g rfl
  | .error (g, none) => exact fin g rfl
  | .error (g, some e) =>
    obtain ⟨n, hn⟩ := h1.uncaught (t := b) (by simp [Coro.step, h2, h4, wayOf, way, Coro.raiseStep, h3])
    exact ⟨n, b, hn, h4, h5⟩

/-- main is about to leave the block, with what `r` says -/
def Leaving (C : Spec V G E) (r : Run (G × Begun) E) (b : A V G E) : Prop :=
  ∃ x o, wayOf r = (x, o) ∧ ((∃ k, Leaves b k (way o) ∧ b.g = flush C x) ∨ ∃ i, PLeaves C b i (flush C x) (way o))

theorem Leaving.ends {r : Run (G × Begun) E} {a : A V G E} (h : Leads (prog C mv gl) a (Leaving C r)) :
    Ends (prog C mv gl) a (flushed C r) := by
  refine ends_of (Leads.bind h fun b ⟨x, o, b1, b2⟩ => ?_)
  have hr : wayOf (flushed C r) = (flush C x, o) := by
    match r, b1 with
    | .ok y, b1 => cases b1; rfl
    | .error (y, o'), b1 => cases b1; rfl
  rw [hr]
  rcases b2 with ⟨k, b2, b3⟩ | ⟨i, b2⟩
  · exact Leads.bind (destroy b2) fun c ⟨c1, c2, c3, c4⟩ => Leads.now ⟨c1, c2, c3, c4.trans b3⟩
  · exact Leads.bind (destroyP b2) fun c ⟨c1, c2⟩ => Leads.bind (destroy c1) fun d ⟨d1, d2, d3, d4⟩ => Leads.now ⟨d1, d2, d3, d4.trans c2⟩

/-! ## the loop of main -/

/-- what is done with an item after `consume` -/
def rest (C : Spec V G E) : Cont V G E :=
  match C.writer with
  | none => fun _ x => .ok x
  | some w => down C w C.outs.length

/-- where it is passed on to -/
def dst (C : Spec V G E) : Option Nat :=
  match C.writer with
  | none => none
  | some _ => some (2 * C.num C.outs.length + 1)

/-- the locals of main, and the state of the push coroutines -/
def Rear (C : Spec V G E) (s : Begun) (a : A V G E) : Prop :=
  match C.writer with
  | none => s = false ∧ a.stack 0 = guards (C.num 0)
  | some _ => Ready C C.outs.length s a ∧ a.stack 0 = guards (C.num C.outs.length + 1)

/-- the parts of two states that do not concern the pull coroutines are equal -/
structure REqv (C : Spec V G E) (a b : A V G E) : Prop where
  hs : ∀ x, 2 * C.num 0 ≤ x → b.hs x = a.hs x
  stack : ∀ x, x = 0 ∨ C.num 0 < x → b.stack x = a.stack x
  co : ∀ x, C.num 0 < x → b.co x = a.co x

theorem Rear.eqv {s : Begun} {a b : A V G E} (h : Rear C s a) (he : REqv C a b) : Rear C s b := by
  unfold Rear at h ⊢
  cases hw : C.writer with
  | none => rw [hw] at h; exact ⟨h.1, (he.stack 0 (.inl rfl)).trans h.2⟩
  | some w =>
    rw [hw] at h
    refine ⟨h.1.eqv (i := C.outs.length) ⟨fun x hx _ => he.hs x hx, fun m hm => he.stack _ (.inr ?_), fun m hm => he.co _ ?_⟩ (Nat.le_refl _),
      (he.stack 0 (.inl rfl)).trans h.2⟩ <;> simp only [Spec.num] <;> omega

theorem Rear.leaving {s : Begun} {a : A V G E} {r : Run (G × Begun) E} {o : Option E} (h : Rear C s a) (h1 : a.active = [0])
    (h2 : ∀ j, j < C.num 0 → Any a j) (h3 : a.ctl = way o) (h4 : wayOf r = ((a.g, s), o)) : Leaving C r a := by
  refine ⟨_, _, h4, ?_⟩
  unfold Rear at h
  cases hw : C.writer with
  | none =>
    rw [hw] at h
    obtain ⟨rfl, h⟩ := h
    exact .inl ⟨_, ⟨h1, h, h2, h3⟩, rfl⟩
  | some w =>
    rw [hw] at h
    exact .inr ⟨_, ⟨h1, h.2, h.1.left, h2, h3⟩⟩

/-- The loop of the consumer. -/
theorem consume_ok : ∀ (m : List (List V)) {p : List V} {q : List (List V)} {y : V} {a : A V G E} {s : Begun},
    m = p :: q → a.active = [0] → Rear C s a → a.ctl = .eval (.cTest (dst C) (some (2 * C.stages.length + 1))) → q.length = C.stages.length →
    Sus a C.stages.length p y → Own a C.stages.length → Alive a q →
    Leads (prog C mv gl) a (Leaving C ((onward C.consume (rest C) y (a.g, s)).bind (total C (p :: q) (onward C.consume (rest C))))) := by
  intro m
  induction m using less_wf.induction with
  | _ m ih =>
    intro p q y a s hm hact hrear hctl hlen hs ho hq
    subst hm
    have hv := valid_sus hs
    refine Leads.step (Coro.step_itDeref_own hact hctl rfl ho (by simp) hv (v := y) (by rw [hs.co])) ?_
    refine Leads.step (Coro.step_use hact rfl (upd_same a.stack 0 _)) ?_
    simp only [upd_upd]
    rw [upd_self]
    -- after the item
    have next : ∀ (b : A V G E) (s : Begun), b.active = [0] → Rear C s b → b.ctl = .eval (.cNext (2 * C.stages.length + 1) (dst C)) →
        Sus b C.stages.length p y → Own b C.stages.length → Alive b q →
        Leads (prog C mv gl) b (Leaving C (total C (p :: q) (onward C.consume (rest C)) (b.g, s))) := by
      intro a s hact hrear hctl hs ho hq
      refine Leads.bind (pull_ok (loop_ok (Nat.le_refl _)) (k := C.stages.length) (p := p) (q := q) (K := onIt (.cTest (dst C))) hact hctl rfl
        (by simp) (.inl rfl) hlen hs ho hq) fun b ⟨b1, b2, b3⟩ => ?_
      have hrear' : Rear C s b := hrear.eqv ⟨fun x _ => by rw [b2.hs], fun x hx => b2.stack x hx, fun x hx => b2.co x (.inr hx)⟩
      have ho' : Own b C.stages.length := by unfold Own; rw [b2.hs]; exact ho
      have anyb : ∀ e, Over b C.stages.length e → (∀ j, j < C.stages.length → Any b j) → ∀ j, j < C.num 0 → Any b j := by
        intro e h1 h2 j hj
        by_cases hjk : j = C.stages.length
        · subst hjk; exact .over ho' h1
        · exact h2 j (by simp only [Spec.num] at hj; omega)
      cases b3 with
      | yields h1 h2 h3 h4 h5 h6 =>
        rw [h6 _ s]
        exact ih _ h5 rfl b1 hrear' h1 h2 h3 ho' h4
      | ends h1 h2 h3 h4 =>
        rw [h4 _ s]
        refine Leads.step (Coro.step_tau b1 h1 (g' := b.g) (l' := .stop) rfl) ?_
        refine Leads.step (Coro.step_ret b1 rfl rfl) ?_
        refine Leads.now (Rear.leaving (o := none) (Rear.eqv hrear' ?_) b1 (fun j hj => ?_) rfl rfl)
        · exact ⟨fun _ _ => rfl, fun _ _ => rfl, fun _ _ => rfl⟩
        · refine Any.eqv (k := C.num 0) (a := b) ?_ hj (anyb _ h2 h3 j hj)
          exact ⟨fun _ _ => rfl, fun _ _ => rfl, fun _ _ => rfl⟩
      | throws h1 h2 h3 h4 =>
        rename_i e
        rw [h4 _ s]
        exact Leads.now (Rear.leaving (o := some e) hrear' b1 (anyb _ h2 h3) h1 rfl)
    have hal : Alive a (p :: q) := ⟨⟨y, by rw [hlen]; exact hs⟩, by rw [hlen]; exact ho, hq⟩
    have any : ∀ b : A V G E, Eqv (C.num 0) a b → ∀ j, j < C.num 0 → Any b j := by
      intro b he j hj
      exact (hal.any j (by simpa [hlen] using hj)).eqv he hj
    cases hcy : C.consume y a.g with
    | mk g' r =>
      cases r with
      | goOn =>
        have ht : onward C.consume (rest C) y (a.g, s) = rest C y (g', s) := by simp only [onward, hcy]
        rw [ht]
        cases hw : C.writer with
        | none =>
          have hdst : dst C = none := by unfold dst; rw [hw]
          have hrest : rest C y (g', s) = .ok (g', s) := by unfold rest; rw [hw]
          rw [hrest]
          refine Leads.step (Coro.step_tau (g' := g') (l' := .cNext (2 * C.stages.length + 1) (dst C)) hact rfl (by
            show code C (.cItem (2 * C.stages.length + 1) (dst C) y) a.g = _
            rw [hdst]; simp only [code, hcy])) ?_
          refine next _ s hact (Rear.eqv hrear ?_) rfl (Sus.eqv (k := C.num 0) (a := a) ?_ (by simp only [Spec.num]; omega) hs) ho
            (Alive.eqv (k := C.num 0) (a := a) ?_ (by simp only [Spec.num]; omega) hq)
          · exact ⟨fun _ _ => rfl, fun _ _ => rfl, fun _ _ => rfl⟩
          · exact ⟨fun _ _ => rfl, fun _ _ => rfl, fun _ _ => rfl⟩
          · exact ⟨fun _ _ => rfl, fun _ _ => rfl, fun _ _ => rfl⟩
        | some w =>
          have hdst : dst C = some (2 * C.num C.outs.length + 1) := by unfold dst; rw [hw]
          have hrest : rest C y (g', s) = down C w C.outs.length y (g', s) := by unfold rest; rw [hw]
          rw [hrest]
          refine Leads.step (Coro.step_tau (g' := g') (l' := .cPush (2 * C.stages.length + 1) (2 * C.num C.outs.length + 1) y) hact rfl (by
            show code C (.cItem (2 * C.stages.length + 1) (dst C) y) a.g = _
            rw [hdst]; simp only [code, hcy])) ?_
          have hr := hrear
          unfold Rear at hr
          rw [hw] at hr
          refine Leads.bind (push_ok (turn_ok hw (Nat.le_refl _)) (v := y) (s := s) (n := 0) (below := []) hact rfl
            (K := fun _ => .cNext (2 * C.stages.length + 1) (some (2 * C.num C.outs.length + 1))) rfl (by simp) (.inl (by simp)) ?_)
            fun b ⟨b1, b2, b3⟩ => ?_
          · refine Ready.eqv (i := C.outs.length) (a := a) ?_ (Nat.le_refl _) hr.1
            exact ⟨fun _ _ _ => rfl, fun _ _ => rfl, fun _ _ => rfl⟩
          have he : Eqv (C.num 0) a b := ⟨fun i _ => by rw [b2.hs], fun i hi => b2.stack _ (.inl hi), fun i hi => b2.co _ (.inl hi)⟩
          have hst : b.stack 0 = guards (C.num C.outs.length + 1) := (b2.stack 0 (.inl (by simp))).trans hr.2
          cases b3 with
          | ok h1 h2 h3 =>
            rename_i s'
            rw [show down C w C.outs.length y (g', s) = _ from h1]
            refine next b s' b1 ?_ (by rw [hdst]; exact h2) (Sus.eqv he (by simp only [Spec.num]; omega) hs) (Own.eqv he (by simp only [Spec.num]; omega) ho)
              (Alive.eqv he (by simp only [Spec.num]; omega) hq)
            unfold Rear
            rw [hw]
            exact ⟨h3, hst⟩
          | err h1 h2 h3 =>
            rename_i x e
            rw [show down C w C.outs.length y (g', s) = _ from h1]
            exact Leads.now ⟨x, some e, rfl, .inr ⟨_, b1, hst, h3, any b he, h2⟩⟩
      | leave =>
        have ht : onward C.consume (rest C) y (a.g, s) = .error ((g', s), none) := by simp only [onward, hcy]
        rw [ht]
        refine Leads.step (Coro.step_tau (g' := g') (l' := .stop) hact rfl (by
            show code C (.cItem (2 * C.stages.length + 1) (dst C) y) a.g = _
            simp only [code, hcy])) ?_
        refine Leads.step (Coro.step_ret hact rfl rfl) ?_
        refine Leads.now (Rear.leaving (o := none) (Rear.eqv hrear ?_) hact (any _ ?_) rfl rfl)
        · exact ⟨fun _ _ => rfl, fun _ _ => rfl, fun _ _ => rfl⟩
        · exact ⟨fun _ _ => rfl, fun _ _ => rfl, fun _ _ => rfl⟩
      | throw e =>
        have ht : onward C.consume (rest C) y (a.g, s) = .error ((g', s), some e) := by simp only [onward, hcy]
        rw [ht]
        refine Leads.step (Coro.step_tau (g' := g') (l' := .fail e) hact rfl (by
            show code C (.cItem (2 * C.stages.length + 1) (dst C) y) a.g = _
            simp only [code, hcy])) ?_
        refine Leads.step (Coro.step_throw hact rfl rfl) ?_
        refine Leads.now (Rear.leaving (o := some e) (Rear.eqv hrear ?_) hact (any _ ?_) rfl rfl)
        · exact ⟨fun _ _ => rfl, fun _ _ => rfl, fun _ _ => rfl⟩
        · exact ⟨fun _ _ => rfl, fun _ _ => rfl, fun _ _ => rfl⟩

/-! ## construction -/

theorem pass_nested {k : Nat} (hk : k + 1 ≤ C.stages.length) (c : Cont V G E) :
    pass C (k + 1) (nested ((C.stages.drop (k + 1)).map lift) c) = nested ((C.stages.drop k).map lift) c := by
  obtain ⟨f, hf⟩ := stage_get (C := C) hk
  funext v g
  rw [pass_some hf]
  have hd : C.stages.drop k = f :: C.stages.drop (k + 1) := by
    rw [List.drop_eq_getElem_cons (by omega)]
    congr 1
    simpa [List.getElem?_eq_getElem (show k < C.stages.length by omega)] using hf
  rw [hd]
  rfl

/-- everything, before memory is flushed -/
def whole (C : Spec V G E) (g : G) : Run (G × Begun) E :=
  each (nested (C.stages.map lift) (onward C.consume (rest C))) C.input (g, false)

theorem throws_leaving {k : Nat} {b : A V G E} {e : E} {r : Run (G × Begun) E} (h1 : b.active = [0]) (h2 : b.stack 0 = guards k)
    (h3 : ∀ j, j < k → Any b j) (h4 : b.ctl = .raise (.user e)) (h5 : r = .error ((b.g, false), some e)) : Leaving C r b := by
  subst h5
  exact ⟨_, _, rfl, .inl ⟨k, ⟨h1, h2, h3, h4⟩, rfl⟩⟩

/-- The chain, after `k + 1` constructions. -/
theorem made {g : G} : ∀ {k : Nat}, k ≤ C.stages.length → Leads (prog C mv gl) (Coro.init (.make 0 0) g) fun b => ∃ T,
    Made C k T b ∧ T (nested ((C.stages.drop k).map lift) (onward C.consume (rest C))) false = whole C g ∨ Leaving C (whole C g) b
  | 0, _ => Leads.bind (create_zero ⟨rfl, rfl, rfl, rfl, fun _ _ => rfl⟩ rfl) fun b h => Leads.now ⟨_, .inl ⟨h, rfl⟩⟩
  | k + 1, hk => by
    refine Leads.bind (made (k := k) (g := g) (by omega)) fun b ⟨T, hb⟩ => ?_
    rcases hb with ⟨hb, hT⟩ | hj
    · cases hb with
      | ok h1 h2 h3 =>
        refine Leads.bind (create_succ h1 h2 hk h3) fun c hc => Leads.now ⟨_, .inl ⟨hc, ?_⟩⟩
        show T (pass C (k + 1) _) false = _
        rw [pass_nested hk, hT]
      | throws h1 h2 h3 h4 h5 =>
        exact Leads.now ⟨T, .inr (throws_leaving h1 h2 h3 h4 (hT.symm.trans (h5 _ _)))⟩
    · exact Leads.now ⟨T, .inr hj⟩

/-- A push coroutine is constructed. -/
theorem create_push {k : Nat} {a : A V G E} {l l' : Pt V E} {fn : Nat → Pt V E} {K : Nat → Pt V E} (hb : Base a k) (hc : a.ctl = .eval l)
    (hcode : code C l a.g = .api (.mk .push .val .ok fn) (onHandle K)) (hcode' : code C (K (2 * k + 1)) a.g = .guard (2 * k + 1) l') :
    Leads (prog C mv gl) a fun b => Base b (k + 1) ∧ b.ctl = .eval l' ∧ POwn b k ∧ Idle b k fn ∧ Eqv k a b ∧ b.g = a.g := by
  refine Leads.step (Coro.step_mk_push hb.active hc hcode) ?_
  rw [hb.nk]
  refine Leads.step (Coro.step_fresh_push (n := k + 1) rfl rfl (by dsimp only; rw [upd_zero]; exact hb.fresh _ (by omega)) (fn := fn)
    (by simp) (by simp)) ?_
  simp only [upd_upd, upd_same]
  refine Leads.step (Coro.step_created_push (n := 0) rfl rfl (upd_same a.stack 0 _) (by simp) (by simp)) ?_
  simp only [upd_upd, upd_same]
  refine Leads.step (Coro.step_use (n := 0) rfl rfl (upd_same a.stack 0 _)) ?_
  simp only [upd_upd, upd_same]
  rw [hb.nh]
  refine Leads.step (Coro.step_guard (n := 0) rfl rfl hcode') ?_
  simp only [upd_upd]
  refine Leads.now ⟨⟨rfl, ?_, rfl, rfl, fun i hi => ?_⟩, rfl, upd_same _ _ _, ⟨?_, ?_, ?_⟩, ⟨fun i hi => ?_, fun i hi => ?_, fun i hi => ?_⟩, rfl⟩
  · dsimp only; rw [upd_same, upd_same, hb.stack]; rfl
  · dsimp only
    rw [upd_ne _ _ (by omega)]
    exact hb.fresh _ (by omega)
  · dsimp only
    rw [upd_zero]
    exact hb.fresh _ (by omega)
  · exact upd_same _ _ _
  · exact (upd_ne _ _ (by omega)).trans (upd_same _ _ _)
  · exact (upd_ne _ _ (by omega)).trans (upd_ne _ _ (by omega))
  · dsimp only; rw [upd_zero]
  · exact upd_ne _ _ (by omega)

/-- The writer and `i` push stages are constructed. -/
theorem create_outs {w : V → G → G × Option E} (hw : C.writer = some w) {a : A V G E} (hb : Base a (C.num 0))
    (hc : a.ctl = .eval (.wMake (2 * C.stages.length + 1))) : ∀ {i : Nat}, i ≤ C.outs.length →
    Leads (prog C mv gl) a fun b => Base b (C.num i + 1) ∧ b.ctl = .eval (.oMake i (2 * C.stages.length + 1) (2 * C.num i + 1)) ∧
      Ready C i false b ∧ Eqv (C.num 0) a b ∧ b.g = a.g
  | 0, _ => by
    refine Leads.bind (create_push hb hc (fn := .wEnter) (K := .wKeep (2 * C.stages.length + 1)) rfl
      (l' := .oMake 0 (2 * C.stages.length + 1) (2 * C.num 0 + 1)) rfl) fun b ⟨b1, b2, b3, b4, b5, b6⟩ => ?_
    exact Leads.now ⟨b1, b2, ⟨fun m h1 h2 => by omega, b3, .inl ⟨rfl, b4⟩⟩, b5, b6⟩
  | i + 1, hi => by
    refine Leads.bind (create_outs hw hb hc (i := i) (by omega)) fun b ⟨b1, b2, b3, b4, b5⟩ => ?_
    have hnum : C.num i + 1 = C.num (i + 1) := rfl
    rw [hnum] at b1
    have hsink : 2 * C.num i + 1 = 2 * C.num (i + 1) - 1 := by simp only [Spec.num]; omega
    refine Leads.bind (create_push b1 b2 (fn := begins (C.num (i + 1))) (K := .oKeep i (2 * C.stages.length + 1)) (by
      simp only [code]
      rw [if_pos (by omega), hsink]
      have : C.stages.length + 2 + i = C.num (i + 1) := by simp only [Spec.num]; omega
      rw [this]; rfl) (l' := .oMake (i + 1) (2 * C.stages.length + 1) (2 * C.num (i + 1) + 1)) rfl) fun c ⟨c1, c2, c3, c4, c5, c6⟩ => ?_
    have hr : Ready C i false c := by
      refine b3.eqv (i := i) ⟨fun x _ hx => c5.hs x ?_, fun m hm => c5.stack _ ?_, fun m hm => c5.co _ ?_⟩ (Nat.le_refl _)
      · simp only [Spec.num] at hx ⊢; omega
      · simp only [Spec.num]; omega
      · simp only [Spec.num]; omega
    refine Leads.now ⟨c1, c2, ⟨fun m h1 h2 => ?_, hr.wrt⟩, ⟨fun x hx => ?_, fun x hx => ?_, fun x hx => ?_⟩, c6.trans b5⟩
    · by_cases hm : m = i + 1
      · subst hm; exact ⟨c3, .inl c4⟩
      · exact hr.stg m h1 (by omega)
    · exact (c5.hs x (by simp only [Spec.num] at hx ⊢; omega)).trans (b4.hs x hx)
    · exact (c5.stack x (by simp only [Spec.num] at hx ⊢; omega)).trans (b4.stack x hx)
    · exact (c5.co x (by simp only [Spec.num] at hx ⊢; omega)).trans (b4.co x hx)

/-- Everything has been constructed. -/
theorem loop_start {a : A V G E} {T : Cont V G E → Begun → Run (G × Begun) E} (hact : a.active = [0]) (hr : Rear C false a)
    (hc : a.ctl = .eval (.cBegin (2 * C.stages.length + 1) (dst C))) (hs : Sts C C.stages.length a T) :
    Leads (prog C mv gl) a (Leaving C (T (onward C.consume (rest C)) false)) := by
  cases hs with
  | alive h3 h4 h5 h6 h7 =>
    have hv := valid_sus h4
    refine Leads.step (Coro.step_begin_some hact hc rfl h5 (by simp) hv) ?_
    refine Leads.step (Coro.step_use hact rfl (upd_same a.stack 0 _)) ?_
    simp only [upd_upd]
    rw [upd_self, h7]
    refine consume_ok _ rfl hact (Rear.eqv hr ?_) rfl h3
      (Sus.eqv (k := C.stages.length + 1) (a := a) ?_ (by omega) h4) h5 (Alive.eqv (k := C.stages.length + 1) (a := a) ?_ (by omega) h6)
    · exact ⟨fun _ _ => rfl, fun _ _ => rfl, fun _ _ => rfl⟩
    · exact ⟨fun _ _ => rfl, fun _ _ => rfl, fun _ _ => rfl⟩
    · exact ⟨fun _ _ => rfl, fun _ _ => rfl, fun _ _ => rfl⟩
  | dead h3 h4 h5 =>
    refine Leads.step (Coro.step_itBegin_none hact hc rfl h3 (by simp)) ?_
    refine Leads.step (Coro.step_use hact rfl (upd_same a.stack 0 _)) ?_
    simp only [upd_upd]
    rw [upd_self, h5]
    refine Leads.step (Coro.step_tau hact rfl (g' := a.g) (l' := .stop) rfl) ?_
    refine Leads.step (Coro.step_ret hact rfl rfl) ?_
    refine Leads.now (Rear.leaving (o := none) (Rear.eqv hr ?_) hact (fun j hj => ?_) rfl rfl)
    · exact ⟨fun _ _ => rfl, fun _ _ => rfl, fun _ _ => rfl⟩
    · refine Any.eqv (k := C.num 0) (a := a) ?_ hj ?_
      · exact ⟨fun _ _ => rfl, fun _ _ => rfl, fun _ _ => rfl⟩
      · by_cases hjk : j = C.stages.length
        · subst hjk; exact .none h3
        · exact h4 j (by simp only [Spec.num] at hj; omega)

theorem whole_ok (g : G) : Ends (prog C mv gl) (Coro.init (.make 0 0) g) (flushed C (whole C g)) := by
  refine Leaving.ends (Leads.bind (made (k := C.stages.length) (g := g) (Nat.le_refl _)) fun b ⟨T, hb⟩ => ?_)
  rcases hb with ⟨hb, hT⟩ | hj
  · simp only [List.drop_length, List.map_nil, nested] at hT
    rw [← hT]
    cases hb with
    | ok h1 h2 h3 =>
      cases hw : C.writer with
      | none =>
        have hdst : dst C = none := by unfold dst; rw [hw]
        refine Leads.step (Coro.step_tau h1.active h2 (g' := b.g) (l' := .cBegin (2 * C.stages.length + 1) (dst C)) (by simp [prog, code, hw, hdst])) ?_
        refine loop_start h1.active ?_ rfl (h3.eqv ?_ rfl)
        · unfold Rear; rw [hw]; exact ⟨rfl, h1.stack⟩
        · exact ⟨fun _ _ => rfl, fun _ _ => rfl, fun _ _ => rfl⟩
      | some w =>
        have hdst : dst C = some (2 * C.num C.outs.length + 1) := by unfold dst; rw [hw]
        refine Leads.step (Coro.step_tau h1.active h2 (g' := b.g) (l' := .wMake (2 * C.stages.length + 1)) (by simp [prog, code, hw])) ?_
        refine Leads.bind (create_outs hw (i := C.outs.length) (by exact ⟨h1.active, h1.stack, h1.nh, h1.nk, h1.fresh⟩) rfl (Nat.le_refl _)) fun c ⟨c1, c2, c3, c4, c5⟩ => ?_
        refine Leads.step (Coro.step_tau c1.active c2 (g' := c.g) (l' := .cBegin (2 * C.stages.length + 1) (dst C)) (by simp [prog, code, hdst])) ?_
        refine loop_start c1.active ?_ rfl (h3.eqv ?_ c5)
        · unfold Rear; rw [hw]
          refine ⟨Ready.eqv (i := C.outs.length) (a := c) ?_ (Nat.le_refl _) c3, c1.stack⟩
          exact ⟨fun _ _ _ => rfl, fun _ _ => rfl, fun _ _ => rfl⟩
        · exact ⟨c4.hs, c4.stack, c4.co⟩
    | throws h1 h2 h3 h4 h5 => exact Leads.now (throws_leaving h1 h2 h3 h4 (h5 _ _))
  · exact Leads.now hj

/-! ## the two cases -/

/-- a run that has nothing to do with the writer -/
def beside (s : Begun) : Run G E → Run (G × Begun) E
  | .ok g => .ok (g, s)
  | .error (g, o) => .error ((g, s), o)

theorem each_beside {c : V → G → Run G E} {c' : Cont V G E} (h : ∀ v g s, c' v (g, s) = beside s (c v g)) :
    ∀ (vs : List V) (g : G) (s : Begun), each c' vs (g, s) = beside s (each c vs g)
  | [], _, _ => rfl
  | v :: vs, g, s => by
    simp only [each, h]
    cases c v g with
    | ok g' => exact each_beside h vs g' s
    | error x => rfl

theorem nested_beside {c : V → G → Run G E} {c' : Cont V G E} (h : ∀ v g s, c' v (g, s) = beside s (c v g)) :
    ∀ (fs : List (Stage V G E)) (v : V) (g : G) (s : Begun), nested (fs.map lift) c' v (g, s) = beside s (nested fs c v g)
  | [], v, g, s => h v g s
  | f :: fs, v, g, s => by
    simp only [List.map_cons, nested, through, lift]
    cases f v g with
    | mk g' r =>
      cases r with
      | ok ys => exact each_beside (nested_beside h fs) ys g' s
      | error e => rfl

theorem chain_ok (hw : C.writer = none) (g : G) : Ends (prog C mv gl) (Coro.init (.make 0 0) g) (loops C g) := by
  have h : whole C g = beside false (loops C g) := by
    refine each_beside (nested_beside (fun v g s => ?_) _) _ _ _
    simp only [onward, last, rest, hw]
    cases C.consume v g with
    | mk g' r => cases r <;> rfl
  have h' : flushed C (beside false (loops C g)) = loops C g := by
    match loops C g with
    | .ok g' => rfl
    | .error (g', o) => rfl
  rw [← h', ← h]
  exact whole_ok g

theorem written_ok {w : V → G → G × Option E} (hw : C.writer = some w) (g : G) :
    Ends (prog C mv gl) (Coro.init (.make 0 0) g) (written C w g) := by
  have h : flushed C (whole C g) = written C w g := by
    unfold whole written rest
    simp only [hw, down, List.take_length]
  rw [← h]
  exact whole_ok g

end Verif.Chain
