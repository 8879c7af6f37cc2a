import Verif.PropsBracket
import Verif.Via
import Verif.ExPerf
import Verif.Shape

/-!
# C67: how often control is transferred
-/
namespace Verif
variable {L G V E : Type}
variable {P : Prog L G V E} {l0 : L} {g0 : G} {s s' t : St L G V E} {a b : Coro.St L G V E}

/-- How often another context gets control in the next `n` steps of the library (doc/performance.qbk). -/
def hops (P : Prog L G V E) : Nat → St L G V E → Nat
  | 0, _ => 0
  | n + 1, s =>
    match step P s with
    | .next s' => (if s'.cur = s.cur then 0 else 1) + hops P n s'
    | _ => 0

/-- How often another function gets control in the next `n` steps of the specification (doc/performance.qbk). -/
def Coro.hops (P : Prog L G V E) : Nat → Coro.St L G V E → Nat
  | 0, _ => 0
  | n + 1, a =>
    match Coro.step P a with
    | .next a' => (if a'.active.head? = a.active.head? then 0 else 1) + Coro.hops P n a'
    | _ => 0

theorem Sim.cur (h : Sim P l0 g0 s a) : a.active.head? = some s.cur := h.agree.running

theorem hops_step {n : Nat} (h : Verif.step P s = .next s') : hops P (n + 1) s = (if s'.cur = s.cur then 0 else 1) + hops P n s' := by
  simp only [hops, h]
theorem Coro.hops_step {n : Nat} {a' : Coro.St L G V E} (h : Coro.step P a = .next a') :
    Coro.hops P (n + 1) a = (if a'.active.head? = a.active.head? then 0 else 1) + Coro.hops P n a' := by
  simp only [Coro.hops, h]

theorem runs_add {n m : Nat} (h : run P n s = .next t) : run P (n + m) s = run P m t := by
  induction n generalizing s with
  | zero => cases h; rw [Nat.zero_add]
  | succ n ih =>
    rw [Nat.add_right_comm]
    simp only [run] at h ⊢
    cases hs : Verif.step P s with
    | next s' => rw [hs] at h; exact ih h
    | _ => rw [hs] at h; cases h
theorem hops_add {n m : Nat} (h : run P n s = .next t) : hops P (n + m) s = hops P n s + hops P m t := by
  induction n generalizing s with
  | zero => cases h; rw [Nat.zero_add]; exact (Nat.zero_add _).symm
  | succ n ih =>
    rw [Nat.add_right_comm]
    simp only [run, hops] at h ⊢
    cases hs : Verif.step P s with
    | next s' => rw [hs] at h; simp only [ih h]; omega
    | _ => rw [hs] at h; cases h
theorem coroRuns_add {n m : Nat} (h : Coro.run P n a = .next b) : Coro.run P (n + m) a = Coro.run P m b := by
  induction n generalizing a with
  | zero => cases h; rw [Nat.zero_add]
  | succ n ih =>
    rw [Nat.add_right_comm]
    simp only [Coro.run] at h ⊢
    cases hs : Coro.step P a with
    | next s' => rw [hs] at h; exact ih h
    | _ => rw [hs] at h; cases h
theorem coroHops_add {n m : Nat} (h : Coro.run P n a = .next b) : Coro.hops P (n + m) a = Coro.hops P n a + Coro.hops P m b := by
  induction n generalizing a with
  | zero => cases h; rw [Nat.zero_add]; exact (Nat.zero_add _).symm
  | succ n ih =>
    rw [Nat.add_right_comm]
    simp only [Coro.run, Coro.hops] at h ⊢
    cases hs : Coro.step P a with
    | next s' => rw [hs] at h; simp only [ih h]; omega
    | _ => rw [hs] at h; cases h

theorem coroReach_next {n : Nat} (ha : Coro.Reach P l0 g0 a) (h : Coro.run P n a = .next b) : Coro.Reach P l0 g0 b := by
  induction n generalizing a with
  | zero => cases h; exact ha
  | succ n ih =>
    simp only [Coro.run] at h
    cases hs : Coro.step P a with
    | next a' => rw [hs] at h; exact ih (ha.step hs) h
    | _ => rw [hs] at h; cases h

/-- what the library does, the specification does with as many transfers -/
theorem Sim.follow (hm : Coro.Meaningful P l0 g0) (ha : Coro.Reach P l0 g0 a) (h : Sim P l0 g0 s a) {n : Nat} (hr : run P n s = .next t) :
    ∃ m b, Coro.run P m a = .next b ∧ Coro.Reach P l0 g0 b ∧ Sim P l0 g0 t b ∧ hops P n s = Coro.hops P m a := by
  induction n generalizing s a with
  | zero => cases hr; exact ⟨0, a, rfl, ha, h, rfl⟩
  | succ n ih =>
    simp only [run] at hr
    cases hs : Verif.step P s with
    | next s' =>
      rw [hs] at hr
      rw [hops_step hs]
      rcases h.step (h.rules (hm a ha)).1 hs with ⟨h', _⟩ | ⟨a', h', e⟩
      · obtain ⟨m, b, h1, h2, h3, h4⟩ := ih ha h' hr
        have := h.cur.symm.trans h'.cur
        simp only [Option.some.injEq] at this
        exact ⟨m, b, h1, h2, h3, by rw [if_pos this.symm, Nat.zero_add]; exact h4⟩
      · obtain ⟨m, b, h1, h2, h3, h4⟩ := ih (ha.step e) h' hr
        refine ⟨m + 1, b, by simp only [Coro.run, e, h1], h2, h3, ?_⟩
        rw [Coro.hops_step e, h4, h.cur, h'.cur]
        simp only [Option.some.injEq]
    | _ => rw [hs] at hr; cases hr

/-- the library gets to the next step of the specification without a transfer -/
theorem Sim.ahead (hm : Coro.Meaningful P l0 g0) (ha : Coro.Reach P l0 g0 a) {a' : Coro.St L G V E} (he : Coro.step P a = .next a') :
    ∀ (k : Nat) {s : St L G V E}, stut s < k → Sim P l0 g0 s a → ∃ n t, run P n s = .next t ∧ Sim P l0 g0 t a' ∧
      hops P n s = if a'.active.head? = a.active.head? then 0 else 1 := by
  intro k
  induction k with
  | zero => intro s h; omega
  | succ k ih =>
    intro s hk h
    obtain ⟨ru, hill⟩ := h.rules (hm a ha)
    rcases h.out ru hill with ⟨s', hs⟩ | ⟨_, e⟩ | ⟨_, e⟩
    · rcases h.step ru hs with ⟨h', hlt⟩ | ⟨b, h', e⟩
      · obtain ⟨n, t, h1, h2, h3⟩ := ih (by omega) h'
        have := h.cur.symm.trans h'.cur
        simp only [Option.some.injEq] at this
        exact ⟨n + 1, t, by simp only [run, hs, h1], h2, by rw [hops_step hs, if_pos this.symm, h3, Nat.zero_add]⟩
      · rw [he] at e; cases e
        refine ⟨1, s', by simp only [run, hs], h', ?_⟩
        rw [hops_step hs, h.cur, h'.cur]
        simp only [Option.some.injEq, hops, Nat.add_zero]
    · rw [he] at e; cases e
    · rw [he] at e; cases e

/-- what the specification does, the library does with as many transfers -/
theorem Sim.lead (hm : Coro.Meaningful P l0 g0) (ha : Coro.Reach P l0 g0 a) (h : Sim P l0 g0 s a) {m : Nat} (hr : Coro.run P m a = .next b) :
    ∃ n t, run P n s = .next t ∧ Sim P l0 g0 t b ∧ hops P n s = Coro.hops P m a := by
  induction m generalizing s a with
  | zero => cases hr; exact ⟨0, s, rfl, h, rfl⟩
  | succ m ih =>
    simp only [Coro.run] at hr
    cases hs : Coro.step P a with
    | next a' =>
      rw [hs] at hr
      rw [Coro.hops_step hs]
      obtain ⟨n1, s1, h1, h2, h3⟩ := Sim.ahead hm ha hs (stut s + 1) (Nat.lt_succ_self _) h
      obtain ⟨n2, t, h4, h5, h6⟩ := ih (ha.step hs) h2 hr
      exact ⟨n1 + n2, t, by rw [runs_add h1, h4], h5, by rw [hops_add h1, h3, h6]⟩
    | _ => rw [hs] at hr; cases hr

/-- C67: as many transfers have happened as the history shows (any program, whether it keeps the rules or not); … -/
theorem C67_history {n : Nat} (h : run P n (init l0 g0) = .next s) : hops P n (init l0 g0) = nIn s.log + nOut s.log := by
  have key : ∀ (n : Nat) {s0 : St L G V E}, Reach P l0 g0 s0 → run P n s0 = .next s → hops P n s0 + (nIn s0.log + nOut s0.log) = nIn s.log + nOut s.log := by
    intro n
    induction n with
    | zero => intro s0 _ h; cases h; exact Nat.zero_add _
    | succ n ih =>
      intro s0 hr h
      simp only [run] at h
      cases hs : Verif.step P s0 with
      | next s1 =>
        rw [hs] at h
        have := ih (hr.step hs) h
        have := C66_one_transfer hr hs
        rw [hops_step hs]
        omega
      | _ => rw [hs] at h; cases h
  exact key n .init h

/-- … the library transfers control as often as the specification does, no more, … -/
theorem C67_no_more (hm : Coro.Meaningful P l0 g0) {n : Nat} (h : run P n (init l0 g0) = .next s) :
    ∃ m a, Coro.run P m (Coro.init l0 g0) = .next a ∧ Agree s a ∧ hops P n (init l0 g0) = Coro.hops P m (Coro.init l0 g0) := by
  obtain ⟨m, b, h1, _, h3, h4⟩ := Sim.follow hm .init (sim_init l0 g0) h
  exact ⟨m, b, h1, h3.agree, h4⟩

/-- … and no less. -/
theorem C67_no_less (hm : Coro.Meaningful P l0 g0) {m : Nat} (h : Coro.run P m (Coro.init l0 g0) = .next a) :
    ∃ n s, run P n (init l0 g0) = .next s ∧ Agree s a ∧ hops P n (init l0 g0) = Coro.hops P m (Coro.init l0 g0) := by
  obtain ⟨n, t, h1, h2, h3⟩ := Sim.lead hm .init (sim_init l0 g0) h
  exact ⟨n, t, h1, h2.agree, h3⟩

end Verif
