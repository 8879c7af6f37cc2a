import Verif.SimOut

/-! # The library model and the specification machine, from start to end.  Proof material. -/
namespace Verif
variable {L G V E : Type}
variable {P : Prog L G V E} {l0 : L} {g0 : G} {s s' : St L G V E} {rest rest' : List Nat} {co co' : Nat → Coro.Co L V E}

/-- `s`, reached within the rules, is `a` in the specification -/
def Sim (P : Prog L G V E) (l0 : L) (g0 : G) (s : St L G V E) (a : Coro.St L G V E) : Prop :=
  ReachOk P l0 g0 s ∧ (∀ r, s.ctl = .deliver r → s.fr = [] → r = .unit) ∧
    ∃ rest co, Disc s rest ∧ CoOk s co ∧ absSt s rest co = a

theorem sim_init (l0 : L) (g0 : G) : Sim P l0 g0 (init l0 g0) (Coro.init l0 g0) := by
  refine ⟨.init, nofun, [], fun _ => {}, disc_init l0 g0, ?_, ?_⟩
  · constructor <;> intro k
    · rfl
    · rfl
    · simp only [init]; split <;> rfl
    · intro h; simp [init] at h
    · intro h; simp [init] at h
    · intro h; simp only [init] at h; split at h <;> simp [Base.isFresh] at h
  · simp [absSt, init, Coro.init, absCtl]

/-- a step of the library -/
theorem Sim.step {a : Coro.St L G V E} (h : Sim P l0 g0 s a) (ru : Rules P s) (hs : step P s = .next s') :
    (Sim P l0 g0 s' a ∧ stut s' < stut s) ∨ ∃ a', Sim P l0 g0 s' a' ∧ Coro.step P a = .next a' := by
  obtain ⟨hk, hdel, rest, co, d, ok, rfl⟩ := h
  have hi := inv_reach hk.reach
  have hj := jinv_reach hk.reach
  have hst := step_rel hi hs
  have hk' := hk.step ru hs
  obtain ⟨rest', d', hmv⟩ := d.step hi (inv_reach hk'.reach) hj ru hst
  have hdel' := hst.delUnit hi
  rcases hst.sim ok d hmv hi hj (ctor_reach hk.reach) hdel ru with ⟨h1, h2, h3⟩ | ⟨co', h1, h2⟩
  · exact .inl ⟨⟨hk', hdel', rest', co, d', h2, h1⟩, h3⟩
  · exact .inr ⟨_, ⟨hk', hdel', rest', co', d', h1, rfl⟩, h2⟩

theorem Sim.rules {a : Coro.St L G V E} (h : Sim P l0 g0 s a) (hn : Coro.step P a ≠ .stuck) : Rules P s ∧ ∀ t, Verif.step P s ≠ .ill t := by
  obtain ⟨hk, _, rest, co, d, ok, rfl⟩ := h
  have hi := inv_reach hk.reach
  exact ⟨rules_of_notStuck ok d hi (jinv_reach hk.reach) hn, no_ill ok hi hn⟩

theorem Sim.out {a : Coro.St L G V E} (h : Sim P l0 g0 s a) (ru : Rules P s) (hill : ∀ t, Verif.step P s ≠ .ill t) :
    (∃ s', Verif.step P s = .next s') ∨ (Verif.step P s = .done s ∧ Coro.step P a = .done a) ∨
      (Verif.step P s = .uncaught s ∧ Coro.step P a = .uncaught a) := by
  obtain ⟨hk, _, rest, co, d, ok, rfl⟩ := h
  exact out_match hk ok d ru hill

/-- every step of the specification is taken by the library -/
theorem Sim.progress {a : Coro.St L G V E}
    (hH : ∀ s, Sim P l0 g0 s a → Rules P s ∧ ∀ t, Verif.step P s ≠ .ill t) :
    ∀ (n : Nat) {s : St L G V E}, stut s < n → Sim P l0 g0 s a → ∃ s1, Later P s s1 ∧ Sim P l0 g0 s1 a ∧
      ((∃ s' a', Verif.step P s1 = .next s' ∧ Coro.step P a = .next a' ∧ Sim P l0 g0 s' a') ∨
        (Verif.step P s1 = .done s1 ∧ Coro.step P a = .done a) ∨ (Verif.step P s1 = .uncaught s1 ∧ Coro.step P a = .uncaught a)) := by
  intro n
  induction n with
  | zero => intro s h; omega
  | succ n ih =>
    intro s hn h
    obtain ⟨ru, hill⟩ := hH s h
    rcases h.out ru hill with ⟨s', hs⟩ | he | he
    · rcases h.step ru hs with ⟨h', hlt⟩ | ⟨a', h', e⟩
      · obtain ⟨s1, hl, h1⟩ := ih (by omega) h'
        exact ⟨s1, (Later.refl.step hs).trans hl, h1⟩
      · exact ⟨s, .refl, h, .inl ⟨s', a', hs, e, h'⟩⟩
    · exact ⟨s, .refl, h, .inr (.inl he)⟩
    · exact ⟨s, .refl, h, .inr (.inr he)⟩

theorem Sim.progress' {a : Coro.St L G V E} (hH : ∀ s, Sim P l0 g0 s a → Rules P s ∧ ∀ t, Verif.step P s ≠ .ill t)
    (h : Sim P l0 g0 s a) : ∃ s1, Later P s s1 ∧ Sim P l0 g0 s1 a ∧
      ((∃ s' a', Verif.step P s1 = .next s' ∧ Coro.step P a = .next a' ∧ Sim P l0 g0 s' a') ∨
        (Verif.step P s1 = .done s1 ∧ Coro.step P a = .done a) ∨ (Verif.step P s1 = .uncaught s1 ∧ Coro.step P a = .uncaught a)) :=
  Sim.progress hH (stut s + 1) (Nat.lt_succ_self _) h

/-- forward: what the library reaches within the rules -/
theorem reachOk_sim (h : ReachOk P l0 g0 s) : ∃ a, Coro.Reach P l0 g0 a ∧ Sim P l0 g0 s a := by
  induction h with
  | init => exact ⟨_, .init, sim_init l0 g0⟩
  | step hr hu hs ih =>
    obtain ⟨a, ha, h⟩ := ih
    rcases h.step hu hs with ⟨h', _⟩ | ⟨a', h', e⟩
    · exact ⟨a, ha, h'⟩
    · exact ⟨a', ha.step e, h'⟩

theorem reach_sim (hm : Coro.Meaningful P l0 g0) (h : Reach P l0 g0 s) : ∃ a, Coro.Reach P l0 g0 a ∧ Sim P l0 g0 s a := by
  induction h with
  | init => exact ⟨_, .init, sim_init l0 g0⟩
  | step hr hs ih =>
    obtain ⟨a, ha, h⟩ := ih
    rcases h.step (h.rules (hm a ha)).1 hs with ⟨h', _⟩ | ⟨a', h', e⟩
    · exact ⟨a, ha, h'⟩
    · exact ⟨a', ha.step e, h'⟩

/-- backward: what the specification reaches -/
theorem coro_sim (hH : ∀ a, Coro.Reach P l0 g0 a → ∀ s, Sim P l0 g0 s a → Rules P s ∧ ∀ t, Verif.step P s ≠ .ill t)
    {a : Coro.St L G V E} (h : Coro.Reach P l0 g0 a) : ∃ s, Sim P l0 g0 s a := by
  induction h with
  | init => exact ⟨_, sim_init l0 g0⟩
  | step hr hs ih =>
    obtain ⟨s, h⟩ := ih
    obtain ⟨s1, hl, h1, ⟨s', a', e1, e2, e3⟩ | ⟨e1, e2⟩ | ⟨e1, e2⟩⟩ := h.progress' (hH _ hr)
    · rw [hs] at e2; cases e2; exact ⟨s', e3⟩
    · rw [hs] at e2; cases e2
    · rw [hs] at e2; cases e2

/-! ## runs -/

theorem reach_of_run {n : Nat} {s t : St L G V E} (hr : Reach P l0 g0 s) (h : run P n s = .done t ∨ run P n s = .uncaught t) :
    ∃ s1, Reach P l0 g0 s1 ∧ Verif.step P s1 = run P n s := by
  induction n generalizing s with
  | zero => rcases h with h | h <;> cases h
  | succ n ih =>
    simp only [run] at h ⊢
    cases hs : Verif.step P s with
    | next s' => rw [hs] at h; exact ih (hr.step hs) h
    | _ => exact ⟨s, hr, hs⟩

theorem run_step {n : Nat} {x a : St L G V E} (hx : run P n x = .next a) : run P (n + 1) x = Verif.step P a := by
  induction n generalizing x with
  | zero =>
    simp only [run, Out.next.injEq] at hx
    subst hx
    simp only [run]
    cases Verif.step P x <;> rfl
  | succ n ih =>
    simp only [run] at hx
    cases hsx : Verif.step P x with
    | next y => rw [hsx] at hx; rw [run, hsx]; exact ih hx
    | _ => rw [hsx] at hx; cases hx

theorem run_of_reach {s : St L G V E} (h : Reach P l0 g0 s) : ∃ n, run P n (init l0 g0) = .next s := by
  induction h with
  | init => exact ⟨0, rfl⟩
  | step hr hs ih =>
    obtain ⟨n, hn⟩ := ih
    exact ⟨n + 1, by rw [run_step hn, hs]⟩

theorem coroReach_of_run {n : Nat} {a t : Coro.St L G V E} (hr : Coro.Reach P l0 g0 a)
    (h : Coro.run P n a = .done t ∨ Coro.run P n a = .uncaught t) : ∃ a1, Coro.Reach P l0 g0 a1 ∧ Coro.step P a1 = Coro.run P n a := by
  induction n generalizing a with
  | zero => rcases h with h | h <;> cases h
  | succ n ih =>
    simp only [Coro.run] at h ⊢
    cases hs : Coro.step P a with
    | next s' => rw [hs] at h; exact ih (hr.step hs) h
    | _ => exact ⟨a, hr, hs⟩

theorem coroRun_step {n : Nat} {x a : Coro.St L G V E} (hx : Coro.run P n x = .next a) : Coro.run P (n + 1) x = Coro.step P a := by
  induction n generalizing x with
  | zero =>
    simp only [Coro.run, Coro.Out.next.injEq] at hx
    subst hx
    simp only [Coro.run]
    cases Coro.step P x <;> rfl
  | succ n ih =>
    simp only [Coro.run] at hx
    cases hsx : Coro.step P x with
    | next y => rw [hsx] at hx; rw [Coro.run, hsx]; exact ih hx
    | _ => rw [hsx] at hx; cases hx

theorem coroRun_of_reach {a : Coro.St L G V E} (h : Coro.Reach P l0 g0 a) : ∃ n, Coro.run P n (Coro.init l0 g0) = .next a := by
  induction h with
  | init => exact ⟨0, rfl⟩
  | step hr hs ih =>
    obtain ⟨n, hn⟩ := ih
    exact ⟨n + 1, by rw [coroRun_step hn, hs]⟩

theorem run_stays {x : St L G V E} {o : Out (St L G V E)} (n : Nat) (h : run P n x = o) (hn : ∀ y, o ≠ .next y) : run P (n + 1) x = o := by
  induction n generalizing x with
  | zero => exact absurd h.symm (hn x)
  | succ n ih =>
    rw [run]
    simp only [run] at h
    cases hs : Verif.step P x with
    | next y => rw [hs] at h; exact ih h
    | _ => rw [hs] at h; exact h

theorem coroRun_stays {x : Coro.St L G V E} {o : Coro.Out (Coro.St L G V E)} (n : Nat) (h : Coro.run P n x = o) (hn : ∀ y, o ≠ .next y) :
    Coro.run P (n + 1) x = o := by
  induction n generalizing x with
  | zero => exact absurd h.symm (hn x)
  | succ n ih =>
    rw [Coro.run]
    simp only [Coro.run] at h
    cases hs : Coro.step P x with
    | next y => rw [hs] at h; exact ih h
    | _ => rw [hs] at h; exact h

theorem coroRun_stays' {x : Coro.St L G V E} {o : Coro.Out (Coro.St L G V E)} {n : Nat} (m : Nat) (h : Coro.run P n x = o)
    (hn : ∀ y, o ≠ .next y) : Coro.run P (n + m) x = o := by
  induction m with
  | zero => exact h
  | succ m ih => exact coroRun_stays (n + m) ih hn

end Verif
