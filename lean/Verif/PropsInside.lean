import Verif.InsideSim
import Verif.PropsErase

/-!
# C63: a program can be run inside a coroutine

`Inside.prog P l0` (SpecInside.lean) is the program whose `main` creates a coroutine that does what `P` does from `l0`.  The library runs
it as it runs `P`: nothing that was allowed becomes forbidden, the states correspond, and it ends as `P` ends.  So nothing depends on
being called from `main`: a library function that uses coroutines can be called from a coroutine, to any depth.
-/
namespace Verif
variable {L G V E : Type}
variable {P : Prog L G V E} {l0 : L} {g0 : G}

namespace Aux
open Inside

/-- what the wrapped program does while the program runs `n` steps -/
theorem inside_run (n : Nat) :
    (∃ a, Coro.run P n (Coro.init l0 g0) = .next a ∧ Coro.run (prog P l0) (n + 2) (Coro.init (.inr .start) g0) = .next (sh a) ∧
      NZ a ∧ ctlOk a.active a.ctl) ∨
    (∃ m a, Coro.run P n (Coro.init l0 g0) = .done a ∧ m ≤ n + 2 ∧ Coro.run (prog P l0) m (Coro.init (.inr .start) g0) = .next (endSt a none) ∧
      a.stack 0 = []) ∨
    (∃ m a e, Coro.run P n (Coro.init l0 g0) = .uncaught a ∧ m ≤ n + 2 ∧
      Coro.run (prog P l0) m (Coro.init (.inr .start) g0) = .next (endSt a (some e)) ∧ a.stack 0 = [] ∧ a.ctl = .raise (.user e)) ∨
    (∃ m, Coro.run P n (Coro.init l0 g0) = .stuck ∧ Coro.run (prog P l0) m (Coro.init (.inr .start) g0) = .stuck ∧ m ≤ n + 2) := by
  induction n with
  | zero => exact .inl ⟨_, rfl, start, nz_init, trivial⟩
  | succ n ih =>
    rcases ih with ⟨a, e, e', hn, hc⟩ | ⟨m, a, e, hle, e', hs⟩ | ⟨m, a, x, e, hle, e', hs⟩ | ⟨m, e, e', hle⟩
    · have h := R.step (P := P) (l0 := l0) (a := a) ⟨rfl, hn⟩ hc
      rw [← coroRun_step e, ← coroRun_step e'] at h
      generalize hx : Coro.run P (n + 1) (Coro.init l0 g0) = o at h ⊢
      generalize hx' : Coro.run (prog P l0) (n + 2 + 1) (Coro.init (.inr .start) g0) = o' at h
      cases h with
      | next h hc => exact .inl ⟨_, rfl, by rw [← h.1], h.2, hc⟩
      | done h hs => exact .inr (.inl ⟨_, _, rfl, Nat.le_refl _, hx', hs⟩)
      | uncaught h hs he => exact .inr (.inr (.inl ⟨_, _, _, rfl, Nat.le_refl _, hx', hs, he⟩))
      | stuck => exact .inr (.inr (.inr ⟨_, rfl, hx', Nat.le_refl _⟩))
    · exact .inr (.inl ⟨m, a, coroRun_stays n e nofun, by omega, e', hs⟩)
    · exact .inr (.inr (.inl ⟨m, a, x, coroRun_stays n e nofun, by omega, e', hs⟩))
    · exact .inr (.inr (.inr ⟨m, coroRun_stays n e nofun, e', by omega⟩))

theorem coroRun_add {n m : Nat} {x y : Coro.St L G V E} (h : Coro.run P n x = .next y) : Coro.run P (n + m) x = Coro.run P m y := by
  induction m generalizing n y with
  | zero => exact h
  | succ m ih =>
    cases hs : Coro.step P y with
    | next z =>
      have h1 : Coro.run P (n + 1) x = .next z := by rw [coroRun_step h, hs]
      have := ih h1
      rw [show n + (m + 1) = n + 1 + m by omega, this]
      simp only [Coro.run, hs]
    | _ =>
      have h1 := coroRun_step h
      rw [hs] at h1
      rw [show n + (m + 1) = n + 1 + m by omega, coroRun_stays' m h1 nofun]
      simp only [Coro.run, hs]

/-- the same, to the end -/
theorem inside_ends (n : Nat) :
    (∃ a, Coro.run P n (Coro.init l0 g0) = .next a ∧ Coro.run (prog P l0) (n + 2) (Coro.init (.inr .start) g0) = .next (sh a)) ∨
    (∃ m a f, Coro.run P n (Coro.init l0 g0) = .done a ∧ Coro.run (prog P l0) m (Coro.init (.inr .start) g0) = .done f ∧
      f.g = a.g ∧ f.obs = .fin 1 none :: obs a.obs) ∨
    (∃ m a f e, Coro.run P n (Coro.init l0 g0) = .uncaught a ∧ a.ctl = .raise (.user e) ∧
      Coro.run (prog P l0) m (Coro.init (.inr .start) g0) = .uncaught f ∧
      f.g = a.g ∧ f.obs = .exc 0 e :: .fin 1 (some e) :: obs a.obs ∧ f.ctl = .raise (.user e)) ∨
    (∃ m, Coro.run P n (Coro.init l0 g0) = .stuck ∧ Coro.run (prog P l0) m (Coro.init (.inr .start) g0) = .stuck) := by
  rcases inside_run (P := P) (l0 := l0) (g0 := g0) n with ⟨a, e, e', _⟩ | ⟨m, a, e, _, e', hs⟩ | ⟨m, a, x, e, _, e', hs, he⟩ | h
  · exact .inl ⟨a, e, e'⟩
  · obtain ⟨f, hf, h1, h2⟩ := end_done (P := P) (l0 := l0) hs
    exact .inr (.inl ⟨m + 7, a, f, e, by rw [coroRun_add e', hf], h1, h2⟩)
  · obtain ⟨f, hf, h1, h2, h3⟩ := end_uncaught (P := P) (l0 := l0) x hs
    exact .inr (.inr (.inl ⟨m + 6, a, f, x, e, he, by rw [coroRun_add e', hf], h1, h2, h3⟩))
  · obtain ⟨m, h1, h2, _⟩ := h; exact .inr (.inr (.inr ⟨m, h1, h2⟩))

theorem meaningful_iff : Coro.Meaningful P l0 g0 ↔ ∀ n, Coro.run P n (Coro.init l0 g0) ≠ .stuck := by
  constructor
  · intro hm n h
    rcases coroRun_cases hm n with ⟨a, e, _⟩ | ⟨a, e⟩ | ⟨a, e⟩ <;> rw [h] at e <;> cases e
  · intro h a ha hs
    obtain ⟨n, hn⟩ := coroRun_of_reach ha
    exact h (n + 1) (by rw [coroRun_step hn, hs])

theorem reach_of_next {n : Nat} {a : Coro.St L G V E} (h : Coro.run P n (Coro.init l0 g0) = .next a) : Coro.Reach P l0 g0 a := by
  induction n generalizing a with
  | zero => injection h with h; exact h ▸ .init
  | succ n ih =>
    cases hn : Coro.run P n (Coro.init l0 g0) with
    | next b => rw [coroRun_step hn] at h; exact (ih hn).step h
    | _ => rw [coroRun_stays n hn nofun] at h; cases h

/-- while the wrapping coroutine is torn down, none of the code of the program runs -/
theorem end_quiet {a : Coro.St L G V E} {x : Option E} (hs : a.stack 0 = []) {k : Nat} {b : Coro.St (Lab L) G V E}
    (h : Coro.run (prog P l0) k (endSt a x) = .next b) (l : L) : b.ctl ≠ .eval (.inl l) := by
  cases x with
  | none =>
    obtain ⟨f, hf, _⟩ := end_done (P := P) (l0 := l0) hs
    by_cases hk : 7 ≤ k
    · exact absurd (run_agree hf h nofun (.inr hk)) nofun
    · unfold endSt at h
      rw [sh_end hs] at h
      match k with
      | 0 | 1 | 2 | 3 | 4 | 5 | 6 => injection h with h; rw [← h]; nofun
      | k+7 => omega
  | some e =>
    obtain ⟨f, hf, _⟩ := end_uncaught (P := P) (l0 := l0) e hs
    by_cases hk : 6 ≤ k
    · exact absurd (run_agree hf h nofun (.inr hk)) nofun
    · unfold endSt at h
      rw [sh_end hs] at h
      match k with
      | 0 | 1 | 2 | 3 | 4 | 5 => injection h with h; rw [← h]; nofun
      | k+6 => omega

/-- states of the wrapped program in which code of the program runs -/
theorem inside_user {b : Coro.St (Lab L) G V E} (hr : Coro.Reach (prog P l0) (.inr .start) g0 b) {l : L} (hl : b.ctl = .eval (.inl l)) :
    ∃ a, Coro.Reach P l0 g0 a ∧ b = sh a := by
  obtain ⟨n, hn⟩ := coroRun_of_reach hr
  match n with
  | 0 => injection hn with hn; rw [← hn] at hl; cases hl
  | 1 => injection hn with hn; rw [← hn] at hl; cases hl
  | n+2 =>
    rcases inside_run (P := P) (l0 := l0) (g0 := g0) n with ⟨a, e, e', _⟩ | ⟨m, a, e, hle, e', hs⟩ | ⟨m, a, x, e, hle, e', hs, he⟩ | ⟨m, _, e', hle⟩
    · rw [hn] at e'; injection e' with e'
      exact ⟨a, reach_of_next e, e'⟩
    · obtain ⟨d, hd⟩ := Nat.exists_eq_add_of_le hle
      rw [hd, coroRun_add e'] at hn
      exact absurd hl (end_quiet hs hn l)
    · obtain ⟨d, hd⟩ := Nat.exists_eq_add_of_le hle
      rw [hd, coroRun_add e'] at hn
      exact absurd hl (end_quiet hs hn l)
    · exact absurd (run_agree e' hn nofun (.inr hle)) nofun

theorem uncaught_agree (hm : Coro.Meaningful P l0 g0) {n : Nat} {t : St L G V E} (h : run P n (init l0 g0) = .uncaught t) :
    ∃ m a, Coro.run P m (Coro.init l0 g0) = .uncaught a ∧ Agree t a := by
  obtain ⟨s, hr, hs⟩ := reach_of_run .init (.inr h)
  rw [h] at hs
  obtain ⟨a, h1, h2⟩ := reach_sim hm hr
  obtain ⟨ru, hill⟩ := h2.rules (hm a h1)
  rcases h2.out ru hill with ⟨_, e⟩ | ⟨e, _⟩ | ⟨e, e'⟩ <;> rw [hs] at e <;> cases e
  obtain ⟨m, hm'⟩ := coroRun_of_reach h1
  exact ⟨m + 1, a, by rw [coroRun_step hm', e'], h2.agree⟩

theorem agree_uncaught (hm : Coro.Meaningful P l0 g0) {n : Nat} {a : Coro.St L G V E} (h : Coro.run P n (Coro.init l0 g0) = .uncaught a) :
    ∃ m t, run P m (init l0 g0) = .uncaught t ∧ Agree t a := by
  obtain ⟨b, hr, hs⟩ := coroReach_of_run .init (.inr h)
  rw [h] at hs
  obtain ⟨s, h2⟩ := coro_sim (fun a ha s h => h.rules (hm a ha)) hr
  obtain ⟨s1, hl, h3, ⟨_, _, _, e, _⟩ | ⟨_, e⟩ | ⟨e1, e⟩⟩ := h2.progress' (fun s h => h.rules (hm b hr)) <;> rw [hs] at e <;> cases e
  obtain ⟨m, hm'⟩ := run_of_reach h3.1.reach
  exact ⟨m + 1, s1, by rw [run_step hm', e1], h3.agree⟩

end Aux
open Aux

/-- State `s` of a program, and state `s'` of the program that runs it inside a coroutine, look the same to the code of the program: the
same function is at the same place, every function has the same scopes open, memory is the same, coroutine objects refer to the same coroutines, and the same events have
happened; only that everything is one coroutine higher and coroutine 1 has been entered before. -/
structure SameInside (s : St L G V E) (s' : St (Inside.Lab L) G V E) : Prop where
  running : s'.cur = s.cur + 1
  place : ∀ l, s'.ctl = .eval (.inl l) ↔ s.ctl = .eval l
  scopes : ∀ i, opened s' (i + 1) = (opened s i).map Inside.scope
  mem : s'.g = s.g
  objs : ∀ h, s'.hs (h + 1) = (s.hs h).map (fun hd => { hd with cb := hd.cb.map (fun r => ⟨r.co + 1, r.side⟩) })
  events : s'.log.filter Coro.noticed = (s.log.filter Coro.noticed).map Inside.event ++ [.enter 1]

namespace Aux
theorem inside_same {s : St L G V E} {s' : St (Inside.Lab L) G V E} {a : Coro.St L G V E} (h : Agree s a) (h' : Agree s' (Inside.sh a)) :
    SameInside s s' := by
  refine ⟨?_, fun l => ?_, fun i => ?_, h'.mem.symm.trans h.mem, fun x => ?_, ?_⟩
  · have e := h.running
    have e' := h'.running
    cases ha : a.active with
    | nil => rw [ha] at e; cases e
    | cons c t =>
      rw [Inside.sh_active, ha] at e'
      rw [ha] at e
      injection e with e; injection e' with e'
      rw [← e, ← e']
  · rw [← h.user, ← h'.user]
    show Inside.ctl a.ctl = _ ↔ _
    cases a.ctl with
    | res r => cases r <;> simp [Inside.ctl]
    | _ => simp [Inside.ctl]
  · rw [← h.scopes, ← h'.scopes]
    show ((a.stack i).map Inside.fr).filterMap Coro.scopeOf = ((a.stack i).filterMap Coro.scopeOf).map Inside.scope
    rw [List.filterMap_map, List.map_filterMap]
    congr 1
    funext f
    cases f <;> rfl
  · rw [← h.objs, ← h'.objs]; rfl
  · rw [← h.events, ← h'.events]; rfl
end Aux

/-- C63: the program that runs `P` inside a coroutine has a meaning iff `P` has. -/
theorem C63_meaningful : Coro.Meaningful (Inside.prog P l0) (.inr .start) g0 ↔ Coro.Meaningful P l0 g0 := by
  rw [meaningful_iff, meaningful_iff]
  constructor
  · intro h n hs
    rcases inside_ends (P := P) (l0 := l0) (g0 := g0) n with ⟨a, e, _⟩ | ⟨m, a, f, e, _⟩ | ⟨m, a, f, x, e, _⟩ | ⟨m, _, e⟩
    · rw [hs] at e; cases e
    · rw [hs] at e; cases e
    · rw [hs] at e; cases e
    · exact h m e
  · intro h n hs
    rcases inside_ends (P := P) (l0 := l0) (g0 := g0) n with ⟨a, e, e'⟩ | ⟨m, a, f, e, e', _⟩ | ⟨m, a, f, x, e, _, e', _⟩ | ⟨m, e, _⟩
    · exact absurd (run_agree hs e' nofun (.inr (by omega))) nofun
    · exact absurd (run_agree hs e' nofun (.inl nofun)) nofun
    · exact absurd (run_agree hs e' nofun (.inl nofun)) nofun
    · exact h n e

/-- C63: whatever state the program gets to, the wrapped program gets to the corresponding state … -/
theorem C63_forth (hm : Coro.Meaningful P l0 g0) {s : St L G V E} (hr : Reach P l0 g0 s) :
    ∃ s', Reach (Inside.prog P l0) (.inr .start) g0 s' ∧ SameInside s s' := by
  obtain ⟨a, ha, h⟩ := reach_sim hm hr
  obtain ⟨n, hn⟩ := coroRun_of_reach ha
  rcases inside_ends (P := P) (l0 := l0) (g0 := g0) n with ⟨b, e, e'⟩ | ⟨_, _, _, e, _⟩ | ⟨_, _, _, _, e, _⟩ | ⟨_, e, _⟩ <;> rw [hn] at e <;> cases e
  obtain ⟨s', hr', hag⟩ := C55_complete (C63_meaningful.2 hm) (reach_of_next e')
  exact ⟨s', hr', inside_same h.agree hag⟩

/-- … and whenever code of the program runs in the wrapped program, the program gets to the corresponding state. -/
theorem C63_back (hm : Coro.Meaningful P l0 g0) {s' : St (Inside.Lab L) G V E} (hr : Reach (Inside.prog P l0) (.inr .start) g0 s') {l : L}
    (hl : s'.ctl = .eval (.inl l)) : ∃ s, Reach P l0 g0 s ∧ SameInside s s' := by
  obtain ⟨b, hb, h⟩ := reach_sim (C63_meaningful.2 hm) hr
  obtain ⟨a, ha, rfl⟩ := inside_user hb ((h.agree.user _).2 hl)
  obtain ⟨s, hr', hag⟩ := C55_complete hm ha
  exact ⟨s, hr', inside_same hag h.agree⟩

/-- C63: the two return together, with the same memory and the same events; the wrapping coroutine is entered first and finishes last. -/
theorem C63_same_end (hm : Coro.Meaningful P l0 g0) (g : G) (o : List (Ev V E)) :
    (∃ n t, run P n (init l0 g0) = .done t ∧ t.g = g ∧ t.log.filter Coro.noticed = o) →
      ∃ n t, run (Inside.prog P l0) n (init (.inr .start) g0) = .done t ∧ t.g = g ∧
        t.log.filter Coro.noticed = .fin 1 none :: (o.map Inside.event ++ [.enter 1]) := by
  rw [C55_same_end (C63_meaningful.2 hm), C55_same_end hm]
  rintro ⟨n, a, h, hg, ho⟩
  rcases inside_ends (P := P) (l0 := l0) (g0 := g0) n with ⟨b, e, _⟩ | ⟨m, b, f, e, e', h1, h2⟩ | ⟨_, _, _, _, e, _⟩ | ⟨_, e, _⟩ <;>
    rw [h] at e <;> cases e
  exact ⟨m, f, e', h1.trans hg, by rw [h2, ho]; rfl⟩

/-- C63: … and the wrapped program does not return otherwise. -/
theorem C63_same_end_back (hm : Coro.Meaningful P l0 g0) {n : Nat} {t' : St (Inside.Lab L) G V E}
    (h : run (Inside.prog P l0) n (init (.inr .start) g0) = .done t') :
    ∃ m t, run P m (init l0 g0) = .done t ∧ t'.g = t.g ∧
      t'.log.filter Coro.noticed = .fin 1 none :: ((t.log.filter Coro.noticed).map Inside.event ++ [.enter 1]) := by
  obtain ⟨n, f, hn, hg, ho⟩ := (C55_same_end (C63_meaningful.2 hm) _ _).1 ⟨n, t', h, rfl, rfl⟩
  rcases inside_ends (P := P) (l0 := l0) (g0 := g0) n with ⟨b, e, e'⟩ | ⟨m, b, f', e, e', h1, h2⟩ | ⟨_, _, _, _, e, _, e', _⟩ | ⟨_, e, e'⟩
  · exact absurd (run_agree hn e' nofun (.inr (by omega))) nofun
  · have := run_agree hn e' nofun (.inl nofun)
    injection this with this
    subst this
    obtain ⟨m, t, ht, htg, hto⟩ := (C55_same_end hm _ _).2 ⟨n, b, e, rfl, rfl⟩
    exact ⟨m, t, ht, by rw [← hg, h1, htg], by rw [← ho, h2, hto]; rfl⟩
  · exact absurd (run_agree hn e' nofun (.inl nofun)) nofun
  · exact absurd (run_agree hn e' nofun (.inl nofun)) nofun

/-- C63: if an exception leaves `main` of the program, it leaves the coroutine-function, the constructor in `main` throws it, and it
leaves `main` of the wrapped program. -/
theorem C63_same_terminate (hm : Coro.Meaningful P l0 g0) {n : Nat} {t : St L G V E} (h : run P n (init l0 g0) = .uncaught t) :
    ∃ e m t', t.ctl = .raise (.user e) ∧ run (Inside.prog P l0) m (init (.inr .start) g0) = .uncaught t' ∧ t'.ctl = .raise (.user e) ∧
      t'.g = t.g ∧ t'.log.filter Coro.noticed = .exc 0 e :: .fin 1 (some e) :: ((t.log.filter Coro.noticed).map Inside.event ++ [.enter 1]) := by
  obtain ⟨n, a, hn, hag⟩ := uncaught_agree hm h
  rcases inside_ends (P := P) (l0 := l0) (g0 := g0) n with ⟨b, e, _⟩ | ⟨_, _, _, e, _⟩ | ⟨m, b, f, x, e, hx, e', h1, h2, h3⟩ | ⟨_, e, _⟩ <;>
    rw [hn] at e <;> cases e
  obtain ⟨k, t', ht', hag'⟩ := agree_uncaught (C63_meaningful.2 hm) e'
  exact ⟨x, k, t', (hag.exc _).1 hx, ht', (hag'.exc _).1 h3, by rw [← hag.mem, ← hag'.mem, h1], by rw [← hag.events, ← hag'.events, h2]; rfl⟩

/-- C63: … and no exception leaves the wrapped program otherwise. -/
theorem C63_same_terminate_back (hm : Coro.Meaningful P l0 g0) {n : Nat} {t' : St (Inside.Lab L) G V E}
    (h : run (Inside.prog P l0) n (init (.inr .start) g0) = .uncaught t') :
    ∃ e m t, run P m (init l0 g0) = .uncaught t ∧ t.ctl = .raise (.user e) ∧ t'.ctl = .raise (.user e) ∧ t'.g = t.g := by
  obtain ⟨n, f, hn, hag'⟩ := uncaught_agree (C63_meaningful.2 hm) h
  rcases inside_ends (P := P) (l0 := l0) (g0 := g0) n with ⟨b, e, e'⟩ | ⟨_, _, _, e, e', _⟩ | ⟨m, b, f', x, e, hx, e', h1, h2, h3⟩ | ⟨_, e, e'⟩
  · exact absurd (run_agree hn e' nofun (.inr (by omega))) nofun
  · exact absurd (run_agree hn e' nofun (.inl nofun)) nofun
  · have := run_agree hn e' nofun (.inl nofun)
    injection this with this
    subst this
    obtain ⟨m, t, ht, hag⟩ := agree_uncaught hm e
    exact ⟨x, m, t, ht, (hag.exc _).1 hx, (hag'.exc _).1 h3, by rw [← hag.mem, ← hag'.mem, h1]⟩
  · exact absurd (run_agree hn e' nofun (.inl nofun)) nofun

/-- C63: the two run for ever together. -/
theorem C63_same_divergence (hm : Coro.Meaningful P l0 g0) :
    (∀ n, ∃ s, run P n (init l0 g0) = .next s) ↔ ∀ n, ∃ s, run (Inside.prog P l0) n (init (.inr .start) g0) = .next s := by
  rw [C55_same_divergence hm, C55_same_divergence (C63_meaningful.2 hm)]
  constructor
  · intro h n
    obtain ⟨a, ha⟩ := h n
    rcases inside_ends (P := P) (l0 := l0) (g0 := g0) n with ⟨b, e, e'⟩ | ⟨_, _, _, e, _⟩ | ⟨_, _, _, _, e, _⟩ | ⟨_, e, _⟩ <;> rw [ha] at e <;> cases e
    cases hw : Coro.run (Inside.prog P l0) n (Coro.init (.inr .start) g0) with
    | next b => exact ⟨b, rfl⟩
    | _ => exact absurd (run_agree hw e' nofun (.inr (by omega))) nofun
  · intro h n
    rcases inside_ends (P := P) (l0 := l0) (g0 := g0) n with ⟨b, e, _⟩ | ⟨m, _, _, _, e, _⟩ | ⟨m, _, _, _, _, _, e, _⟩ | ⟨m, _, e⟩
    · exact ⟨b, e⟩
    all_goals obtain ⟨c, h⟩ := h m; rw [h] at e; cases e

/-! ## any depth -/

namespace Inside

/-- Places of the code of a program in `d` coroutines (doc/asymmetric.qbk:50-60). -/
def LabN (L : Type) : Nat → Type
  | 0 => L
  | d+1 => Lab (LabN L d)

/-- The program in `d` coroutines, one inside the other, and where it starts (doc/asymmetric.qbk:15-21). -/
def nest (P : Prog L G V E) (l0 : L) : (d : Nat) → Prog (LabN L d) G V E × LabN L d
  | 0 => (P, l0)
  | d+1 => (prog (nest P l0 d).1 (nest P l0 d).2, .inr .start)

end Inside

/-- C63: a program can be run at any depth: in `d` coroutines, one inside the other, it has a meaning, returns or is left by an exception
or runs for ever iff it does so in `main`; with the same memory and the same exception. -/
theorem C63_nested (hm : Coro.Meaningful P l0 g0) (d : Nat) :
    Coro.Meaningful (Inside.nest P l0 d).1 (Inside.nest P l0 d).2 g0 ∧
    (∀ g, (∃ n t, run (Inside.nest P l0 d).1 n (init (Inside.nest P l0 d).2 g0) = .done t ∧ t.g = g) ↔
      ∃ n t, run P n (init l0 g0) = .done t ∧ t.g = g) ∧
    (∀ g e, (∃ n t, run (Inside.nest P l0 d).1 n (init (Inside.nest P l0 d).2 g0) = .uncaught t ∧ t.g = g ∧ t.ctl = .raise (.user e)) ↔
      ∃ n t, run P n (init l0 g0) = .uncaught t ∧ t.g = g ∧ t.ctl = .raise (.user e)) ∧
    ((∀ n, ∃ s, run (Inside.nest P l0 d).1 n (init (Inside.nest P l0 d).2 g0) = .next s) ↔ ∀ n, ∃ s, run P n (init l0 g0) = .next s) := by
  induction d with
  | zero => exact ⟨hm, fun _ => Iff.rfl, fun _ _ => Iff.rfl, Iff.rfl⟩
  | succ d ih =>
    obtain ⟨h1, h2, h3, h4⟩ := ih
    refine ⟨C63_meaningful.2 h1, fun g => Iff.trans ⟨?_, ?_⟩ (h2 g), fun g e => Iff.trans ⟨?_, ?_⟩ (h3 g e), Iff.trans (C63_same_divergence h1).symm h4⟩
    · rintro ⟨n, t, h, hg⟩
      obtain ⟨m, t', h', e, _⟩ := C63_same_end_back h1 h
      exact ⟨m, t', h', e.symm.trans hg⟩
    · rintro ⟨n, t, h, hg⟩
      obtain ⟨m, t', h', e, _⟩ := C63_same_end h1 _ _ ⟨n, t, h, rfl, rfl⟩
      exact ⟨m, t', h', e.trans hg⟩
    · rintro ⟨n, t, h, hg, hx⟩
      obtain ⟨e', m, t', h', e1, e2, e3⟩ := C63_same_terminate_back h1 h
      rw [hx] at e2
      cases e2
      exact ⟨m, t', h', e3.symm.trans hg, e1⟩
    · rintro ⟨n, t, h, hg, hx⟩
      obtain ⟨e', m, t', e1, h', e2, e3, _⟩ := C63_same_terminate h1 h
      rw [hx] at e1
      cases e1
      exact ⟨m, t', h', e3.trans hg, e2⟩

/-! ## Cases -/

/-- C63: a program that returns (a generator with a local object), run in a coroutine, run by the library: its memory and events. -/
example : Coro.Meaningful Demo.P Demo.quietMain [] ∧
    ∃ n t, run (Inside.prog Demo.P Demo.quietMain) n (init (.inr .start) []) = .done t ∧
      t.log.filter Coro.noticed =
        [.fin 1 none, .fin 2 none, .odtor 2 3, .pushed 2 2, .pushed 2 1, .octor 2 3, .enter 2, .enter 1] := by
  have hm : Coro.Meaningful Demo.P Demo.quietMain [] := meaningful_done (n := 80) (by decide +kernel)
  refine ⟨hm, ?_⟩
  obtain ⟨n, t, h, _, ho⟩ := C63_same_end hm _ _ ⟨80, _, rfl, rfl, rfl⟩
  exact ⟨n, t, h, ho⟩

/-- C63: a program that is left by an exception, at any depth. -/
example (d : Nat) : ∃ n t, run (Inside.nest Demo.P Demo.quietThrow d).1 n (init (Inside.nest Demo.P Demo.quietThrow d).2 []) = .uncaught t ∧
    t.ctl = .raise (.user 9) := by
  have hm : Coro.Meaningful Demo.P Demo.quietThrow [] := meaningful_uncaught (n := 80) (by decide +kernel)
  obtain ⟨n, t, h, _, hx⟩ := ((C63_nested hm d).2.2.1 _ 9).2 ⟨80, _, rfl, rfl, rfl⟩
  exact ⟨n, t, h, hx⟩

end Verif
