import Verif.EraseSim
import Verif.DemoMore
import Verif.RulesCheck

/-!
# C62: `coroutine<void>` is `coroutine<T>` without the values

The library implements `pull_coroutine` and `push_coroutine` three times.  A program that never reads the values it passes, and the same
program with `coroutine<void>` (`dropValues`, SpecErase.lean), do the same: validity of objects, order of control, destruction,
exceptions and the end.
-/
namespace Verif
variable {L G V E : Type}
variable {P : Prog L G V E} {l0 : L} {g0 : G}

namespace Aux
open Coro (R)

theorem r_init : R (Coro.init l0 g0 : Coro.St L G V E) (Coro.init l0 g0) := ⟨fun _ => [], fun _ => .nil, rfl⟩

theorem next_reach {a b : Coro.St L G V E} (h : Coro.Next P a b) (hr : Coro.Reach P l0 g0 a) : Coro.Reach P l0 g0 b := by
  rcases h with h | ⟨m, h1, -, h2⟩
  · exact hr.step h
  · exact (hr.step h1).step h2

/-- every state without values comes from one with values -/
theorem erase_reach (hm : Coro.Meaningful P l0 g0) (hi : IgnoresValues P l0 g0) {a' : Coro.St L G V E}
    (hr : Coro.Reach (dropValues P) l0 g0 a') : ∃ a, Coro.Reach P l0 g0 a ∧ R a a' := by
  induction hr with
  | init => exact ⟨_, .init, r_init⟩
  | step _ hs ih =>
    obtain ⟨a, ha, h⟩ := ih
    obtain ⟨s, hsim⟩ := coro_sim (fun a ha s h => h.rules (hm a ha)) ha
    rcases h.step hsim hi (hm a ha) with ⟨b, b', h1, h2, h3⟩ | ⟨b, b', _, h2, _⟩ | ⟨b, b', _, h2, _⟩ <;> rw [hs] at h2 <;> cases h2
    exact ⟨b, next_reach h1 ha, h3⟩

theorem both_step (hm : Coro.Meaningful P l0 g0) (hi : IgnoresValues P l0 g0) {a a' : Coro.St L G V E} (ha : Coro.Reach P l0 g0 a) (h : R a a') :
    (∃ b b', Coro.Next P a b ∧ Coro.step (dropValues P) a' = .next b' ∧ R b b') ∨
    (∃ b b', Coro.step P a = .done b ∧ Coro.step (dropValues P) a' = .done b' ∧ R b b') ∨
    (∃ b b', Coro.step P a = .uncaught b ∧ Coro.step (dropValues P) a' = .uncaught b' ∧ R b b') := by
  obtain ⟨s, hsim⟩ := coro_sim (fun a ha s h => h.rules (hm a ha)) ha
  exact h.step hsim hi (hm a ha)

/-- every state with values is one without, or half way between two -/
theorem erase_back (hm : Coro.Meaningful P l0 g0) (hi : IgnoresValues P l0 g0) {a : Coro.St L G V E} (hr : Coro.Reach P l0 g0 a) :
    (∃ a', Coro.Reach (dropValues P) l0 g0 a' ∧ R a a') ∨
      ((∀ l, a.ctl ≠ .eval l) ∧ ∃ b b', Coro.step P a = .next b ∧ Coro.Reach (dropValues P) l0 g0 b' ∧ R b b') := by
  induction hr with
  | init => exact .inl ⟨_, .init, r_init⟩
  | step ha hs ih =>
    rcases ih with ⟨a', ha', h⟩ | ⟨_, b, b', hb, hb', h⟩
    · rcases both_step hm hi ha h with ⟨b, b', h1, h2, h3⟩ | ⟨b, b', h1, h2, _⟩ | ⟨b, b', h1, h2, _⟩
      · rcases h1 with h1 | ⟨m, h1, hne, h4⟩
        · rw [hs] at h1; cases h1; exact .inl ⟨b', ha'.step h2, h3⟩
        · rw [hs] at h1; cases h1; exact .inr ⟨hne, b, b', h4, ha'.step h2, h3⟩
      · rw [hs] at h1; cases h1
      · rw [hs] at h1; cases h1
    · rw [hs] at hb; cases hb; exact .inl ⟨b', hb', h⟩

/-- runs -/
theorem erase_run (hm : Coro.Meaningful P l0 g0) (hi : IgnoresValues P l0 g0) (n : Nat) :
    (∃ m a a', n ≤ m ∧ Coro.run (dropValues P) n (Coro.init l0 g0) = .next a' ∧ Coro.run P m (Coro.init l0 g0) = .next a ∧
      Coro.Reach P l0 g0 a ∧ R a a') ∨
    (∃ m a a', Coro.run (dropValues P) n (Coro.init l0 g0) = .done a' ∧ Coro.run P m (Coro.init l0 g0) = .done a ∧ R a a') ∨
    (∃ m a a', Coro.run (dropValues P) n (Coro.init l0 g0) = .uncaught a' ∧ Coro.run P m (Coro.init l0 g0) = .uncaught a ∧ R a a') := by
  induction n with
  | zero => exact .inl ⟨0, _, _, Nat.le_refl _, rfl, rfl, .init, r_init⟩
  | succ n ih =>
    rcases ih with ⟨m, a, a', hle, e', e, hr, h⟩ | ⟨m, a, a', e', e, h⟩ | ⟨m, a, a', e', e, h⟩
    · rcases both_step hm hi hr h with ⟨b, b', h1, h2, h3⟩ | ⟨b, b', h1, h2, h3⟩ | ⟨b, b', h1, h2, h3⟩
      · left
        have hb := next_reach h1 hr
        rcases h1 with h1 | ⟨x, h1, -, h4⟩
        · exact ⟨m + 1, b, b', by omega, by rw [coroRun_step e', h2], by rw [coroRun_step e, h1], hb, h3⟩
        · have e1 : Coro.run P (m + 1) (Coro.init l0 g0) = .next x := by rw [coroRun_step e, h1]
          exact ⟨m + 2, b, b', by omega, by rw [coroRun_step e', h2], by rw [coroRun_step e1, h4], hb, h3⟩
      · exact .inr (.inl ⟨m + 1, b, b', by rw [coroRun_step e', h2], by rw [coroRun_step e, h1], h3⟩)
      · exact .inr (.inr ⟨m + 1, b, b', by rw [coroRun_step e', h2], by rw [coroRun_step e, h1], h3⟩)
    · exact .inr (.inl ⟨m, a, a', coroRun_stays n e' (by simp), e, h⟩)
    · exact .inr (.inr ⟨m, a, a', coroRun_stays n e' (by simp), e, h⟩)

/-- how a run ends does not depend on how long one looks -/
theorem run_agree {n m : Nat} {x : Coro.St L G V E} {o o' : Coro.Out (Coro.St L G V E)} (h : Coro.run P n x = o) (h' : Coro.run P m x = o')
    (ho : ∀ y, o ≠ .next y) (ho' : (∀ y, o' ≠ .next y) ∨ n ≤ m) : o = o' := by
  rcases Nat.le_total n m with hle | hle
  · obtain ⟨d, rfl⟩ := Nat.exists_eq_add_of_le hle
    rw [coroRun_stays' d h ho] at h'; exact h'
  · rcases ho' with ho' | hle'
    · obtain ⟨d, rfl⟩ := Nat.exists_eq_add_of_le hle
      rw [coroRun_stays' d h' ho'] at h; exact h.symm
    · obtain rfl : n = m := Nat.le_antisymm hle' hle
      rw [h] at h'; exact h'

theorem coro_end (hm : Coro.Meaningful P l0 g0) (hi : IgnoresValues P l0 g0) {n : Nat} {o : Coro.Out (Coro.St L G V E)}
    (h : Coro.run P n (Coro.init l0 g0) = o) (ho : ∀ y, o ≠ .next y) :
    (∃ m a a', o = .done a ∧ Coro.run (dropValues P) m (Coro.init l0 g0) = .done a' ∧ R a a') ∨
    (∃ m a a', o = .uncaught a ∧ Coro.run (dropValues P) m (Coro.init l0 g0) = .uncaught a' ∧ R a a') := by
  rcases erase_run hm hi n with ⟨m, a, a', hle, e', e, hr, h1⟩ | ⟨m, a, a', e', e, h1⟩ | ⟨m, a, a', e', e, h1⟩
  · exact absurd (run_agree h e ho (.inr hle)) (ho a)
  · exact .inl ⟨n, a, a', run_agree h e ho (.inl nofun), e', h1⟩
  · exact .inr ⟨n, a, a', run_agree h e ho (.inl nofun), e', h1⟩

end Aux
open Aux

/-- State `s` of a program, and state `s'` of the program without values, look the same: the same function runs the same place of the
program's code, every function has the same scopes open, memory is the same, coroutine objects refer to the same coroutines, and the same events have happened except that no
values were transferred. -/
structure SameButValues (s s' : St L G V E) : Prop where
  running : s'.cur = s.cur
  place : s'.ctl = s.ctl
  scopes : ∀ i, opened s' i = opened s i
  mem : s'.g = s.g
  objs : ∀ h, s'.hs h = (s.hs h).map (fun hd => { hd with va := .void })
  events : s'.log.filter Coro.noticed = (s.log.filter Coro.noticed).filter notPushed

namespace Aux
open Coro (R)
theorem sr_opened {t t' : List (Coro.Fr L V E)} (h : Coro.SR t t') : t'.filterMap Coro.scopeOf = t.filterMap Coro.scopeOf := by
  induction h with
  | nil => rfl
  | give _ ih => simpa [List.filterMap_cons, Coro.scopeOf] using ih
  | @cons f t t' hp _ ih => cases f <;> simp [List.filterMap_cons, Coro.scopeOf, Coro.eF, ih]

theorem same_of {s s' : St L G V E} {a a' : Coro.St L G V E} (h : Agree s a) (h' : Agree s' a') (hr : R a a') {l : L} (hl : a.ctl = .eval l) :
    SameButValues s s' := by
  have e := h.running
  have e' := h'.running
  rw [hr.active, e] at e'
  exact ⟨(Option.some.inj e').symm, by rw [(h.user l).1 hl, (h'.user l).1 (hr.ctl.trans hl)],
    fun i => by rw [← h.scopes, ← h'.scopes]; exact sr_opened (hr.sr i), by rw [← h.mem, ← h'.mem, hr.g],
    fun x => by rw [← h.objs, ← h'.objs, hr.hs]; rfl, by rw [← h.events, ← h'.events, hr.obs]⟩
end Aux

/-- C62: if the program has a meaning, the program without values has one: no call that is allowed becomes forbidden. -/
theorem C62_meaningful (hm : Coro.Meaningful P l0 g0) (hi : IgnoresValues P l0 g0) : Coro.Meaningful (dropValues P) l0 g0 := by
  intro a' hr hs
  obtain ⟨a, ha, h⟩ := erase_reach hm hi hr
  rcases both_step hm hi ha h with ⟨b, b', _, h2, _⟩ | ⟨b, b', _, h2, _⟩ | ⟨b, b', _, h2, _⟩ <;> rw [hs] at h2 <;> cases h2

/-- C62: whenever user code runs in the program, the program without values gets to the same state … -/
theorem C62_forth (hm : Coro.Meaningful P l0 g0) (hi : IgnoresValues P l0 g0) {s : St L G V E} (hr : Reach P l0 g0 s) (hu : UserRuns s) :
    ∃ s', Reach (dropValues P) l0 g0 s' ∧ SameButValues s s' := by
  obtain ⟨a, ha, h⟩ := reach_sim hm hr
  obtain ⟨l, hl⟩ := hu
  have hl' := (h.agree.user l).2 hl
  rcases erase_back hm hi ha with ⟨a', ha', h1⟩ | ⟨hne, _⟩
  · obtain ⟨s', hr', hag⟩ := C55_complete (C62_meaningful hm hi) ha'
    exact ⟨s', hr', same_of h.agree hag h1 hl'⟩
  · exact absurd hl' (hne l)

/-- … and the other way round. -/
theorem C62_back (hm : Coro.Meaningful P l0 g0) (hi : IgnoresValues P l0 g0) {s' : St L G V E} (hr : Reach (dropValues P) l0 g0 s')
    (hu : UserRuns s') : ∃ s, Reach P l0 g0 s ∧ SameButValues s s' := by
  obtain ⟨a', ha', h⟩ := reach_sim (C62_meaningful hm hi) hr
  obtain ⟨l, hl⟩ := hu
  have hl' := (h.agree.user l).2 hl
  obtain ⟨a, ha, h1⟩ := erase_reach hm hi ha'
  obtain ⟨s, hr', hag⟩ := C55_complete hm ha
  exact ⟨s, hr', same_of hag h.agree h1 (h1.ctl.symm.trans hl')⟩

/-- C62: the two terminate together, with the same memory and the same events. -/
theorem C62_same_end (hm : Coro.Meaningful P l0 g0) (hi : IgnoresValues P l0 g0) (g : G) (o : List (Ev V E)) :
    (∃ n t, run P n (init l0 g0) = .done t ∧ t.g = g ∧ (t.log.filter Coro.noticed).filter notPushed = o) ↔
      ∃ n t, run (dropValues P) n (init l0 g0) = .done t ∧ t.g = g ∧ t.log.filter Coro.noticed = o := by
  rw [C55_same_end (C62_meaningful hm hi)]
  constructor
  · rintro ⟨n, t, h, hg, ho⟩
    obtain ⟨n, a, h, ha, hb⟩ := (C55_same_end hm _ _).1 ⟨n, t, h, rfl, rfl⟩
    rcases coro_end hm hi h nofun with ⟨m, b, b', e, e', hR⟩ | ⟨m, b, b', e, e', hR⟩ <;> cases e
    exact ⟨m, b', e', by rw [hR.g, ha, hg], by rw [hR.obs, hb, ho]⟩
  · rintro ⟨n, a', h, hg, ho⟩
    rcases erase_run hm hi n with ⟨m, a, a1, _, e', _⟩ | ⟨m, a, a1, e', e, hR⟩ | ⟨m, a, a1, e', _⟩ <;> rw [h] at e' <;> cases e'
    obtain ⟨n, t, h, ha, hb⟩ := (C55_same_end hm _ _).2 ⟨m, a, e, rfl, rfl⟩
    exact ⟨n, t, h, by rw [ha, ← hR.g, hg], by rw [hb, ← hR.obs, ho]⟩

/-- C62: the two are left by an exception together. -/
theorem C62_same_terminate (hm : Coro.Meaningful P l0 g0) (hi : IgnoresValues P l0 g0) (g : G) (o : List (Ev V E)) :
    (∃ n t, run P n (init l0 g0) = .uncaught t ∧ t.g = g ∧ (t.log.filter Coro.noticed).filter notPushed = o) ↔
      ∃ n t, run (dropValues P) n (init l0 g0) = .uncaught t ∧ t.g = g ∧ t.log.filter Coro.noticed = o := by
  rw [C55_same_terminate (C62_meaningful hm hi)]
  constructor
  · rintro ⟨n, t, h, hg, ho⟩
    obtain ⟨n, a, h, ha, hb⟩ := (C55_same_terminate hm _ _).1 ⟨n, t, h, rfl, rfl⟩
    rcases coro_end hm hi h nofun with ⟨m, b, b', e, e', hR⟩ | ⟨m, b, b', e, e', hR⟩ <;> cases e
    exact ⟨m, b', e', by rw [hR.g, ha, hg], by rw [hR.obs, hb, ho]⟩
  · rintro ⟨n, a', h, hg, ho⟩
    rcases erase_run hm hi n with ⟨m, a, a1, _, e', _⟩ | ⟨m, a, a1, e', _⟩ | ⟨m, a, a1, e', e, hR⟩ <;> rw [h] at e' <;> cases e'
    obtain ⟨n, t, h, ha, hb⟩ := (C55_same_terminate hm _ _).2 ⟨m, a, e, rfl, rfl⟩
    exact ⟨n, t, h, by rw [ha, ← hR.g, hg], by rw [hb, ← hR.obs, ho]⟩

/-- C62: the two run for ever together. -/
theorem C62_same_divergence (hm : Coro.Meaningful P l0 g0) (hi : IgnoresValues P l0 g0) :
    (∀ n, ∃ s, run P n (init l0 g0) = .next s) ↔ ∀ n, ∃ s, run (dropValues P) n (init l0 g0) = .next s := by
  rw [C55_same_divergence hm, C55_same_divergence (C62_meaningful hm hi)]
  constructor
  · intro h n
    rcases erase_run hm hi n with ⟨m, a, a', _, e', _⟩ | ⟨m, a, a', _, e, _⟩ | ⟨m, a, a', _, e, _⟩
    · exact ⟨a', e'⟩
    · obtain ⟨b, h⟩ := h m; rw [e] at h; cases h
    · obtain ⟨b, h⟩ := h m; rw [e] at h; cases h
  · intro h n
    cases e : Coro.run P n (Coro.init l0 g0) with
    | next a => exact ⟨a, rfl⟩
    | _ =>
      rcases coro_end hm hi e nofun with ⟨m, b, b', _, e', _⟩ | ⟨m, b, b', _, e', _⟩ <;>
        (obtain ⟨c, h⟩ := h m; rw [e'] at h; cases h)

/-! ## Cases -/

namespace Aux

def voidHasB : Op L V E → Bool
  | .get _ | .itBegin _ | .itNext _ | .itDeref _ | .itPut _ _ => false
  | _ => true

/-- the condition of `IgnoresValues`, for one state -/
def ignoresB (P : Prog L G V E) (s : St L G V E) : Bool :=
  match s.ctl with
  | .eval l =>
    match P.code l s.g with
    | .api (.push h x) _ => (match s.hs h with | some ⟨_, .void, _⟩ => (match x with | .unit => true | _ => false) | _ => true)
    | .api op _ => voidHasB op
    | _ => true
  | _ => true

def ignoresRun (P : Prog L G V E) : Nat → St L G V E → Bool
  | 0, _ => false
  | n+1, s => ignoresB P s && match step P s with | .next s' => ignoresRun P n s' | _ => true

theorem ignoresB_ok {s : St L G V E} (h : ignoresB P s = true) {op : Op L V E} {k : Res V → L} (hc : Calls P s op k) :
    voidHas op ∧ ∀ h x hd, op = .push h x → s.hs h = some hd → hd.va = .void → x = .unit := by
  obtain ⟨l, h1, h2⟩ := hc
  simp only [ignoresB, h1, h2] at h
  constructor
  · cases op <;> simp_all [voidHas, voidHasB]
  · rintro y x ⟨ty, va, cb⟩ rfl hy rfl
    simp only [hy] at h
    cases x <;> simp_all

theorem ignores_of (n : Nat) (h : ignoresRun P n (init l0 g0) = true) : IgnoresValues P l0 g0 := by
  have key : ∀ s, Reach P l0 g0 s → ∃ m, ignoresRun P m s = true := by
    intro s hr
    induction hr with
    | init => exact ⟨n, h⟩
    | step _ hs ih =>
      obtain ⟨m, hm⟩ := ih
      cases m with
      | zero => cases hm
      | succ m =>
        simp only [ignoresRun, hs, Bool.and_eq_true] at hm
        exact ⟨m, hm.2⟩
  intro s op k hr hc
  obtain ⟨m, hm⟩ := key s hr
  cases m with
  | zero => cases hm
  | succ m =>
    simp only [ignoresRun, Bool.and_eq_true] at hm
    exact ignoresB_ok hm.1 hc

end Aux

namespace Demo
open Code

/-- A generator of 1, 2 with a local object; main asks and pulls, and reads nothing. -/
def quietMain : C :=
  mk .pull .val (fun h => obj 3 (push h 1 (push h 2 ret))) fun h =>
    guard h (op (.valid h) fun _ => resume h (op (.valid h) fun _ => resume h (op (.bang h) fun _ => leave ret)))

/-- A consumer, by reference, that throws at the second value without looking at it; main does not catch. -/
def quietThrow : C :=
  mk .push .ref (fun h => op (.valid h) fun _ => resume h (throw 9)) fun h => guard h (push h 1 (op (.valid h) fun _ => push h 2 ret))

end Demo

/-- C62: a program that returns, with the hypotheses of the theorems; the version with `coroutine<void>` ends in the same memory with
the same events, of which there are several. -/
example : Coro.Meaningful Demo.P Demo.quietMain [] ∧ IgnoresValues Demo.P Demo.quietMain [] ∧
    ∃ n t, run (dropValues Demo.P) n (init Demo.quietMain []) = .done t ∧
      t.log.filter Coro.noticed = [.fin 1 none, .odtor 1 3, .octor 1 3, .enter 1] := by
  have hm : Coro.Meaningful Demo.P Demo.quietMain [] := meaningful_done (n := 80) (by decide +kernel)
  have hi : IgnoresValues Demo.P Demo.quietMain [] := ignores_of 80 (by decide +kernel)
  refine ⟨hm, hi, ?_⟩
  have : ∃ n t, run Demo.P n (init Demo.quietMain []) = .done t ∧ t.g = t.g ∧ (t.log.filter Coro.noticed).filter notPushed = _ :=
    ⟨80, _, rfl, rfl, rfl⟩
  obtain ⟨n, t, h, _, ho⟩ := this
  obtain ⟨m, t', h', _, ho'⟩ := (C62_same_end hm hi _ _).1 ⟨n, t, h, rfl, ho⟩
  exact ⟨m, t', h', ho'⟩

/-- C62: a program that is left by an exception. -/
example : Coro.Meaningful Demo.P Demo.quietThrow [] ∧ IgnoresValues Demo.P Demo.quietThrow [] ∧
    ∃ n t, run (dropValues Demo.P) n (init Demo.quietThrow []) = .uncaught t := by
  have hm : Coro.Meaningful Demo.P Demo.quietThrow [] := meaningful_uncaught (n := 80) (by decide +kernel)
  have hi : IgnoresValues Demo.P Demo.quietThrow [] := ignores_of 80 (by decide +kernel)
  refine ⟨hm, hi, ?_⟩
  have : ∃ n t, run Demo.P n (init Demo.quietThrow []) = .uncaught t := ⟨80, _, rfl⟩
  obtain ⟨n, t, h⟩ := this
  obtain ⟨m, t', h', _⟩ := (C62_same_terminate hm hi _ _).1 ⟨n, t, h, rfl, rfl⟩
  exact ⟨m, t', h'⟩

end Verif
