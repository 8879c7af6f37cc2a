import Verif.SimStep3

/-! # The specification machine is stuck where the rules are violated.  Proof material. -/
namespace Verif
variable {L G V E : Type}
variable {P : Prog L G V E} {s s' : St L G V E} {rest rest' : List Nat} {co co' : Nat → Coro.Co L V E}

/-- a step that ends with an empty stack has no result -/
theorem Step.delUnit (hi : Inv s) (h : Step P s s') : ∀ r, s'.ctl = .deliver r → s'.fr = [] → r = .unit := by
  intro r h1 h2
  have hctl := hi.ctl
  cases h
  case loc g fs c evs hl =>
    simp only [St.fr, upd_same] at h1 h2
    cases hl <;> simp_all [St.fr, CtlOk, okRet, okSw, okUsr]
  all_goals simp_all [St.fr, CtlOk, okRet, okSw, okUsr]

theorem Disc.suspended (d : Disc s rest) (hi : Inv s) (hj : JInv s) (hr : s.ctl ≠ .recv) {k : Nat} (hb : s.base k ≠ .none)
    (hn : k ∉ s.cur :: rest) : s.fib (.cb ⟨k, .own⟩) = some k ∧ Suspended k s.log := by
  rcases d.park k hb hn with hp | ⟨h, _⟩
  · obtain ⟨j, hj⟩ := hj.held _ _ hp
    exact ⟨hp, j, hj⟩
  · exact absurd h hr

theorem Disc.nFin0 (d : Disc s rest) (hi : Inv s) (hj : JInv s) {k : Nat} (hal : (s.cbs ⟨k, .own⟩).life = .alive)
    (hf : (s.base k).isFinal = false) : nFin k s.log = 0 := by
  have hc := d.complete hi hal
  rcases hj.own k hal with ⟨_, _, h⟩ | ⟨h, _⟩
  · exact h
  · rw [h, hf] at hc; exact absurd hc (by decide)

theorem mayResume_of_switch (ok : CoOk s co) (d : Disc s rest) (hi : Inv s) (hj : JInv s) (hr : s.ctl ≠ .recv) {ty : Kind} {va : Var} {r : CbRef}
    {y : Coro.St L G V E} (h1 : y.active = s.cur :: rest) (h2 : (y.co r.co).phase = (co r.co).phase)
    (hn : Coro.switch y s.cur rest r ≠ .stuck) : MayResume s ⟨ty, va, some r⟩ := by
  obtain ⟨k, sd⟩ := r
  cases sd with
  | syn =>
    right
    by_cases hk : k = s.cur
    · rw [hk]
    · simp [Coro.switch, hk] at hn
  | own =>
    left
    refine ⟨k, rfl, ?_⟩
    have hsl : Coro.sleeps ((y.push s.cur (.resumed ⟨k, .own⟩)).goto .back) k = true := by
      by_cases h : Coro.sleeps ((y.push s.cur (.resumed ⟨k, .own⟩)).goto .back) k = true
      · exact h
      · exact absurd (by simp only [Coro.switch, if_neg h]) hn
    have hph : ((y.push s.cur (.resumed ⟨k, .own⟩)).goto .back |>.co k).phase = absPhase (s.base k) := h2.trans (ok.phase k)
    have hac : ((y.push s.cur (.resumed ⟨k, .own⟩)).goto .back).active = s.cur :: rest := h1
    unfold Coro.sleeps at hsl
    rw [hac, hph] at hsl
    simp only [Bool.and_eq_true, Bool.not_eq_true', List.contains_eq_mem, decide_eq_false_iff_not] at hsl
    obtain ⟨hkn, hp⟩ := hsl
    have hb : s.base k ≠ .none ∧ (s.base k).isFinal = false := by
      cases hb : s.base k <;> rw [hb] at hp <;> simp_all [absPhase, Base.isFinal]
    obtain ⟨hf, hs⟩ := d.suspended hi hj hr hb.1 hkn
    exact ⟨d.nFin0 hi hj (d.parkAl k hb.1 hkn) hb.2, hs⟩

theorem mayAsk_of_objValid {x : Coro.St L G V E} {h : Nat} (h1 : x.hs = s.hs) (hn : Coro.objValid x s.cur h ≠ none) :
    ∃ hd, s.hs h = some hd ∧ MayAsk s hd := by
  unfold Coro.objValid at hn
  rw [h1] at hn
  split at hn
  · rename_i hd r e
    refine ⟨_, e, ?_⟩
    intro k hk
    simp only [Option.some.injEq] at hk
    subst hk
    by_cases hc : k = s.cur
    · exact hc
    · simp [hc] at hn
  · exact ⟨_, ‹_›, fun k hk => by cases hk⟩
  · simp at hn

theorem mayGet_of_value (ok : CoOk s co) (d : Disc s rest) (hi : Inv s) (hj : JInv s) {x : Coro.St L G V E} {h : Nat} (h1 : x.hs = s.hs)
    (h2 : x.co = co) (hn : Coro.value x s.cur h ≠ none) : ∃ hd, s.hs h = some hd ∧ MayGet s hd := by
  unfold Coro.value at hn
  rw [h1] at hn
  split at hn
  · rename_i va r e
    refine ⟨_, e, ?_⟩
    split at hn
    · simp at hn
    · rename_i hc
      have hv : Coro.objValid x s.cur h = some true := by
        cases ho : Coro.objValid x s.cur h with
        | none => exact absurd (.inr (by rw [ho]; simp)) hc
        | some b =>
          cases b with
          | true => rfl
          | false => exact absurd (.inr (by rw [ho]; simp)) hc
      have hm := mayAsk_of_objValid (s := s) h1 (by rw [hv]; simp)
      obtain ⟨hd', e', hm⟩ := hm
      rw [e] at e'; cases e'
      obtain ⟨k, sd⟩ := r
      cases sd with
      | syn => exact .inr (by rw [hm k rfl])
      | own =>
        left
        refine ⟨k, rfl, ?_⟩
        refine d.nFin0 hi hj (hi.hok.own _ _ _ e rfl).1 ?_
        unfold Coro.objValid at hv
        rw [h1, e] at hv
        simp [Coro.valid, h2, ok.phase, absPhase_ended] at hv
        exact hv.1
  · simp at hn

theorem goodArg_of_store {x : Coro.St L G V E} {k : Nat} {a : PushArg V E} (h : Coro.store P x k a ≠ none) : GoodArg a := by
  cases a <;> simp [GoodArg] <;> exact h (by cases hv : (x.co k).va <;> simp [Coro.store, hv])

theorem store_phase {x y : Coro.St L G V E} {k : Nat} {a : PushArg V E} {w : Option V} (h : Coro.store P x k a = some (y, w)) :
    y.active = x.active ∧ (y.co k).phase = (x.co k).phase := by
  unfold Coro.store at h
  split at h <;> first | (cases h; done) | (cases h; simp [Coro.St.setCo, Coro.St.see])

theorem push_of_notStuck (ok : CoOk s co) (d : Disc s rest) (hi : Inv s) (hj : JInv s) (hr : s.ctl ≠ .recv) {h : Nat} {a : PushArg V E}
    {f : Coro.Fr L V E} {post : Option V → List (Coro.Fr L V E)}
    (hn : Coro.pushTo P ((absSt s rest co).push s.cur f) s.cur rest h a post ≠ .stuck) :
    (∃ hd, s.hs h = some hd ∧ MayResume s hd) ∧ GoodArg a := by
  unfold Coro.pushTo at hn
  rw [push_hs, abs_hs] at hn
  split at hn
  · rename_i va r e
    split at hn
    · rename_i y w hst
      refine ⟨⟨_, e, ?_⟩, goodArg_of_store (by rw [hst]; simp)⟩
      obtain ⟨h1, h2⟩ := store_phase hst
      exact mayResume_of_switch ok d hi hj hr (y := y.setStack s.cur _) h1 h2 hn
    · simp at hn
  · simp at hn

theorem pull_of_notStuck (ok : CoOk s co) (d : Disc s rest) (hi : Inv s) (hj : JInv s) (hr : s.ctl ≠ .recv) {h : Nat}
    {f : Coro.Fr L V E} {post : List (Coro.Fr L V E)}
    (hn : Coro.pullFrom ((absSt s rest co).push s.cur f) s.cur rest h post ≠ .stuck) :
    ∃ hd, s.hs h = some hd ∧ MayResume s hd := by
  unfold Coro.pullFrom at hn
  rw [push_hs, abs_hs] at hn
  split at hn
  · rename_i va r e
    exact ⟨_, e, mayResume_of_switch ok d hi hj hr (y := ((absSt s rest co).push s.cur f).setStack s.cur _) rfl rfl hn⟩
  · simp at hn

theorem Destroys.scope {h : Nat} (hd : Destroys P s h) : s.ctl ≠ .recv ∧ ∃ s1, Scope P s h s1 := by
  cases hd with
  | api hc => obtain ⟨l, h1, h2⟩ := hc; exact ⟨by rw [h1]; simp, _, .api h1 h2⟩
  | leave h1 h2 h3 => exact ⟨by rw [h1]; simp, _, .leave h1 h2 h3⟩
  | raise h1 h2 => exact ⟨by rw [h1]; simp, _, .raise h1 h2⟩
  | ret h1 h2 => exact ⟨by rw [h1]; simp, _, .ret h1 h2⟩
  | arg h1 h2 h3 =>
    refine ⟨by rw [h1]; simp, ?_⟩
    rcases h3 with h3 | h3 | ⟨fn, h3⟩
    · exact ⟨_, .unwFn h1 h2 h3⟩
    · exact ⟨_, .unwFinal h1 h2 h3⟩
    · exact ⟨_, .unwEntry h1 h2 h3⟩

/-- where the specification machine is not stuck, the rules are obeyed -/
theorem rules_of_notStuck (ok : CoOk s co) (d : Disc s rest) (hi : Inv s) (hj : JInv s) (hn : Coro.step P (absSt s rest co) ≠ .stuck) : Rules P s := by
  have hnr : ∀ {l}, s.ctl = .eval l → s.ctl ≠ .recv := fun h => by rw [h]; simp
  constructor
  · rintro h k ⟨l, h1, h2⟩
    rw [sim_api h1 h2] at hn
    exact pull_of_notStuck ok d hi hj (hnr h1) hn
  · rintro i k ⟨l, h1, h2⟩
    rw [sim_api h1 h2] at hn
    cases i with
    | none => simp [Coro.call] at hn
    | some h =>
      obtain ⟨hd, e⟩ := pull_of_notStuck ok d hi hj (hnr h1) hn
      exact ⟨h, hd, rfl, e⟩
  · rintro h a k ⟨l, h1, h2⟩
    rw [sim_api h1 h2] at hn
    exact push_of_notStuck ok d hi hj (hnr h1) hn
  · rintro i a k ⟨l, h1, h2⟩
    rw [sim_api h1 h2] at hn
    cases i with
    | none => simp [Coro.call] at hn
    | some h =>
      obtain ⟨⟨hd, e⟩, e2⟩ := push_of_notStuck ok d hi hj (hnr h1) hn
      exact ⟨⟨h, hd, rfl, e⟩, e2⟩
  · rintro h k ⟨l, h1, h2⟩
    rw [sim_api h1 h2] at hn
    refine mayGet_of_value (x := (absSt s rest co).push s.cur (.use k)) ok d hi hj rfl rfl (fun e => hn ?_)
    simp only [Coro.call, e]
  · rintro i k ⟨l, h1, h2⟩
    rw [sim_api h1 h2] at hn
    cases i with
    | none => simp [Coro.call] at hn
    | some h =>
      obtain ⟨hd, e⟩ := mayGet_of_value (x := (absSt s rest co).push s.cur (.use k)) (h := h) ok d hi hj rfl rfl
        (fun e => hn (by simp only [Coro.call, e]))
      exact ⟨h, hd, rfl, e⟩
  · rintro h k hcs
    have : Coro.objValid ((absSt s rest co).push s.cur (.use k)) s.cur h ≠ none := by
      intro e
      rcases hcs with ⟨l, h1, h2⟩ | ⟨l, h1, h2⟩ | ⟨l, h1, h2⟩ <;> rw [sim_api h1 h2] at hn <;> refine hn ?_ <;> simp only [Coro.call, e]
      split <;> first | rfl | simp_all
    exact mayAsk_of_objValid (x := (absSt s rest co).push s.cur (.use k)) rfl this
  · rintro h k ⟨l, h1, h2⟩ e
    rw [sim_api h1 h2] at hn
    simp [Coro.call, push_hs, abs_hs, e] at hn
  · rintro x c k ⟨l, h1, h2⟩
    rw [sim_api h1 h2] at hn
    simp only [Coro.call, push_hs, abs_hs] at hn
    split at hn
    · rename_i e1 e2; rw [e1, e2]; simp
    · simp at hn
  · intro h hds
    obtain ⟨hr, s1, hsc⟩ := hds.scope
    obtain ⟨e1, e2, e3, e4, e5, e6, e7, e8, e9, e10, e11⟩ := hsc.eqs
    obtain ⟨co1, ok1, hst⟩ := hsc.sim (rest := rest) hr ok hi
    rw [hst] at hn
    unfold Coro.destroyObj at hn
    rw [abs_hs, e5] at hn
    split at hn
    · simp at hn
    · rename_i hd e
      refine ⟨hd, e, ?_, ?_⟩
      · intro k hk
        simp only [hk, Coro.kill] at hn
        split at hn
        · simp at hn
        · rename_i hkn
          have hkn : k ∉ s1.cur :: rest := by simpa [absSt] using hkn
          rw [e1] at hkn
          have hal := (hi.hok.own _ _ _ e hk).1
          exact (d.suspended hi hj hr (fun hb => (hi.cb.none_life k .own hb).1 hal) hkn).2
      · intro k hk
        simp only [hk] at hn
        split at hn
        · assumption
        · simp at hn
  · intro r h t h1 h2
    rw [sim_res h1] at hn
    refine mayAsk_of_objValid (x := absSt s rest co) rfl (fun e => hn ?_)
    rcases h2 with h2 | h2 <;> simp only [Coro.resStep, abs_stack, frames_cur, h2, List.filterMap_cons, absF, e]
  · intro f t h1 h2
    rw [sim_raise h1] at hn
    simp [Coro.raiseStep, abs_stack, frames_cur, h2, absF] at hn

end Verif
