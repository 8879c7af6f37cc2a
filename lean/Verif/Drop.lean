import Verif.ObjInv

/-! # Destroying a fiber: the whole of it.  Proof material. -/
namespace Verif
variable {L G V E : Type}

/-- The fiber `t` has been destroyed, starting in `s0`; control is back where it was. -/
structure Dropped (s0 s' : St L G V E) (t : Nat) (evs : List (Ev V E)) : Prop where
  cur : s'.cur = s0.cur
  ctl : s'.ctl = .deliver .unit
  log : s'.log = evs ++ .unwind s0.cur t :: s0.log
  shr : Shrinks s0 s'
  unw : ∀ e ∈ evs, unwEv e = true
  same : SameCtx s0 s' s0.cur
  here : evs.filter (ctxEv s0.kind s0.cur) = []
  ne : t ≠ s0.cur
  gone : s'.base t = .none ∧ s'.frames t = [] ∧ (evs.filter (ctxEv s0.kind t)).reverse = expected s0 t
  fate : ∀ i, Fate s0 s' evs i
  falls : ∀ i, s0.base i ≠ .none → s'.base i = .none → Falls s0 t i
  order : Order s0 (todo s0 t) (dtorsIn evs)

theorem drop_done {P : Prog L G V E} {l0 : L} {g0 : G} {s s0 : St L G V E} {t : Nat} (hr : Reach P l0 g0 s)
    (hd : Dying P s (some t) s0) : (∃ s' evs, CallRuns P s s' ∧ Dropped s0 s' t evs) ∨ CallCrashes P s := by
  have e1 := reach_step hr (.dropSome hd)
  have hr1 := hr.step e1
  have hi1 := inv_reach hr1
  rcases unwound (b := s0.cur) hr1 (by simp) with ⟨s', evs, hnu, hu⟩ | hc
  · left
    have hr2 := hnu.later.reach hr1
    have hi2 := inv_reach hr2
    have htc : t ≠ s0.cur := by
      have := hi1.sched.fib_ok (.back t) s0.cur (by simp)
      exact this.1.symm
    have hlive : s'.base s0.cur ≠ .none := by
      have := hi2.sched.cur_live
      rwa [hu.cur] at this
    obtain ⟨hsame, hnev⟩ : SameCtx _ s' s0.cur ∧ evs.filter (ctxEv s0.kind s0.cur) = [] := by
      rcases hu.fate s0.cur with ⟨a, b⟩ | ⟨a, _⟩
      · exact ⟨a, b⟩
      · exact absurd a hlive
    have hfr : s'.fr = .wait :: s0.fr := by
      show s'.frames s'.cur = _
      rw [hu.cur, hsame.1]; simp
    have e2 := reach_step hr2 (.wait hu.ctl hfr hu.air)
    refine ⟨_, evs, ⟨_, e1, hnu.trans (.step ?_ e2 .refl)⟩, ⟨hu.cur, rfl, hu.log, ?_, hu.unw, ?_, hnev, htc, ?_, ?_, ?_, ?_⟩⟩
    rotate_left 6
    · have htd : todo s0 t = items t (upd s0.frames s0.cur (.wait :: s0.fr) t) ++ (s0.base t).items t := by
        rw [upd_ne _ _ htc]; rfl
      rw [htd]
      · refine Order.mono (s := s0) ?_ ?_ ?_ hu.order
        · exact ⟨rfl, rfl, rfl, rfl, fun _ => .inl rfl, fun _ => .inl rfl, fun r => .inl (by simp [upd])⟩
        · intro r _; simp [upd]
        · intro r u hf
          have : u ≠ s0.cur := by
            rintro rfl
            have := hi1.sched.inj _ (.back t) _ hf (by simp)
            cases this
          exact ⟨by simp [upd, this], rfl⟩
    rotate_left 5
    · intro i h1 h2
      refine Falls.mono (s := s0) (s' := _) ?_ ?_ (hu.falls i h1 h2)
      · exact ⟨rfl, rfl, rfl, rfl, fun _ => .inl rfl, fun _ => .inl rfl, fun r => .inl (by simp [upd])⟩
      intro j
      by_cases hj : j = s0.cur
      · subst hj
        exact ⟨by simp [coLocals, St.fr], by simp [St.fr], fun _ h => h⟩
      · exact .same (by simp [upd, hj]) rfl
    · rintro ⟨_, h⟩; rw [hu.ctl] at h; cases h
    · refine ⟨hu.shr.nk, hu.shr.nh, hu.shr.kind, hu.shr.va, hu.shr.hs, hu.shr.cbs, ?_⟩
      intro r
      have := hu.shr.fib r
      simpa [upd] using this
    · obtain ⟨a, b, c, d, e, f⟩ := hsame
      refine ⟨by simp [hu.cur, St.fr], b, c, d, ?_, f⟩
      simpa [upd, Ne.symm htc] using e
    · have h1 := hu.gone
      have h2 := hu.fate t
      refine ⟨h1, by simpa [upd, hu.cur, htc] using hi2.sched.dead_frames t h1, ?_⟩
      rcases h2 with ⟨a, b⟩ | ⟨a, b, c⟩
      · exact absurd (a.2.1.symm.trans h1) hi1.sched.cur_live
      · refine c.trans ?_
        apply expected_eq <;> try rfl
        simp [upd, htc]
    · intro i
      by_cases hic : i = s0.cur
      · subst hic
        left
        obtain ⟨a, b, c, d, e, f⟩ := hsame
        refine ⟨⟨by simp [hu.cur, St.fr], b, c, d, ?_, f⟩, hnev⟩
        simpa [upd, Ne.symm htc] using e
      · have hic' : i ≠ s'.cur := by rw [hu.cur]; exact hic
        rcases hu.fate i with ⟨⟨a, b, c, d, e, f⟩, g⟩ | ⟨a, b, c⟩
        · by_cases hit : i = t
          · subst hit
            exact absurd (b.symm.trans hu.gone) hi1.sched.cur_live
          · left
            exact ⟨⟨by simpa [upd, hic, hic'] using a, b, c, d, by simpa [upd, hit] using e, f⟩, g⟩
        · right
          refine ⟨a, by simpa [upd, hic'] using b, c.trans ?_⟩
          apply expected_eq <;> try rfl
          simp [upd, hic]
  · exact .inr (.inr ⟨_, e1, hc⟩)

end Verif
