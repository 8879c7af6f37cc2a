import Verif.Core

/-! # Preservation of the scheduling part of the invariant, one lemma per kind of update. Proof material only. -/
namespace Verif
variable {L G V E : Type}

theorem upd_self {α β : Type} [DecidableEq α] (f : α → β) (a : α) : upd f a (f a) = f := by
  funext x; simp only [upd]; split <;> simp_all
theorem upd_self' {α β : Type} [DecidableEq α] (f : α → β) (a : α) {b : β} (h : f a = b) : upd f a b = f := by
  rw [← h, upd_self]

variable {cur : Nat} {frames : Nat → List (Frame L V E)} {base : Nat → Base L}
    {fib : FLoc → Option Nat} {nk : Nat}

/-- only the running context's stack changes -/
theorem SchedOk.local (h : SchedOk cur frames base fib nk) (fs : List (Frame L V E)) :
    SchedOk cur (upd frames cur fs) base fib nk := by
  obtain ⟨h1, h2, h3, h4, h5, h6, h7, h8, h9, h10, h11, h12, h13⟩ := h
  refine ⟨h1, h2, h3, ?_, h5, ?_, h7, h8, h9, ?_, h11, ?_, ?_⟩ <;> grind

theorem SchedOk.setBase (h : SchedOk cur frames base fib nk) {b : Base L} (hn : b ≠ .none)
    (hm : b ≠ .main) (hm' : base cur ≠ .main) (_hf : b.isFresh = false)
    (hl : (base cur).isLam = true → b.isLam = true) :
    SchedOk cur frames (upd base cur b) fib nk := by
  obtain ⟨h1, h2, h3, h4, h5, h6, h7, h8, h9, h10, h11, h12, h13⟩ := h
  refine ⟨?_, ?_, ?_, ?_, ?_, ?_, h7, ?_, ?_, ?_, h11, ?_, ?_⟩ <;> grind

/-- control passes to the context held at end `r` -/
theorem SchedOk.resume (h : SchedOk cur frames base fib nk) {r : CbRef} {t : Nat}
    (hf : fib (.cb r) = some t) (hs : okSw (base cur) (frames cur) = true)
    (hh : hole (base cur) cur (frames cur) = some r) (hb : fib (.back cur) = none)
    (ha : fib .air = none) (hfr : (base cur).isFresh = false) (cbs : CbRef → CB V E) :
    SchedOk t frames base (upd (upd fib (.cb r) none) .air (some cur)) nk ∧
    CtlOk .recv t frames base (upd (upd fib (.cb r) none) .air (some cur)) cbs := by
  have hu := hole_not_unw hs hh
  have hc := h.chan _ _ hf
  have hone := h.one _ _ hf
  have hlive := h.fib_ok _ _ hf
  have hsus := h.sus t hlive.1 hlive.2
  have hut := hole_not_unw hsus hc
  have hbt := h.back_unw t hlive.1
  have hpn := partner_ne r
  obtain ⟨h1, h2, h3, h4, h5, h6, h7, h8, h9, h10, h11, h12, h13⟩ := h
  refine ⟨⟨h1, h2, hlive.2, h4, ?_, ?_, ?_, ?_, ?_, ?_, ?_, ?_, ?_⟩, ?_⟩
  · grind
  · grind
  · grind
  · grind
  · intro x hx hx'
    by_cases hxc : x = cur
    · exact ⟨.air, by grind⟩
    · obtain ⟨l, hl⟩ := h9 x hxc hx'
      exact ⟨l, by grind⟩
  · grind
  · grind
  · grind
  · grind
  · refine ⟨hsus, ?_, ?_, ?_⟩ <;> grind

/-- the fiber in `air` is stored at the running context's end `q` -/
theorem SchedOk.store (h : SchedOk cur frames base fib nk) {q : CbRef} {u : Nat}
    (ha : fib .air = some u) (hq : hole (base u) u (frames u) = some q.partner)
    (hn : fib (.cb q) = none) (hn' : fib (.cb q.partner) = none) :
    SchedOk cur frames base (upd (upd fib (.cb q) (fib .air)) .air none) nk := by
  have hpn := partner_ne q
  obtain ⟨h1, h2, h3, h4, h5, h6, h7, h8, h9, h10, h11, h12, h13⟩ := h
  refine ⟨h1, h2, h3, h4, h5, h6, ?_, ?_, ?_, ?_, ?_, ?_, ?_⟩
  · grind
  · grind
  · intro x hx hx'
    obtain ⟨l, hl⟩ := h9 x hx hx'
    by_cases hl' : l = .air
    · exact ⟨.cb q, by grind⟩
    · exact ⟨l, by grind⟩
  · grind
  · intro r t hr
    have : r.partner ≠ r := partner_ne r
    grind
  · grind
  · grind

/-- the running context destroys the fiber at `r`: the context it holds is unwound -/
theorem SchedOk.drop (h : SchedOk cur frames base fib nk) {r : CbRef} {t : Nat}
    (hf : fib (.cb r) = some t) {fs : List (Frame L V E)} (hs : okRet (base cur) fs = true)
    (hb : fib (.back cur) ≠ none ↔ unwB (base cur) fs = true)
    (ha : fib .air = none) (hfr : (base cur).isFresh = false) (cbs : CbRef → CB V E) :
    SchedOk t (upd frames cur (.wait :: fs)) base (upd (upd fib (.cb r) none) (.back t) (some cur)) nk ∧
    CtlOk (.raise .forced) t (upd frames cur (.wait :: fs)) base
      (upd (upd fib (.cb r) none) (.back t) (some cur)) cbs := by
  have hc := h.chan _ _ hf
  have hlive := h.fib_ok _ _ hf
  have hsus := h.sus t hlive.1 hlive.2
  have hut := hole_not_unw hsus hc
  have hwt := hole_not_wait hc
  have hbt := h.back_unw t hlive.1
  have hnf : (base t).isFresh = false := by
    cases hbf : (base t).isFresh with
    | false => rfl
    | true => exact absurd (h.fresh_cur t hbf) hlive.1
  have hrf := okRaiseF_of_okSw hsus hc (by intro fn hfn; simp [hfn, Base.isFresh] at hnf)
  have hunw : unwB (base cur) (.wait :: fs) = unwB (base cur) fs := by simp [unwB, Frame.isCF]
  have hsw : okSw (base cur) (.wait :: fs) = true := hs
  have hw : waitTop (.wait :: fs) = true := rfl
  obtain ⟨h1, h2, h3, h4, h5, h6, h7, h8, h9, h10, h11, h12, h13⟩ := h
  refine ⟨⟨h1, h2, hlive.2, ?_, ?_, ?_, ?_, ?_, ?_, ?_, ?_, ?_, ?_⟩, ?_⟩
  · grind
  · grind
  · grind
  · grind
  · grind
  · intro x hx hx'
    by_cases hxc : x = cur
    · exact ⟨.back t, by grind⟩
    · obtain ⟨l, hl⟩ := h9 x hxc hx'
      exact ⟨l, by grind⟩
  · grind
  · grind
  · grind
  · grind
  · refine ⟨?_, ?_, ?_⟩ <;> grind

/-- a completed coroutine is resumed: its lambda is left, to return to the resumer -/
theorem SchedOk.finalRecv (h : SchedOk cur frames base fib nk) {u : Nat}
    (ha : fib .air = some u) (hq : hole (base u) u (frames u) = some ⟨cur, .own⟩)
    (hb : fib (.back cur) = none) (hm : cur ≠ 0) :
    SchedOk cur frames (upd base cur .lamA) (upd (upd fib (.back cur) (fib .air)) .air none) nk := by
  obtain ⟨h1, h2, h3, h4, h5, h6, h7, h8, h9, h10, h11, h12, h13⟩ := h
  refine ⟨?_, ?_, ?_, ?_, ?_, ?_, ?_, ?_, ?_, ?_, ?_, ?_, ?_⟩
  · grind
  · grind
  · grind
  · grind
  · grind [Base.isFresh]
  · grind
  · grind
  · grind
  · intro x hx hx'
    obtain ⟨l, hl⟩ := h9 x hx (by grind)
    by_cases hl' : l = .air
    · exact ⟨.back cur, by grind⟩
    · exact ⟨l, by grind⟩
  · grind
  · grind
  · grind [Base.isLam]
  · grind

/-- the running context ends; control returns to `b` -/
theorem SchedOk.exit (h : SchedOk cur frames base fib nk) {b : Nat}
    (hb : fib (.back cur) = some b) (ha : fib .air = none)
    (hm : base cur ≠ .main) (cbs : CbRef → CB V E) (hl : (cbs ⟨cur, .own⟩).life ≠ .alive) :
    SchedOk b (upd frames cur []) (upd base cur .none) (upd (upd fib (.back cur) none) .air none) nk ∧
    CtlOk .recv b (upd frames cur []) (upd base cur .none) (upd (upd fib (.back cur) none) .air none) cbs := by
  have hlive := h.fib_ok _ _ hb
  have hsus := h.sus b hlive.1 hlive.2
  have hbs := h.back_shape _ _ hb
  have hbb := h.back_unw b hlive.1
  obtain ⟨h1, h2, h3, h4, h5, h6, h7, h8, h9, h10, h11, h12, h13⟩ := h
  refine ⟨⟨?_, ?_, ?_, ?_, ?_, ?_, ?_, ?_, ?_, ?_, ?_, ?_, ?_⟩, ?_⟩
  · grind
  · grind
  · grind
  · grind
  · grind [Base.isFresh]
  · grind
  · grind
  · grind
  · intro x hx hx'
    obtain ⟨l, hl⟩ := h9 x (by grind) (by grind)
    exact ⟨l, by grind⟩
  · grind
  · grind
  · intro k c hk
    have := h12 k c (by grind)
    have hkc : k ≠ cur := by grind
    have hcc : c ≠ cur := by grind
    simpa [upd, hkc, hcc] using this
  · intro i hi
    by_cases hic : i = cur
    · subst hic; simp [upd, unwB, Base.isLam]
    · simpa [upd, hic] using h13 i hic
  · have hbc : b ≠ cur := hlive.1
    have hbc' : ¬ (cur = b) := fun h => hbc h.symm
    refine ⟨?_, ?_, ?_, ?_⟩
    · simpa [upd, hbc] using hsus
    · intro u hu; simp [upd] at hu
    · intro _
      rcases hbs with hw | ⟨hw, _⟩
      · left; simpa [upd, hbc] using hw
      · right; exact ⟨cur, by simpa [upd, hbc] using hw, hl⟩
    · simpa [upd, hbc, hbc'] using hbb

end Verif
