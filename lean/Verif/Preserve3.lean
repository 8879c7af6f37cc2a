import Verif.Preserve2

/-! # The structural invariant is preserved: completion, lambda exit, entry, resumption. Proof material only. -/
namespace Verif
variable {L G V E : Type}

theorem Mid.cur_ne_zero {s : St L G V E} (h : Mid s) (hb : s.base s.cur ≠ .main) : s.cur ≠ 0 := by
  intro hc; exact hb (by rw [h.sched.main_iff]; exact hc)

theorem Mid.nk_pos {s : St L G V E} (h : Mid s) : 0 < s.nk := by
  have := (h.sched.main_iff 0).2 rfl
  exact h.sched.lt_nk 0 (by simp [this])

/-- `CbOk` across completion; `ex` is what `except` holds -/
theorem CbOk.finish {base : Nat → Base L} {cbs : CbRef → CB V E} {fib : FLoc → Option Nat} {nk c : Nat}
    (h : CbOk base cbs fib nk) {x y : Nat} (hb : base c = .inFn x)
    (hal : (cbs ⟨c, .own⟩).life = .alive) {b : CB V E} (hb1 : b.life = .alive) (hb2 : b.other = some ⟨c, .syn⟩)
    (hb3 : b.state = StateT.or StateT.unwind StateT.complete) :
    CbOk (upd base c (.final y)) (upd cbs ⟨c, .own⟩ b) fib nk := by
  obtain ⟨h1, h2, h3, h0, h4, h5, h6, h7, h8, h9⟩ := h
  refine ⟨?_, ?_, ?_, ?_, ?_, ?_, ?_, ?_, ?_, ?_⟩
  · intro k sd hk
    have := h1 k sd hk
    have hne : (⟨k, sd⟩ : CbRef) ≠ ⟨c, .own⟩ := by intro hc; rw [hc] at this; simp [hal] at this
    simpa [upd, hne] using this
  · intro k hk hbk
    by_cases hkc : k = c
    · subst hkc; left; simpa [upd] using hb1
    · simp [upd, hkc] at hbk ⊢; exact h2 k hk hbk
  · intro k sd hk
    by_cases hkc : k = c
    · subst hkc; simp [upd] at hk
    · simp [upd, hkc] at hk ⊢; exact h3 k sd hk
  · intro k hk
    by_cases hkc : k = c
    · subst hkc; simp [upd, Base.isFresh] at hk
    · simp [upd, hkc] at hk ⊢; exact h0 k hk
  · intro k
    have := h4 k
    by_cases hkc : k = c
    · subst hkc; simpa [upd, hb, Base.synAlive] using this
    · simp [upd, hkc]; exact this
  · intro r t hr
    have := h5 r t hr
    simp only [upd]; split
    · exact hb1
    · exact this
  · intro k hk
    by_cases hkc : k = c
    · subst hkc; simp [upd, hb2, Base.isFresh]
    · simp [upd, hkc] at hk ⊢; exact h6 k hk
  · intro k hk
    simp [upd] at hk ⊢; exact h7 k hk
  · intro k hk
    by_cases hkc : k = c
    · subst hkc; right; simp [upd, hb3, Base.past]
    · simp [upd, hkc] at hk ⊢; exact h8 k hk
  · intro k hk
    simp [upd] at hk ⊢; exact h9 k hk

theorem HOk.setOwn {hs : Nat → Option Handle} {nh nk : Nat} {cbs : CbRef → CB V E}
    {frames : Nat → List (Frame L V E)} {kind : Nat → Kind} {va : Nat → Var} {r : CbRef} {b : CB V E}
    (h : HOk hs nh nk cbs frames kind va) (hl : b.life = (cbs r).life) :
    HOk hs nh nk (upd cbs r b) frames kind va := by
  refine h.cbsCongr ?_
  intro q; simp only [upd]; split
  · next hq => rw [hq, hl]
  · rfl

theorem upd_upd {α β : Type} [DecidableEq α] (f : α → β) (a : α) (b c : β) : upd (upd f a b) a c = upd f a c := by
  funext x; simp only [upd]; split <;> rfl

/-- Completion of the coroutine-function, in a state that agrees with a `Mid` state `s0` up to `except`. -/
theorem inv_finish {s s' : St L G V E} {x y : Nat} (cbs0 : CbRef → CB V E)
    (hs : SchedOk s.cur s.frames s.base s.fib s.nk) (hc : CbOk s.base cbs0 s.fib s.nk)
    (hh : HOk s.hs s.nh s.nk cbs0 s.frames s.kind s.va)
    (hcbs : s.cbs = upd cbs0 ⟨s.cur, .own⟩ (s.cbs ⟨s.cur, .own⟩))
    (h1 : (s.cbs ⟨s.cur, .own⟩).life = (cbs0 ⟨s.cur, .own⟩).life)
    (h2 : (s.cbs ⟨s.cur, .own⟩).other = (cbs0 ⟨s.cur, .own⟩).other)
    (h3 : (s.cbs ⟨s.cur, .own⟩).state = (cbs0 ⟨s.cur, .own⟩).state)
    (hbase : s.base s.cur = .inFn x) (hfr : s.frames s.cur = [])
    (hb : s.fib (.back s.cur) = none) (ha : s.fib .air = none)
    (he : finish s y = .next s') : Inv s' := by
  have hk0 : s.cur ≠ 0 := by
    intro h0; have := (hs.main_iff s.cur).2 h0; simp [hbase] at this
  unfold finish at he
  simp only at he
  split at he
  · rename_i hal
    have hal0 : (cbs0 ⟨s.cur, .own⟩).life = .alive := by rw [← h1]; exact hal
    have hoth : (s.cbs ⟨s.cur, .own⟩).other = some ⟨s.cur, .syn⟩ := by
      rw [h2, hc.own_other _ hal0]; simp [hbase, Base.isFresh]
    have hst : (s.cbs ⟨s.cur, .own⟩).state = StateT.unwind := by
      rw [h3]
      rcases hc.own_state _ hal0 with h1 | h1
      · exact h1.1
      · simp [hbase, Base.past] at h1
    simp only [St.setCb, upd_same, hoth] at he
    split at he
    · refine inv_fiberResume ?_ ?_ ?_ ?_ ?_ ?_ he
      · refine ⟨?_, ?_, ?_⟩
        · exact hs.setBase (by simp) (by simp) (by simp [hbase]) rfl (by simp [hbase, Base.isLam])
        · simp only [St.setBase]
          rw [hcbs, upd_upd]
          exact hc.finish hbase hal0 (by rw [upd_same]; exact hal) rfl (by simp [hst, StateT.orAssign])
        · simp only [St.setBase]
          rw [hcbs, upd_upd]
          exact hh.setOwn (by rw [upd_same]; exact h1)
      · simp [St.setBase, St.fr, okSw, hfr]
      · simp [St.setBase, St.fr, hole, hfr]
      · exact hb
      · exact ha
      · simp [St.setBase, Base.isFresh]
    · cases he
  · cases he

theorem inv_leaveLambda {s s' : St L G V E} {hx : Nat} (h : Mid s)
    (hbase : (∃ x, s.base s.cur = .inFn x) ∨ (∃ x f, s.base s.cur = .pushEntry x f) ∨ (∃ x, s.base s.cur = .final x))
    (hfr : s.fr = []) (hb : s.fib (.back s.cur) ≠ none) (ha : s.fib .air = none)
    (he : leaveLambda s hx = .next s') : Inv s' := by
  have hnm : s.base s.cur ≠ .main := by
    rcases hbase with ⟨x, hx⟩ | ⟨x, f, hx⟩ | ⟨x, hx⟩ <;> simp [hx]
  have hk0 := h.cur_ne_zero hnm
  have hnn : s.base s.cur ≠ .none := h.sched.cur_live
  have hsa : (s.base s.cur).synAlive = true := by
    rcases hbase with ⟨x, hx⟩ | ⟨x, f, hx⟩ | ⟨x, hx⟩ <;> simp [hx, Base.synAlive]
  have hnf : (s.base s.cur).isFresh = false := by
    rcases hbase with ⟨x, hx⟩ | ⟨x, f, hx⟩ | ⟨x, hx⟩ <;> simp [hx, Base.isFresh]
  have hfr' : s.frames s.cur = [] := hfr
  unfold leaveLambda at he
  refine inv_destroyHandle ?_ ?_ he
  · refine ⟨?_, ?_, h.hok⟩
    · exact h.sched.setBase (by simp) (by simp) hnm rfl (by simp [Base.isLam])
    · obtain ⟨h1, h2, h3, h0, h4, h5, h6, h7, h8, h9⟩ := h.cb
      simp only [St.setBase]
      refine ⟨h1, ?_, ?_, ?_, ?_, h5, ?_, h7, ?_, h9⟩
      · intro k hk hb'; have := h2 k hk; grind
      · intro k sd hk; have := h3 k sd; grind
      · intro k hk; have := h0 k; grind [Base.isFresh]
      · intro k; have := h4 k; have := h4 s.cur; grind [Base.synAlive]
      · intro k hk; have := h6 k hk; grind [Base.isFresh]
      · intro k hk
        by_cases hkc : k = s.cur
        · subst hkc
          rcases h8 _ hk with hx | hx
          · left; exact ⟨hx.1, by simp [Base.isFinal], hx.2.2⟩
          · right; exact ⟨hx.1, by simp [Base.past]⟩
        · have := h8 k hk; grind
  · refine ⟨?_, ha, ?_⟩
    · simp [St.setBase, St.fr, hfr', okRet, Base.isLam]
    · simp [St.setBase, St.fr, hfr', unwB, Base.isLam]; exact hb

theorem inv_leaveLambdaCb {s s' : St L G V E} (h : Mid s) (hr : RetOk s)
    (hbase : s.base s.cur = .lamA) (hfr : s.fr = [])
    (he : leaveLambdaCb s = .next s') : Inv s' := by
  have hk0 := h.cur_ne_zero (by simp [hbase])
  have hfr' : s.frames s.cur = [] := hfr
  unfold leaveLambdaCb at he
  simp only at he
  split at he
  · cases he
  · rename_i s1 hd
    obtain ⟨sl, lg, rfl⟩ := dtorSlot_eq hd
    refine inv_dropAt (r := ⟨s.cur, .syn⟩)
      (s := { s with cbs := upd (upd s.cbs ⟨s.cur, .syn⟩ { s.cbs ⟨s.cur, .syn⟩ with slot := sl }) ⟨s.cur, .syn⟩
                       { (upd s.cbs ⟨s.cur, .syn⟩ { s.cbs ⟨s.cur, .syn⟩ with slot := sl }) ⟨s.cur, .syn⟩ with life := .dead }
                     log := lg, base := upd s.base s.cur .lamB }) ?_ ?_ ?_ ?_ he
    · exact h.sched.setBase (by simp) (by simp) (by simp [hbase]) rfl (by simp [Base.isLam])
    · obtain ⟨h1, h2, h3, h0, h4, h5, h6, h7, h8, h9⟩ := h.cb
      have hlt := h.sched.lt_nk s.cur h.sched.cur_live
      refine ⟨?_, ?_, ?_, ?_, ?_, ?_, ?_, ?_, ?_, ?_⟩
      · intro k sd hk
        have hk' : k ≠ s.cur := by
          rcases hk with hk | hk
          · rw [hk]; exact fun h => hk0 h.symm
          · intro hc; subst hc; exact absurd hlt (Nat.not_lt.2 hk)
        have := h1 k sd hk; grind
      · intro k hk hb'; have := h2 k hk; grind
      · intro k sd hk; have := h3 k sd; grind
      · intro k hk; have := h0 k; grind [Base.isFresh]
      · intro k; have := h4 k; have := h4 s.cur; grind [Base.synAlive]
      · intro r t hr; have := h5 r t; grind
      · intro k hk; have := h6 k; grind [Base.isFresh]
      · intro k hk; have := h7 k; grind
      · intro k hk
        by_cases hkc : k = s.cur
        · subst hkc
          have := h8 s.cur
          grind [Base.isFinal, Base.past]
        · have := h8 k; grind
      · intro k hk; have := h9 k; grind
    · have hh := h.hok
      obtain ⟨h1, h2, h3, h4, h5, h6, h7⟩ := hh
      refine ⟨h1, h2, ?_, ?_, ?_, h6, h7⟩
      · intro x hx k hxx hc; have := h3 x hx k hxx hc; grind
      · intro x hx r hxx hc; have := h4 x hx r hxx hc; grind
      · intro i k hk; have := h5 i k hk; grind
    · refine ⟨?_, hr.air, ?_⟩
      · simp [St.fr, hfr', okRet, Base.isLam]
      · have := hr.back
        simpa [St.fr, hfr', unwB, Base.isLam, hbase] using this

theorem inv_exitCtx {s s' : St L G V E} (h : Mid s) (hr : RetOk s)
    (hbase : s.base s.cur = .lamB) (he : exitCtx s = .next s') : Inv s' := by
  have hk0 := h.cur_ne_zero (by simp [hbase])
  unfold exitCtx at he
  simp only at he
  split at he
  · cases he
  · rename_i b hb
    split at he
    · cases he
    · rename_i hna
      have hsyn : (s.cbs ⟨s.cur, .syn⟩).life ≠ .alive := by
        intro hc; have := (h.cb.syn_life s.cur).1 hc; simp [hbase, Base.synAlive] at this
      have hfo : s.fib (.cb ⟨s.cur, .own⟩) = none := by
        cases hx : s.fib (.cb ⟨s.cur, .own⟩) with
        | none => rfl
        | some t => exact absurd (h.cb.full_alive _ _ hx) hna
      have hfs : s.fib (.cb ⟨s.cur, .syn⟩) = none := by
        cases hx : s.fib (.cb ⟨s.cur, .syn⟩) with
        | none => rfl
        | some t => exact absurd (h.cb.full_alive _ _ hx) hsyn
      have hgen : ∀ (fo : Nat → FnObj) (lg : List (Ev V E)),
        Inv ({ s with
          cbs := freeCbs s.cbs s.cur
          fib := upd (upd s.fib (.back s.cur) none) .air none
          base := upd s.base s.cur .none
          frames := upd s.frames s.cur []
          stk := upd s.stk s.cur .freed
          cur := b, ctl := .recv, fnObj := fo, log := lg } : St L G V E) := by
        intro fo lg
        have := h.sched.exit hb hr.air (by simp [hbase])
          (freeCbs s.cbs s.cur) (by simp [upd, freeCbs])
        refine ⟨this.1, ?_, ?_, this.2⟩
        · simp only [freeCbs]
          obtain ⟨h1, h2, h3, h0, h4, h5, h6, h7, h8, h9⟩ := h.cb
          have hlt := h.sched.lt_nk s.cur h.sched.cur_live
          refine ⟨?_, ?_, ?_, ?_, ?_, ?_, ?_, ?_, ?_, ?_⟩
          · intro k sd hk
            have hk' : k ≠ s.cur := by
              rcases hk with hk | hk
              · rw [hk]; exact fun h => hk0 h.symm
              · intro hc; subst hc; exact absurd hlt (Nat.not_lt.2 hk)
            have := h1 k sd hk; grind
          · intro k hk hb'; have := h2 k hk; grind
          · intro k sd hk; have := h3 k sd; cases sd <;> grind
          · intro k hk; have := h0 k; grind [Base.isFresh]
          · intro k; have := h4 k; grind [Base.synAlive]
          · intro r t hr; have := h5 r t; grind
          · intro k hk; have := h6 k; grind [Base.isFresh]
          · intro k hk; have := h7 k; grind
          · intro k hk; have := h8 k; grind
          · intro k hk; have := h9 k; grind
        · simp only [freeCbs]
          obtain ⟨h1, h2, h3, h4, h5, h6, h7⟩ := h.hok
          refine ⟨h1, h2, ?_, ?_, ?_, ?_, ?_⟩
          · intro x hx k hxx hc; have := h3 x hx k hxx hc; grind [ctorOf]
          · intro x hx r hxx hc; have := h4 x hx r hxx hc; grind
          · intro i k hk; have := h5 i k; grind [ctorOf]
          · intro i j k hi hj; have := h6 i j k; grind [ctorOf]
          · intro i k hk; have := h7 i k; grind [ctorOf]
      split at he
      · cases he; exact hgen _ _
      · cases he; exact hgen _ _

/-- the running context receives a fiber at its end `q` -/
structure RecvOk (s : St L G V E) (q : CbRef) : Prop where
  hole : hole (s.base s.cur) s.cur s.fr = some q
  air : ∃ u, s.fib .air = some u ∧ Verif.hole (s.base u) u (s.frames u) = some q.partner
  n1 : s.fib (.cb q) = none
  n2 : s.fib (.cb q.partner) = none
  back : s.fib (.back s.cur) = none

theorem recvOk_of_inv {s : St L G V E} {q : CbRef} (h : Inv s) (hc : s.ctl = .recv)
    (hh : hole (s.base s.cur) s.cur s.fr = some q) (ha : (s.cbs q).life = .alive ∨ q.side = .syn) : RecvOk s q := by
  have hctl := h.ctl
  rw [hc] at hctl
  obtain ⟨h1, h2, h3, h4⟩ := hctl
  have hu := hole_not_unw h1 hh
  have hb : s.fib (.back s.cur) = none := by
    cases hx : s.fib (.back s.cur) with
    | none => rfl
    | some t => rw [hx] at h4; have := h4.1 (by simp); simp [hu] at this
  have hair : ∃ u, s.fib .air = some u := by
    cases hx : s.fib .air with
    | some u => exact ⟨u, rfl⟩
    | none =>
      exfalso
      rcases h3 hx with hw | ⟨k, hk, hl⟩
      · have := hole_not_wait hh; simp [St.fr] at this; simp [this] at hw
      · have : q = ⟨k, .own⟩ := by
          have hh' : hole (s.base s.cur) s.cur (s.frames s.cur) = some q := hh
          rw [hh'] at hk; simpa using hk
        subst this
        rcases ha with ha | ha
        · exact hl ha
        · simp at ha
  obtain ⟨u, hu'⟩ := hair
  obtain ⟨r, hr1, hr2, hr3, hr4⟩ := h2 u hu'
  have : q = r.partner := by
    have hh' : hole (s.base s.cur) s.cur (s.frames s.cur) = some q := hh
    rw [hh'] at hr2; simpa using hr2
  subst this
  exact ⟨hh, ⟨u, hu', by simpa using hr1⟩, hr4, by simpa using hr3, hb⟩

/-- store the fiber -/
theorem Mid.store {s : St L G V E} {q : CbRef} (h : Mid s) (hr : RecvOk s q) (hal : (s.cbs q).life = .alive) :
    Mid ((s.setFib (.cb q) (s.fib .air)).setFib .air none) := by
  obtain ⟨u, hu, hq⟩ := hr.air
  refine ⟨h.sched.store hu hq hr.n1 hr.n2, ?_, h.hok⟩
  refine h.cb.fibCongr ?_
  intro r t ht
  by_cases hrq : r = q
  · subst hrq; exact hal
  · exact h.cb.full_alive r t (by simpa [St.setFib, upd, hrq] using ht)

theorem inv_startFn {s s' : St L G V E} {hx : Nat} {fn : Nat → L}
    (h1 : SchedOk s.cur s.frames (upd s.base s.cur (.inFn hx)) s.fib s.nk)
    (h2 : CbOk (upd s.base s.cur (.inFn hx)) s.cbs s.fib s.nk)
    (h3 : HOk s.hs s.nh s.nk s.cbs s.frames s.kind s.va) (hfr : s.frames s.cur = [])
    (hb : s.fib (.back s.cur) = none) (ha : s.fib .air = none)
    (he : startFn s hx fn = .next s') : Inv s' := by
  unfold startFn at he
  simp only at he
  split at he
  · rename_i hal
    have hnd : StateT.has (s.cbs ⟨s.cur, .own⟩).state StateT.destroy = false := by
      rcases h2.own_state _ hal with hx | hx <;> rw [hx.1]
      · exact state_flag_facts.2.2.2.1
      · exact state_flag_facts.2.2.2.2.1
    rw [hnd] at he
    simp only [Bool.false_eq_true, if_false] at he
    cases he
    refine ⟨h1, h2, h3, ?_, ?_, ha, hb⟩
    · simp [St.setBase, St.emit, St.withCtl, hfr, okU]
    · simp [St.setBase, St.emit, St.withCtl, Base.isBody]
  · cases he

theorem CbOk.toInFn {base : Nat → Base L} {cbs : CbRef → CB V E} {fib : FLoc → Option Nat} {nk c : Nat}
    (h : CbOk base cbs fib nk) {x y : Nat} {f : Nat → L} (hb : base c = .pushEntry x f) :
    CbOk (upd base c (.inFn y)) cbs fib nk := by
  obtain ⟨h1, h2, h3, h0, h4, h5, h6, h7, h8, h9⟩ := h
  refine ⟨h1, ?_, ?_, ?_, ?_, h5, ?_, h7, ?_, h9⟩
  · intro k hk hbk
    refine h2 k hk ?_
    by_cases hkc : k = c
    · subst hkc; simp [hb]
    · simpa [upd, hkc] using hbk
  · intro k sd hk
    by_cases hkc : k = c
    · subst hkc; simp [upd] at hk
    · exact h3 k sd (by simpa [upd, hkc] using hk)
  · intro k hk
    by_cases hkc : k = c
    · subst hkc; simp [upd, Base.isFresh] at hk
    · exact h0 k (by simpa [upd, hkc] using hk)
  · intro k
    rw [h4 k]
    by_cases hkc : k = c
    · subst hkc; simp [upd, hb, Base.synAlive]
    · simp [upd, hkc]
  · intro k hk
    rw [h6 k hk]
    by_cases hkc : k = c
    · subst hkc; simp [upd, hb, Base.isFresh]
    · simp [upd, hkc]
  · intro k hk
    have := h8 k hk
    by_cases hkc : k = c
    · subst hkc; simp [upd, hb, Base.isFinal, Base.past] at this ⊢; exact this
    · simpa [upd, hkc] using this

theorem CbOk.enter {base : Nat → Base L} {cbs : CbRef → CB V E} {fib fib' : FLoc → Option Nat} {nk c : Nat}
    (h : CbOk base cbs fib nk) (hbf : (base c).isFresh = true) (hc0 : c ≠ 0) (hlt : c < nk)
    (hal : (cbs ⟨c, .own⟩).life = .alive) {b : Base L} (hb : b.isFresh = false ∧ b.synAlive = true ∧ b.past = false)
    (hf : ∀ r t, fib' (.cb r) = some t → r = ⟨c, .syn⟩ ∨ fib (.cb r) = some t) :
    CbOk (upd base c b) (upd (upd cbs ⟨c, .syn⟩ (synCb c))
      ⟨c, .own⟩ { cbs ⟨c, .own⟩ with other := some ⟨c, .syn⟩ }) fib' nk := by
  obtain ⟨h1, h2, h3, h0, h4, h5, h6, h7, h8, h9⟩ := h
  obtain ⟨hb1, hb2, hb3⟩ := hb
  have hbn : b ≠ .none := by rintro rfl; simp [Base.synAlive] at hb2
  have hbf' : b.isFinal = false := by cases b <;> simp_all [Base.isFinal, Base.past]
  have hpast : (base c).past = false := by cases hx : base c <;> simp_all [Base.isFresh, Base.past]
  refine ⟨?_, ?_, ?_, ?_, ?_, ?_, ?_, ?_, ?_, ?_⟩
  · intro k sd hk
    have hkc : k ≠ c := by
      rintro rfl
      rcases hk with hk | hk
      · exact hc0 hk
      · exact absurd hlt (Nat.not_lt.2 hk)
    simpa [upd, hkc] using h1 k sd hk
  · intro k hk hbk
    by_cases hkc : k = c
    · subst hkc; left; simpa [upd] using hal
    · simp [upd, hkc] at hbk ⊢; exact h2 k hk hbk
  · intro k sd hk
    by_cases hkc : k = c
    · subst hkc; simp [upd, synCb] at hk; exact absurd hk hbn
    · simp [upd, hkc] at hk ⊢; exact h3 k sd hk
  · intro k hk
    by_cases hkc : k = c
    · subst hkc; simp [upd, hb1] at hk
    · simp [upd, hkc] at hk ⊢; exact h0 k hk
  · intro k
    by_cases hkc : k = c
    · subst hkc; simp [upd, hb2, synCb]
    · simp [upd, hkc]; exact h4 k
  · intro r t hr
    rcases hf r t hr with rfl | hx
    · simp [upd, synCb]
    · have := h5 r t hx
      simp only [upd]
      split
      · simpa using hal
      · split
        · rfl
        · exact this
  · intro k hk
    by_cases hkc : k = c
    · subst hkc; simp [upd, hb1]
    · simp [upd, hkc] at hk ⊢; exact h6 k hk
  · intro k hk
    by_cases hkc : k = c
    · subst hkc; simp [upd, synCb]
    · simp [upd, hkc] at hk ⊢; exact h7 k hk
  · intro k hk
    by_cases hkc : k = c
    · subst hkc; simp [upd, hbf']
      left
      rcases h8 k hal with hx | hx
      · exact ⟨hx.1, hx.2.2⟩
      · simp [hpast] at hx
    · simp [upd, hkc] at hk ⊢; exact h8 k hk
  · intro k hk
    by_cases hkc : k = c
    · subst hkc; simp [upd, synCb]
    · simp [upd, hkc] at hk ⊢; exact h9 k hk

theorem HOk.enter {hs : Nat → Option Handle} {nh nk : Nat} {cbs : CbRef → CB V E}
    {frames : Nat → List (Frame L V E)} {kind : Nat → Kind} {va : Nat → Var} {c : Nat}
    (h : HOk hs nh nk cbs frames kind va) (hun : (cbs ⟨c, .syn⟩).life = .unborn) :
    HOk (upd hs nh (some { ty := (kind c).flip, va := va c, cb := some ⟨c, .syn⟩ })) (nh + 1) nk
      (upd (upd cbs ⟨c, .syn⟩ (synCb c))
      ⟨c, .own⟩ { cbs ⟨c, .own⟩ with other := some ⟨c, .syn⟩ }) frames kind va := by
  have hlife : ∀ r, r ≠ ⟨c, .syn⟩ → ((upd (upd cbs ⟨c, .syn⟩ (synCb c))
      ⟨c, .own⟩ { cbs ⟨c, .own⟩ with other := some ⟨c, .syn⟩ }) r).life = (cbs r).life := by
    intro r hr
    simp only [upd, hr, if_false]
    split
    · next h => rw [h]
    · rfl
  have h' : HOk hs nh nk (upd (upd cbs ⟨c, .syn⟩ (synCb c))
      ⟨c, .own⟩ { cbs ⟨c, .own⟩ with other := some ⟨c, .syn⟩ }) frames kind va := by
    obtain ⟨h1, h2, h3, h4, h5, h6, h7⟩ := h
    refine ⟨h1, h2, ?_, ?_, ?_, h6, h7⟩
    · intro x hx k hxx hc
      rw [hlife _ (by simp)]; exact h3 x hx k hxx hc
    · intro x hx r hxx hc
      have := h4 x hx r hxx hc
      have hne : r ≠ ⟨c, .syn⟩ := by rintro rfl; exact this.1 hun
      rw [hlife _ hne]; exact this
    · intro i k hk; rw [hlife _ (by simp)]; exact h5 i k hk
  refine h'.new _ ?_ ?_ ?_
  · intro k hk; simp at hk
  · intro r hr
    simp at hr; subst hr
    simp [upd, synCb, endKind]
  · intro r x hx hxx hc hr
    simp at hr; subst hr
    have := (h.born x hx _ hxx hc).1
    exact this hun

theorem inv_enterLambda {s s' : St L G V E} {fn : Nat → L} (h : Inv s) (hc : s.ctl = .recv)
    (hbase : s.base s.cur = .fresh fn) (hfr : s.fr = []) (he : enterLambda s fn = .next s') : Inv s' := by
  have hk0 := h.mid.cur_ne_zero (by simp [hbase])
  have hfr' : s.frames s.cur = [] := hfr
  have hr : RecvOk s ⟨s.cur, .syn⟩ :=
    recvOk_of_inv h hc (by simp [hbase, hfr, hole]) (.inr rfl)
  obtain ⟨u, hu, hq⟩ := hr.air
  have hsched := h.sched.store hu hq hr.n1 hr.n2
  have hlt := h.sched.lt_nk s.cur h.sched.cur_live
  have hbf : (s.base s.cur).isFresh = true := by simp [hbase, Base.isFresh]
  have hun := h.cb.fresh_syn _ hbf
  unfold enterLambda at he
  split at he
  · rename_i hal
    have hfib : ∀ r t, (upd (upd s.fib (.cb ⟨s.cur, .syn⟩) (s.fib .air)) .air none) (.cb r) = some t →
        r = ⟨s.cur, .syn⟩ ∨ s.fib (.cb r) = some t := by
      intro r t hrt
      by_cases hrs : r = ⟨s.cur, .syn⟩
      · exact .inl hrs
      · right; simpa [upd, hrs] using hrt
    split at he
    · refine inv_startFn ?_ ?_ ?_ ?_ ?_ ?_ he
      · exact hsched.setBase (by simp) (by simp) (by simp [hbase]) rfl (by simp [hbase, Base.isLam])
      · exact h.cb.enter (b := .inFn s.nh) hbf hk0 hlt hal ⟨rfl, rfl, rfl⟩ hfib
      · exact h.hok.enter hun
      · exact hfr'
      · simpa [synthesize, upd] using hr.back
      · simp [synthesize, upd]
    · refine inv_fiberResume ?_ ?_ ?_ ?_ ?_ ?_ he
      · refine ⟨?_, ?_, ?_⟩
        · exact hsched.setBase (by simp) (by simp) (by simp [hbase]) rfl (by simp [hbase, Base.isLam])
        · exact h.cb.enter (b := .pushEntry s.nh fn) hbf hk0 hlt hal ⟨rfl, rfl, rfl⟩ hfib
        · exact h.hok.enter hun
      · simp [St.setBase, synthesize, St.fr, hfr', okSw]
      · simp [St.setBase, synthesize, St.fr, hfr', hole]
      · simpa [St.setBase, synthesize, upd] using hr.back
      · simp [St.setBase, synthesize, upd]
      · simp [St.setBase, synthesize, Base.isFresh]
  · cases he

end Verif
