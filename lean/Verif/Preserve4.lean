import Verif.Preserve3

/-! # The structural invariant is preserved by every step of every program. Proof material only. -/
namespace Verif
variable {L G V E : Type}

theorem okRet_of_okPost {b : Base L} {fs : List (Frame L V E)} (h : okPost fs = true) (hb : b.isBody = true) :
    okRet b fs = true := by
  cases fs with
  | nil => simp_all [okPost]
  | cons f t => cases f <;> simp_all [okPost, okRet]

theorem unwB_post {b : Base L} {fs : List (Frame L V E)} (h : okPost fs = true) (hb : b.isBody = true) :
    unwB b fs = false := by rw [unwB_body hb, okPost_noCF h]

theorem unwB_okU {b : Base L} {fs : List (Frame L V E)} (h : okU fs = true) (hb : b.isBody = true) :
    unwB b fs = false := by rw [unwB_body hb, okU_noCF h]

theorem HOk.popCtor {hs : Nat → Option Handle} {nh nk : Nat} {cbs : CbRef → CB V E}
    {frames : Nat → List (Frame L V E)} {kind : Nat → Kind} {va : Nat → Var} {i k : Nat} {fs : List (Frame L V E)}
    (h : HOk hs nh nk cbs frames kind va) (hc : ctorOf (frames i) = some k) (hf : ctorOf fs = none) :
    ∀ j, ctorOf ((upd frames i fs) j) ≠ some k := by
  intro j hj
  by_cases hji : j = i
  · subst hji; simp [upd, hf] at hj
  · simp [upd, hji] at hj
    exact hji (h.ctor_uniq _ _ _ hj hc)

/-- the constructor of `k` fails: the block dies, its fiber is destroyed -/
theorem inv_ctorDies {s s' : St L G V E} {k : Nat} (h : Mid s) (hr : RetOk s)
    (hal : (s.cbs ⟨k, .own⟩).life = .alive) (hn : ∀ x hx, s.hs x = some hx → hx.cb ≠ some ⟨k, .own⟩)
    (hct : ∀ i, ctorOf (s.frames i) ≠ some k)
    (he : fiberDrop ((s.setFib (.cb ⟨k, .own⟩) none).setCb ⟨k, .own⟩ { s.cbs ⟨k, .own⟩ with life := .dead })
      (s.fib (.cb ⟨k, .own⟩)) = .next s') : Inv s' := by
  refine inv_dropAt (r := ⟨k, .own⟩) (s := s.setCb ⟨k, .own⟩ { s.cbs ⟨k, .own⟩ with life := .dead }) h.sched ?_ ?_
    ⟨hr.shape, hr.air, hr.back⟩ he
  · simp only [St.setCb]
    obtain ⟨h1, h2, h3, h0, h4, h5, h6, h7, h8, h9⟩ := h.cb
    refine ⟨?_, ?_, ?_, ?_, ?_, ?_, ?_, ?_, ?_, ?_⟩
    · intro j sd hj
      have := h1 j sd hj
      have hne : (⟨j, sd⟩ : CbRef) ≠ ⟨k, .own⟩ := by intro hc; rw [hc] at this; simp [hal] at this
      simpa [upd, hne] using this
    · intro j hj hb
      by_cases hjk : j = k
      · subst hjk; right; simp [upd]
      · simpa [upd, hjk] using h2 j hj hb
    · intro j sd hj
      have := h3 j sd hj
      have hne : (⟨j, sd⟩ : CbRef) ≠ ⟨k, .own⟩ := by intro hc; rw [hc] at this; simp [hal] at this
      simpa [upd, hne] using this
    · intro j hj; simpa [upd] using h0 j hj
    · intro j; simpa [upd] using h4 j
    · intro r t hr
      by_cases hrk : r = ⟨k, .own⟩
      · subst hrk; simp [upd] at hr
      · have := h5 r t (by simpa [upd, hrk] using hr)
        simpa [upd, hrk] using this
    · intro j hj
      by_cases hjk : j = k
      · subst hjk; simp [upd] at hj
      · simp [upd, hjk] at hj ⊢; exact h6 j hj
    · intro j hj; simp [upd] at hj ⊢; exact h7 j hj
    · intro j hj
      by_cases hjk : j = k
      · subst hjk; simp [upd] at hj
      · simp [upd, hjk] at hj ⊢; exact h8 j hj
    · intro j hj; simp [upd] at hj ⊢; exact h9 j hj
  · simp only [St.setCb]
    obtain ⟨h1, h2, h3, h4, h5, h6, h7⟩ := h.hok
    refine ⟨h1, h2, ?_, ?_, ?_, h6, h7⟩
    · intro x hx j hxx hc
      have hjk : j ≠ k := by rintro rfl; exact hn x hx hxx hc
      simpa [upd, hjk] using h3 x hx j hxx hc
    · intro x hx r hxx hc
      have hrk : r ≠ ⟨k, .own⟩ := by rintro rfl; exact hn x hx hxx hc
      simpa [upd, hrk] using h4 x hx r hxx hc
    · intro i j hj
      have hjk : j ≠ k := by rintro rfl; exact hct i hj
      simpa [upd, hjk] using h5 i j hj

theorem inv_newHandle {s : St L G V E} (h : Mid s) (hr : RetOk s) (hd : Handle)
    (h1 : ∀ k, hd.cb = some ⟨k, .own⟩ → (s.cbs ⟨k, .own⟩).life = .alive ∧ ∀ i, ctorOf (s.frames i) ≠ some k)
    (h2 : ∀ r, hd.cb = some r → (s.cbs r).life ≠ .unborn ∧ hd.ty = endKind (s.kind r.co) r.side ∧ hd.va = s.va r.co)
    (h3 : ∀ r x hx, s.hs x = some hx → hx.cb = some r → hd.cb ≠ some r) (v : Res V) :
    Inv ((newHandle s hd).withCtl (.deliver v)) :=
  ⟨h.sched, h.cb, h.hok.new hd h1 h2 h3, hr.shape, hr.air, hr.back⟩

theorem inv_recv {P : Prog L G V E} {s s' : St L G V E} (h : Inv s) (hc : s.ctl = .recv)
    (he : recvStep P s = .next s') : Inv s' := by
  have hctl := h.ctl
  rw [hc] at hctl
  obtain ⟨hsw, hair, hnair, hback⟩ := hctl
  unfold recvStep at he
  split at he
  · -- asg
    rename_i r t hfr
    have hfr' : s.frames s.cur = .asg r :: t := hfr
    rw [hfr'] at hsw
    simp only [okSw, Bool.and_eq_true] at hsw
    split at he
    · rename_i hal
      have hr : RecvOk s r := recvOk_of_inv h hc (by simp [hfr, hole]) (.inl hal)
      split at he
      · cases he
      · have hm := (h.mid.store hr hal).local t (ctorOf_okPost hsw.1)
        simp only at he
        have hfr2 : okPost ((((s.setFib (.cb r) (s.fib .air)).setFib .air none).setFr t).fr) = true := by
          simpa [St.setFib, St.setFr, St.fr] using hsw.1
        have hb2 : (((s.setFib (.cb r) (s.fib .air)).setFib .air none).setFr t).fib (.back s.cur) = none := by
          simpa [St.setFib, St.setFr, upd] using hr.back
        have ha2 : (((s.setFib (.cb r) (s.fib .air)).setFib .air none).setFr t).fib .air = none := by
          simp [St.setFib, St.setFr, upd]
        split at he
        · cases he
          refine ⟨hm.sched, hm.cb, hm.hok, ?_, ha2, hb2⟩
          simp only [okRaiseU, Bool.and_eq_true, Bool.or_eq_true]
          exact ⟨.inr hfr2, hsw.2⟩
        · cases he
          refine inv_deliver hm ⟨okRet_of_okPost hfr2 hsw.2, ha2, ?_⟩ _
          have hu := unwB_post hfr2 hsw.2
          constructor
          · intro hne; exact absurd hb2 hne
          · intro hx; exact absurd (hx.symm.trans hu) (by simp)
    · cases he
  · -- pullCtor
    rename_i k t hfr
    have hfr' : s.frames s.cur = .pullCtor k :: t := hfr
    rw [hfr'] at hsw
    simp only [okSw, Bool.and_eq_true] at hsw
    have hcto : ctorOf (s.frames s.cur) = some k := by rw [hfr']; rfl
    have hkind : s.kind k = .pull := by
      have := h.hok.ctor_kind _ _ hcto
      rw [hfr'] at this
      cases hk : s.kind k <;> simp_all [ctorFrame]
    simp only at he
    split at he
    · rename_i hal
      have hr : RecvOk s ⟨k, .own⟩ := recvOk_of_inv h hc (by simp [hfr, hole]) (.inl hal)
      split at he
      · cases he
      · have hm0 := h.mid.store hr hal
        have hnoh : ∀ x hx, s.hs x = some hx → hx.cb ≠ some ⟨k, .own⟩ := by
          intro x hx hxx hcc; exact (h.hok.own x hx k hxx hcc).2 _ hcto
        have hctn : ctorOf t = none := ctorOf_okUsr hsw.1
        generalize hs1 : ((s.setFib (.cb ⟨k, .own⟩) (s.fib .air)).setFib .air none) = s1 at *
        have e1 : s1.frames = s.frames := by subst hs1; rfl
        have e2 : s1.cur = s.cur := by subst hs1; rfl
        have e3 : s1.base = s.base := by subst hs1; rfl
        have e4 : s1.cbs = s.cbs := by subst hs1; rfl
        have e5 : s1.hs = s.hs := by subst hs1; rfl
        have e6 : s1.kind = s.kind := by subst hs1; rfl
        have e7 : s1.fib (.back s.cur) = none := by
          subst hs1; simpa [St.setFib, upd] using hr.back
        have e8 : s1.fib .air = none := by subst hs1; simp [St.setFib, upd]
        have hct2 : ∀ (fs : List (Frame L V E)), ctorOf fs = none → ∀ j, ctorOf ((upd s1.frames s1.cur fs) j) ≠ some k := by
          intro fs hfs; rw [e1, e2]; exact h.hok.popCtor hcto hfs
        have hun : ∀ (fs : List (Frame L V E)), fs.any Frame.isCF = false →
            (s1.fib (.back s1.cur) ≠ none ↔ unwB (s1.base s1.cur) fs = true) := by
          intro fs hfs
          rw [e2, e7, e3, unwB_body hsw.2, hfs]; simp
        split at he
        · -- exception
          rename_i e hex
          have hm1 : Mid ((s1.setFr (.ctorFail e :: t)).emit (.rethrow k s1.cur e)) :=
            have hm2 := hm0.local (.ctorFail e :: t) rfl
            ⟨hm2.sched, hm2.cb, hm2.hok⟩
          refine inv_ctorDies (k := k) (s := (s1.setFr (.ctorFail e :: t)).emit (.rethrow k s1.cur e)) hm1 ?_ ?_ ?_ ?_ ?_
          · refine ⟨?_, e8, ?_⟩
            · simp [St.setFr, St.emit, St.fr, e2, e3, okRet, hsw]
            · have := hun (.ctorFail e :: t) (by rw [List.any_cons, okUsr_noCF hsw.1]; rfl)
              simpa [St.setFr, St.emit, St.fr] using this
          · simpa [St.setFr, St.emit, e4] using hal
          · simpa [St.setFr, St.emit, e5] using hnoh
          · exact hct2 _ rfl
          · rw [← he]
            simp only [St.setFr, St.setFib, St.setCb, St.pushFr, St.fr, St.emit]
            rw [upd_same, upd_upd]
        · split at he
          · -- valid
            cases he
            refine inv_newHandle (hm0.local t hctn) ?_ _ ?_ ?_ ?_ _
            · refine ⟨?_, e8, ?_⟩
              · have := okRet_of_okUsr hsw.1 hsw.2
                simpa [St.setFr, St.fr, e2, e3] using this
              · have := hun t (okUsr_noCF hsw.1)
                simpa [St.setFr, St.fr] using this
            · intro j hj
              simp at hj; subst hj
              exact ⟨by simpa [St.setFr, e4] using hal, hct2 t hctn⟩
            · intro r hrr
              simp at hrr; subst hrr
              refine ⟨by simp [St.setFr, e4, hal], by simp [St.setFr, e6, hkind, endKind], rfl⟩
            · intro r x hx hxx hcb hcb'
              simp at hcb'; subst hcb'
              exact hnoh x hx (by simpa [St.setFr, e5] using hxx) hcb
          · -- not valid: dropped at once
            have hst := h.cb.own_state k hal
            unfold deallocate at he
            have hal' : ((s1.setFr t).pushFr (.ctorDrop ((s1.setFr t).va k))).cbs ⟨k, .own⟩ = s.cbs ⟨k, .own⟩ := by
              simp [St.setFr, St.pushFr, e4]
            rw [hal', hal] at he
            simp only at he
            have hhas : StateT.has (s.cbs ⟨k, .own⟩).state StateT.unwind = true := by
              rcases hst with hx | hx <;> rw [hx.1]
              · exact state_flag_facts.1
              · exact state_flag_facts.2.1
            rw [hhas, if_pos rfl] at he
            refine inv_destroyCb (k := k) ?_ ?_ ?_ ?_ ?_ he
            · have : ((s1.setFr t).pushFr (.ctorDrop ((s1.setFr t).va k))) = s1.setFr (.ctorDrop ((s1.setFr t).va k) :: t) := by
                simp [St.setFr, St.pushFr, St.fr, upd_upd]
              rw [this]; exact hm0.local _ rfl
            · refine ⟨?_, e8, ?_⟩
              · simp [St.setFr, St.pushFr, St.fr, e2, e3, okRet, hsw]
              · have := hun (.ctorDrop ((s1.setFr t).va k) :: t) (by rw [List.any_cons, okUsr_noCF hsw.1]; rfl)
                simpa [St.setFr, St.pushFr, St.fr] using this
            · rw [hal']; exact hal
            · simpa [St.setFr, St.pushFr, e5] using hnoh
            · have := hct2 (.ctorDrop ((s1.setFr t).va k) :: t) rfl
              simpa [St.setFr, St.pushFr, St.fr, upd_upd] using this
    · cases he
  · -- pushCtor
    rename_i k t hfr
    have hfr' : s.frames s.cur = .pushCtor k :: t := hfr
    rw [hfr'] at hsw
    simp only [okSw, Bool.and_eq_true] at hsw
    have hcto : ctorOf (s.frames s.cur) = some k := by rw [hfr']; rfl
    have hkind : s.kind k = .push := by
      have := h.hok.ctor_kind _ _ hcto
      rw [hfr'] at this
      cases hk : s.kind k <;> simp_all [ctorFrame]
    simp only at he
    split at he
    · rename_i hal
      have hr : RecvOk s ⟨k, .own⟩ := recvOk_of_inv h hc (by simp [hfr, hole]) (.inl hal)
      split at he
      · cases he
      · have hm0 := h.mid.store hr hal
        have hnoh : ∀ x hx, s.hs x = some hx → hx.cb ≠ some ⟨k, .own⟩ := by
          intro x hx hxx hcc; exact (h.hok.own x hx k hxx hcc).2 _ hcto
        have hctn : ctorOf t = none := ctorOf_okUsr hsw.1
        cases he
        refine inv_newHandle (hm0.local t hctn) ?_ _ ?_ ?_ ?_ _
        · refine ⟨?_, ?_, ?_⟩
          · have := okRet_of_okUsr hsw.1 hsw.2
            simpa [St.setFr, St.setFib, St.fr] using this
          · simp [St.setFr, St.setFib, upd]
          · have : unwB (s.base s.cur) t = false := by rw [unwB_body hsw.2, okUsr_noCF hsw.1]
            simp [St.setFr, St.setFib, St.fr, upd, this, hr.back]
        · intro j hj
          simp at hj; subst hj
          exact ⟨by simpa [St.setFr, St.setFib] using hal, h.hok.popCtor hcto hctn⟩
        · intro r hrr
          simp at hrr; subst hrr
          refine ⟨by simp [St.setFr, St.setFib, hal], by simp [St.setFr, St.setFib, hkind, endKind], rfl⟩
        · intro r x hx hxx hcb hcb'
          simp at hcb'; subst hcb'
          exact hnoh x hx hxx hcb
    · cases he
  · -- wait
    rename_i t hfr
    have hfr' : s.frames s.cur = .wait :: t := hfr
    have hna : s.fib .air = none := by
      cases hx : s.fib .air with
      | none => rfl
      | some u =>
        obtain ⟨r, _, hh, _⟩ := hair u hx
        rw [hfr'] at hh; simp [hole] at hh
    rw [hfr'] at hsw
    have hsw' : okRet (s.base s.cur) t = true := hsw
    cases he
    refine ⟨?_, ?_, ?_, ?_⟩
    · simp only [St.setFib, upd_self' _ _ hna]; exact h.sched.local t
    · simp only [St.setFib, upd_self' _ _ hna]; exact h.cb
    · exact h.hok.frCongr (ctorOf_okRet hsw')
    · refine ⟨?_, ?_, ?_⟩
      · simpa [St.setFib, St.setFr, St.withCtl] using hsw'
      · simp [St.setFib, St.setFr, St.withCtl, upd]
      · rw [hfr'] at hback
        simpa [St.setFib, St.setFr, St.withCtl, upd, unwB, Frame.isCF] using hback
  · -- empty stack
    rename_i hfr
    have hfr' : s.frames s.cur = [] := hfr
    split at he
    · exact inv_enterLambda h hc ‹_› hfr he
    · rename_i x fn hbase
      split at he
      · rename_i hal hn
        have hr : RecvOk s ⟨s.cur, .syn⟩ := recvOk_of_inv h hc (by simp [hfr, hbase, hole]) (.inr rfl)
        have hsl : (s.cbs ⟨s.cur, .syn⟩).life = .alive := (h.cb.syn_life _).2 (by simp [hbase, Base.synAlive])
        have hm := h.mid.store hr hsl
        refine inv_startFn ?_ ?_ hm.hok ?_ ?_ ?_ he
        · exact hm.sched.setBase (by simp) (by simp) (by simp [St.setFib, hbase]) rfl (by simp [St.setFib, hbase, Base.isLam])
        · exact hm.cb.toInFn (by simpa [St.setFib] using hbase)
        · exact hfr'
        · simpa [St.setFib, upd] using hr.back
        · simp [St.setFib, upd]
      · cases he
      · cases he
    · rename_i x hbase
      have hr : RecvOk s ⟨s.cur, .syn⟩ := recvOk_of_inv h hc (by simp [hfr, hbase, hole]) (.inr rfl)
      obtain ⟨u, hu, hq⟩ := hr.air
      have hk0 := h.mid.cur_ne_zero (by simp [hbase])
      have hsl : (s.cbs ⟨s.cur, .syn⟩).life = .alive := (h.cb.syn_life _).2 (by simp [hbase, Base.synAlive])
      have key : ∀ s'', leaveLambda ((s.setFib (.back s.cur) (s.fib .air)).setFib .air none) x = .next s'' → Inv s'' := by
        intro s'' hx
        unfold leaveLambda at hx
        refine inv_destroyHandle ?_ ?_ hx
        · refine ⟨h.sched.finalRecv hu hq hr.back hk0, ?_, h.hok⟩
          obtain ⟨h1, h2, h3, h0, h4, h5, h6, h7, h8, h9⟩ := h.cb
          simp only [St.setBase, St.setFib]
          refine ⟨h1, ?_, ?_, ?_, ?_, ?_, ?_, h7, ?_, h9⟩
          · intro k hk hbk
            refine h2 k hk ?_
            by_cases hkc : k = s.cur
            · subst hkc; simp [hbase]
            · simpa [upd, hkc] using hbk
          · intro k sd hk
            by_cases hkc : k = s.cur
            · subst hkc; simp [upd] at hk
            · exact h3 k sd (by simpa [upd, hkc] using hk)
          · intro k hk
            by_cases hkc : k = s.cur
            · subst hkc; simp [upd, Base.isFresh] at hk
            · exact h0 k (by simpa [upd, hkc] using hk)
          · intro k
            rw [h4 k]
            by_cases hkc : k = s.cur
            · subst hkc; simp [upd, hbase, Base.synAlive]
            · simp [upd, hkc]
          · intro r t hrt
            exact h5 r t (by simpa [upd] using hrt)
          · intro k hk
            rw [h6 k hk]
            by_cases hkc : k = s.cur
            · subst hkc; simp [upd, hbase, Base.isFresh]
            · simp [upd, hkc]
          · intro k hk
            have := h8 k hk
            by_cases hkc : k = s.cur
            · subst hkc; simp [upd, hbase, Base.isFinal, Base.past] at this ⊢; exact .inr this
            · simpa [upd, hkc] using this
        · refine ⟨?_, ?_, ?_⟩
          · simp [St.setBase, St.setFib, St.fr, hfr', okRet, Base.isLam]
          · simp [St.setBase, St.setFib, upd]
          · simp [St.setBase, St.setFib, St.fr, hfr', unwB, Base.isLam, upd, hu]
      split at he
      · split at he
        · simp only at he
          refine key s' ?_
          rw [← he]
          congr 1
          simp only [St.setFib]
          congr 1
          funext l
          simp only [upd]
          have hn1 := hr.n1
          grind
        · cases he
      · exact key s' he
    · cases he
  · cases he

end Verif
