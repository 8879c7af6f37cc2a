import Verif.Rel

/-! # `step_rel`: the relation covers the executable machine. Proof material only. -/
namespace Verif
variable {L G V E : Type}

theorem cbSet_ok {P : Prog L G V E} {s s' : St L G V E} {q : CbRef} {a : PushArg V E} {w : Option V}
    (h : cbSet P s q a = .ok s' w) :
    ∃ b evs, SetOk P.mv (s.va q.co) (s.cbs q) q.co a b evs w ∧
      s' = { s with cbs := upd s.cbs q b, log := evs ++ s.log } := by
  unfold cbSet at h
  split at h
  · cases h
    refine ⟨_, _, .void ‹_›, ?_⟩
    rw [upd_self]; rfl
  · split at h <;> cases h
    exact ⟨_, _, .ref ‹_› rfl, rfl⟩
  · rename_i hva
    split at h
    · cases h
    · rename_i hnu
      unfold setDestroyOld at h
      by_cases hbv : (s.cbs q).bvalid = true
      · simp only [hbv, if_true] at h
        cases hsl : (s.cbs q).slot with
        | raw => simp [hsl] at h
        | dead => simp [hsl] at h
        | live w0 =>
          simp only [hsl] at h
          split at h
          · cases h
            refine ⟨_, _, .copy1 hva rfl hbv hsl, ?_⟩
            simp [setNew, St.setCb, St.emit, upd_upd]
          · cases h
            refine ⟨_, _, .move1 hva rfl hbv hsl, ?_⟩
            simp [setNew, St.setCb, St.emit, upd_upd]
          · cases h
          · simp [St.setCb, St.emit] at h
          · exact absurd rfl hnu
      · simp only [Bool.not_eq_true] at hbv
        simp only [hbv, Bool.false_eq_true, if_false] at h
        split at h
        · cases h
          exact ⟨_, _, .copy0 hva rfl hbv, rfl⟩
        · cases h
          exact ⟨_, _, .move0 hva rfl hbv, rfl⟩
        · cases h
        · split at h
          · cases h
            exact ⟨_, _, .alias hva rfl hbv ‹_›, rfl⟩
          · cases h
        · exact absurd rfl hnu

theorem cbSet_throws {P : Prog L G V E} {s s' : St L G V E} {q : CbRef} {a : PushArg V E} {e : E}
    (h : cbSet P s q a = .throws s' e) :
    ∃ b evs, SetThrows (s.va q.co) (s.cbs q) q.co b evs ∧ a = .faulty e ∧
      s' = { s with cbs := upd s.cbs q b, log := evs ++ s.log } := by
  unfold cbSet at h
  split at h
  · cases h
  · split at h <;> cases h
  · rename_i hva
    split at h
    · cases h
    · rename_i hnu
      unfold setDestroyOld at h
      by_cases hbv : (s.cbs q).bvalid = true
      · simp only [hbv, if_true] at h
        cases hsl : (s.cbs q).slot with
        | raw => simp [hsl] at h
        | dead => simp [hsl] at h
        | live w0 =>
          simp only [hsl] at h
          split at h
          · cases h
          · cases h
          · cases h
            refine ⟨_, _, .again hva hbv hsl, rfl, ?_⟩
            simp [hbv, St.setCb, St.emit]
          · simp [St.setCb, St.emit] at h
          · cases h
      · simp only [Bool.not_eq_true] at hbv
        simp only [hbv, Bool.false_eq_true, if_false] at h
        split at h
        · cases h
        · cases h
        · cases h
          refine ⟨_, _, .first hva hbv, rfl, ?_⟩
          rw [upd_self]; rfl
        · split at h <;> cases h
        · cases h

theorem dtorSlot_rel {s s' : St L G V E} {r : CbRef} (h : dtorSlot s r = some s') :
    ∃ sl evs, Dtor (s.kind r.co) (s.va r.co) (s.cbs r) r sl evs ∧
      s' = { s with cbs := upd s.cbs r { s.cbs r with slot := sl }, log := evs ++ s.log } := by
  unfold dtorSlot at h
  split at h
  · rename_i hc
    simp only [Bool.and_eq_true, beq_iff_eq] at hc
    split at h
    · cases h
      exact ⟨_, _, .val hc.1.1 hc.1.2 hc.2 ‹_›, rfl⟩
    · cases h
  · rename_i hc
    simp only [Bool.and_eq_true, beq_iff_eq] at hc
    cases h
    refine ⟨_, _, .skip (fun h => hc ⟨⟨h.1, h.2.1⟩, h.2.2⟩), ?_⟩
    have : upd s.cbs r { s.cbs r with slot := (s.cbs r).slot } = s.cbs := upd_self' _ _ rfl
    rw [this]; rfl

theorem fiberDrop_rel {P : Prog L G V E} {s s0 s' : St L G V E} {f : Option Nat} (hd : Dying P s f s0)
    (h : fiberDrop s0 f = .next s') : Step P s s' := by
  unfold fiberDrop at h
  split at h
  · cases h; exact .dropNone hd
  · cases h; exact .dropSome hd

theorem Scope.same {P : Prog L G V E} {s s1 : St L G V E} {h : Nat} (h : Scope P s h s1) :
    s1.cbs = s.cbs ∧ s1.hs = s.hs ∧ s1.nh = s.nh ∧ s1.nk = s.nk ∧ s1.kind = s.kind ∧ s1.va = s.va ∧ s1.cur = s.cur ∧
      s1.g = s.g ∧ s1.stk = s.stk := by
  cases h <;> exact ⟨rfl, rfl, rfl, rfl, rfl, rfl, rfl, rfl, rfl⟩

theorem destroyHandle_rel {P : Prog L G V E} {s s1 s' : St L G V E} {x : Nat} (hi : Inv s) (hsc : Scope P s x s1)
    (h : destroyHandle s1 x = .next s') : Step P s s' := by
  unfold destroyHandle at h
  split at h
  · cases h
  · rename_i hd hx
    simp only at h
    split at h
    · rename_i hcb
      cases h
      exact .nop hsc hx (.inl hcb)
    · rename_i r hcb
      unfold deallocate at h
      simp only at h
      split at h
      · rename_i hal
        have hal' : (s.cbs r).life = .alive := by rw [← hsc.same.1]; exact hal
        split at h
        · rename_i hun
          have hun' : StateT.has (s.cbs r).state StateT.unwind = true := by rw [← hsc.same.1]; exact hun
          obtain ⟨k, sd⟩ := r
          cases sd with
          | syn =>
            rw [(hi.cb.syn_state k hal').1] at hun'
            exact absurd hun' (by rw [state_flag_facts.2.2.1]; simp)
          | own =>
            unfold destroyCb at h
            simp only at h
            split at h
            · cases h
            · rename_i s2 hd2
              obtain ⟨sl, evs, hdt, rfl⟩ := dtorSlot_rel hd2
              refine fiberDrop_rel (Dying.handle hsc hx hcb hal hdt) ?_
              rw [← h]
              simp [St.setCb, St.setFib, upd_upd]
        · rename_i hun
          have hun' : ¬ StateT.has (s.cbs r).state StateT.unwind = true := by rw [← hsc.same.1]; exact hun
          cases h
          obtain ⟨k, sd⟩ := r
          cases sd with
          | syn => exact .nop hsc hx (.inr ⟨k, hcb, hal⟩)
          | own =>
            exfalso; apply hun'
            rcases hi.cb.own_state k hal' with hs | hs <;> rw [hs.1]
            · exact state_flag_facts.1
            · exact state_flag_facts.2.1
      · cases h

theorem deallocate_own {s : St L G V E} {r : CbRef} (hal : (s.cbs r).life = .alive)
    (hun : StateT.has (s.cbs r).state StateT.unwind = true) : deallocate s r = destroyCb s r := by
  unfold deallocate; rw [hal]; simp [hun]

theorem startFn_eq {s : St L G V E} {h : Nat} {fn : Nat → L} (hal : (s.cbs ⟨s.cur, .own⟩).life = .alive)
    (hnd : StateT.has (s.cbs ⟨s.cur, .own⟩).state StateT.destroy = false) :
    startFn s h fn = .next (({ (s.setBase s.cur (.inFn h)) with
      fnObj := upd s.fnObj s.cur .«local» }.emit (.enter s.cur)).withCtl (.eval (fn h))) := by
  unfold startFn; simp only; rw [hal]; simp [hnd]

theorem Inv.recvAir {s : St L G V E} (h : Inv s) (hc : s.ctl = .recv) {q : CbRef}
    (hh : hole (s.base s.cur) s.cur s.fr = some q) (ha : (s.cbs q).life = .alive ∨ q.side = .syn) :
    ∃ u, s.fib .air = some u ∧ s.fib (.cb q) = none ∧ s.fib (.cb q.partner) = none ∧
      hole (s.base u) u (s.frames u) = some q.partner := by
  have := recvOk_of_inv h hc hh ha
  obtain ⟨u, hu, hq⟩ := this.air
  exact ⟨u, hu, this.n1, this.n2, hq⟩

theorem Inv.ctorKind {s : St L G V E} (h : Inv s) {i k : Nat} {f : Frame L V E} {t : List (Frame L V E)}
    (hf : s.frames i = f :: t) (hk : f = .pullCtor k ∨ f = .pushCtor k) : f = ctorFrame (s.kind k) k := by
  have := h.hok.ctor_kind i k (by rw [hf]; rcases hk with rfl | rfl <;> rfl)
  rw [hf] at this
  simpa using this

theorem recv_rel {P : Prog L G V E} {s s' : St L G V E} (hi : Inv s) (hc : s.ctl = .recv)
    (he : recvStep P s = .next s') : Step P s s' := by
  unfold recvStep at he
  split at he
  · rename_i r t hfr
    split at he
    · rename_i hal
      obtain ⟨u, hu, hn, -, -⟩ := hi.recvAir hc (q := r) (by rw [hfr]; rfl) (.inl hal)
      split at he
      · cases he
      · simp only at he
        split at he
        · cases he
          refine (Step.asgThrow hc hfr hal hn hu ‹_›).cast ?_
          simp [St.setFr, St.setFib, St.emit, St.withCtl, hu]
        · cases he
          refine (Step.asg hc hfr hal hn hu ‹_›).cast ?_
          simp [St.setFr, St.setFib, St.withCtl, hu]
    · cases he
  · rename_i k t hfr
    have hkd : s.kind k = .pull := by
      have := hi.ctorKind hfr (.inl rfl)
      cases hk : s.kind k with
      | pull => rfl
      | push => rw [hk] at this; cases this
    simp only at he
    split at he
    · rename_i hal
      obtain ⟨u, hu, hn, -, -⟩ := hi.recvAir hc (q := ⟨k, .own⟩) (by rw [hfr]; rfl) (.inl hal)
      split at he
      · cases he
      · have hupd : ∀ f : Option Nat, upd (upd (upd s.fib (.cb ⟨k, .own⟩) f) .air none) (.cb ⟨k, .own⟩) none
            = upd s.fib .air none := by
          intro f; funext l; simp only [upd]; grind
        split at he
        · rename_i e hex
          refine fiberDrop_rel (Dying.ctorThrow hc hfr hkd hal hn hu hex) ?_
          rw [← he]
          simp [St.setFr, St.setFib, St.emit, St.pushFr, St.setCb, St.fr, hu, upd_upd, hupd]
          simp [upd]
        · rename_i hex
          split at he
          · rename_i hv
            cases he
            refine (Step.pullCtor hc hfr hkd hal hn hu hex hv).cast ?_
            simp [St.setFr, St.setFib, St.withCtl, newHandle, hu]
          · rename_i hv
            simp only [Bool.not_eq_true] at hv
            have hun : StateT.has (s.cbs ⟨k, .own⟩).state StateT.unwind = true := by
              rcases hi.cb.own_state k hal with hs | hs <;> rw [hs.1]
              · exact state_flag_facts.1
              · exact state_flag_facts.2.1
            rw [deallocate_own] at he
            rotate_left
            · exact hal
            · exact hun
            unfold destroyCb at he
            simp only at he
            split at he
            · cases he
            · rename_i s2 hd2
              obtain ⟨sl, evs, hdt, rfl⟩ := dtorSlot_rel hd2
              refine fiberDrop_rel (Dying.ctorInvalid hc hfr hkd hal hn hu hex hv hdt) ?_
              rw [← he]
              have hu2 : upd (upd s.fib (.cb ⟨k, .own⟩) (s.fib .air)) .air none (.cb ⟨k, .own⟩) = some u := by
                simp [upd, hu]
              simp only [St.fr, St.setFib, St.setCb, St.pushFr, St.setFr, upd_same, upd_upd, hupd]
              rw [hu2]
    · cases he
  · rename_i k t hfr
    have hkd : s.kind k = .push := by
      have := hi.ctorKind hfr (.inr rfl)
      cases hk : s.kind k with
      | push => rfl
      | pull => rw [hk] at this; cases this
    simp only at he
    split at he
    · rename_i hal
      obtain ⟨u, hu, hn, -, -⟩ := hi.recvAir hc (q := ⟨k, .own⟩) (by rw [hfr]; rfl) (.inl hal)
      split at he
      · cases he
      · cases he
        refine (Step.pushCtor hc hfr hkd hal hn hu).cast ?_
        simp [St.setFr, St.setFib, St.withCtl, newHandle, hu]
    · cases he
  · rename_i t hfr
    cases he
    have hna : s.fib .air = none := by
      cases hx : s.fib .air with
      | none => rfl
      | some u =>
        have hctl := hi.ctl
        rw [hc] at hctl
        obtain ⟨r, _, hh, _⟩ := hctl.2.1 u hx
        have hfr' : s.frames s.cur = .wait :: t := hfr
        rw [hfr'] at hh; simp [hole] at hh
    refine (Step.wait hc hfr hna).cast ?_
    simp [St.setFr, St.setFib, St.withCtl, upd_self' _ _ hna]
  · rename_i hfr
    split at he
    · rename_i fn hb
      obtain ⟨u, hu, hn, -, -⟩ := hi.recvAir hc (q := ⟨s.cur, .syn⟩) (by rw [hfr, hb]; rfl) (.inr rfl)
      have hbf : (s.base s.cur).isFresh = true := by rw [hb]; rfl
      unfold enterLambda at he
      split at he
      · rename_i hal
        have hnd : StateT.has (s.cbs ⟨s.cur, .own⟩).state StateT.destroy = false := by
          rcases hi.cb.own_state s.cur hal with hx | hx <;> rw [hx.1]
          · exact state_flag_facts.2.2.2.1
          · exact state_flag_facts.2.2.2.2.1
        split at he
        · rename_i hk
          unfold startFn at he
          simp only [synthesize, upd_same] at he
          rw [hal] at he
          simp only at he
          rw [hnd] at he
          simp only [Bool.false_eq_true, if_false] at he
          cases he
          refine (Step.enterPull hc hfr hb hk hal hu).cast ?_
          simp [St.setBase, St.emit, St.withCtl, hu, hk, hal, Kind.flip]
        · rename_i hk
          unfold fiberResume at he
          simp only [synthesize, St.setBase, upd_ne _ _ (show (FLoc.cb ⟨s.cur, .syn⟩) ≠ .air by simp), upd_same, hu] at he
          cases he
          refine (Step.enterPush hc hfr hb hk hal hu).cast ?_
          simp only [St.setFib, St.emit, hk, Kind.flip]
          congr 1
          funext l; simp only [upd]; grind
      · cases he
    · rename_i x fn hb
      obtain ⟨u, hu, hn, -, -⟩ := hi.recvAir hc (q := ⟨s.cur, .syn⟩) (by rw [hfr, hb]; rfl) (.inr rfl)
      split at he
      · rename_i hal hn'
        have hnd : StateT.has (s.cbs ⟨s.cur, .own⟩).state StateT.destroy = false := by
          rcases hi.cb.own_state s.cur hal with hx | hx <;> rw [hx.1]
          · exact state_flag_facts.2.2.2.1
          · exact state_flag_facts.2.2.2.2.1
        rw [startFn_eq] at he
        rotate_left
        · exact hal
        · exact hnd
        cases he
        refine (Step.startPush hc hfr hb hal hu hn).cast ?_
        simp [St.setBase, St.emit, St.withCtl, St.setFib, hu]
      · cases he
      · cases he
    · rename_i x hb
      obtain ⟨u, hu, hn, -, -⟩ := hi.recvAir hc (q := ⟨s.cur, .syn⟩) (by rw [hfr, hb]; rfl) (.inr rfl)
      have key : ∀ s'', leaveLambda ((s.setFib (.back s.cur) (s.fib .air)).setFib .air none) x = .next s'' → Step P s s'' := by
        intro s'' h
        refine destroyHandle_rel hi (Scope.final hc hfr hb hu) ?_
        rw [← h]
        simp [leaveLambda, St.setBase, St.setFib, hu]
      split at he
      · split at he
        · simp only at he
          refine key s' ?_
          rw [← he]
          congr 1
          simp only [St.setFib]
          congr 1
          funext l
          simp only [upd]
          grind
        · cases he
      · exact key s' he
    · cases he
  · cases he

theorem finish_rel {P : Prog L G V E} {s s1 s' : St L G V E} {x : Nat} {y : Option E} (hi : Inv s)
    (hc : ((s.ctl = .retn ∧ y = none) ∨ (∃ e, s.ctl = .raise (.user e) ∧ y = some e)))
    (hfr : s.fr = []) (hb : s.base s.cur = .inFn x) (hal : (s.cbs ⟨s.cur, .own⟩).life = .alive)
    (hs1 : s1 = { s with
      fnObj := upd s.fnObj s.cur .gone
      cbs := upd s.cbs ⟨s.cur, .own⟩ { s.cbs ⟨s.cur, .own⟩ with except := y }
      log := .fin s.cur y :: .fnDtor s.cur :: s.log })
    (he : finish s1 x = .next s') : Step P s s' := by
  have hoo := hi.cb.own_other s.cur hal
  have hnf : (s.base s.cur).isFresh = false := by rw [hb]; rfl
  rw [hnf] at hoo
  simp only [Bool.false_eq_true, if_false] at hoo
  have hst : (s.cbs ⟨s.cur, .own⟩).state = StateT.unwind := by
    rcases hi.cb.own_state s.cur hal with h | h
    · exact h.1
    · rw [hb] at h; simp [Base.past] at h
  subst hs1
  unfold finish at he
  simp only [upd_same, hal, St.setCb, hoo] at he
  split at he
  · unfold fiberResume at he
    simp only [St.setBase] at he
    split at he
    · cases he
    · rename_i t ht
      cases he
      refine (Step.fin hc hfr hb hal ht).cast ?_
      simp only [St.setFib, St.emit, upd_upd, hst, hal, hoo]
      rfl
  · cases he

theorem deliver_rel {P : Prog L G V E} {s s' : St L G V E} {v : Res V} (hi : Inv s) (hc : s.ctl = .deliver v)
    (he : deliverStep s v = .next s') : Step P s s' := by
  unfold deliverStep at he
  split at he
  · cases he; exact .loc (.dUsr hc ‹_›)
  · split at he <;> cases he
    exact .loc (.dFetch hc ‹_› ‹_›)
  · split at he <;> cases he
    exact .loc (.dPfetch hc ‹_› ‹_›)
  · cases he; exact .loc (.dResid hc ‹_›)
  · cases he; exact .loc (.dCtorFail hc ‹_›)
  · cases he; exact .ctorDrop hc ‹_›
  · cases he; exact .loc (.dCRaise hc ‹_›)
  · cases he; exact .loc (.dCRet hc ‹_›)
  · cases he; exact .loc (.dCLeave hc ‹_›)
  · rename_i hfr
    split at he
    · rename_i hb
      unfold leaveLambdaCb at he
      simp only at he
      split at he
      · cases he
      · rename_i s1 hd
        obtain ⟨sl, evs, hdt, rfl⟩ := dtorSlot_rel hd
        refine fiberDrop_rel (Dying.syn hc hfr hb hdt) ?_
        rw [← he]
        simp [St.setBase, St.setFib, St.setCb, upd_upd]
    · rename_i hb
      unfold exitCtx at he
      simp only at he
      split at he
      · cases he
      · rename_i b hbk
        split at he
        · cases he
        · rename_i hna
          cases he
          have hair : s.fib .air = none := by
            have := hi.ctl; rw [hc] at this; exact this.2.1
          have hk0 := hi.mid.cur_ne_zero (by rw [hb]; simp)
          have hal : (s.cbs ⟨s.cur, .own⟩).life = .dead := by
            rcases hi.cb.own_life s.cur hk0 (by rw [hb]; simp) with h | h
            · exact absurd h hna
            · exact h
          have hair2 : upd (upd s.fib (.back s.cur) none) .air none = upd s.fib (.back s.cur) none :=
            upd_self' _ _ (by simp [upd, hair])
          refine (Step.exit hc hfr hb hbk hal).cast ?_
          by_cases hf : s.fnObj s.cur = .record
          · simp [hf, dropFn, St.emit, St.setBase, St.setFib, hair2]
          · simp [hf, St.emit, St.setBase, St.setFib, hair2]
    · cases he
  · cases he

theorem raise_rel {P : Prog L G V E} {s s' : St L G V E} {x : Exn E} (hi : Inv s) (hc : s.ctl = .raise x)
    (he : raiseStep P s x = .next s') : Step P s s' := by
  have fin : ∀ {g : G} {fs : List (Frame L V E)} {evs : List (Ev V E)}, Local P s g fs (.raise x) evs →
      Step P s { s with g := g, frames := upd s.frames s.cur fs, log := evs ++ s.log } := by
    intro g fs evs hl
    refine (Step.loc hl).cast ?_
    rw [← hc]
  unfold raiseStep at he
  split at he
  · cases he; exact fin (.rObj hc ‹_›)
  · exact destroyHandle_rel hi (.raise hc ‹_›) he
  · split at he
    · cases he; exact .loc (.rCatch hc ‹_›)
    · split at he
      · cases he
      · rename_i hfr hsw
        simp only [Bool.not_eq_true] at hsw
        subst hsw
        cases he
        exact fin (.rSkip hc ‹_›)
  · cases he; exact fin (.rFnRet hc ‹_›)
  · split at he <;> cases he
    · exact fin (.rUsrU hc ‹_›)
    · exact fin (.rUsrF hc ‹_›)
  · cases he; exact fin (.rFetch hc ‹_›)
  · cases he; exact fin (.rPfetch hc ‹_›)
  · cases he; exact fin (.rResid hc ‹_›)
  · cases he; exact fin (.rAsg hc ‹_›)
  · exact fiberDrop_rel (Dying.ctorUnw hc ‹_› (.inl rfl)) he
  · exact fiberDrop_rel (Dying.ctorUnw hc ‹_› (.inr rfl)) he
  · rename_i hfr
    split at he
    · cases he
    · rename_i y e hb
      split at he
      · refine finish_rel hi (.inr ⟨e, hc, rfl⟩) hfr hb ‹_› ?_ he
        simp [dropFn, St.emit, storeExcept, St.setCb]
      · cases he
    · exact destroyHandle_rel hi (.unwFn hc hfr ‹_›) he
    · exact destroyHandle_rel hi (.unwEntry hc hfr ‹_›) he
    · exact destroyHandle_rel hi (.unwFinal hc hfr ‹_›) he
    · rename_i fn hb
      have := hi.ctl
      rw [hc] at this
      have h1 := this.1
      have hfr' : s.frames s.cur = [] := hfr
      rw [hb, hfr'] at h1
      simp [okRaiseF] at h1
    · cases he
  · cases he

theorem ret_rel {P : Prog L G V E} {s s' : St L G V E} (hi : Inv s) (hc : s.ctl = .retn)
    (he : retStep P s = .next s') : Step P s s' := by
  have fin : ∀ {g : G} {fs : List (Frame L V E)} {evs : List (Ev V E)}, Local P s g fs .retn evs →
      Step P s { s with g := g, frames := upd s.frames s.cur fs, log := evs ++ s.log } := by
    intro g fs evs hl
    refine (Step.loc hl).cast ?_
    rw [← hc]
  unfold retStep at he
  split at he
  · cases he; exact fin (.tObj hc ‹_›)
  · exact destroyHandle_rel hi (.ret hc ‹_›) he
  · cases he; exact fin (.tHdl hc ‹_›)
  · cases he; exact .loc (.tFnRet hc ‹_›)
  · rename_i hfr
    split at he
    · cases he
    · rename_i y hb
      split at he
      · rename_i hal
        refine finish_rel (y := none) hi (.inl ⟨hc, rfl⟩) hfr hb ‹_› ?_ he
        have hex : (s.cbs ⟨s.cur, .own⟩).except = none := by
          rcases hi.cb.own_state s.cur hal with h | h
          · exact h.2.2
          · rw [hb] at h; simp [Base.past] at h
        have : upd s.cbs ⟨s.cur, .own⟩ { s.cbs ⟨s.cur, .own⟩ with except := none } = s.cbs := by
          refine upd_self' _ _ ?_
          generalize s.cbs ⟨s.cur, .own⟩ = b at hex
          cases b; simp_all
        rw [this]
        rfl
      · cases he
    · cases he
  · cases he

theorem readSlot_err {s s' : St L G V E} {h : Nat} {o : Out (St L G V E)} (hr : readSlot s h = .error o) :
    o ≠ .next s' := by
  rintro rfl
  unfold readSlot at hr
  split at hr
  · cases hr
  · split at hr
    · split at hr
      · cases hr
      · split at hr
        · split at hr <;> cases hr
        · cases hr
    · cases hr

theorem readSlot_pushFr {s : St L G V E} {f : Frame L V E} {h : Nat} {x : CbRef × V}
    (hr : readSlot (s.pushFr f) h = .ok x) : readSlot s h = .ok x := by
  unfold readSlot at hr ⊢
  simp only [St.pushFr, St.setFr] at hr
  split at hr
  · cases hr
  · rename_i hd hx
    split at hr
    · rename_i hty
      rw [if_pos hty]
      split at hr
      · cases hr
      · split at hr
        · split at hr
          · exact hr
          · cases hr
          · cases hr
        · cases hr
    · cases hr

theorem push_rel {P : Prog L G V E} {s s' : St L G V E} {l : L} {op : Op L V E} {k : Res V → L} {x : Nat}
    {a : PushArg V E} {post : Option V → List (Frame L V E)} (hi : Inv s)
    (hc : s.ctl = .eval l) (ha : P.code l s.g = .api op k) (hp : PushCall op x a post)
    (he : pushOp P (s.pushFr (.usr k)) x a post = .next s') : Step P s s' := by
  unfold pushOp at he
  split at he
  · cases he
  · rename_i hd hx
    split at he
    · rename_i hty
      split at he
      · cases he
      · rename_i r hcb
        split at he
        · rename_i hal
          split at he
          · cases he
          · rename_i q hq
            have hq' : q = r.partner := by
              obtain ⟨j, sd⟩ := r
              cases sd with
              | own =>
                have h1 := hi.cb.own_other j hal
                have h2 : (s.cbs ⟨j, .own⟩).other = some q := hq
                rw [h1] at h2
                split at h2
                · cases h2
                · simp only [Option.some.injEq] at h2; exact h2.symm
              | syn =>
                have h1 := hi.cb.syn_other j hal
                have h2 : (s.cbs ⟨j, .syn⟩).other = some q := hq
                rw [h1] at h2; simp only [Option.some.injEq] at h2; exact h2.symm
            subst hq'
            split at he
            · rename_i hal2
              split at he
              · cases he
              · cases he
              · rename_i s2 e hset
                obtain ⟨b, evs, hs, rfl, rfl⟩ := cbSet_throws hset
                cases he
                exact .pushThrow hc ha hp hx hty hcb hal hq hal2 rfl hs
              · rename_i s2 w hset
                obtain ⟨b, evs, hs, rfl⟩ := cbSet_ok hset
                unfold cbResume at he
                split at he
                · unfold fiberResume at he
                  split at he
                  · cases he
                  · rename_i t ht
                    cases he
                    refine (Step.push hc ha hp hx hty hcb hal hq hal2 hs ht).cast ?_
                    simp [St.setFr, St.setFib, St.emit, St.pushFr, St.fr, upd_upd]
                · cases he
            · cases he
        · cases he
    · cases he

theorem pull_rel {P : Prog L G V E} {s s' : St L G V E} {l : L} {op : Op L V E} {k : Res V → L} {x : Nat}
    {post : List (Frame L V E)}
    (hc : s.ctl = .eval l) (ha : P.code l s.g = .api op k) (hp : PullCall op x post)
    (he : pullOp (s.pushFr (.usr k)) x post = .next s') : Step P s s' := by
  unfold pullOp at he
  split at he
  · cases he
  · rename_i hd hx
    split at he
    · rename_i hty
      split at he
      · cases he
      · rename_i r hcb
        unfold cbResume at he
        split at he
        · rename_i hal
          unfold fiberResume at he
          split at he
          · cases he
          · rename_i t ht
            cases he
            refine (Step.pull hc ha hp hx hty hcb hal ht).cast ?_
            simp [St.setFr, St.setFib, St.emit, St.pushFr, St.fr, upd_upd]
        · cases he
    · cases he

theorem eval_rel {P : Prog L G V E} {s s' : St L G V E} {l : L} (hi : Inv s) (hc : s.ctl = .eval l)
    (he : evalStep P s l = .next s') : Step P s s' := by
  have keep : ∀ {g : G} {c : Ctl L V E}, Local P s g s.fr c [] → Step P s { s with g := g, ctl := c } := by
    intro g c hl
    refine (Step.loc hl).cast ?_
    have : upd s.frames s.cur s.fr = s.frames := upd_self _ _
    rw [this]; rfl
  unfold evalStep at he
  split at he
  · cases he; exact keep (.tau hc ‹_›)
  · cases he; exact .loc (.newObj hc ‹_›)
  · cases he; exact .loc (.guard hc ‹_›)
  · split at he
    · cases he; exact .loc (.leaveObj hc ‹_› ‹_›)
    · exact destroyHandle_rel hi (.leave hc ‹_› ‹_›) he
    · cases he
  · cases he; exact .loc (.try_ hc ‹_›)
  · split at he
    · cases he; exact .loc (.endTry hc ‹_› ‹_›)
    · cases he
  · cases he; exact .loc (.call hc ‹_›)
  · cases he; exact keep (.ret hc ‹_›)
  · cases he; exact keep (.throw hc ‹_›)
  · rename_i op k ha
    unfold apiStep at he
    split at he
    · rename_i kd va ft fn
      unfold mkOp at he
      split at he
      · cases he; exact .loc (.mkAlloc hc ha)
      · cases he; exact .mkFn hc ha
      · unfold fiberResume at he
        simp only [St.pushFr, St.setFr, St.emit, upd_same] at he
        cases he
        have hb1 : s.fib (.cb ⟨s.nk, .own⟩) = none := by
          cases hx : s.fib (.cb ⟨s.nk, .own⟩) with
          | none => rfl
          | some t =>
            have := hi.cb.full_alive _ _ hx
            rw [hi.cb.unborn s.nk .own (.inr (Nat.le_refl _))] at this
            cases this
        refine (Step.mk hc ha).cast ?_
        simp only [St.setFib, St.emit, St.fr, upd_same, upd_upd]
        congr 1
        funext l; simp only [upd]; grind
    · exact pull_rel hc ha .op he
    · exact push_rel hi hc ha .op he
    · split at he
      · exact absurd he (readSlot_err ‹_›)
      · rename_i r v hr
        cases he
        refine (Step.get hc ha (readSlot_pushFr hr)).cast ?_
        by_cases hv : s.va r.co = .val
        · simp [hv, St.pushFr, St.setFr, St.setCb, St.emit, St.withCtl]
        · simp [hv, St.pushFr, St.setFr, St.setCb, St.emit, St.withCtl]
          exact (upd_self _ _).symm
    · split at he <;> cases he
      exact .loc (.valid hc ha ‹_›)
    · split at he <;> cases he
      exact .loc (.bang hc ha ‹_›)
    · split at he
      · cases he
      · cases he; exact .moveCtor hc ha ‹_›
    · split at he
      · rename_i d c hd hc' hx hy
        split at he
        · rename_i ht
          split at he
          · rename_i hs
            obtain ⟨h1, h2⟩ := hs
            subst h2
            cases he
            exact .loc (.asgSelf hc ha hx h1)
          · cases he
            exact .moveAssign hc ha hx hy ht
        · cases he
      · cases he
    · exact destroyHandle_rel hi (.api hc ha) he
    · split at he
      · cases he
      · rename_i hd hx
        split at he
        · cases he
        · rename_i hv
          split at he
          · cases he; exact .loc (.itBeginPush hc ha hx ‹_› hv)
          · split at he <;> cases he
            exact .loc (.itBeginPull hc ha hx ‹_› hv ‹_›)
    · split at he
      · cases he
      · exact pull_rel hc ha .it he
    · split at he
      · cases he
      · split at he
        · exact absurd he (readSlot_err ‹_›)
        · cases he; exact .loc (.itDeref hc ha (readSlot_pushFr ‹_›))
    · split at he
      · cases he
      · split at he
        · cases he
        · rename_i hna
          exact push_rel hi hc ha (.it (by rintro rfl; exact hna rfl)) he

/-- Every step of the executable machine from an invariant state is one of the forms of `Step`. -/
theorem step_rel {P : Prog L G V E} {s s' : St L G V E} (hi : Inv s) (he : step P s = .next s') : Step P s s' := by
  unfold step at he
  split at he
  · exact eval_rel hi ‹_› he
  · exact deliver_rel hi ‹_› he
  · exact raise_rel hi ‹_› he
  · exact ret_rel hi ‹_› he
  · exact recv_rel hi ‹_› he

end Verif
