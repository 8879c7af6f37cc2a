import Verif.BackInv

/-!
# The step relation is exact

Proof material: `rel_step` is the converse of `step_rel`.
-/
namespace Verif
variable {L G V E : Type}

theorem readSlot_pushFr' {s : St L G V E} {f : Frame L V E} {h : Nat} {x : CbRef × V}
    (hr : readSlot s h = .ok x) : readSlot (s.pushFr f) h = .ok x := by
  unfold readSlot at hr ⊢
  simp only [St.pushFr, St.setFr]
  split at hr
  · cases hr
  · rename_i hd hx
    split at hr
    · rename_i hty
      rw [if_pos hty]
      split at hr
      · cases hr
      · split at hr
        · split at hr
          · exact hr
          · cases hr
          · cases hr
        · cases hr
    · cases hr

theorem Local.fwd {P : Prog L G V E} {s : St L G V E} {g : G} {fs : List (Frame L V E)} {c : Ctl L V E} {evs : List (Ev V E)}
    (h : Local P s g fs c evs) :
    step P s = .next { s with g := g, frames := upd s.frames s.cur fs, ctl := c, log := evs ++ s.log } := by
  have hs : upd s.frames s.cur s.fr = s.frames := upd_self' _ _ rfl
  cases h
  case itDeref l h k r v h1 h2 h3 =>
    have h3' := readSlot_pushFr' (f := .usr k) h3
    simp only [step, h1, evalStep, h2, apiStep, h3']
    simp [St.pushFr, St.setFr, St.endObj, St.emit, St.withCtl]
  case valid l h k b h1 h2 h3 =>
    have h3' : handleBool (s.pushFr (.usr k)) h = .ok b := h3
    simp only [step, h1, evalStep, h2, apiStep, h3']
    simp [St.pushFr, St.setFr, St.withCtl]
  case bang l h k b h1 h2 h3 =>
    have h3' : handleBang (s.pushFr (.usr k)) h = .ok b := h3
    simp only [step, h1, evalStep, h2, apiStep, h3']
    simp [St.pushFr, St.setFr, St.withCtl]
  case asgSelf l h k hd h1 h2 h3 h4 =>
    have h3' : (s.pushFr (.usr k)).hs h = some hd := h3
    simp only [step, h1, evalStep, h2, apiStep, h3', h4]
    simp [St.pushFr, St.setFr, St.withCtl]
  case itBeginPush l h k hd h1 h2 h3 h4 h5 =>
    have h3' : (s.pushFr (.usr k)).hs h = some hd := h3
    simp only [step, h1, evalStep, h2, apiStep, h3', h4, if_neg h5]
    simp [St.pushFr, St.setFr, St.withCtl]
  case itBeginPull l h k hd b h1 h2 h3 h4 h5 h6 =>
    have h3' : (s.pushFr (.usr k)).hs h = some hd := h3
    have h6' : handleBool (s.pushFr (.usr k)) h = .ok b := h6
    simp only [step, h1, evalStep, h2, apiStep, h3', h4, if_neg h5, h6']
    simp [St.pushFr, St.setFr, St.withCtl]
  case mkAlloc l kd va e fn k h1 h2 =>
    simp only [step, h1, evalStep, h2, apiStep, mkOp]
    simp [St.pushFr, St.setFr, St.withCtl]
  case dFetch b h1 h2 h3 =>
    simp only [step, h1, deliverStep, h2, h3]
    simp [St.setFr, St.withCtl]
  case dPfetch b h1 h2 h3 =>
    simp only [step, h1, deliverStep, h2, h3]
    simp [St.setFr, St.withCtl]
  case tau h1 h2 =>
    simp only [step, h1, evalStep, h2]
    simp [St.withCtl, hs]
  case newObj h1 h2 =>
    simp only [step, h1, evalStep, h2]
    simp [St.pushFr, St.setFr, St.endObj, St.emit, St.withCtl]
  case guard h1 h2 =>
    simp only [step, h1, evalStep, h2]
    simp [St.pushFr, St.setFr, St.endObj, St.emit, St.withCtl]
  case leaveObj h1 h2 h3 =>
    simp only [step, h1, evalStep, h2, h3]
    simp [St.pushFr, St.setFr, St.endObj, St.emit, St.withCtl]
  case try_ h1 h2 =>
    simp only [step, h1, evalStep, h2]
    simp [St.pushFr, St.setFr, St.endObj, St.emit, St.withCtl]
  case endTry h1 h2 h3 =>
    simp only [step, h1, evalStep, h2, h3]
    simp [St.pushFr, St.setFr, St.endObj, St.emit, St.withCtl]
  case call h1 h2 =>
    simp only [step, h1, evalStep, h2]
    simp [St.pushFr, St.setFr, St.endObj, St.emit, St.withCtl]
  case ret h1 h2 =>
    simp only [step, h1, evalStep, h2]
    simp [St.withCtl, hs]
  case throw h1 h2 =>
    simp only [step, h1, evalStep, h2]
    simp [St.withCtl, hs]
  case dUsr h1 h2 =>
    simp only [step, h1, deliverStep, h2]
    simp [St.setFr, St.withCtl]
  case dResid h1 h2 =>
    simp only [step, h1, deliverStep, h2]
    simp [St.setFr, St.withCtl]
  case dCtorFail h1 h2 =>
    simp only [step, h1, deliverStep, h2]
    simp [St.setFr, St.withCtl]
  case dCRaise h1 h2 =>
    simp only [step, h1, deliverStep, h2]
    simp [St.setFr, St.withCtl]
  case dCRet h1 h2 =>
    simp only [step, h1, deliverStep, h2]
    simp [St.setFr, St.withCtl]
  case dCLeave h1 h2 =>
    simp only [step, h1, deliverStep, h2]
    simp [St.setFr, St.withCtl]
  case tObj h1 h2 =>
    simp only [step, h1, retStep, h2]
    simp [St.setFr, St.endObj, St.emit, h1]
  case tHdl h1 h2 =>
    simp only [step, h1, retStep, h2]
    simp [St.setFr, St.endObj, St.emit, h1]
  case tFnRet h1 h2 =>
    simp only [step, h1, retStep, h2]
    simp [St.setFr, St.emit, St.withCtl]
  case rCatch h1 h2 =>
    simp only [step, h1, raiseStep, h2]
    simp [St.setFr, St.emit, St.withCtl]
  case rSkip h1 h2 =>
    simp only [step, h1, raiseStep, h2]
    simp [St.setFr, St.endObj, St.emit, h1]
  case rUsrU h1 h2 =>
    simp only [step, h1, raiseStep, h2]
    simp [St.setFr, St.endObj, St.emit, h1]
  case rUsrF h1 h2 =>
    simp only [step, h1, raiseStep, h2]
    simp [St.setFr, St.endObj, St.emit, h1]
  all_goals
    rename_i h1 h2
    simp only [step, h1, raiseStep, h2]
    simp [St.setFr, St.endObj, St.emit, h1]

theorem SetOk.fwd {P : Prog L G V E} {s : St L G V E} {q : CbRef} {a : PushArg V E} {b : CB V E} {evs : List (Ev V E)}
    {w : Option V} (h : SetOk P.mv (s.va q.co) (s.cbs q) q.co a b evs w) :
    cbSet P s q a = .ok { s with cbs := upd s.cbs q b, log := evs ++ s.log } w := by
  cases h
  case void h1 => simp only [cbSet, h1]; rw [upd_self]; rfl
  case ref v h1 h2 => subst h2; simp [cbSet, h1, St.setCb, St.emit]
  case copy0 h1 h2 h3 => subst h2; simp [cbSet, h1, setDestroyOld, h3, setNew, St.setCb, St.emit]
  case copy1 h1 h2 h3 h4 => subst h2; simp [cbSet, h1, setDestroyOld, h3, h4, setNew, St.setCb, St.emit, upd_upd]
  case move0 h1 h2 h3 => subst h2; simp [cbSet, h1, setDestroyOld, h3, setNew, St.setCb, St.emit]
  case move1 h1 h2 h3 h4 => subst h2; simp [cbSet, h1, setDestroyOld, h3, h4, setNew, St.setCb, St.emit, upd_upd]
  case alias h1 h2 h3 h4 => subst h2; simp [cbSet, h1, setDestroyOld, h3, h4, setNew, St.setCb, St.emit]

theorem SetThrows.fwd {P : Prog L G V E} {s : St L G V E} {q : CbRef} {e : E} {b : CB V E} {evs : List (Ev V E)}
    (h : SetThrows (s.va q.co) (s.cbs q) q.co b evs) :
    cbSet P s q (.faulty e) = .throws { s with cbs := upd s.cbs q b, log := evs ++ s.log } e := by
  cases h
  case first h1 h2 => simp [cbSet, h1, setDestroyOld, h2, St.emit, upd_self]
  case again h1 h2 h3 => simp [cbSet, h1, setDestroyOld, h2, h3, St.setCb, St.emit]

theorem Dtor.fwd {s : St L G V E} {r : CbRef} {sl : Slot V} {evs : List (Ev V E)}
    (h : Dtor (s.kind r.co) (s.va r.co) (s.cbs r) r sl evs) :
    dtorSlot s r = some { s with cbs := upd s.cbs r { s.cbs r with slot := sl }, log := evs ++ s.log } := by
  cases h
  case val v h1 h2 h3 h4 => simp [dtorSlot, h1, h2, h3, h4, St.setCb, St.emit]
  case skip h1 =>
    have : (isPullSide (s.kind r.co) r.side && (s.va r.co == .val) && (s.cbs r).bvalid) = false := by
      simp only [Bool.eq_false_iff, ne_eq, Bool.and_eq_true, beq_iff_eq]
      rintro ⟨⟨a, b⟩, c⟩; exact h1 ⟨a, b, c⟩
    simp only [dtorSlot, this, Bool.false_eq_true, if_false]
    have : upd s.cbs r { s.cbs r with slot := (s.cbs r).slot } = s.cbs := upd_self' _ _ rfl
    rw [this]; rfl

theorem Inv.recvFinal {s : St L G V E} (hi : Inv s) (hj : JInv s) {h : Nat} (h1 : s.ctl = .recv) (h2 : s.fr = [])
    (h3 : s.base s.cur = .final h) :
    (s.cbs ⟨s.cur, .own⟩).life = .alive ∧ s.fib (.cb ⟨s.cur, .syn⟩) = none := by
  obtain ⟨u, hu, hn, -, hq⟩ := hi.recvAir h1 (q := ⟨s.cur, .syn⟩) (by rw [h2, h3]; rfl) (.inr rfl)
  exact ⟨(hj.air h1 u _ hu hq).2, hn⟩

theorem Scope.fwd {P : Prog L G V E} {s s1 : St L G V E} {h : Nat} (hi : Inv s) (hj : JInv s) (hsc : Scope P s h s1) :
    step P s = destroyHandle s1 h := by
  have hE : ∀ l, s.ctl = .eval l → step P s = evalStep P s l := by intro l h; unfold step; rw [h]
  have hR : ∀ x, s.ctl = .raise x → step P s = raiseStep P s x := by intro l h; unfold step; rw [h]
  have hT : s.ctl = .retn → step P s = retStep P s := by intro h; unfold step; rw [h]
  have hV : s.ctl = .recv → step P s = recvStep P s := by intro h; unfold step; rw [h]
  cases hsc
  case leave h1 h2 h3 => rw [hE _ h1]; simp only [evalStep, h2, h3]; rfl
  case api h1 h2 => rw [hE _ h1]; simp only [evalStep, h2, apiStep]; rfl
  case raise h1 h2 => rw [hR _ h1]; simp only [raiseStep, h2]; rfl
  case ret h1 h2 => rw [hT h1]; simp only [retStep, h2]; rfl
  case unwFn h1 h2 h3 => rw [hR _ h1]; simp only [raiseStep, h2, h3]; rfl
  case unwEntry h1 h2 h3 => rw [hR _ h1]; simp only [raiseStep, h2, h3]; rfl
  case unwFinal h1 h2 h3 => rw [hR _ h1]; simp only [raiseStep, h2, h3]; rfl
  case final u h1 h2 h4 h3 =>
    obtain ⟨hal, hn⟩ := hi.recvFinal hj h1 h2 h3
    rw [hV h1]
    simp only [recvStep, h2, h3, hal, leaveLambda]
    split
    · congr 1
      simp only [St.setFib, St.setBase]
      congr 1
      funext l
      simp only [upd]
      grind
    · congr 1
      simp [St.setFib, St.setBase, h4]

theorem destroyCb_fwd {s : St L G V E} {r : CbRef} {sl : Slot V} {evs : List (Ev V E)}
    (hd : Dtor (s.kind r.co) (s.va r.co) (s.cbs r) r sl evs) :
    destroyCb s r = fiberDrop { s with
      fib := upd s.fib (.cb r) none
      cbs := upd s.cbs r { s.cbs r with
          life := .dead, state := StateT.orAssign (s.cbs r).state StateT.destroy, slot := sl }
      log := evs ++ s.log } (s.fib (.cb r)) := by
  have := Dtor.fwd (s := s.setFib (.cb r) none) (r := r) hd
  unfold destroyCb
  simp only [this]
  simp [St.setCb, St.setFib, upd_upd]

theorem Inv.hasUnwind {s : St L G V E} (hi : Inv s) {k : Nat} (hal : (s.cbs ⟨k, .own⟩).life = .alive) :
    StateT.has (s.cbs ⟨k, .own⟩).state StateT.unwind = true := by
  rcases hi.cb.own_state k hal with hs | hs <;> rw [hs.1]
  · exact state_flag_facts.1
  · exact state_flag_facts.2.1

theorem Inv.hasDestroy {s : St L G V E} (hi : Inv s) {k : Nat} (hal : (s.cbs ⟨k, .own⟩).life = .alive) :
    StateT.has (s.cbs ⟨k, .own⟩).state StateT.destroy = false := by
  rcases hi.cb.own_state k hal with hx | hx <;> rw [hx.1]
  · exact state_flag_facts.2.2.2.1
  · exact state_flag_facts.2.2.2.2.1

theorem Dying.fwd {P : Prog L G V E} {s s0 : St L G V E} {f : Option Nat} (hi : Inv s) (hj : JInv s) (h : Dying P s f s0) :
    step P s = fiberDrop s0 f := by
  have hD : ∀ l, s.ctl = .deliver l → step P s = deliverStep s l := by intro l h; unfold step; rw [h]
  have hR : ∀ x, s.ctl = .raise x → step P s = raiseStep P s x := by intro l h; unfold step; rw [h]
  have hV : s.ctl = .recv → step P s = recvStep P s := by intro h; unfold step; rw [h]
  cases h
  case handle h s1 hd k sl evs hsc hh hcb hal hdt =>
    rw [hsc.fwd hi hj]
    have hal' : (s.cbs ⟨k, .own⟩).life = .alive := by rw [← hsc.same.1]; exact hal
    have hun : StateT.has (s1.cbs ⟨k, .own⟩).state StateT.unwind = true := by rw [hsc.same.1]; exact hi.hasUnwind hal'
    unfold destroyHandle
    rw [hh]
    simp only [hcb]
    exact (deallocate_own (s := { s1 with hs := upd s1.hs h none }) hal hun).trans
      (destroyCb_fwd (s := { s1 with hs := upd s1.hs h none }) hdt)
  case ctorInvalid k t sl evs u hr hfr hkd hal hf hair hex hv hdt =>
    rw [hV hr]
    have hv' : cbValid (((s.setFib (.cb ⟨k, .own⟩) (s.fib .air)).setFib .air none).setFr t) ⟨k, .own⟩ = false := hv
    unfold recvStep
    rw [hfr]
    simp only [hal, hf]
    have hex' : ((((s.setFib (.cb ⟨k, .own⟩) (s.fib .air)).setFib .air none).setFr t).cbs ⟨k, .own⟩).except = none := hex
    simp only [hex', hv', Bool.false_eq_true, if_false]
    refine (deallocate_own ?_ ?_).trans ((destroyCb_fwd (sl := sl) (evs := evs) ?_).trans ?_)
    · exact hal
    · exact hi.hasUnwind hal
    · exact hdt
    have hupd : ∀ f : Option Nat, upd (upd (upd s.fib (.cb ⟨k, .own⟩) f) .air none) (.cb ⟨k, .own⟩) none
            = upd s.fib .air none := by
          intro f; funext l; simp only [upd]; grind
    have hu2 : upd (upd s.fib (.cb ⟨k, .own⟩) (s.fib .air)) .air none (.cb ⟨k, .own⟩) = some u := by
                simp [upd, hair]
    simp only [St.fr, St.setFib, St.pushFr, St.setFr, upd_same, upd_upd, hupd]
    rw [hu2]
  case ctorThrow k t e u hr hfr hkd hal hf hair hex =>
    rw [hV hr]
    unfold recvStep
    rw [hfr]
    simp only [hal, hf]
    have hex' : ((((s.setFib (.cb ⟨k, .own⟩) (s.fib .air)).setFib .air none).setFr t).cbs ⟨k, .own⟩).except = some e := hex
    simp only [hex']
    have hupd : ∀ f : Option Nat, upd (upd (upd s.fib (.cb ⟨k, .own⟩) f) .air none) (.cb ⟨k, .own⟩) none
            = upd s.fib .air none := by
          intro f; funext l; simp only [upd]; grind
    have hu2 : upd (upd s.fib (.cb ⟨k, .own⟩) (s.fib .air)) .air none (.cb ⟨k, .own⟩) = some u := by
                simp [upd, hair]
    simp only [St.fr, St.setFib, St.setCb, St.emit, St.pushFr, St.setFr, upd_same, upd_upd, hupd]
    rw [hu2, hex]
  case ctorUnw x f k t hr hfr hk =>
    rw [hR _ hr]
    unfold raiseStep
    rw [hfr]
    rcases hk with rfl | rfl <;> rfl
  case syn r sl evs hr hfr hb hdt =>
    rw [hD _ hr]
    unfold deliverStep
    rw [hfr]
    simp only [hb, leaveLambdaCb]
    rw [Dtor.fwd (r := ⟨s.cur, .syn⟩) hdt]
    simp [St.setBase, St.setFib, St.setCb, upd_upd]

/-- The relation is exact: whatever it lists is what the executable machine does. -/
theorem rel_step {P : Prog L G V E} {s s' : St L G V E} (hi : Inv s) (hj : JInv s) (h : Step P s s') : step P s = .next s' := by
  have hE : ∀ l, s.ctl = .eval l → step P s = evalStep P s l := by intro l h; unfold step; rw [h]
  have hD : ∀ l, s.ctl = .deliver l → step P s = deliverStep s l := by intro l h; unfold step; rw [h]
  have hR : ∀ x, s.ctl = .raise x → step P s = raiseStep P s x := by intro l h; unfold step; rw [h]
  have hT : s.ctl = .retn → step P s = retStep P s := by intro h; unfold step; rw [h]
  have hV : s.ctl = .recv → step P s = recvStep P s := by intro h; unfold step; rw [h]
  cases h
  case loc h => exact h.fwd
  case dropNone h => rw [h.fwd hi hj]; rfl
  case dropSome h => rw [h.fwd hi hj]; rfl
  case nop h s1 hd hsc hh hcb =>
    rw [hsc.fwd hi hj]
    unfold destroyHandle
    rw [hh]
    rcases hcb with hcb | ⟨k, hcb, hal⟩
    · simp only [hcb]; rfl
    · simp only [hcb]
      have hal' : (s.cbs ⟨k, .syn⟩).life = .alive := by rw [← hsc.same.1]; exact hal
      have : StateT.has (s1.cbs ⟨k, .syn⟩).state StateT.unwind = false := by
        rw [hsc.same.1, (hi.cb.syn_state k hal').1]; exact state_flag_facts.2.2.1
      unfold deallocate
      simp only [hal, this]
      rfl
  case get l h k r v h1 h2 h3 =>
    rw [hE _ h1]
    simp only [evalStep, h2, apiStep, readSlot_pushFr' (f := .usr k) h3]
    by_cases hv : s.va r.co = .val
    · simp [hv, St.pushFr, St.setFr, St.setCb, St.emit, St.withCtl]
    · simp [hv, St.pushFr, St.setFr, St.emit, St.withCtl]
      exact (upd_self _ _).symm
  case moveCtor l h k hd h1 h2 h3 =>
    have h3' : (s.pushFr (.usr k)).hs h = some hd := h3
    rw [hE _ h1]
    simp only [evalStep, h2, apiStep, h3']
    rfl
  case moveAssign l d c k hd hc h1 h2 h3 h4 h5 =>
    have h3' : (s.pushFr (.usr k)).hs d = some hd := h3
    have h4' : (s.pushFr (.usr k)).hs c = some hc := h4
    rw [hE _ h1]
    simp only [evalStep, h2, apiStep, h3', h4', if_pos h5]
    split
    · rename_i hx
      obtain ⟨-, rfl⟩ := hx
      rw [h3] at h4; cases h4
      have : upd (upd s.hs d (some hd)) d (some hd) = s.hs := by
        rw [upd_upd]; exact upd_self' _ _ h3
      simp [St.pushFr, St.setFr, St.withCtl, this]
    · rfl
  case ctorDrop r va t h1 h2 =>
    rw [hD _ h1]
    simp only [deliverStep, h2]
    rfl
  case mkFn h1 h2 =>
    rw [hE _ h1]
    simp only [evalStep, h2, apiStep, mkOp]
    rfl
  case mk l kd va fn k h1 h2 =>
    rw [hE _ h1]
    simp only [evalStep, h2, apiStep, mkOp, fiberResume]
    have hb1 : s.fib (.cb ⟨s.nk, .own⟩) = none := by
          cases hx : s.fib (.cb ⟨s.nk, .own⟩) with
          | none => rfl
          | some t =>
            have := hi.cb.full_alive _ _ hx
            rw [hi.cb.unborn s.nk .own (.inr (Nat.le_refl _))] at this
            cases this
    simp only [St.pushFr, St.setFr, St.emit, upd_same, St.setFib, St.fr, upd_upd]
    congr 2
    funext l; simp only [upd]; grind
  case pushThrow l op k h a post hd r b evs e h1 h2 hpc hh hty hcb hal ho hal' ha hse =>
    subst ha
    have key : pushOp P (s.pushFr (.usr k)) h (.faulty e) post = .next { s with
        frames := upd s.frames s.cur (.usr k :: s.fr), ctl := .raise (.user e),
        cbs := upd s.cbs r.partner b, log := evs ++ s.log } := by
      unfold pushOp
      have hh' : (s.pushFr (.usr k)).hs h = some hd := hh
      have hal1 : ((s.pushFr (.usr k)).cbs r).life = .alive := hal
      have ho1 : ((s.pushFr (.usr k)).cbs r).other = some r.partner := ho
      have hal2 : ((s.pushFr (.usr k)).cbs r.partner).life = .alive := hal'
      have := SetThrows.fwd (P := P) (s := s.pushFr (.usr k)) (q := r.partner) (e := e) (b := b) (evs := evs) hse
      simp only [hh', hty, if_true, hcb, hal1, ho1, hal2, this]
      rfl
    rw [hE _ h1]
    cases hpc
    case op => simp only [evalStep, h2, apiStep]; exact key
    case it hna => simp only [evalStep, h2, apiStep]; exact key
  case push l op k h a post hd r b evs w t h1 h2 hpc hh hty hcb hal ho hal' hse hf =>
    have key : pushOp P (s.pushFr (.usr k)) h a post = .next { s with
        frames := upd s.frames s.cur (.asg r :: (post w ++ .usr k :: s.fr)), ctl := .recv, cur := t,
        cbs := upd s.cbs r.partner b, fib := upd (upd s.fib (.cb r) none) .air (some s.cur),
        log := .jump r s.cur t :: (evs ++ s.log) } := by
      unfold pushOp
      have hh' : (s.pushFr (.usr k)).hs h = some hd := hh
      have hal1 : ((s.pushFr (.usr k)).cbs r).life = .alive := hal
      have ho1 : ((s.pushFr (.usr k)).cbs r).other = some r.partner := ho
      have hal2 : ((s.pushFr (.usr k)).cbs r.partner).life = .alive := hal'
      have := SetOk.fwd (P := P) (s := s.pushFr (.usr k)) (q := r.partner) (a := a) (b := b) (evs := evs) (w := w) hse
      simp only [hh', hty, if_true, hcb, hal1, ho1, hal2, this, cbResume]
      have hne : r ≠ r.partner := by obtain ⟨c, sd⟩ := r; cases sd <;> simp [CbRef.partner, Side.flip]
      have hal3 : (upd s.cbs r.partner b r).life = .alive := by rw [upd_ne _ _ hne]; exact hal
      simp only [St.pushFr, St.setFr, hal3, fiberResume, hf]
      simp [St.setFib, St.emit, St.fr, upd_upd]
    rw [hE _ h1]
    cases hpc
    case op => simp only [evalStep, h2, apiStep]; exact key
    case it hna =>
      simp only [evalStep, h2, apiStep]
      cases a <;> first | exact key | exact absurd rfl hna
  case pull l op k h post hd r t h1 h2 hpc hh hty hcb hal hf =>
    have key : pullOp (s.pushFr (.usr k)) h post = .next { s with
        frames := upd s.frames s.cur (.asg r :: (post ++ .usr k :: s.fr)), ctl := .recv, cur := t,
        fib := upd (upd s.fib (.cb r) none) .air (some s.cur), log := .jump r s.cur t :: s.log } := by
      unfold pullOp
      have hh' : (s.pushFr (.usr k)).hs h = some hd := hh
      simp only [St.pushFr, St.setFr, hh, hty, if_true, hcb, cbResume, hal, fiberResume, hf]
      simp [St.setFib, St.emit, St.fr, upd_upd]
    rw [hE _ h1]
    cases hpc <;> (simp only [evalStep, h2, apiStep]; exact key)
  case enterPull fn u hr hfr hb hk hal hair =>
    rw [hV hr]
    unfold recvStep
    rw [hfr]
    simp only [hb, enterLambda, hal, hk]
    rw [startFn_eq (s := synthesize s) (by simp [synthesize, hal]) (by simp [synthesize]; exact hi.hasDestroy hal)]
    simp [St.setBase, St.emit, St.withCtl, synthesize, hair, hk, hal, Kind.flip]
  case enterPush fn u hr hfr hb hk hal hair =>
    rw [hV hr]
    unfold recvStep
    rw [hfr]
    simp only [hb, enterLambda, hal, hk, fiberResume]
    simp only [synthesize, St.setBase, upd_ne _ _ (show (FLoc.cb ⟨s.cur, .syn⟩) ≠ .air by simp), upd_same, hair]
    simp only [St.setFib, St.emit, hk, hal, Kind.flip]
    congr 2
    funext l; simp only [upd]; grind
  case startPush h fn u hr hfr hb hal hair hn =>
    rw [hV hr]
    unfold recvStep
    rw [hfr]
    simp only [hb, hal, hn]
    rw [startFn_eq (s := (s.setFib (.cb ⟨s.cur, .syn⟩) (s.fib .air)).setFib .air none) hal (hi.hasDestroy hal)]
    simp [St.setBase, St.emit, St.withCtl, St.setFib, hair]
  case wait t hr hfr hair =>
    rw [hV hr]
    unfold recvStep
    rw [hfr]
    simp [St.setFr, St.setFib, St.withCtl, upd_self' _ _ hair]
  case asg r t u hr hfr hal hf hair hex =>
    rw [hV hr]
    unfold recvStep
    rw [hfr]
    have hex' : ((((s.setFib (.cb r) (s.fib .air)).setFib .air none).setFr t).cbs r).except = none := hex
    simp only [hal, hf, hex']
    simp [St.setFr, St.setFib, St.withCtl, hair]
  case asgThrow r t u e hr hfr hal hf hair hex =>
    rw [hV hr]
    unfold recvStep
    rw [hfr]
    have hex' : ((((s.setFib (.cb r) (s.fib .air)).setFib .air none).setFr t).cbs r).except = some e := hex
    simp only [hal, hf, hex']
    simp [St.setFr, St.setFib, St.withCtl, St.emit, hair]
  case pullCtor k t u hr hfr hkd hal hf hair hex hv =>
    rw [hV hr]
    unfold recvStep
    rw [hfr]
    have hv' : cbValid (((s.setFib (.cb ⟨k, .own⟩) (s.fib .air)).setFib .air none).setFr t) ⟨k, .own⟩ = true := hv
    have hex' : ((((s.setFib (.cb ⟨k, .own⟩) (s.fib .air)).setFib .air none).setFr t).cbs ⟨k, .own⟩).except = none := hex
    simp only [hal, hf, hex', hv', if_true]
    simp [St.setFr, St.setFib, St.withCtl, newHandle, hair]
  case pushCtor k t u hr hfr hkd hal hf hair =>
    rw [hV hr]
    unfold recvStep
    rw [hfr]
    simp only [hal, hf]
    simp [St.setFr, St.setFib, St.withCtl, newHandle, hair]
  case fin h t x hc hfr hb hal hf =>
    have hoo := hi.cb.own_other s.cur hal
    have hnf : (s.base s.cur).isFresh = false := by rw [hb]; rfl
    rw [hnf] at hoo
    simp only [Bool.false_eq_true, if_false] at hoo
    have hst : (s.cbs ⟨s.cur, .own⟩).state = StateT.unwind ∧ (s.cbs ⟨s.cur, .own⟩).except = none := by
      rcases hi.cb.own_state s.cur hal with h | h
      · exact ⟨h.1, h.2.2⟩
      · rw [hb] at h; simp [Base.past] at h
    have hsy : (s.cbs ⟨s.cur, .syn⟩).life = .alive := hi.cb.full_alive _ _ hf
    have key : finish { s with
      fnObj := upd s.fnObj s.cur .gone
      cbs := upd s.cbs ⟨s.cur, .own⟩ { s.cbs ⟨s.cur, .own⟩ with except := x }
      log := .fin s.cur x :: .fnDtor s.cur :: s.log } h = .next { s with
        fnObj := upd s.fnObj s.cur .gone
        cbs := upd s.cbs ⟨s.cur, .own⟩ { s.cbs ⟨s.cur, .own⟩ with
          state := StateT.or StateT.unwind StateT.complete, except := x }
        base := upd s.base s.cur (.final h)
        fib := upd (upd s.fib (.cb ⟨s.cur, .syn⟩) none) .air (some s.cur)
        cur := t
        ctl := .recv
        log := .jump ⟨s.cur, .syn⟩ s.cur t :: .fin s.cur x :: .fnDtor s.cur :: s.log } := by
      unfold finish
      have h2 : (upd (upd s.cbs ⟨s.cur, .own⟩ { s.cbs ⟨s.cur, .own⟩ with except := x }) ⟨s.cur, .own⟩
          { s.cbs ⟨s.cur, .own⟩ with except := x, state := StateT.or StateT.unwind StateT.complete }
          ⟨s.cur, .syn⟩).life = .alive := by
        simp [upd, hsy]
      simp only [upd_same, hal, St.setCb, hoo, upd_upd, fiberResume, St.setBase, hf]
      have h3 : ∀ b, (upd s.cbs ⟨s.cur, .own⟩ b ⟨s.cur, .syn⟩).life = .alive := by intro b; simp [upd, hsy]
      simp only [h3]
      simp only [St.setFib, St.emit, hst.1]
      rfl
    rcases hc with ⟨hc, rfl⟩ | ⟨e, hc, rfl⟩
    · refine (Eq.trans ?_ key)
      rw [hT hc]
      unfold retStep
      rw [hfr]
      simp only [hb, hal]
      congr 1
      have : upd s.cbs ⟨s.cur, .own⟩ { s.cbs ⟨s.cur, .own⟩ with except := none } = s.cbs := by
          refine upd_self' _ _ ?_
          have := hst.2
          generalize s.cbs ⟨s.cur, .own⟩ = b at this
          cases b; simp_all
      simp only [hal] at this
      rw [this]; rfl
    · refine (Eq.trans ?_ key)
      rw [hR _ hc]
      unfold raiseStep
      rw [hfr]
      simp only [hb, hal]
      simp [dropFn, St.emit, storeExcept, St.setCb, hal]
  case exit r b h1 h2 h3 h4 h5 =>
    have hair : s.fib .air = none := by
      have := hi.ctl; rw [h1] at this; exact this.2.1
    have hair2 : upd (upd s.fib (.back s.cur) none) .air none = upd s.fib (.back s.cur) none :=
      upd_self' _ _ (by simp [upd, hair])
    rw [hD _ h1]
    unfold deliverStep
    rw [h2]
    simp only [h3, exitCtx, h4]
    rw [if_neg (by rw [h5]; simp)]
    by_cases hf : s.fnObj s.cur = .record
    · simp [hf, dropFn, St.emit, St.setBase, St.setFib, hair2]
    · simp [hf, St.emit, St.setBase, St.setFib, hair2]

theorem reach_step {P : Prog L G V E} {l0 : L} {g0 : G} {s s' : St L G V E} (h : Reach P l0 g0 s) (hs : Step P s s') :
    step P s = .next s' := rel_step (inv_reach h) (jinv_reach h) hs

theorem upd_at {α β : Type} [DecidableEq α] (f : α → β) (a : α) (b : β) : upd f a b a = b := by simp [upd]
theorem upd_off {α β : Type} [DecidableEq α] (f : α → β) {a x : α} (b : β) (h : x ≠ a) : upd f a b x = f x := by simp [upd, h]

/-- the first step of a construction: allocate, build the control block, switch to the new context -/
theorem mk_step {P : Prog L G V E} {l0 : L} {g0 : G} {s : St L G V E} (hr : Reach P l0 g0 s) {kd : Kind} {va : Var}
    {fn : Nat → L} {k : Res V → L} (hc : Calls P s (.mk kd va .ok fn) k) :
    ∃ s1, step P s = .next s1 ∧ s1.ctl = .recv ∧ s1.cur = s.nk ∧ s1.fr = [] ∧
      s1.frames s.cur = ctorFrame kd s.nk :: .usr k :: s.fr ∧ s1.base s.nk = .fresh fn ∧ s1.kind s.nk = kd ∧ s1.va s.nk = va ∧
      (s1.cbs ⟨s.nk, .own⟩).life = .alive ∧ (s1.cbs ⟨s.nk, .own⟩).except = none ∧ s1.fib .air = some s.cur ∧
      s1.hs = s.hs ∧ s1.nh = s.nh ∧ s1.g = s.g ∧ s.cur ≠ s.nk ∧
      s1.log = .jump ⟨s.nk, .own⟩ s.cur s.nk :: .created s.nk kd :: .alloc s.nk :: s.log := by
  obtain ⟨l, hc, hop⟩ := hc
  have hi := inv_reach hr
  have hnb : s.base s.nk = .none := by
    cases hb : s.base s.nk with
    | none => rfl
    | _ => have := hi.sched.lt_nk s.nk (by rw [hb]; simp); omega
  have hcn : s.cur ≠ s.nk := fun e => hi.sched.cur_live (e ▸ hnb)
  have hfn := hi.sched.dead_frames _ hnb
  refine ⟨_, reach_step hr (.mk hc hop), rfl, rfl, ?_, upd_at .., upd_at .., upd_at .., upd_at .., ?_, ?_, ?_, rfl, rfl, rfl,
    hcn, rfl⟩
  · simp [St.fr, upd, hcn.symm, hfn]
  · simp [upd]
  · simp [upd]
  · simp [upd]

theorem nEnter_fresh {P : Prog L G V E} {l0 : L} {g0 : G} {s : St L G V E} (hr : Reach P l0 g0 s) {k : Nat} (hk : s.nk ≤ k) :
    nEnter k s.log = 0 := by
  unfold nEnter
  rw [List.countP_eq_zero]
  intro e he h
  have := logFresh_reach hr e he k
  cases e <;> simp [Ev.isEnter] at h
  subst h
  have := this rfl
  omega

end Verif
