import Verif.Legal

/-! # No undefined behaviour, function by function.  Proof material. -/
namespace Verif
variable {L G V E : Type}
namespace Ctx
variable {P : Prog L G V E} {s t : St L G V E} {rest : List Nat} {u : UB}

theorem api_noUb (c : Ctx P s rest) {l : L} (hc : s.ctl = .eval l) {op : Op L V E} {k : Res V → L}
    (hcode : P.code l s.g = .api op k) : apiStep P (s.pushFr (.usr k)) op ≠ .ub u t := by
  have hcall : Calls P s op k := ⟨l, hc, hcode⟩
  have hctl := c.hi.ctl
  rw [hc] at hctl
  have hbody : (s.base s.cur).isBody = true := hctl.2.1
  have pushCase : ∀ h a p, (∃ hd, s.hs h = some hd ∧ MayResume s hd) → GoodArg a →
      pushOp P (s.pushFr (.usr k)) h a p ≠ .ub u t := by
    intro h a p ⟨hd, hh, hm⟩ ha
    obtain ⟨r, hcb, hal, hot, hpal, hf⟩ := c.resumable hc hh hm
    refine pushOp_noUb (s := s.pushFr (.usr k)) hh hcb hal hot hpal ha (fun hty _ hb => ?_) hf
    refine c.hs.safe (c.d.noThrow _) hpal ?_ hb
    obtain ⟨_, b1, _⟩ := c.hi.hok.born h hd r hh hcb
    rw [hty] at b1
    rcases r with ⟨k, _ | _⟩
    · have : s.kind k = .push := b1.symm
      show isPullSide (s.kind k) .syn = true
      rw [this]; rfl
    · have b1 : Kind.push = (s.kind k).flip := b1
      show isPullSide (s.kind k) .own = true
      cases hq : s.kind k
      · rfl
      · rw [hq] at b1; cases b1
  have pullCase : ∀ h p, (∃ hd, s.hs h = some hd ∧ MayResume s hd) → pullOp (s.pushFr (.usr k)) h p ≠ .ub u t := by
    intro h p ⟨hd, hh, hm⟩
    obtain ⟨r, hcb, hal, hot, hpal, hf⟩ := c.resumable hc hh hm
    exact pullOp_noUb (s := s.pushFr (.usr k)) hh hcb hal hf
  cases op with
  | mk kd va ft fn =>
    unfold apiStep mkOp
    cases ft with
    | ok => 
      refine fiberResume_noUb ?_
      simp [St.pushFr, St.setFr, St.emit]
    | alloc e => simp
    | fnCopy e => simp
  | resume h => exact pullCase h _ (c.ru.resume _ _ hcall)
  | push h a => exact pushCase h a _ (c.ru.push _ _ _ hcall).1 (c.ru.push _ _ _ hcall).2
  | get h =>
    obtain ⟨hd, hh, hm⟩ := c.ru.get _ _ hcall
    obtain ⟨r, hcb, hal, hsl⟩ := c.gettable hc hh hm
    unfold apiStep
    dsimp only
    cases hrs : readSlot (s.pushFr (.usr k)) h with
    | error o => 
      dsimp only
      rintro rfl
      exact readSlot_noUb (s := s.pushFr (.usr k)) hh hcb hal hsl hrs
    | ok x => simp
  | valid h =>
    obtain ⟨hd, hh, hm⟩ := c.ru.ask _ _ (.inl hcall)
    unfold apiStep
    dsimp only
    cases hrs : handleBool (s.pushFr (.usr k)) h with
    | error o => exact absurd hrs (handleBool_noErr (s := s.pushFr (.usr k)) hh (c.askable hbody hh hm))
    | ok x => simp
  | bang h =>
    obtain ⟨hd, hh, hm⟩ := c.ru.ask _ _ (.inr (.inl hcall))
    unfold apiStep
    dsimp only
    cases hrs : handleBang (s.pushFr (.usr k)) h with
    | error o => exact absurd hrs (handleBang_noErr (s := s.pushFr (.usr k)) hh (c.askable hbody hh hm))
    | ok x => simp
  | moveCtor h =>
    have := c.ru.mvc _ _ hcall
    unfold apiStep
    have e : (s.pushFr (.usr k)).hs h = s.hs h := rfl
    cases hq : s.hs h with
    | none => exact absurd hq this
    | some hd => dsimp only; rw [e, hq]; simp
  | moveAssign d b =>
    obtain ⟨h1, h2⟩ := c.ru.mva _ _ _ hcall
    unfold apiStep
    have e : (s.pushFr (.usr k)).hs = s.hs := rfl
    cases hq : s.hs d with
    | none => exact absurd hq h1
    | some hd =>
      cases hq2 : s.hs b with
      | none => exact absurd hq2 h2
      | some hd2 =>
        dsimp only
        rw [e, hq, hq2]
        dsimp only
        split
        · split <;> simp
        · simp
  | destroy h =>
    obtain ⟨hd, hh, hd'⟩ := c.destroyable (.api hcall)
    exact destroyHandle_noUb (s := s.pushFr (.usr k)) hh hd'
  | itBegin h =>
    obtain ⟨hd, hh, hm⟩ := c.ru.ask _ _ (.inr (.inr hcall))
    unfold apiStep
    have e : (s.pushFr (.usr k)).hs h = s.hs h := rfl
    dsimp only
    rw [e, hh]
    dsimp only
    split
    · simp
    · split
      · simp
      · cases hrs : handleBool (s.pushFr (.usr k)) h with
        | error o => exact absurd hrs (handleBool_noErr (s := s.pushFr (.usr k)) hh (c.askable hbody hh hm))
        | ok x => simp
  | itNext i =>
    obtain ⟨h, hd, rfl, hh, hm⟩ := c.ru.next _ _ hcall
    exact pullCase h _ ⟨hd, hh, hm⟩
  | itDeref i =>
    obtain ⟨h, hd, rfl, hh, hm⟩ := c.ru.deref _ _ hcall
    obtain ⟨r, hcb, hal, hsl⟩ := c.gettable hc hh hm
    unfold apiStep
    dsimp only
    cases hrs : readSlot (s.pushFr (.usr k)) h with
    | error o => 
      dsimp only
      rintro rfl
      exact readSlot_noUb (s := s.pushFr (.usr k)) hh hcb hal hsl hrs
    | ok x => simp
  | itPut i a =>
    obtain ⟨⟨h, hd, rfl, hh, hm⟩, ha⟩ := c.ru.put _ _ _ hcall
    unfold apiStep
    dsimp only
    cases a with
    | alias => simp
    | _ => exact pushCase h _ _ ⟨hd, hh, hm⟩ ha

theorem eval_noUb (c : Ctx P s rest) {l : L} (hc : s.ctl = .eval l) : evalStep P s l ≠ .ub u t := by
  unfold evalStep
  split
  · simp
  · simp
  · simp
  · rename_i l' hcode
    split
    · simp
    · rename_i h tl hfr
      obtain ⟨hd, hh, hd'⟩ := c.destroyable (.leave hc hcode hfr)
      exact destroyHandle_noUb (s := s.setFr _) hh hd'
    · simp
  · simp
  · split <;> simp
  · simp
  · simp
  · simp
  · rename_i op k hcode
    exact c.api_noUb hc hcode

/-- `finish` from inside the function -/
theorem finish_noUb (c : Ctx P s rest) {h : Nat} {s1 : St L G V E} (hb : s.base s.cur = .inFn h) (hbk : s.fib (.back s.cur) = none)
    (hr : s.ctl ≠ .recv) (hcur : s1.cur = s.cur) (hf : s1.fib = s.fib)
    (hcbs : ∀ r, (s1.cbs r).life = (s.cbs r).life ∧ (s1.cbs r).other = (s.cbs r).other) : finish s1 h ≠ .ub u t := by
  have h0 : s.cur ≠ 0 := fun e => by rw [(c.hi.sched.main_iff _).2 e] at hb; cases hb
  have hal := (c.d.ownUp s.cur (by simp) h0 hbk).1
  have hsal : (s.cbs ⟨s.cur, .syn⟩).life = .alive := (c.hi.cb.syn_life _).2 (by rw [hb]; rfl)
  obtain ⟨y, tl, _, hy⟩ := c.d.belowSyn h0 hbk hr
  have hot := c.hi.cb.own_other _ hal
  rw [hb] at hot
  unfold finish
  simp only [hcur, (hcbs _).1, hal, St.setCb, upd_same]
  have : (s1.cbs ⟨s.cur, .own⟩).other = some ⟨s.cur, .syn⟩ := by rw [(hcbs _).2, hot]; rfl
  simp only [this]
  have h2 : ∀ b, (upd s1.cbs ⟨s.cur, .own⟩ b ⟨s.cur, .syn⟩).life = .alive := by
    intro b; simp [upd, (hcbs _).1, hsal]
  split
  · refine fiberResume_noUb ?_
    show s1.fib _ ≠ none
    rw [hf, hy]; simp
  · rename_i hne; exact absurd (h2 _) hne

theorem startFn_noUb (c : Ctx P s rest) {h : Nat} {fn : Nat → L} {s1 : St L G V E} (hcur : s1.cur = s.cur)
    (hal : (s.cbs ⟨s.cur, .own⟩).life = .alive) 
    (hcbs : (s1.cbs ⟨s.cur, .own⟩).life = (s.cbs ⟨s.cur, .own⟩).life ∧ (s1.cbs ⟨s.cur, .own⟩).state = (s.cbs ⟨s.cur, .own⟩).state) :
    startFn s1 h fn ≠ .ub u t := by
  unfold startFn
  simp only [hcur, hcbs.1, hal, hcbs.2]
  have : StateT.has (s.cbs ⟨s.cur, .own⟩).state StateT.destroy = false := by
    rcases c.hi.cb.own_state _ hal with ⟨h, _⟩ | ⟨h, _⟩ <;> rw [h] <;> decide
  rw [this]; simp

theorem deliver_noUb (c : Ctx P s rest) {r : Res V} (hc : s.ctl = .deliver r) : deliverStep s r ≠ .ub u t := by
  have hctl := c.hi.ctl
  rw [hc] at hctl
  have hfc : s.frames s.cur = s.fr := rfl
  have fetch : ∀ h tl, (s.fr = .fetch h :: tl ∨ s.fr = .pfetch h :: tl) → ∀ u, handleBang s h ≠ .error u := by
    intro h tl hf u
    obtain ⟨hd, hh, hm⟩ := c.ru.iter r h tl hc hf
    refine handleBang_noErr hh (c.askable ?_ hh hm)
    have := hctl.1
    rw [hfc] at this
    rcases hf with hf | hf <;> rw [hf] at this <;> simp only [okRet, Bool.and_eq_true] at this <;> exact this.2
  unfold deliverStep
  split
  · simp
  · rename_i h tl hfr
    cases hb : handleBang s h with
    | error e => exact absurd hb (fetch h tl (.inl hfr) e)
    | ok b => simp
  · rename_i h tl hfr
    cases hb : handleBang s h with
    | error e => exact absurd hb (fetch h tl (.inr hfr) e)
    | ok b => simp
  · simp
  · simp
  · simp
  · simp
  · simp
  · simp
  · rename_i hfr
    split
    · rename_i hb
      unfold leaveLambdaCb
      simp only
      have hal : (s.cbs ⟨s.cur, .syn⟩).life = .alive := (c.hi.cb.syn_life _).2 (by rw [hb]; rfl)
      split
      · rename_i hn; exact absurd hn (dtorSlot_safe (c.safe hal))
      · exact fiberDrop_noUb
    · rename_i hb
      unfold exitCtx
      simp only
      split
      · simp
      · rename_i b hbk
        rw [if_neg (c.d.ownDn s.cur (by rw [hbk]; simp))]
        simp
    · simp
  · simp

theorem raise_noUb (c : Ctx P s rest) {x : Exn E} (hc : s.ctl = .raise x) : raiseStep P s x ≠ .ub u t := by
  have hctl := c.hi.ctl
  rw [hc] at hctl
  have hfc : s.frames s.cur = s.fr := rfl
  unfold raiseStep
  split
  · simp
  · rename_i h tl hfr
    obtain ⟨hd, hh, hd'⟩ := c.destroyable (.raise hc hfr)
    exact destroyHandle_noUb (s := s.setFr _) hh hd'
  · rename_i sw f tl hfr
    cases x with
    | user e => simp
    | forced =>
      cases sw with
      | true => exact absurd hfr (c.ru.rethrow f tl hc)
      | false => simp
  · simp
  · split <;> simp
  · simp
  · simp
  · simp
  · simp
  · exact fiberDrop_noUb
  · exact fiberDrop_noUb
  · rename_i hfr
    split
    · simp
    · rename_i h e hb
      have h0 : s.cur ≠ 0 := fun e => by rw [(c.hi.sched.main_iff _).2 e] at hb; cases hb
      have hal := (c.d.ownUp s.cur (by simp) h0 hctl.2.2).1
      rw [hal]
      refine c.finish_noUb hb hctl.2.2 (by rw [hc]; simp) rfl rfl ?_
      intro r
      by_cases hr : r = ⟨s.cur, .own⟩
      · subst hr; simp [storeExcept, dropFn, St.emit, St.setCb]
      · simp [storeExcept, dropFn, St.emit, St.setCb, upd, hr]
    · rename_i h hb
      obtain ⟨hd, hh, hd'⟩ := c.destroyable (.arg hc hfr (.inl hb))
      exact destroyHandle_noUb (s := (dropFn s s.cur).setBase s.cur .lamA) hh hd'
    · rename_i h fn hb
      obtain ⟨hd, hh, hd'⟩ := c.destroyable (.arg hc hfr (.inr (.inr ⟨fn, hb⟩)))
      exact destroyHandle_noUb (s := s.setBase s.cur .lamA) hh hd'
    · rename_i h hb
      obtain ⟨hd, hh, hd'⟩ := c.destroyable (.arg hc hfr (.inr (.inl hb)))
      exact destroyHandle_noUb (s := s.setBase s.cur .lamA) hh hd'
    · rename_i fn hb
      have := hctl.1
      rw [hfc, hfr, hb] at this
      cases this
    · simp
  · simp

theorem ret_noUb (c : Ctx P s rest) (hc : s.ctl = .retn) : retStep P s ≠ .ub u t := by
  have hctl := c.hi.ctl
  rw [hc] at hctl
  unfold retStep
  split
  · simp
  · rename_i h tl hfr
    obtain ⟨hd, hh, hd'⟩ := c.destroyable (.ret hc hfr)
    exact destroyHandle_noUb (s := s.setFr _) hh hd'
  · simp
  · simp
  · split
    · simp
    · rename_i h hb
      have h0 : s.cur ≠ 0 := fun e => by rw [(c.hi.sched.main_iff _).2 e] at hb; cases hb
      have hal := (c.d.ownUp s.cur (by simp) h0 hctl.2.2.2).1
      rw [hal]
      exact c.finish_noUb hb hctl.2.2.2 (by rw [hc]; simp) rfl rfl (fun r => ⟨rfl, rfl⟩)
    · simp
  · simp

theorem recv_noUb (c : Ctx P s rest) (hc : s.ctl = .recv) : recvStep P s ≠ .ub u t := by
  have hctl := c.hi.ctl
  rw [hc] at hctl
  have hfc : s.frames s.cur = s.fr := rfl
  have notWait : waitTop s.fr = false → ∃ y, s.fib .air = some y := by
    intro hw
    cases hq : s.fib .air with
    | none => rw [c.d.air0 hc hq] at hw; cases hw
    | some y => exact ⟨y, rfl⟩
  have ownAl : s.fr = [] → (s.base s.cur).isFresh = true ∨ (∃ h fn, s.base s.cur = .pushEntry h fn) →
      (s.cbs ⟨s.cur, .own⟩).life = .alive := by
    intro hfr hb
    have h0 : s.cur ≠ 0 := by
      intro e
      have := (c.hi.sched.main_iff _).2 e
      rcases hb with hb | ⟨_, _, hb⟩
      · rw [this] at hb; cases hb
      · rw [this] at hb; cases hb
    have hbk : s.fib (.back s.cur) = none := by
      cases hbk : s.fib (.back s.cur) with
      | none => rfl
      | some b =>
        have := hctl.2.2.2.1 (by rw [hbk]; simp)
        rw [hfc, hfr] at this
        rcases hb with hb | ⟨_, _, hb⟩
        · cases hq : s.base s.cur <;> rw [hq] at hb this <;> simp_all [unwB, Base.isLam, Base.isFresh]
        · rw [hb] at this; simp [unwB, Base.isLam] at this
    exact (c.d.ownUp s.cur (by simp) h0 hbk).1
  unfold recvStep
  split
  · rename_i r tl hfr
    obtain ⟨y, hy⟩ := notWait (by rw [hfr]; rfl)
    have hq : hole (s.base s.cur) s.cur (s.frames s.cur) = some r := by rw [hfc, hfr]; rfl
    have hal : (s.cbs r).life = .alive := by
      rcases c.d.whereIs c.hi hy with ⟨_, x, _, hx0, h1 | ⟨h1, _⟩ | ⟨h1, _, h2, h3⟩⟩ | ⟨h0, h1 | ⟨h1, _, h2⟩⟩
      · cases h1
      · cases h1
      · subst h2
        rw [hq] at h3; cases h3
        refine (c.hi.cb.syn_life _).2 ?_
        have hsw := hctl.1
        rw [hfc, hfr] at hsw
        simp only [okSw, Bool.and_eq_true] at hsw
        have hmn : s.base s.cur ≠ .main := fun e => hx0 ((c.hi.sched.main_iff _).1 e)
        cases hb : s.base s.cur <;> rw [hb] at hsw <;> simp_all [Base.isBody, Base.synAlive]
      · cases h1
      · rw [hq] at h2; cases h2
        exact c.d.parkAl y (c.hi.sched.fib_ok _ _ hy).2 h0
    rw [hal]
    simp only
    split
    · simp
    · split <;> simp
  · rename_i k tl hfr
    have hal := c.hi.hok.ctor s.cur k (by rw [hfc, hfr]; rfl)
    simp only [hal]
    split
    · simp
    · split
      · exact fiberDrop_noUb
      · split
        · simp
        · refine deallocate_noUb ?_ ?_
          · exact hal
          · exact c.safe hal
  · rename_i k tl hfr
    have hal := c.hi.hok.ctor s.cur k (by rw [hfc, hfr]; rfl)
    simp only [hal]
    split
    · simp
    · simp
  · simp
  · rename_i hfr
    obtain ⟨y, hy⟩ := notWait (by rw [hfr]; rfl)
    split
    · rename_i fn hb
      have hal := ownAl hfr (.inl (by rw [hb]; rfl))
      unfold enterLambda
      rw [hal]
      dsimp only
      split
      · refine c.startFn_noUb (s1 := synthesize s) rfl hal ?_
        simp [synthesize]
      · refine fiberResume_noUb ?_
        simp [synthesize, upd, hy, St.setBase]
    · rename_i h fn hb
      have hal := ownAl hfr (.inr ⟨h, fn, hb⟩)
      split
      · refine c.startFn_noUb (s1 := (s.setFib _ _).setFib _ _) rfl hal ⟨rfl, rfl⟩
      · simp
      · rename_i h1 h2
        cases hq : s.fib (.cb ⟨s.cur, .syn⟩) with
        | none => exact absurd hq (h1 hal)
        | some z => exact absurd hq (h2 z hal)
    · rename_i h hb
      exact absurd (c.d.noFinal c.hi hc (by rw [hb]; rfl) hfr) id
    · simp
  · simp

theorem step_noUb (c : Ctx P s rest) : step P s ≠ .ub u t := by
  unfold step
  split
  · exact c.eval_noUb ‹_›
  · exact c.deliver_noUb ‹_›
  · exact c.raise_noUb ‹_›
  · exact c.ret_noUb ‹_›
  · exact c.recv_noUb ‹_›

end Ctx

theorem ctx_reach {P : Prog L G V E} {l0 : L} {g0 : G} {s : St L G V E} (hk : ReachOk P l0 g0 s) (hu : Rules P s) :
    ∃ rest, Ctx P s rest := by
  obtain ⟨rest, d⟩ := disc_reach hk
  have h := hk.reach
  exact ⟨rest, d, inv_reach h, jinv_reach h, slot_reach h, owner_reach h, tinv_reach h, life_reach h, hu⟩

end Verif
