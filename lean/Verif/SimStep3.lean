import Verif.SimStep2

/-! # Every step of the library model is a step of the specification machine, or none.  Proof material. -/
namespace Verif
variable {L G V E : Type}
variable {P : Prog L G V E} {s s' : St L G V E} {rest rest' : List Nat} {co co' : Nat → Coro.Co L V E}

theorem abs_nh : (absSt s rest co).nh = s.nh := rfl
theorem abs_co : (absSt s rest co).co = co := rfl
theorem push_co (x : Coro.St L G V E) (c : Nat) (f : Coro.Fr L V E) : (x.push c f).co = x.co := rfl
theorem push_hs (x : Coro.St L G V E) (c : Nat) (f : Coro.Fr L V E) : (x.push c f).hs = x.hs := rfl
theorem push_nh (x : Coro.St L G V E) (c : Nat) (f : Coro.Fr L V E) : (x.push c f).nh = x.nh := rfl
theorem push_nk (x : Coro.St L G V E) (c : Nat) (f : Coro.Fr L V E) : (x.push c f).nk = x.nk := rfl

theorem kill_next {x : Coro.St L G V E} {c k : Nat} {below : List Nat} (h : k ∉ x.active) :
    Coro.kill x c below k = .next { x with active := k :: c :: below, ctl := .raise .forced } := by
  simp [Coro.kill, h]

theorem frames_cur (s : St L G V E) : s.frames s.cur = s.fr := rfl

/-- what a step of the library model is in the specification: nothing, or one step -/
def Matched (P : Prog L G V E) (s : St L G V E) (rest : List Nat) (co : Nat → Coro.Co L V E) (s' : St L G V E) (rest' : List Nat) : Prop :=
  (absSt s' rest' co = absSt s rest co ∧ CoOk s' co ∧ stut s' < stut s) ∨
  ∃ co', CoOk s' co' ∧ Coro.step P (absSt s rest co) = .next (absSt s' rest' co')

theorem Step.sim (ok : CoOk s co) (d : Disc s rest) (hmv : Moved s.cur rest s'.cur rest') (hi : Inv s) (hj : JInv s)
    (hct : CtorInv s) (hdel : ∀ r, s.ctl = .deliver r → s.fr = [] → r = .unit) (ru : Rules P s) (h : Step P s s') : Matched P s rest co s' rest' := by
  have hmem : ∀ x ∈ s.cur :: rest, s.base x ≠ .none := by
    intro x hx
    rcases List.mem_cons.1 hx with rfl | hx
    · exact hi.sched.cur_live
    · exact d.live x hx
  cases h
  case loc g fs c evs hl =>
    obtain rfl := hmv.stay_eq rfl d.nodup
    exact .inr ⟨co, ok.same rfl rfl rfl rfl, hl.sim ok d hi hj ru⟩
  case get l h0 k r v h1 h2 h3 =>
    obtain rfl := hmv.stay_eq rfl d.nodup
    obtain ⟨hv, hsd, hal, hbv, hsl⟩ := ok.read (rest := rest') hi hj h3 (ru.get _ _ ⟨l, h1, h2⟩)
    have hv' : Coro.value ((absSt s rest' co).push s.cur (.use k)) s.cur h0 = some (r.co, v) := hv
    have hr : r = ⟨r.co, pullSide (s.kind r.co)⟩ := by cases r; simp_all
    have hok : Holds (s.cbs r) (co r.co).val := by have := ok.val r.co; rw [← hr] at this; exact this hal
    right
    refine ⟨upd co r.co { co r.co with val := if s.va r.co = .val then some (P.mv v) else (co r.co).val }, ?_, ?_⟩
    · refine ok.change r.co (fun _ _ => rfl) (fun _ _ => rfl) (fun _ _ => rfl) (fun i sd hne => .inl ?_) (ok.kind _) (ok.va _) (ok.phase _)
        ?_ ?_ ?_
      · show upd s.cbs r _ _ = _
        rw [upd_ne]; intro e; exact hne (by rw [← e])
      · intro ha
        have ha' : (upd s.cbs r _ ⟨r.co, .own⟩).life = .alive := ha
        show (co r.co).err = (upd s.cbs r _ ⟨r.co, .own⟩).except
        by_cases e : (⟨r.co, .own⟩ : CbRef) = r
        · rw [e]; simp; rw [← e]; exact ok.err _ (by rw [e]; exact hal)
        · rw [upd_ne _ _ e] at ha' ⊢; exact ok.err _ ha'
      · intro _
        show Holds (upd s.cbs r _ ⟨r.co, pullSide (s.kind r.co)⟩) _
        rw [← hr]
        simp only [upd_same]
        split
        · exact .inl ⟨_, hbv, rfl, rfl⟩
        · exact hok
      · intro hf
        have := hi.notFresh (by rw [h1]; simp) r.co
        exact absurd (this.symm.trans hf) (by simp)
    · rw [sim_api h1 h2]
      simp only [Coro.call, hv', push_co, abs_co, ok.va]
      clear hr hsd
      by_cases hva : s.va r.co = .val
      · simp only [hva, if_true]; agree
      · simp only [hva, if_false]; agree
        rw [← ok.va r.co]; exact (upd_id _ _).symm
  case moveCtor l h0 k hd h1 h2 h3 =>
    obtain rfl := hmv.stay_eq rfl d.nodup
    refine .inr ⟨co, ok.same rfl rfl rfl rfl, ?_⟩
    rw [sim_api h1 h2]
    simp only [Coro.call, push_hs, abs_hs, h3]
    agree
  case moveAssign l _ _ k _ _ h1 h2 h3 h4 h5 =>
    obtain rfl := hmv.stay_eq rfl d.nodup
    refine .inr ⟨co, ok.same rfl rfl rfl rfl, ?_⟩
    rw [sim_api h1 h2]
    simp only [Coro.call, push_hs, abs_hs, h3, h4, if_pos h5]
    agree
  case ctorDrop r va t h1 h2 =>
    obtain rfl := hmv.stay_eq rfl d.nodup
    refine .inr ⟨co, ok.same rfl rfl rfl rfl, ?_⟩
    rw [sim_res h1]
    simp only [Coro.resStep, abs_stack, frames_cur, h2, List.filterMap_cons, absF]
    agree
  case mkFn h1 h2 =>
    obtain rfl := hmv.stay_eq rfl d.nodup
    refine .inr ⟨co, ok.same rfl rfl rfl rfl, ?_⟩
    rw [sim_api h1 h2]
    simp only [Coro.call]
    agree
  case mk l kd va fn k0 h1 h2 =>
    have hnk : s.base s.nk = .none := by
      cases hb : s.base s.nk with
      | none => rfl
      | _ => have := hi.sched.lt_nk s.nk (by rw [hb]; simp); omega
    have hnm : s.nk ∉ s.cur :: rest := fun hm => hmem _ hm hnk
    obtain rfl := hmv.down_eq hnm
    have hcn : s.nk ≠ s.cur := fun e => hnm (by simp [e])
    have hun : ∀ sd, (s.cbs ⟨s.nk, sd⟩).life = .unborn := fun sd => hi.cb.unborn s.nk sd (.inr (Nat.le_refl _))
    refine .inr ⟨upd co s.nk { kind := kd, va := va, phase := .fresh fn }, ?_, ?_⟩
    · refine ok.change s.nk (fun k hk => by simp [upd, hk]) (fun k hk => by simp [upd, hk]) (fun k hk => by simp [upd, hk])
        (fun k sd hk => .inl (by simp [upd, hk])) (by simp) (by simp) (by simp [absPhase]) (by simp) ?_ (by simp)
      intro hal
      show Holds (upd s.cbs _ _ ⟨s.nk, pullSide (upd s.kind s.nk kd s.nk)⟩) none
      cases kd with
      | pull => simp only [upd_same, pullSide]; exact .inr ⟨rfl, rfl, rfl⟩
      | push =>
        exfalso
        simp [upd, pullSide, hun] at hal
    · rw [sim_api h1 h2]
      simp only [Coro.call]
      have hdf := hi.sched.dead_frames _ hnk
      refine congrArg _ (absSt_eq ?_ ?_ ?_ ?_ ?_ ?_ ?_ ?_ ?_) <;>
        simp [Coro.St.goto, Coro.St.push, Coro.St.setStack, Coro.St.setCo, absSt, absCtl, absStack_upd, upd_ne _ _ hcn, upd_upd, hdf, waitTop, Coro.noticed,
          List.filter_cons, absF, St.fr]
      cases kd <;> simp [ctorFrame, absF]
  case pushThrow l op k0 h0 a post hd r b evs e h1 h2 hpc _ _ _ _ _ _ ha _ =>
    exfalso
    subst ha
    cases hpc with
    | op => exact (ru.push _ _ _ ⟨l, h1, h2⟩).2
    | it h => exact (ru.put _ _ _ ⟨l, h1, h2⟩).2
  case push l op k0 h0 a post hd r b evs w t h1 h2 hpc hh hty hcb hal _ hal2 hse hf =>
    have hmr : MayResume s hd := by
      cases hpc with
      | op =>
        obtain ⟨⟨hd', e1, e2⟩, _⟩ := ru.push _ _ _ ⟨l, h1, h2⟩
        rw [hh] at e1; cases e1; exact e2
      | it =>
        obtain ⟨⟨h', hd', e0, e1, e2⟩, _⟩ := ru.put _ _ _ ⟨l, h1, h2⟩
        cases e0
        rw [hh] at e1; cases e1; exact e2
    have hga : GoodArg a := by
      cases hpc with
      | op => exact (ru.push _ _ _ ⟨l, h1, h2⟩).2
      | it => exact (ru.put _ _ _ ⟨l, h1, h2⟩).2
    have hq : r.partner = ⟨r.co, pullSide (s.kind r.co)⟩ := by
      have hend := (hi.hok.born _ _ _ hh hcb).2.1
      rw [hty] at hend
      have := (endKind_push hend).1
      cases r; simp_all [CbRef.partner]
    have htc : t ≠ s.cur := (hi.sched.fib_ok _ _ hf).1
    have hw := hole_noWait (hi.sched.chan _ _ hf)
    obtain ⟨y, y1, y2, y3, y4, y5, y6⟩ := hse.store hga ok hq hal2 ((absSt s rest co).push s.cur (.use k0)) rfl
    refine .inr ⟨upd co r.co y, ?_, ?_⟩
    · refine ok.change r.co (fun _ _ => rfl) (fun _ _ => rfl) (fun _ _ => rfl) (fun i sd hne => .inl ?_) (y1.trans (ok.kind _))
        (y2.trans (ok.va _)) (y3.trans (ok.phase _)) ?_ ?_ ?_
      · show upd s.cbs r.partner _ _ = _
        rw [upd_ne]; intro e; exact hne (by rw [hq] at e; cases e; rfl)
      · intro ha
        have ha' : (upd s.cbs r.partner b ⟨r.co, .own⟩).life = .alive := ha
        show y.err = (upd s.cbs r.partner b ⟨r.co, .own⟩).except
        rw [y4]
        by_cases e : (⟨r.co, .own⟩ : CbRef) = r.partner
        · rw [e]; simp only [upd_same, hse.except.1]; rw [← e]; exact ok.err _ (by rw [e]; exact hal2)
        · rw [upd_ne _ _ e] at ha' ⊢; exact ok.err _ ha'
      · intro _
        show Holds (upd s.cbs r.partner b ⟨r.co, pullSide (s.kind r.co)⟩) _
        rw [← hq, upd_same]; exact y5
      · intro hfre
        have := hi.notFresh (by rw [h1]; simp) r.co
        exact absurd (this.symm.trans hfre) (by simp)
    · rw [sim_api h1 h2, hpc.spec]
      obtain ⟨ty, va, cb⟩ := hd
      simp only at hty hcb
      subst hty hcb
      simp only [Coro.pushTo, push_hs, abs_hs, hh, y6]
      rw [d.target (co := co) hi hj hmr rfl hal hf ok hmv rfl (by simp [Coro.St.setStack, y3])]
      refine congrArg _ (absSt_eq ?_ ?_ ?_ ?_ ?_ ?_ ?_ ?_ ?_) <;>
        simp [Coro.St.goto, Coro.St.push, Coro.St.setStack, Coro.St.setCo, absSt, absCtl, absStack_upd, Coro.noticed,
          List.filter_cons, absF, St.fr, upd_ne _ _ htc, upd_upd, hw]
  case pull l op k0 h0 post hd r t h1 h2 hpc hh hty hcb hal hf =>
    have hmr : MayResume s hd := by
      cases hpc with
      | op =>
        obtain ⟨hd', e1, e2⟩ := ru.resume _ _ ⟨l, h1, h2⟩
        rw [hh] at e1; cases e1; exact e2
      | it =>
        obtain ⟨h', hd', e0, e1, e2⟩ := ru.next _ _ ⟨l, h1, h2⟩
        cases e0
        rw [hh] at e1; cases e1; exact e2
    have htc : t ≠ s.cur := (hi.sched.fib_ok _ _ hf).1
    have hw := hole_noWait (hi.sched.chan _ _ hf)
    refine .inr ⟨co, ok.same rfl rfl rfl rfl, ?_⟩
    rw [sim_api h1 h2, hpc.spec]
    obtain ⟨ty, va, cb⟩ := hd
    simp only at hty hcb
    subst hty hcb
    simp only [Coro.pullFrom, push_hs, abs_hs, hh]
    rw [d.target (co := co) hi hj hmr rfl hal hf ok hmv rfl (by simp [Coro.St.setStack, Coro.St.push, absSt])]
    refine congrArg _ (absSt_eq ?_ ?_ ?_ ?_ ?_ ?_ ?_ ?_ ?_) <;>
      simp [Coro.St.goto, Coro.St.push, Coro.St.setStack, Coro.St.setCo, absSt, absCtl, absStack_upd, Coro.noticed,
        List.filter_cons, absF, St.fr, upd_ne _ _ htc, upd_upd, hw]
  case enterPull fn u hr hfr hb hk hal hair =>
    obtain rfl := hmv.stay_eq rfl d.nodup
    have hp : (co s.cur).phase = .fresh fn := by rw [ok.phase, hb]; rfl
    have hkd : (co s.cur).kind = .pull := by rw [ok.kind, hk]
    refine .inr ⟨upd co s.cur { co s.cur with phase := .body s.nh }, ?_, ?_⟩
    · refine ok.change s.cur (fun _ _ => rfl) (fun _ _ => rfl) (fun k hk => by simp [upd, hk]) (fun k sd hk => .inl (by simp [upd, hk]))
        (ok.kind _) (ok.va _) (by simp [absPhase]) ?_ ?_ (by simp [Base.isFresh])
      · intro _; simpa using ok.err _ hal
      · intro _
        have := ok.val s.cur
        simp only [hk, pullSide] at this ⊢
        have := this hal
        simpa [upd, Holds] using this
    · rw [sim_back hr (by rw [hfr]; rfl)]
      simp only [Coro.backStep, abs_stack, frames_cur, hfr, List.filterMap_nil, abs_co, hp, hkd, abs_nh]
      have hva := ok.va s.cur
      agree
      rfl
  case enterPush fn u hr hfr hb hk hal hair =>
    have hq : hole (s.base s.cur) s.cur (s.frames s.cur) = some ⟨s.cur, .syn⟩ := by rw [hb, frames_cur, hfr]; rfl
    have h0 : s.cur ≠ 0 := fun h => by rw [(hi.sched.main_iff s.cur).2 h] at hb; cases hb
    obtain ⟨r', rfl⟩ := d.belowAir hi h0 hr hair hq
    have huc := (hi.sched.fib_ok _ _ hair).1
    obtain rfl := hmv.up_eq rfl d.nodup
    have hctl := hi.ctl
    rw [hr] at hctl
    obtain ⟨q, g1, _⟩ := hctl.2.1 u hair
    have hw := hole_noWait g1
    have hp : (co s.cur).phase = .fresh fn := by rw [ok.phase, hb]; rfl
    have hkd : (co s.cur).kind = .push := by rw [ok.kind, hk]
    refine .inr ⟨upd co s.cur { co s.cur with phase := .idle s.nh fn }, ?_, ?_⟩
    · refine ok.change s.cur (fun _ _ => rfl) (fun _ _ => rfl) (fun k hk => by simp [upd, hk]) (fun k sd hk => .inl (by simp [upd, hk]))
        (ok.kind _) (ok.va _) (by simp [absPhase]) ?_ ?_ (by simp [Base.isFresh])
      · intro _; simpa using ok.err _ hal
      · intro _
        simp only [hk, pullSide]
        have := ok.fresh s.cur (by rw [hb]; rfl)
        simp [upd, Holds, synCb, this]
    · rw [sim_back hr (by rw [hfr]; rfl)]
      simp only [Coro.backStep, abs_stack, frames_cur, hfr, List.filterMap_nil, abs_co, hp, hkd, abs_nh]
      have hva := ok.va s.cur
      have hfr' : waitTop (s.frames s.cur) = false := by rw [frames_cur, hfr]; rfl
      agree
      rfl
  case startPush h0 fn u hr hfr hb hal hair hn =>
    obtain rfl := hmv.stay_eq rfl d.nodup
    have hp : (co s.cur).phase = .idle h0 fn := by rw [ok.phase, hb]; rfl
    refine .inr ⟨upd co s.cur { co s.cur with phase := .body h0 }, ?_, ?_⟩
    · exact ok.change s.cur (fun _ _ => rfl) (fun _ _ => rfl) (fun k hk => by simp [upd, hk]) (fun k sd hk => .inl rfl)
        (ok.kind _) (ok.va _) (by simp [absPhase]) (ok.err _) (ok.val _) (by simp [Base.isFresh])
    · rw [sim_back hr (by rw [hfr]; rfl)]
      simp only [Coro.backStep, abs_stack, frames_cur, hfr, List.filterMap_nil, abs_co, hp]
      agree
  case wait t hr hfr hair =>
    obtain rfl := hmv.stay_eq rfl d.nodup
    have hfr' : s.frames s.cur = .wait :: t := hfr
    refine .inl ⟨?_, ok.same rfl rfl rfl rfl, ?_⟩
    · symm
      refine absSt_eq rfl ?_ rfl ?_ rfl rfl rfl rfl rfl
      · simp [absSt, hr, absCtl, hfr', waitTop]
      · rw [absStack_upd]
        have : t.filterMap absF = (s.frames s.cur).filterMap absF := by rw [hfr']; rfl
        rw [this]
        exact (upd_id (fun i => (s.frames i).filterMap absF) s.cur).symm
    · refine Nat.lt_of_lt_of_le (stut_deliver rfl) ?_
      simp [stut, hr, hfr', waitTop]
  case asg r t u hr hfr hal hf hair hex =>
    obtain rfl := hmv.stay_eq rfl d.nodup
    refine .inr ⟨co, ok.same rfl rfl rfl rfl, ?_⟩
    rw [sim_back hr (by rw [hfr]; rfl)]
    have : ∀ e, ¬ (r.side = .own ∧ (co r.co).err = some e) := by
      rintro e ⟨h1, h2⟩
      obtain ⟨k, sd⟩ := r
      simp only at h1; subst h1
      rw [ok.err k hal, hex] at h2; cases h2
    simp only [Coro.backStep, abs_stack, frames_cur, hfr, List.filterMap_cons, absF, abs_co]
    split
    · rename_i e1 e2; exact absurd ⟨e1, e2⟩ (this _)
    · agree
  case asgThrow r t u e hr hfr hal hf hair hex =>
    obtain rfl := hmv.stay_eq rfl d.nodup
    refine .inr ⟨co, ok.same rfl rfl rfl rfl, ?_⟩
    obtain ⟨k, sd⟩ := r
    cases sd with
    | syn => rw [(hi.cb.syn_state k hal).2] at hex; cases hex
    | own =>
      have he := ok.err k hal
      rw [hex] at he
      rw [sim_back hr (by rw [hfr]; rfl)]
      simp only [Coro.backStep, abs_stack, frames_cur, hfr, List.filterMap_cons, absF, abs_co, he]
      agree
  case pullCtor k t u hr hfr hk hal hf hair hex hv =>
    obtain rfl := hmv.stay_eq rfl d.nodup
    refine .inr ⟨co, ok.same rfl rfl rfl rfl, ?_⟩
    have he := ok.err k hal
    rw [hex] at he
    have hkd : (co k).kind = .pull := by rw [ok.kind, hk]
    have hva := ok.va k
    have hv' : Coro.valid (absSt s rest' co) ⟨k, .own⟩ = true :=
      (ok.valid d hi hal (fun _ => hi.notFresh' (by rw [hfr]; simp) _)).symm.trans hv
    rw [sim_back hr (by rw [hfr]; rfl)]
    simp only [Coro.backStep, abs_stack, frames_cur, hfr, List.filterMap_cons, absF, abs_co, he, hv', or_true, if_true]
    agree
  case pushCtor k t u hr hfr hk hal hf hair =>
    obtain rfl := hmv.stay_eq rfl d.nodup
    refine .inr ⟨co, ok.same rfl rfl rfl rfl, ?_⟩
    have hex : (s.cbs ⟨k, .own⟩).except = none := by
      rcases hi.cb.own_state k hal with ⟨_, _, h⟩ | ⟨_, h⟩
      · exact h
      · rcases hct.pushc s.cur k (by rw [frames_cur, hfr]; rfl) hk with hx | ⟨_, _, _, _, hx⟩
        · cases hb : s.base k <;> rw [hb] at hx h <;> simp_all [Base.isFresh, Base.past]
        · rw [hx] at h; simp [Base.past] at h
    have he := ok.err k hal
    rw [hex] at he
    have hkd : (co k).kind = .push := by rw [ok.kind, hk]
    have hva := ok.va k
    rw [sim_back hr (by rw [hfr]; rfl)]
    simp only [Coro.backStep, abs_stack, frames_cur, hfr, List.filterMap_cons, absF, abs_co, he, hkd, true_or, if_true]
    agree
  case fin h0 t x hx hfr hb hal hf =>
    obtain ⟨r', rfl⟩ := d.synCur hi hf
    have htc : t ≠ s.cur := (hi.sched.fib_ok _ _ hf).1
    have hw := hole_noWait (hi.sched.chan _ _ hf)
    obtain rfl := hmv.up_eq rfl d.nodup
    have h0' : s.cur ≠ 0 := fun h => by rw [(hi.sched.main_iff s.cur).2 h] at hb; cases hb
    have hp : (co s.cur).phase = .body h0 := by rw [ok.phase, hb]; rfl
    refine .inr ⟨upd co s.cur { co s.cur with phase := .ended h0, err := x }, ?_, ?_⟩
    · refine ok.change s.cur (fun _ _ => rfl) (fun _ _ => rfl) (fun k hk => by simp [upd, hk]) (fun k sd hk => .inl (by simp [upd, hk]))
        (ok.kind _) (ok.va _) (by simp [absPhase]) (by simp) ?_ (by simp [Base.isFresh])
      intro ha
      have hv := ok.val s.cur
      revert hv ha
      show (upd s.cbs _ _ ⟨s.cur, pullSide (s.kind s.cur)⟩).life = _ → _ → Holds (upd s.cbs _ _ ⟨s.cur, pullSide (s.kind s.cur)⟩) _
      cases hk : s.kind s.cur <;> simp only [pullSide]
      · intro _ hv; simpa [Holds] using hv hal
      · intro ha hv
        rw [upd_ne _ _ (by simp)] at ha ⊢
        exact hv ha
    · have : Coro.step P (absSt s (t :: rest') co) = Coro.finish (absSt s (t :: rest') co) s.cur (t :: rest') x := by
        rcases hx with ⟨h, rfl⟩ | ⟨e, h, rfl⟩
        · rw [sim_ret h]
          simp only [Coro.retStep, abs_stack, frames_cur, hfr, List.filterMap_nil, if_neg h0']
        · rw [sim_raise h]
          simp only [Coro.raiseStep, abs_stack, frames_cur, hfr, List.filterMap_nil, if_neg h0']
      rw [this]
      simp only [Coro.finish, abs_co, hp]
      agree
  case nop h0 s1 hd hsc h2 h3 =>
    obtain ⟨e1, e2, e3, e4, e5, e6, e7, e8, e9, e10, e11⟩ := hsc.eqs
    obtain ⟨c1, c0, c2, c3, c4⟩ := d.scope hi hsc
    obtain rfl := hmv.stay_eq e1 d.nodup
    obtain ⟨co1, ok1, hst⟩ := hsc.sim (rest := rest') c1 ok hi
    refine .inr ⟨co1, ok1.same rfl rfl rfl rfl, ?_⟩
    rw [hst]
    obtain ⟨hd', g1, g2⟩ := ru.destroy _ c0
    have h2' := h2
    rw [e5, g1] at h2'; cases h2'
    simp only [Coro.destroyObj, abs_hs, h2]
    rcases h3 with h3 | ⟨k, h3, _⟩
    · simp only [h3]; agree
    · simp only [h3, if_pos (g2.2 k h3)]; agree
  case dropNone s0 hdy =>
    generalize hfo : (none : Option Nat) = fo at hdy
    cases hdy
    case handle h0 s1 hd k sl evs hsc hh hcb hal hdt =>
      exfalso
      obtain ⟨e1, e2, e3, e4, e5, e6, e7, e8, e9, e10, e11⟩ := hsc.eqs
      obtain ⟨c1, c0, c2, c3, c4⟩ := d.scope hi hsc
      obtain ⟨hd', g1, g2⟩ := ru.destroy _ c0
      rw [e5] at hh
      rw [hh] at g1; cases g1
      rw [e2] at hal
      have hk : k ≠ 0 := by
        rintro rfl
        rw [hi.cb.unborn 0 .own (.inl rfl)] at hal; cases hal
      have := d.parked hi hj hal hk (g2.1 k hcb) c1
      rw [c2, this] at hfo; cases hfo
    case ctorInvalid => cases hfo
    case ctorThrow => cases hfo
    case ctorUnw x f k t hc hfr hf =>
      exfalso
      cases x with
      | user e =>
        have hctl := hi.ctl
        rw [hc] at hctl
        have := hctl.1
        rw [frames_cur, hfr] at this
        rcases hf with rfl | rfl <;> simp [okRaiseU, okU, okPost, Frame.isU] at this
      | forced =>
        have := d.forced hc
        rw [hfr] at this
        rcases hf with rfl | rfl <;> simp [ctorOf] at this
    case syn r sl evs hc hfr hbb hdt =>
      obtain rfl := hmv.stay_eq rfl d.nodup
      have hfr' : s.frames s.cur = [] := hfr
      left
      have hsy : (s.cbs ⟨s.cur, .syn⟩).life = .alive := by rw [hi.cb.syn_life, hbb]; rfl
      refine ⟨?_, ?_, ?_⟩
      · symm
        refine absSt_eq rfl ?_ rfl rfl rfl rfl rfl rfl ?_
        · simp [absSt, hc, absCtl]
          rw [hdel r hc hfr]
        · simp [absSt, hdt.quietEv]
      · have e : upd co s.cur (co s.cur) = co := upd_id _ _
        rw [← e]
        refine ok.change s.cur (fun _ _ => rfl) (fun _ _ => rfl) (fun k hk => by simp [upd, hk]) (fun k sd hk => .inl (by simp [upd, hk]))
          (ok.kind _) (ok.va _) (by rw [ok.phase, hbb]; simp [absPhase]) (by simpa [upd] using ok.err s.cur) ?_ (by simp [Base.isFresh])
        intro ha
        have hv := ok.val s.cur
        revert hv ha
        show (upd s.cbs _ _ ⟨s.cur, pullSide (s.kind s.cur)⟩).life = _ → _ → Holds (upd s.cbs _ _ ⟨s.cur, pullSide (s.kind s.cur)⟩) _
        cases hk : s.kind s.cur <;> simp only [pullSide]
        · intro ha hv
          rw [upd_ne _ _ (by simp)] at ha ⊢
          exact hv ha
        · intro ha; simp at ha
      · simp [stut, hc, hfr', hbb]
  case dropSome s0 t hdy =>
    generalize hfo : some t = fo at hdy
    cases hdy
    case handle h0 s1 hd k sl evs hsc hh hcb hal hdt =>
      obtain ⟨e1, e2, e3, e4, e5, e6, e7, e8, e9, e10, e11⟩ := hsc.eqs
      obtain ⟨c1, c0, c2, c3, c4⟩ := d.scope hi hsc
      rw [c2] at hfo
      obtain ⟨rfl, hkn⟩ := d.ownHolds hi hfo.symm
      obtain rfl := hmv.down_eq hkn
      have htc : t ≠ s.cur := fun e => hkn (by simp [e])
      obtain ⟨co1, ok1, hst⟩ := hsc.sim (rest := rest) c1 ok hi
      refine .inr ⟨co1, ok1.drop rfl rfl rfl rfl (by simp), ?_⟩
      rw [hst]
      have hkn1 : t ∉ (absSt s1 rest co1).active := by show t ∉ s1.cur :: rest; rw [e1]; exact hkn
      simp only [Coro.destroyObj, abs_hs, hh, hcb]
      refine (kill_next ?_).trans ?_
      · exact hkn1
      have hq := hdt.quietEv
      agree
      exact (upd_id (fun i => (s1.frames i).filterMap absF) s.cur).symm
    case ctorInvalid k tl sl evs u hr hfr hk hal hf hair hex hv hdt =>
      cases hfo
      have hq : hole (s.base s.cur) s.cur (s.frames s.cur) = some ⟨k, .own⟩ := by rw [frames_cur, hfr]; rfl
      obtain ⟨hkn, rfl⟩ : t ∉ s.cur :: rest ∧ k = t := by
        rcases d.whereIs hi hair with ⟨_, x, _, _, h1 | ⟨h1, _⟩ | ⟨h1, _, h2, h3⟩⟩ | ⟨h0, h1 | ⟨h1, _, h2⟩⟩
        · cases h1
        · cases h1
        · subst h2; rw [hq] at h3; simp at h3
        · cases h1
        · rw [hq] at h2; simp at h2; exact ⟨h0, h2⟩
      obtain rfl := hmv.down_eq hkn
      refine .inr ⟨co, ok.drop rfl rfl rfl rfl (by simp), ?_⟩
      have he := ok.err k hal
      rw [hex] at he
      have hkd : (co k).kind = .pull := by rw [ok.kind, hk]
      have hva := ok.va k
      have hv' : Coro.valid (absSt s rest co) ⟨k, .own⟩ = false :=
        (ok.valid d hi hal (fun _ => hi.notFresh' (by rw [hfr]; simp) _)).symm.trans hv
      have hqe := hdt.quietEv
      rw [sim_back hr (by rw [hfr]; rfl)]
      simp only [Coro.backStep, abs_stack, frames_cur, hfr, List.filterMap_cons, absF, abs_co, he, hv', hkd]
      rw [if_neg (by simp)]
      refine (kill_next ?_).trans ?_
      · exact hkn
      agree
      rfl
    case ctorThrow k tl e u hr hfr hk hal hf hair hex =>
      cases hfo
      have hq : hole (s.base s.cur) s.cur (s.frames s.cur) = some ⟨k, .own⟩ := by rw [frames_cur, hfr]; rfl
      obtain ⟨hkn, rfl⟩ : t ∉ s.cur :: rest ∧ k = t := by
        rcases d.whereIs hi hair with ⟨_, x, _, _, h1 | ⟨h1, _⟩ | ⟨h1, _, h2, h3⟩⟩ | ⟨h0, h1 | ⟨h1, _, h2⟩⟩
        · cases h1
        · cases h1
        · subst h2; rw [hq] at h3; simp at h3
        · cases h1
        · rw [hq] at h2; simp at h2; exact ⟨h0, h2⟩
      obtain rfl := hmv.down_eq hkn
      refine .inr ⟨co, ok.drop rfl rfl rfl rfl (by simp), ?_⟩
      have he := ok.err k hal
      rw [hex] at he
      rw [sim_back hr (by rw [hfr]; rfl)]
      simp only [Coro.backStep, abs_stack, frames_cur, hfr, List.filterMap_cons, absF, abs_co, he]
      refine (kill_next ?_).trans ?_
      · exact hkn
      agree
      rfl
    case ctorUnw x f k tl hc hfr hf =>
      exfalso
      cases x with
      | user e =>
        have hctl := hi.ctl
        rw [hc] at hctl
        have := hctl.1
        rw [frames_cur, hfr] at this
        rcases hf with rfl | rfl <;> simp [okRaiseU, okU, okPost, Frame.isU] at this
      | forced =>
        have := d.forced hc
        rw [hfr] at this
        rcases hf with rfl | rfl <;> simp [ctorOf] at this
    case syn r sl evs hc hfr hbb hdt =>
      exfalso
      have hctl := hi.ctl
      rw [hc] at hctl
      have hbk := hctl.2.2.2 (by rw [hbb]; simp [unwB, Base.isLam])
      cases hb : s.fib (.back s.cur) with
      | none => exact hbk hb
      | some b =>
        obtain ⟨r1, h1⟩ := d.succ hi (.inr rfl) hb
        obtain ⟨r2, h2⟩ := d.synCur hi hfo.symm
        rw [h1] at h2; cases h2
        have := hi.sched.inj _ _ _ hb hfo.symm
        cases this
  case exit r b hc hfr hb hback hdead =>
    obtain ⟨r', rfl⟩ := d.succ hi (.inr rfl) hback
    have hbc := (hi.sched.fib_ok _ _ hback).1
    have hw := (d.backHolds hi hback).2.2.2
    obtain rfl := hmv.up_eq rfl d.nodup
    have hp : (co s.cur).phase = .leaving := by rw [ok.phase, hb]; rfl
    have hfr' : s.frames s.cur = [] := hfr
    refine .inr ⟨upd co s.cur { co s.cur with phase := .gone }, ?_, ?_⟩
    · refine ok.change s.cur (fun _ _ => rfl) (fun _ _ => rfl) (fun k hk => by simp [upd, hk]) (fun k sd hk => .inl (by simp [freeCbs, upd, hk]))
        (ok.kind _) (ok.va _) (by simp [absPhase]) (by simp [freeCbs, upd]) ?_ (by simp [Base.isFresh])
      intro ha
      exfalso
      revert ha
      show (freeCbs s.cbs s.cur ⟨s.cur, pullSide (s.kind s.cur)⟩).life = _ → _
      cases s.kind s.cur <;> simp [freeCbs, upd, pullSide]
    · rw [sim_res hc]
      simp only [Coro.resStep, abs_stack, frames_cur, hfr, List.filterMap_nil, abs_co, hp]
      have hu : upd (fun i => (s.frames i).filterMap absF) s.cur [] = fun i => (s.frames i).filterMap absF := by
        have := upd_id (fun i => (s.frames i).filterMap absF) s.cur
        simpa [hfr'] using this
      refine congrArg _ (absSt_eq ?_ ?_ ?_ ?_ ?_ ?_ ?_ ?_ ?_) <;>
        simp [Coro.St.setCo, absSt, absCtl, absStack_upd, Coro.noticed, List.filter_cons, upd_ne _ _ hbc, hw, hu]

end Verif
