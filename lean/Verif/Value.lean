import Verif.Switch
import Verif.SlotSpoil
import Verif.PropsRules

/-! # Values and validity: the calls that do not switch.  Proof material. -/
namespace Verif
variable {L G V E : Type}
variable {P : Prog L G V E} {l0 : L} {g0 : G} {s s' : St L G V E} {h c : Nat} {k : Res V → L} {ty : Kind} {v : V}

theorem slotRep_val {mv : V → V} {k : Nat} {v : V} : ∀ {l : List (Ev V E)}, spoiled k l = false → lastPushed k l = some v →
    (slotRep mv .val k l).1 = .live (match gotSince k l with | some w => mv w | none => v)
  | [], _, h => by cases h
  | e :: l, ht, h => by
    have h1 := spoiled_tail ht
    have ih := slotRep_val (mv := mv) (v := v) h1
    cases e <;> simp only [slotRep, lastPushed, gotSince, and_true] at h ⊢ <;> (try exact ih h)
    case pushed j w =>
      split at h
      · cases h; simp_all
      · simp_all
    case got j w =>
      split
      · simp_all
      · exact ih h
    case setThrow j =>
      have : j ≠ k := by rintro rfl; simp [spoiled, h] at ht
      simp [this, ih h]

theorem slotRep_ref {mv : V → V} {k : Nat} {v : V} : ∀ {l : List (Ev V E)}, spoiled k l = false → lastPushed k l = some v →
    (slotRep mv .ref k l).1 = .live v
  | [], _, h => by cases h
  | e :: l, ht, h => by
    have h1 := spoiled_tail ht
    have ih := slotRep_ref (mv := mv) (v := v) h1
    cases e <;> simp only [slotRep, lastPushed] at h ⊢ <;> (try exact ih h)
    case pushed j w =>
      split at h
      · cases h; simp_all
      · simp_all
    case got j w => simp [ih h]
    case setThrow j =>
      have : j ≠ k := by rintro rfl; simp [spoiled, h] at ht
      simp [this, ih h]

/-- an object of class `ty` and the end it refers to -/
theorem end_of (hr : Reach P l0 g0 s) {r : CbRef} (hh : Refers s h .pull (some r)) : r.side = pullSide (s.kind r.co) := by
  obtain ⟨hd, h1, h2, h3⟩ := hh
  have := ((inv_reach hr).hok.born h hd r h1 h3).2.1
  rw [h2] at this
  revert this
  cases s.kind r.co <;> cases r.side <;> simp [endKind, pullSide, Kind.flip]

theorem own_alive (hr : Reach P l0 g0 s) (hh : Refers s h ty (some ⟨c, .own⟩)) : (s.cbs ⟨c, .own⟩).life = .alive := by
  obtain ⟨hd, h1, h2, h3⟩ := hh
  exact ((inv_reach hr).hok.own h hd c h1 h3).1

/-- the counterpart's block is alive while the function runs -/
theorem syn_alive (hr : Reach P l0 g0 s) (hu : UserRuns s) (hc : s.cur = c) (h0 : c ≠ 0) : (s.cbs ⟨c, .syn⟩).life = .alive := by
  have hi := inv_reach hr
  obtain ⟨l, hl⟩ := hu
  have hctl := hi.ctl
  rw [hl] at hctl
  subst hc
  have hb := hctl.2.1
  refine (hi.cb.syn_life _).2 ?_
  have hm := (hi.sched.main_iff s.cur)
  cases hx : s.base s.cur <;> rw [hx] at hb hm <;> simp_all [Base.isBody, Base.synAlive]

theorem refers_ne0 (hr : Reach P l0 g0 s) {sd : Side} (hh : Refers s h ty (some ⟨c, sd⟩)) : c ≠ 0 := by
  rintro rfl
  obtain ⟨hd, h1, h2, h3⟩ := hh
  exact ((inv_reach hr).hok.born h hd _ h1 h3).1 ((inv_reach hr).cb.unborn 0 sd (.inl rfl))

theorem ask_valid (hr : Reach P l0 g0 s) (hc : Calls P s (.valid h) k) {b : Bool} (hb : handleBool s h = .ok b) :
    ∃ s', CallRuns P s s' ∧ OnlyResult s k (.bool b) s' := by
  obtain ⟨l, h1, h2⟩ := hc
  have e1 := reach_step hr (.loc (.valid h1 h2 hb))
  have r1 := hr.step e1
  have e2 := reach_step r1 (.loc (.dUsr rfl (upd_at ..)))
  have hrun : CallRuns P s _ := ⟨_, e1, .step (by rintro ⟨_, h⟩; cases h) e2 .refl⟩
  refine ⟨_, hrun, ?_⟩
  simp only [OnlyResult, upd_upd, List.nil_append, upd_self' s.frames s.cur (b := s.fr) rfl]

theorem ask_bang (hr : Reach P l0 g0 s) (hc : Calls P s (.bang h) k) {b : Bool} (hb : handleBang s h = .ok b) :
    ∃ s', CallRuns P s s' ∧ OnlyResult s k (.bool b) s' := by
  obtain ⟨l, h1, h2⟩ := hc
  have e1 := reach_step hr (.loc (.bang h1 h2 hb))
  have r1 := hr.step e1
  have e2 := reach_step r1 (.loc (.dUsr rfl (upd_at ..)))
  have hrun : CallRuns P s _ := ⟨_, e1, .step (by rintro ⟨_, h⟩; cases h) e2 .refl⟩
  refine ⟨_, hrun, ?_⟩
  simp only [OnlyResult, upd_upd, List.nil_append, upd_self' s.frames s.cur (b := s.fr) rfl]

theorem OnlyResult.returned {v : Res V} (h : OnlyResult s k v s') : Returned s k v s' := by
  rw [OnlyResult] at h; subst h; exact ⟨rfl, rfl, rfl⟩

/-- a call that is undefined behaviour at once -/
theorem call_ub {op : Op L V E} {u : UB} (hc : Calls P s op k) {t : St L G V E} (h : apiStep P (s.pushFr (.usr k)) op = .ub u t) :
    CallCrashes P s := by
  obtain ⟨l, h1, h2⟩ := hc
  refine .inl ⟨u, t, ?_⟩
  simp only [step, h1, evalStep, h2, h]

/-- owner's end: validity is "not completed" -/
theorem valid_own (hr : Reach P l0 g0 s) (hu : UserRuns s) (hh : Refers s h ty (some ⟨c, .own⟩)) : cbValid s ⟨c, .own⟩ = decide (nFin c s.log = 0) := by
  have hi := inv_reach hr
  have hal := own_alive hr hh
  obtain ⟨hd, h1, h2, h3⟩ := hh
  have hnf : (s.base c).isFresh = false := by
    cases hf : (s.base c).isFresh with
    | false => rfl
    | true =>
      exfalso
      obtain ⟨l, hl⟩ := hu
      have hctl := hi.ctl
      rw [hl] at hctl
      have := hi.sched.fresh_cur c hf
      subst this
      exact absurd hf (by rw [notFresh_body hctl.2.1]; decide)
  have hot := hi.cb.own_other c hal
  rw [hnf] at hot
  have hst : StateT.has (s.cbs ⟨c, .own⟩).state StateT.complete = decide (nFin c s.log ≠ 0) := by
    rcases (jinv_reach hr).own c hal with ⟨a, -, b⟩ | ⟨a, -, b⟩
    · rw [a, b]; rfl
    · rw [a, b]; rfl
  have hbv : s.kind c = .pull → s.va c ≠ .void → (s.cbs ⟨c, .own⟩).bvalid = true :=
    (owner_reach hr).full h hd c h1 h3
  unfold cbValid
  simp only [hst]
  cases hk : s.kind c with
  | pull =>
    by_cases hv : s.va c = .void
    · simp [isPullSide, hot, hv]
    · simp [isPullSide, hot, hbv hk hv]
  | push => simp [isPullSide]

theorem lastJump_none_nJump {k : Nat} {sd : Side} : ∀ {l : List (Ev V E)}, lastJump k l = none → nJump ⟨k, sd⟩ l = 0
  | [], _ => rfl
  | e :: l, h => by
    have ih := lastJump_none_nJump (k := k) (sd := sd) (l := l)
    cases e <;> simp only [lastJump] at h <;> (try exact ih h)
    rename_i r i j
    split at h
    · cases h
    · rename_i hr
      show List.countP _ _ = 0
      rw [List.countP_cons, if_neg]
      · exact ih h
      · simp; rintro rfl; exact hr rfl

/-- after the second transfer into a push coroutine, a value has been pushed -/
theorem pushed_of_jumps {kd : Nat → Kind} {va : Nat → Var} {k : Nat} (hk : kd k = .push) (hv : va k ≠ .void) :
    ∀ {l : List (Ev V E)}, TransfersOk kd va l → 2 ≤ nJump ⟨k, .own⟩ l → lastPushed k l ≠ none
  | [], _, h => by simp [nJump] at h
  | e :: l, ht, h => by
    have ih := pushed_of_jumps hk hv ht.1
    by_cases he : ∃ i j, e = .jump ⟨k, .own⟩ i j
    · obtain ⟨i, j, rfl⟩ := he
      have h1 : nJump ⟨k, .own⟩ l ≠ 0 := by
        have : nJump ⟨k, .own⟩ (.jump ⟨k, .own⟩ i j :: l) = nJump ⟨k, .own⟩ l + 1 := by
          show List.countP _ _ = _
          rw [List.countP_cons, if_pos (by simp)]; rfl
        omega
      have h0 : (match headPushed l with
        | some k' => (⟨k, .own⟩ : CbRef) = ⟨k', pushEnd (kd k')⟩
        | none => (⟨k, .own⟩ : CbRef).side = pushEnd (kd k) →
          va k = .void ∨ lastJump k l = none ∨ (headFin l = some k ∧ kd k = .pull)) := ht.2
      rw [hk] at h0
      cases hp : headPushed l with
      | none =>
        rw [hp] at h0
        rcases h0 rfl with h0 | h0 | h0
        · exact absurd h0 hv
        · exact absurd (lastJump_none_nJump h0) h1
        · cases h0.2
      | some k' =>
        rw [hp] at h0
        simp only [CbRef.mk.injEq] at h0
        obtain ⟨rfl, -⟩ := h0
        match l, hp with
        | .pushed k' v :: l', hp =>
          simp only [headPushed, Option.some.injEq] at hp
          simp [lastPushed, hp]
    · have h1 : nJump ⟨k, .own⟩ (e :: l) = nJump ⟨k, .own⟩ l := by
        show List.countP _ _ = _
        rw [List.countP_cons, if_neg]
        · rfl
        cases e <;> simp
        intro hr
        exact he ⟨_, _, by rw [hr]⟩
      rw [h1] at h
      have := ih h
      cases e <;> simp only [lastPushed] <;> (try exact this)
      split
      · simp
      · exact this

/-- counterpart's end: always valid once the function has been entered -/
theorem valid_syn (hr : Reach P l0 g0 s) (hal : (s.cbs ⟨c, .syn⟩).life = .alive) (he : nEnter c s.log ≠ 0) : cbValid s ⟨c, .syn⟩ = true := by
  have hi := inv_reach hr
  have hot := hi.cb.syn_other c hal
  have hst := (hi.cb.syn_state c hal).1
  have hst : StateT.has (s.cbs ⟨c, .syn⟩).state StateT.complete = false := by rw [hst]; rfl
  unfold cbValid
  simp only [hst, hot]
  cases hk : s.kind c with
  | pull => simp [isPullSide]
  | push =>
    by_cases hv : s.va c = .void
    · simp [isPullSide, hv]
    · have h2 := (lazy_reach hr c).entered hk he
      have h3 := pushed_of_jumps hk hv (tinv_reach hr).tr h2
      have h4 := (slot_reach hr c).rep (by rw [hk]; exact hal)
      have h5 := congrArg Prod.snd h4
      rw [slotRep_valid, hk] at h5
      have h6 : (s.cbs ⟨c, .syn⟩).bvalid = true := by
        rw [show (s.cbs ⟨c, .syn⟩).bvalid = (lastPushed c s.log).isSome from h5.symm]
        cases hx : lastPushed c s.log with
        | none => exact absurd hx h3
        | some _ => rfl
      simp [isPullSide, h6]

/-- user code of a coroutine runs only after its function has been entered -/
theorem entered_of_user (hr : Reach P l0 g0 s) (hu : UserRuns s) (h0 : s.cur ≠ 0) : nEnter s.cur s.log ≠ 0 ∧ nFin s.cur s.log = 0 := by
  have hi := inv_reach hr
  obtain ⟨l, hl⟩ := hu
  have hctl := hi.ctl
  rw [hl] at hctl
  have hb := hctl.2.1
  have hm := (hi.sched.main_iff s.cur)
  have hlf := life_reach hr s.cur
  revert hb hm hlf
  generalize s.base s.cur = b
  intro hb hm hlf
  cases b with
  | main => exact absurd (hm.1 rfl) h0
  | inFn =>
    obtain ⟨_, _, h1, h2, h3, h4, h5, h6⟩ := hlf
    exact ⟨by rw [h4]; decide, h5⟩
  | _ => cases hb

theorem not_ok_valid (hc : Calls P s (.valid h) k) {u : UB} (hb : handleBool s h = .error u) : ∃ t, step P s = .ub u t := by
  obtain ⟨l, h1, h2⟩ := hc
  have : handleBool (s.pushFr (.usr k)) h = .error u := hb
  exact ⟨_, by simp only [step, h1, evalStep, h2, apiStep, this]; rfl⟩

theorem not_ok_bang (hc : Calls P s (.bang h) k) {u : UB} (hb : handleBang s h = .error u) : ∃ t, step P s = .ub u t := by
  obtain ⟨l, h1, h2⟩ := hc
  have : handleBang (s.pushFr (.usr k)) h = .error u := hb
  exact ⟨_, by simp only [step, h1, evalStep, h2, apiStep, this]; rfl⟩

theorem bang_not : handleBang s h = (handleBool s h).map (fun b => !b) := by
  unfold handleBang handleBool
  cases s.hs h with
  | none => rfl
  | some hd =>
    dsimp only
    cases hd.cb with
    | none => rfl
    | some r => dsimp only; split <;> rfl

theorem Calls.user {op : Op L V E} (h : Calls P s op k) : UserRuns s := by obtain ⟨l, h, -⟩ := h; exact ⟨l, h⟩

/-- `get()` on a block whose slot is live -/
theorem get_returns (hr : Reach P l0 g0 s) {r : CbRef} (hc : Calls P s (.get h) k) (hh : Refers s h .pull (some r))
    (hal : (s.cbs r).life = .alive) (hsl : (s.cbs r).slot = .live v) :
    ∃ s', CallRuns P s s' ∧ Returned s k (.val v) s' ∧ s'.log = .got r.co v :: s.log ∧
      s' = { s with ctl := .eval (k (.val v)), log := .got r.co v :: s.log,
                    cbs := if s.va r.co = .val then upd s.cbs r { s.cbs r with slot := .live (P.mv v) } else s.cbs } := by
  have hi := inv_reach hr
  obtain ⟨l, h1, h2⟩ := hc
  obtain ⟨hd, a1, a2, a3⟩ := hh
  have hva : hd.va = s.va r.co := (hi.hok.born h hd r a1 a3).2.2
  have hnv : hd.va ≠ .void := by
    intro hv
    have hp := end_of hr ⟨hd, a1, a2, a3⟩
    have hs := slot_reach hr r.co
    rw [← hp] at hs
    have h4 := hs.rep (p := s.cbs r) hal
    rw [hs.void (hva ▸ hv), hsl] at h4
    cases h4
  have hrs : readSlot s h = .ok (r, v) := by
    unfold readSlot; simp only [a1, a2, a3, hal, hsl, hnv, ne_eq, not_false_eq_true, and_self, if_true]
  have e1 := reach_step hr (.get h1 h2 hrs)
  have r1 := hr.step e1
  have e2 := reach_step r1 (.loc (.dUsr rfl (upd_at ..)))
  have hrun : CallRuns P s _ := ⟨_, e1, .step (by rintro ⟨_, h⟩; cases h) e2 .refl⟩
  refine ⟨_, hrun, ⟨rfl, by simp [St.fr], rfl⟩, rfl, ?_⟩
  simp only [upd_upd, List.nil_append, upd_self' s.frames s.cur (b := s.fr) rfl]
  split
  · rfl
  · rw [upd_self' s.cbs r rfl]

/-- what the slot holds after a push -/
theorem slot_of_pushed (hr : Reach P l0 g0 s) {r : CbRef} (hal : (s.cbs r).life = .alive) (hh : Refers s h .pull (some r))
    (hv : lastPushed r.co s.log = some v) (ht : spoiled r.co s.log = false) :
    ∃ w, (s.cbs r).slot = .live w ∧ (s.va r.co = .ref → w = v) ∧
      (s.va r.co = .val → w = match gotSince r.co s.log with | some x => P.mv x | none => v) := by
  have hp := end_of hr hh
  have hs := slot_reach hr r.co
  rw [← hp] at hs
  have h4 := hs.rep (p := s.cbs r) hal
  have h5 := congrArg Prod.fst h4
  cases hva : s.va r.co with
  | void =>
    have h6 := congrArg Prod.snd (hs.void hva)
    rw [slotRep_valid, hv] at h6
    cases h6
  | ref => rw [hva, slotRep_ref ht hv] at h5; exact ⟨v, h5.symm, fun _ => rfl, nofun⟩
  | val => rw [hva, slotRep_val ht hv] at h5; exact ⟨_, h5.symm, nofun, fun _ => rfl⟩

/-- `*it` on a block whose slot is live -/
theorem deref_returns (hr : Reach P l0 g0 s) {r : CbRef} (hc : Calls P s (.itDeref (some h)) k) (hh : Refers s h .pull (some r))
    (hal : (s.cbs r).life = .alive) (hsl : (s.cbs r).slot = .live v) :
    ∃ s', CallRuns P s s' ∧ s' = { s with ctl := .eval (k (.val v)), log := .peeked r.co v :: s.log } := by
  have hi := inv_reach hr
  obtain ⟨l, h1, h2⟩ := hc
  obtain ⟨hd, a1, a2, a3⟩ := hh
  have hva : hd.va = s.va r.co := (hi.hok.born h hd r a1 a3).2.2
  have hnv : hd.va ≠ .void := by
    intro hv
    have hp := end_of hr ⟨hd, a1, a2, a3⟩
    have hs := slot_reach hr r.co
    rw [← hp] at hs
    have h4 := hs.rep (p := s.cbs r) hal
    rw [hs.void (hva ▸ hv), hsl] at h4
    cases h4
  have hrs : readSlot s h = .ok (r, v) := by
    unfold readSlot; simp only [a1, a2, a3, hal, hsl, hnv, ne_eq, not_false_eq_true, and_self, if_true]
  have e1 := reach_step hr (.loc (.itDeref h1 h2 hrs))
  have r1 := hr.step e1
  have e2 := reach_step r1 (.loc (.dUsr rfl (upd_at ..)))
  have hrun : CallRuns P s _ := ⟨_, e1, .step (by rintro ⟨_, h⟩; cases h) e2 .refl⟩
  refine ⟨_, hrun, ?_⟩
  simp only [upd_upd, List.nil_append, List.cons_append, upd_self' s.frames s.cur (b := s.fr) rfl]

end Verif
