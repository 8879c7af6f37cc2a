import Verif.SpecCo
import Verif.CtorInv
import Verif.Disc2
import Verif.SlotInv

/-! # The library model simulates the specification machine.  Proof material. -/
namespace Verif
variable {L G V E : Type}

/-- what a frame of the library model is in the specification; being inside `~fiber()` is nothing -/
def absF : Frame L V E → Option (Coro.Fr L V E)
  | .gObj o => some (.obj o)
  | .gCoro h => some (.co h)
  | .hdl sw f => some (.handler sw f)
  | .fnRet l => some (.caller l)
  | .usr k => some (.use k)
  | .fetch h => some (.iter h)
  | .pfetch h => some (.iter h)
  | .resid v => some (.give v)
  | .ctorFail e => some (.andThen (.raise (.user e)))
  | .ctorDrop va => some (.empty va)
  | .cRaise x => some (.andThen (.raise x))
  | .cRet => some (.andThen .ret)
  | .cLeave l => some (.andThen (.eval l))
  | .asg r => some (.resumed r)
  | .pullCtor k => some (.creates k)
  | .pushCtor k => some (.creates k)
  | .wait => none

def absCtl (c : Ctl L V E) (fs : List (Frame L V E)) : Coro.Ctl L V E :=
  match c with
  | .eval l => .eval l
  | .deliver r => .res r
  | .raise x => .raise x
  | .retn => .ret
  | .recv => if waitTop fs then .res .unit else .back

def absPhase : Base L → Coro.Phase L
  | .none => .gone
  | .main => .gone
  | .fresh fn => .fresh fn
  | .pushEntry h fn => .idle h fn
  | .inFn h => .body h
  | .final h => .ended h
  | .lamA => .leaving
  | .lamB => .leaving

def absSt (s : St L G V E) (rest : List Nat) (co : Nat → Coro.Co L V E) : Coro.St L G V E where
  active := s.cur :: rest
  ctl := absCtl s.ctl (s.frames s.cur)
  g := s.g
  stack := fun i => (s.frames i).filterMap absF
  co := co
  hs := s.hs
  nh := s.nh
  nk := s.nk
  obs := s.log.filter Coro.noticed

/-- the slot of a pull-type block and the value of the specification -/
def Holds (b : CB V E) (v : Option V) : Prop :=
  (∃ w, b.bvalid = true ∧ b.slot = .live w ∧ v = some w) ∨ (b.bvalid = false ∧ b.slot = .raw ∧ v = none)

structure CoOk (s : St L G V E) (co : Nat → Coro.Co L V E) : Prop where
  kind : ∀ k, (co k).kind = s.kind k
  va : ∀ k, (co k).va = s.va k
  phase : ∀ k, (co k).phase = absPhase (s.base k)
  err : ∀ k, (s.cbs ⟨k, .own⟩).life = .alive → (co k).err = (s.cbs ⟨k, .own⟩).except
  val : ∀ k, (s.cbs ⟨k, pullSide (s.kind k)⟩).life = .alive → Holds (s.cbs ⟨k, pullSide (s.kind k)⟩) (co k).val
  fresh : ∀ k, (s.base k).isFresh = true → (co k).val = none

theorem absStack_upd (fr : Nat → List (Frame L V E)) (c : Nat) (t : List (Frame L V E)) :
    (fun i => (upd fr c t i).filterMap absF) = upd (fun i => (fr i).filterMap absF) c (t.filterMap absF) := by
  funext i; simp only [upd]; split <;> rfl

theorem absSt_eq {x : Coro.St L G V E} {s : St L G V E} {rest : List Nat} {co : Nat → Coro.Co L V E}
    (h1 : x.active = s.cur :: rest) (h2 : x.ctl = absCtl s.ctl (s.frames s.cur)) (h3 : x.g = s.g)
    (h4 : x.stack = fun i => (s.frames i).filterMap absF) (h5 : x.co = co) (h6 : x.hs = s.hs) (h7 : x.nh = s.nh) (h8 : x.nk = s.nk)
    (h9 : x.obs = s.log.filter Coro.noticed) : x = absSt s rest co := by
  cases x; simp_all [absSt]

theorem CoOk.same {s s' : St L G V E} {co : Nat → Coro.Co L V E} (h : CoOk s co) (h1 : s'.kind = s.kind) (h2 : s'.va = s.va)
    (h3 : s'.base = s.base) (h4 : s'.cbs = s.cbs) : CoOk s' co :=
  ⟨by rw [h1]; exact h.kind, by rw [h2]; exact h.va, by rw [h3]; exact h.phase, by rw [h4]; exact h.err,
    by rw [h4, h1]; exact h.val, by rw [h3]; exact h.fresh⟩

/-- the owner's block is gone when the function is being left by unwinding -/
theorem Disc.notLam {s : St L G V E} {rest : List Nat} (d : Disc s rest) (hi : Inv s) {k : Nat}
    (hal : (s.cbs ⟨k, .own⟩).life = .alive) : (s.base k).isLam = false := by
  have hb : s.fib (.back k) = none := by
    cases h : s.fib (.back k) with
    | none => rfl
    | some b => exact absurd hal (d.ownDn k (by rw [h]; simp))
  cases hl : (s.base k).isLam with
  | false => rfl
  | true =>
    exfalso
    by_cases hc : k = s.cur
    · subst hc
      have hctl := hi.ctl
      have hu : unwB (s.base s.cur) (s.frames s.cur) = true := by simp [unwB, hl]
      unfold CtlOk at hctl
      have hbd : (s.base s.cur).isBody = false := by
        cases hx : s.base s.cur <;> rw [hx] at hl <;> simp_all [Base.isLam, Base.isBody]
      split at hctl
      · rw [hbd] at hctl; exact absurd hctl.2.1 (by simp)
      · rw [hbd] at hctl; exact absurd hctl.2.1 (by simp)
      · exact hctl.2.2.2 hu hb
      · have := hctl.1
        simp [okRaiseU, hbd] at this
      · exact hctl.2.2 hb
      · exact hctl.2.2.2.2 hu hb
    · exact ((hi.sched.back_unw k hc).2 (by simp [unwB, hl])) hb

/-- the complete flag of the own block is set exactly in the final jump -/
theorem Disc.complete {s : St L G V E} {rest : List Nat} (d : Disc s rest) (hi : Inv s) {k : Nat}
    (hal : (s.cbs ⟨k, .own⟩).life = .alive) : StateT.has (s.cbs ⟨k, .own⟩).state StateT.complete = (s.base k).isFinal := by
  have hlam := d.notLam hi hal
  rcases hi.cb.own_state k hal with ⟨h1, h2, _⟩ | ⟨h1, h2⟩
  · rw [h1, h2]; decide
  · rw [h1]
    cases hx : s.base k <;> rw [hx] at h2 hlam <;> simp_all [Base.past, Base.isLam, Base.isFinal]
    decide

theorem absPhase_ended (b : Base L) : (absPhase b).isEnded = b.isFinal := by cases b <;> rfl

/-- `operator bool` -/
theorem CoOk.valid {s : St L G V E} {rest : List Nat} {co : Nat → Coro.Co L V E} (h : CoOk s co) (d : Disc s rest) (hi : Inv s) {r : CbRef}
    (hal : (s.cbs r).life = .alive) (hf : r.side = .own → (s.base r.co).isFresh = false) : cbValid s r = Coro.valid (absSt s rest co) r := by
  obtain ⟨k, sd⟩ := r
  have hv := h.val k
  unfold cbValid Coro.valid
  cases sd with
  | own =>
    have hc := d.complete hi hal
    have ho := hi.cb.own_other k hal
    rw [hf rfl] at ho
    cases hk : s.kind k
    · rw [hk] at hv
      simp only [pullSide] at hv
      rcases hv hal with ⟨w, e1, e2, e3⟩ | ⟨e1, e2, e3⟩ <;>
        simp [isPullSide, hk, hc, ho, absSt, Coro.takes, h.kind, h.va, h.phase, absPhase_ended, e1, e3]
    · simp [isPullSide, hk, hc, absSt, Coro.takes, h.kind, h.phase, absPhase_ended]
  | syn =>
    have hs := (hi.cb.syn_state k hal).1
    have ho := hi.cb.syn_other k hal
    cases hk : s.kind k
    · have hn : StateT.has StateT.none StateT.complete = false := by decide
      have e1 : (Side.syn == Side.own) = false := rfl
      have e2 : (Kind.pull == Kind.push) = false := rfl
      simp [isPullSide, hk, hs, absSt, Coro.takes, h.kind, hn, e1, e2]
    · rw [hk] at hv
      simp only [pullSide] at hv
      have hn : StateT.has StateT.none StateT.complete = false := by decide
      rcases hv hal with ⟨w, e1, e2, e3⟩ | ⟨e1, e2, e3⟩ <;>
        simp [isPullSide, hk, hs, ho, absSt, Coro.takes, h.kind, h.va, e1, e3, hn]

/-- only the running context can be fresh, and only when control has just arrived -/
theorem Inv.freshRecv {s : St L G V E} (hi : Inv s) {k : Nat} (hf : (s.base k).isFresh = true) : k = s.cur ∧ s.ctl = .recv ∧ s.fr = [] := by
  obtain rfl := hi.sched.fresh_cur k hf
  have hctl := hi.ctl
  have hb : (s.base s.cur).isBody = false := by
    cases hx : s.base s.cur <;> rw [hx] at hf <;> simp_all [Base.isFresh, Base.isBody]
  have hl : (s.base s.cur).isLam = false := by
    cases hx : s.base s.cur <;> rw [hx] at hf <;> simp_all [Base.isFresh, Base.isLam]
  unfold CtlOk at hctl
  split at hctl
  · rw [hb] at hctl; exact absurd hctl.2.1 (by simp)
  · rw [hb] at hctl; exact absurd hctl.2.1 (by simp)
  · exfalso
    have := hctl.1
    cases hq : s.frames s.cur with
    | nil => rw [hq] at this; simp [okRet, hl] at this
    | cons f t => rw [hq] at this; cases f <;> simp [okRet, hb] at this
  · have := hctl.1
    simp [okRaiseU, hb] at this
  · exfalso
    have := hctl.1
    cases hq : s.frames s.cur with
    | nil => rw [hq] at this; cases hx : s.base s.cur <;> rw [hx] at hf this <;> simp_all [Base.isFresh, okRaiseF]
    | cons f t => rw [hq] at this; cases f <;> simp [okRaiseF, okRaiseU, hb] at this
  · rename_i hc
    refine ⟨rfl, hc, ?_⟩
    have := hctl.1
    show s.frames s.cur = []
    cases hq : s.frames s.cur with
    | nil => rfl
    | cons f t =>
      rw [hq] at this
      cases f <;> simp [okSw, hb] at this
      cases t with
      | nil => simp [okRet, hl] at this
      | cons f t => cases f <;> simp [okRet, hb] at this

theorem Inv.notFresh {s : St L G V E} (hi : Inv s) (hc : s.ctl ≠ .recv) (k : Nat) : (s.base k).isFresh = false := by
  cases h : (s.base k).isFresh with
  | false => rfl
  | true => exact absurd (hi.freshRecv h).2.1 hc

theorem Inv.notFresh' {s : St L G V E} (hi : Inv s) (hc : s.fr ≠ []) (k : Nat) : (s.base k).isFresh = false := by
  cases h : (s.base k).isFresh with
  | false => rfl
  | true => exact absurd (hi.freshRecv h).2.2 hc

theorem CoOk.bool {s : St L G V E} {rest : List Nat} {co : Nat → Coro.Co L V E} (h : CoOk s co) (d : Disc s rest) (hi : Inv s) {x : Nat} {b : Bool}
    (hb : handleBool s x = .ok b) (hf : ∀ k, (s.base k).isFresh = false) (ha : ∃ hd, s.hs x = some hd ∧ MayAsk s hd) :
    Coro.objValid (absSt s rest co) s.cur x = some b := by
  unfold handleBool at hb
  unfold Coro.objValid
  obtain ⟨hd, e, ha⟩ := ha
  show (match s.hs x with | some ⟨_, _, some r⟩ => _ | some ⟨_, _, none⟩ => _ | none => _) = _
  obtain ⟨ty, va, cb⟩ := hd
  rw [e] at hb ⊢
  cases cb with
  | none => simp at hb ⊢; exact hb
  | some r =>
    have hr : r.side = .own ∨ r.co = s.cur := by
      obtain ⟨k, sd⟩ := r
      cases sd with
      | own => exact .inl rfl
      | syn => exact .inr (ha k rfl)
    simp only [if_pos hr] at hb ⊢
    split at hb
    · rename_i hal
      cases hb
      rw [h.valid d hi hal (fun _ => hf _)]
    · cases hb

theorem handleBang_bool {s : St L G V E} {x : Nat} {b : Bool} (h : handleBang s x = .ok b) : handleBool s x = .ok (!b) := by
  unfold handleBang at h
  unfold handleBool
  split at h
  · cases h
  · rename_i hd e
    cases hc : hd.cb with
    | none => rw [hc] at h; simp at h; subst h; simp [e, hc]
    | some r =>
      rw [hc] at h
      simp only [e, hc] at h ⊢
      split at h
      · rename_i hal; cases h; simp [hal]
      · cases h

/-- reading the slot -/
theorem CoOk.read {s : St L G V E} {rest : List Nat} {co : Nat → Coro.Co L V E} (h : CoOk s co) (hi : Inv s) (hj : JInv s) {x : Nat} {r : CbRef} {v : V}
    (hr : readSlot s x = .ok (r, v)) (hm : ∃ hd, s.hs x = some hd ∧ MayGet s hd) :
    Coro.value (absSt s rest co) s.cur x = some (r.co, v) ∧ r.side = pullSide (s.kind r.co) ∧
      (s.cbs r).life = .alive ∧ (s.cbs r).bvalid = true ∧ (s.cbs r).slot = .live v := by
  unfold readSlot at hr
  obtain ⟨hd, e, hm⟩ := hm
  rw [e] at hr
  simp only at hr
  split at hr
  · rename_i hty
    split at hr
    · cases hr
    · rename_i q hcb
      split at hr
      · rename_i hal
        split at hr <;> cases hr
        rename_i hsl
        have hend := (hi.hok.born _ _ _ e hcb).2.1
        rw [hty.1] at hend
        have hps := endKind_pull hend
        have hq : r = ⟨r.co, pullSide (s.kind r.co)⟩ := by cases r; simp_all
        have hv := h.val r.co (by rw [← hq]; exact hal)
        rw [← hq] at hv
        rcases hv with ⟨w, e1, e2, e3⟩ | ⟨e1, e2, e3⟩
        · rw [hsl] at e2; cases e2
          refine ⟨?_, hps, hal, e1, hsl⟩
          have hval : Coro.objValid (absSt s rest co) s.cur x = some true := by
            obtain ⟨ty, va, cb⟩ := hd
            simp only at hcb
            subst hcb
            have hown : (r.side = .own ∨ r.co = s.cur) ∧ (r.side = .own → (s.base r.co).isFinal = false) := by
              rcases hm with ⟨k, hk, hn⟩ | hk
              · cases hk; exact ⟨.inl rfl, fun _ => notFinal hi hj hal hn⟩
              · cases hk; exact ⟨.inr rfl, nofun⟩
            have : Coro.valid (absSt s rest co) r = true := by
              unfold Coro.valid
              have hfin : (r.side == .own && (s.base r.co).isFinal) = false := by
                cases hsd : r.side with
                | own => rw [hown.2 hsd]; rfl
                | syn => rfl
              simp [absSt, h.phase, absPhase_ended, hfin, e3]
            show (match s.hs x with | some ⟨_, _, some r⟩ => _ | some ⟨_, _, none⟩ => _ | none => _) = _
            rw [e]
            simp only [if_pos hown.1, this]
          obtain ⟨ty, va, cb⟩ := hd
          simp only at hty hcb
          obtain ⟨rfl, hva⟩ := hty
          subst hcb
          have e' : (absSt s rest co).hs x = some ⟨.pull, va, some r⟩ := e
          have e3' : ((absSt s rest co).co r.co).val = some v := e3
          simp [Coro.value, e', hva, e3', hval]
        · rw [hsl] at e2; cases e2
      · cases hr
  · cases hr

end Verif
