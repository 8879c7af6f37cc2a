import Verif.Disc2

/-! # Programs that obey the rules have no undefined behaviour.  Proof material. -/
namespace Verif
variable {L G V E : Type}

/-- the slot holds an object if `bvalid` says so -/
def SlotSafe (s : St L G V E) (r : CbRef) : Prop :=
  isPullSide (s.kind r.co) r.side = true → s.va r.co = .val → (s.cbs r).bvalid = true → ∃ v, (s.cbs r).slot = .live v

theorem slotRep_live {mv : V → V} {va : Var} {k : Nat} {log : List (Ev V E)} (h0 : nSetThrow k log = 0)
    (h : (slotRep mv va k log).2 = true) : ∃ v, (slotRep mv va k log).1 = .live v := by
  induction log with
  | nil => simp [slotRep] at h
  | cons e l ih =>
    have h1 : nSetThrow k l = 0 ∧ Ev.isSetThrow k e = false := by
      simp only [nSetThrow, List.countP_cons] at h0 ⊢
      constructor
      · omega
      · cases hq : Ev.isSetThrow k e
        · rfl
        · rw [hq] at h0; simp at h0
    have ih' := ih h1.1
    cases e with
    | pushed j v => simp only [slotRep] at h ⊢; split at h <;> simp_all
    | got j v =>
      simp only [slotRep] at h ⊢
      split at h
      · rename_i hc; rw [if_pos hc]; exact ⟨_, rfl⟩
      · rename_i hc; rw [if_neg hc]; exact ih' h
    | setThrow j =>
      have : (j == k) = false := h1.2
      have hjk : j ≠ k := by simpa using this
      simp only [slotRep, if_neg hjk] at h ⊢
      exact ih' h
    | _ => exact ih' h

theorem SlotInv.safe {P : Prog L G V E} {s : St L G V E} (h : SlotInv P s) {r : CbRef} (hn : nSetThrow r.co s.log = 0)
    (hal : (s.cbs r).life = .alive) (hp : isPullSide (s.kind r.co) r.side = true) (hb : (s.cbs r).bvalid = true) :
    ∃ v, (s.cbs r).slot = .live v := by
  have hr : r = ⟨r.co, pullSide (s.kind r.co)⟩ := by
    rcases r with ⟨k, sd⟩; simp only [isPullSide_iff] at hp; rw [hp]
  have := (h r.co).rep (by rw [← hr]; exact hal)
  rw [← hr] at this
  obtain ⟨v, hv⟩ := slotRep_live (mv := P.mv) (va := s.va r.co) hn (by rw [this]; exact hb)
  rw [this] at hv
  exact ⟨v, hv⟩

theorem dtorSlot_safe {s : St L G V E} {r : CbRef} (h : SlotSafe s r) : dtorSlot s r ≠ none := by
  unfold dtorSlot
  split
  · rename_i hc
    simp only [Bool.and_eq_true, beq_iff_eq] at hc
    obtain ⟨v, hv⟩ := h hc.1.1 hc.1.2 hc.2
    rw [hv]; simp
  · simp

theorem fiberDrop_noUb {s t : St L G V E} {f : Option Nat} {u : UB} : fiberDrop s f ≠ .ub u t := by
  unfold fiberDrop; split <;> simp

theorem fiberResume_noUb {s t : St L G V E} {l : FLoc} {r : CbRef} {u : UB} (h : s.fib l ≠ none) : fiberResume s l r ≠ .ub u t := by
  unfold fiberResume
  split
  · rename_i hn; exact absurd hn h
  · simp

theorem destroyCb_noUb {s t : St L G V E} {r : CbRef} {u : UB} (h : SlotSafe s r) : destroyCb s r ≠ .ub u t := by
  unfold destroyCb
  simp only
  split
  · rename_i hn
    exact absurd hn (dtorSlot_safe (s := s.setFib (.cb r) none) h)
  · exact fiberDrop_noUb

theorem deallocate_noUb {s t : St L G V E} {r : CbRef} {u : UB} (hal : (s.cbs r).life = .alive) (h : SlotSafe s r) :
    deallocate s r ≠ .ub u t := by
  unfold deallocate
  rw [hal]
  simp only
  split
  · exact destroyCb_noUb h
  · simp

theorem destroyHandle_noUb {s t : St L G V E} {h : Nat} {u : UB} {hd : Handle} (hh : s.hs h = some hd)
    (hs : ∀ r, hd.cb = some r → (s.cbs r).life = .alive ∧ SlotSafe s r) : destroyHandle s h ≠ .ub u t := by
  unfold destroyHandle
  rw [hh]
  simp only
  split
  · simp
  · rename_i r hr
    obtain ⟨h1, h2⟩ := hs r hr
    exact deallocate_noUb (s := { s with hs := upd s.hs h none }) h1 h2

theorem cbResume_noUb {s t : St L G V E} {r : CbRef} {u : UB} (hal : (s.cbs r).life = .alive) (h : s.fib (.cb r) ≠ none) :
    cbResume s r ≠ .ub u t := by
  unfold cbResume
  rw [hal]
  exact fiberResume_noUb h

theorem cbSet_noUb {P : Prog L G V E} {s : St L G V E} {q : CbRef} {a : PushArg V E} (ha : GoodArg a)
    (hs : s.va q.co = .val → (s.cbs q).bvalid = true → ∃ v, (s.cbs q).slot = .live v) :
    (∃ s' w, cbSet P s q a = .ok s' w ∧ s'.cbs q = { s.cbs q with slot := (s'.cbs q).slot, bvalid := (s'.cbs q).bvalid } ∧
      (∀ r, r ≠ q → s'.cbs r = s.cbs r) ∧ s'.fib = s.fib) ∨
    (∃ s', cbSet P s q a = .ill s') := by
  unfold cbSet
  split
  · left; exact ⟨s, none, rfl, rfl, fun _ _ => rfl, rfl⟩
  · cases a with
    | copy v =>
      left
      refine ⟨_, _, rfl, ?_, ?_, rfl⟩
      · simp [St.setCb, St.emit]
      · intro r hr; simp [St.setCb, St.emit, upd, hr]
    | _ => exact .inr ⟨_, rfl⟩
  · rename_i hv
    have key : ∃ s1, setDestroyOld s q = some s1 ∧ s1.cbs q = { s.cbs q with slot := (s1.cbs q).slot } ∧
        (∀ r, r ≠ q → s1.cbs r = s.cbs r) ∧ s1.fib = s.fib := by
      unfold setDestroyOld
      by_cases hb : (s.cbs q).bvalid = true
      · obtain ⟨w, hw⟩ := hs hv hb
        rw [if_pos hb, hw]
        refine ⟨_, rfl, ?_, ?_, rfl⟩
        · simp [St.setCb, St.emit]
        · intro r hr; simp [St.setCb, St.emit, upd, hr]
      · rw [if_neg hb]; exact ⟨s, rfl, rfl, fun _ _ => rfl, rfl⟩
    obtain ⟨s1, k1, k2, k3, k4⟩ := key
    have fin : ∀ v, (setNew s1 q v).cbs q = { s.cbs q with slot := ((setNew s1 q v).cbs q).slot, bvalid := ((setNew s1 q v).cbs q).bvalid } ∧
        (∀ r, r ≠ q → (setNew s1 q v).cbs r = s.cbs r) ∧ (setNew s1 q v).fib = s.fib := by
      intro v
      refine ⟨?_, ?_, k4⟩
      · simp [St.setCb, St.emit, setNew]; rw [k2]; simp
      · intro r hr; simp [St.setCb, St.emit, setNew, upd, hr, k3]
    cases a with
    | copy v => left; dsimp only; rw [k1]; exact ⟨_, _, rfl, fin v⟩
    | move v => left; dsimp only; rw [k1]; exact ⟨_, _, rfl, fin v⟩
    | faulty => exact ha.elim
    | alias => exact ha.elim
    | unit => exact .inr ⟨_, rfl⟩

theorem pushOp_noUb {P : Prog L G V E} {s t : St L G V E} {h : Nat} {a : PushArg V E} {p : Option V → List (Frame L V E)} {u : UB}
    {hd : Handle} {r : CbRef} (hh : s.hs h = some hd) (hcb : hd.cb = some r) (hal : (s.cbs r).life = .alive)
    (hot : (s.cbs r).other = some r.partner) (hpal : (s.cbs r.partner).life = .alive) (ha : GoodArg a)
    (hs : hd.ty = .push → s.va r.co = .val → (s.cbs r.partner).bvalid = true → ∃ v, (s.cbs r.partner).slot = .live v)
    (hf : s.fib (.cb r) ≠ none) : pushOp P s h a p ≠ .ub u t := by
  unfold pushOp
  rw [hh]
  simp only
  split
  · rename_i hty
    rw [hcb]; simp only [hal, hot, hpal]
    rcases cbSet_noUb (P := P) (s := s) (q := r.partner) ha (hs hty) with ⟨s', w, h1, h2, h3, h4⟩ | ⟨s', h1⟩
    · rw [h1]
      refine cbResume_noUb ?_ ?_
      · show (s'.cbs r).life = _
        rw [h3 r (fun e => partner_ne r e.symm)]; exact hal
      · show s'.fib (.cb r) ≠ none
        rw [h4]; exact hf
    · rw [h1]; simp
  · simp

theorem pullOp_noUb {s t : St L G V E} {h : Nat} {p : List (Frame L V E)} {u : UB}
    {hd : Handle} {r : CbRef} (hh : s.hs h = some hd) (hcb : hd.cb = some r) (hal : (s.cbs r).life = .alive)
    (hf : s.fib (.cb r) ≠ none) : pullOp s h p ≠ .ub u t := by
  unfold pullOp
  rw [hh]
  simp only
  split
  · rw [hcb]; exact cbResume_noUb (s := s.setFr _) hal hf
  · simp

theorem readSlot_noUb {s t : St L G V E} {h : Nat} {u : UB} {hd : Handle} {r : CbRef} (hh : s.hs h = some hd) (hcb : hd.cb = some r)
    (hal : (s.cbs r).life = .alive) (hs : hd.ty = .pull → hd.va ≠ .void → ∃ v, (s.cbs r).slot = .live v) :
    readSlot s h ≠ .error (.ub u t) := by
  unfold readSlot
  rw [hh]
  simp only
  split
  · rename_i hc
    obtain ⟨v, hv⟩ := hs hc.1 hc.2
    rw [hcb]; simp only [hal, hv]; simp
  · simp

theorem handleBool_noErr {s : St L G V E} {h : Nat} {u : UB} {hd : Handle} (hh : s.hs h = some hd)
    (hal : ∀ r, hd.cb = some r → (s.cbs r).life = .alive) : handleBool s h ≠ .error u := by
  unfold handleBool
  rw [hh]
  simp only
  split
  · simp
  · rename_i r hr; rw [if_pos (hal r hr)]; simp

theorem handleBang_noErr {s : St L G V E} {h : Nat} {u : UB} {hd : Handle} (hh : s.hs h = some hd)
    (hal : ∀ r, hd.cb = some r → (s.cbs r).life = .alive) : handleBang s h ≠ .error u := by
  unfold handleBang
  rw [hh]
  simp only
  split
  · simp
  · rename_i r hr; rw [if_pos (hal r hr)]; simp

/-! ### The situation in a disciplined state -/

structure Ctx (P : Prog L G V E) (s : St L G V E) (rest : List Nat) : Prop where
  d : Disc s rest
  hi : Inv s
  hj : JInv s
  hs : SlotInv P s
  ho : OwnerInv s
  ht : TInv s
  hl : LifeInv s
  ru : Rules P s

namespace Ctx
variable {P : Prog L G V E} {s : St L G V E} {rest : List Nat}

theorem safe (c : Ctx P s rest) {r : CbRef} (hal : (s.cbs r).life = .alive) : SlotSafe s r :=
  fun hp _ hb => c.hs.safe (c.d.noThrow r.co) hal hp hb

/-- the object passed to the running function refers to a live block -/
theorem synAlive (c : Ctx P s rest) {h : Nat} {hd : Handle} (hh : s.hs h = some hd) (hcb : hd.cb = some ⟨s.cur, .syn⟩)
    (hb : (s.base s.cur).isBody = true) : (s.cbs ⟨s.cur, .syn⟩).life = .alive ∧ s.cur ≠ 0 := by
  have h0 : s.cur ≠ 0 := by
    intro h0
    have := (c.hi.hok.born h hd _ hh hcb).1
    exact this (c.hi.cb.unborn _ _ (.inl h0))
  refine ⟨(c.hi.cb.syn_life s.cur).2 ?_, h0⟩
  cases hq : s.base s.cur with
  | main => exact absurd ((c.hi.sched.main_iff s.cur).1 hq) h0
  | inFn _ => rfl
  | _ => rw [hq] at hb; cases hb

/-- everything an `operator()` on this object needs -/
theorem resumable (c : Ctx P s rest) {l : L} (hc : s.ctl = .eval l) {h : Nat} {hd : Handle} (hh : s.hs h = some hd)
    (hm : MayResume s hd) : ∃ r, hd.cb = some r ∧ (s.cbs r).life = .alive ∧ (s.cbs r).other = some r.partner ∧
      (s.cbs r.partner).life = .alive ∧ s.fib (.cb r) ≠ none := by
  have hctl := c.hi.ctl
  rw [hc] at hctl
  rcases hm with ⟨k, hk, hnf, hsus⟩ | hk
  · have hal := (c.hi.hok.own h hd k hh hk).1
    have hk0 : k ≠ 0 := by
      rintro rfl
      rw [c.hi.cb.unborn 0 .own (.inl rfl)] at hal; cases hal
    have hp := c.d.parked c.hi c.hj hal hk0 hsus (by rw [hc]; simp)
    have hfr : (s.base k).isFresh = false := by
      cases hq : (s.base k).isFresh
      · rfl
      · have := c.hi.sched.fresh_cur k hq
        subst this
        cases hb : s.base s.cur <;> rw [hb] at hq <;> simp [Base.isFresh] at hq
        have := hctl.2.1; rw [hb] at this; cases this
    refine ⟨_, hk, hal, ?_, ?_, by rw [hp]; simp⟩
    · rw [c.hi.cb.own_other k hal, hfr]; rfl
    · have hch := c.hi.sched.chan _ _ hp
      have hfo := c.hi.sched.fib_ok _ _ hp
      have hsw := c.hi.sched.sus k hfo.1 hfo.2
      refine (c.hi.cb.syn_life k).2 ?_
      have hmn : s.base k ≠ .main := fun e => hk0 ((c.hi.sched.main_iff k).1 e)
      cases hfk : s.frames k with
      | nil =>
        rw [hfk] at hch
        cases hb : s.base k <;> rw [hb] at hch hfr <;> simp_all [hole, Base.synAlive, Base.isFresh]
      | cons f tl =>
        rw [hfk] at hch hsw
        cases f <;> simp [hole] at hch
        simp only [okSw, Bool.and_eq_true] at hsw
        cases hb : s.base k <;> rw [hb] at hsw <;> simp_all [Base.isBody, Base.synAlive]
  · obtain ⟨hal, h0⟩ := c.synAlive hh hk hctl.2.1
    obtain ⟨y, t, _, hy⟩ := c.d.belowSyn h0 hctl.2.2.2 (by rw [hc]; simp)
    exact ⟨_, hk, hal, c.hi.cb.syn_other s.cur hal, (c.d.ownUp s.cur (by simp) h0 hctl.2.2.2).1, by rw [hy]; simp⟩

theorem askable (c : Ctx P s rest) (hb : (s.base s.cur).isBody = true) {h : Nat} {hd : Handle} (hh : s.hs h = some hd)
    (hm : MayAsk s hd) : ∀ r, hd.cb = some r → (s.cbs r).life = .alive := by
  rintro ⟨k, _ | _⟩ hr
  · exact (c.hi.hok.own h hd k hh hr).1
  · have := hm k hr; subst this; exact (c.synAlive hh hr hb).1

theorem destroyable (c : Ctx P s rest) {h : Nat} (hdd : Destroys P s h) : ∃ hd, s.hs h = some hd ∧
    ∀ r, hd.cb = some r → (s.cbs r).life = .alive ∧ SlotSafe s r := by
  obtain ⟨hd, hh, h1, h2⟩ := c.ru.destroy h hdd
  refine ⟨hd, hh, ?_⟩
  have key : ∀ r, hd.cb = some r → (s.cbs r).life = .alive := by
    rintro ⟨k, _ | _⟩ hr
    · exact (c.hi.hok.own h hd k hh hr).1
    · have hkc := h2 k hr
      subst hkc
      have h0 : s.cur ≠ 0 := by
        intro h0
        exact (c.hi.hok.born h hd _ hh hr).1 (c.hi.cb.unborn _ _ (.inl h0))
      have hnm : s.base s.cur ≠ .main := fun e => h0 ((c.hi.sched.main_iff _).1 e)
      refine (c.hi.cb.syn_life s.cur).2 ?_
      have hctl := c.hi.ctl
      have hbody : (s.base s.cur).isBody = true ∨ (∃ h, s.base s.cur = .final h) ∨ ∃ h fn, s.base s.cur = .pushEntry h fn := by
        cases hdd with
        | api hc => obtain ⟨l, hc, _⟩ := hc; rw [hc] at hctl; exact .inl hctl.2.1
        | leave hc => rw [hc] at hctl; exact .inl hctl.2.1
        | raise hc hfr =>
          rename_i x t
          rw [hc] at hctl
          have hfr' : s.frames s.cur = .gCoro h :: t := hfr
          cases x with
          | user e => have := hctl.1; simp only [okRaiseU, Bool.and_eq_true] at this; exact .inl this.2
          | forced =>
            have := hctl.1
            rw [hfr'] at this
            simp only [okRaiseF, okRaiseU, Bool.and_eq_true] at this; exact .inl this.2
        | ret hc => rw [hc] at hctl; exact .inl hctl.2.1
        | arg _ _ h =>
          rcases h with h | h | ⟨fn, h⟩
          · left; rw [h]; rfl
          · exact .inr (.inl ⟨_, h⟩)
          · exact .inr (.inr ⟨_, _, h⟩)
      rcases hbody with hb | ⟨h', hb⟩ | ⟨h', fn, hb⟩
      · cases hq : s.base s.cur <;> rw [hq] at hb <;> simp_all [Base.isBody, Base.synAlive]
      · rw [hb]; rfl
      · rw [hb]; rfl
  exact fun r hr => ⟨key r hr, c.safe (key r hr)⟩

/-- everything `get()` needs -/
theorem gettable (c : Ctx P s rest) {l : L} (hc : s.ctl = .eval l) {h : Nat} {hd : Handle} (hh : s.hs h = some hd)
    (hm : MayGet s hd) : ∃ r, hd.cb = some r ∧ (s.cbs r).life = .alive ∧
      (hd.ty = .pull → hd.va ≠ .void → ∃ v, (s.cbs r).slot = .live v) := by
  have hctl := c.hi.ctl
  rw [hc] at hctl
  rcases hm with ⟨k, hk, _⟩ | hk
  · have hal := (c.hi.hok.own h hd k hh hk).1
    obtain ⟨_, b1, b2⟩ := c.hi.hok.born h hd _ hh hk
    refine ⟨_, hk, hal, fun hty hva => ?_⟩
    have hkp : s.kind k = .pull := by rw [hty] at b1; exact b1.symm
    exact c.hs.safe (c.d.noThrow k) hal (by show isPullSide (s.kind k) .own = true; rw [hkp]; rfl)
      (c.ho.full h hd k hh hk hkp (by rw [← show hd.va = s.va k from b2]; exact hva))
  · obtain ⟨hal, h0⟩ := c.synAlive hh hk hctl.2.1
    obtain ⟨_, b1, b2⟩ := c.hi.hok.born h hd _ hh hk
    refine ⟨_, hk, hal, fun hty hva => ?_⟩
    have hkp : s.kind s.cur = .push := by
      rw [hty] at b1
      have : Kind.pull = (s.kind s.cur).flip := b1
      cases hq : s.kind s.cur
      · rw [hq] at this; cases this
      · rfl
    obtain ⟨y, t, _, hy⟩ := c.d.belowSyn h0 hctl.2.2.2 (by rw [hc]; simp)
    obtain ⟨j, hjj⟩ := c.hj.held _ _ hy
    have hnf : nFin s.cur s.log = 0 := by
      have := c.hl s.cur
      cases hq : s.base s.cur with
      | main => exact absurd ((c.hi.sched.main_iff _).1 hq) h0
      | inFn _ => rw [hq] at this; exact this.2.2.fi
      | _ => have := hctl.2.1; rw [hq] at this; cases this
    have hbv := c.ht.yd s.cur (by rw [hkp]; exact hal) hnf ⟨y, j, by rw [hkp]; exact hjj⟩ (by
      rw [← show hd.va = s.va s.cur from b2]; exact hva)
    rw [hkp] at hbv
    exact c.hs.safe (c.d.noThrow s.cur) hal (by show isPullSide (s.kind s.cur) .syn = true; rw [hkp]; rfl) hbv

end Ctx
end Verif
