import Verif.Sched

/-! # The structural invariant is preserved by every step. Proof material only. -/
namespace Verif
variable {L G V E : Type}

section comps
variable {cur : Nat} {frames : Nat → List (Frame L V E)} {base : Nat → Base L}
    {fib : FLoc → Option Nat} {nk nh : Nat} {cbs : CbRef → CB V E} {hs : Nat → Option Handle}
    {kind : Nat → Kind} {va : Nat → Var}

theorem ctorOf_okRet {b : Base L} {fs : List (Frame L V E)} (h : okRet b fs = true) : ctorOf fs = none := by
  cases fs with
  | nil => rfl
  | cons f t => cases f <;> simp_all [okRet, ctorOf]

theorem ctorOf_okU {fs : List (Frame L V E)} (h : okU fs = true) : ctorOf fs = none := by
  cases fs with
  | nil => rfl
  | cons f t => cases f <;> simp_all [okU, ctorOf, Frame.isU]

theorem ctorOf_okPost {fs : List (Frame L V E)} (h : okPost fs = true) : ctorOf fs = none := by
  cases fs with
  | nil => rfl
  | cons f t => cases f <;> simp_all [okPost, ctorOf]

theorem ctorOf_okUsr {fs : List (Frame L V E)} (h : okUsr fs = true) : ctorOf fs = none := by
  cases fs with
  | nil => rfl
  | cons f t => cases f <;> simp_all [okUsr, ctorOf]

theorem okPost_of_okUsr {fs : List (Frame L V E)} (h : okUsr fs = true) : okPost fs = true := by
  cases fs with
  | nil => simp_all [okUsr]
  | cons f t => cases f <;> simp_all [okPost, okUsr]

theorem notFresh_okRet {b : Base L} {fs : List (Frame L V E)} (h : okRet b fs = true) : b.isFresh = false := by
  cases fs with
  | nil => cases b <;> simp_all [okRet, Base.isLam, Base.isFresh]
  | cons f t => cases f <;> cases b <;> simp_all [okRet, Base.isBody, Base.isFresh]

theorem notFresh_body {b : Base L} (h : b.isBody = true) : b.isFresh = false := by
  cases b <;> simp_all [Base.isBody, Base.isFresh]

/-- `CbOk` only looks at the fibers inside control blocks -/
theorem CbOk.fibCongr (h : CbOk base cbs fib nk) {fib' : FLoc → Option Nat}
    (hf : ∀ r t, fib' (.cb r) = some t → (cbs r).life = .alive) : CbOk base cbs fib' nk := by
  obtain ⟨h1, h2, h3, h0, h4, h5, h6, h7, h8, h9⟩ := h
  exact ⟨h1, h2, h3, h0, h4, hf, h6, h7, h8, h9⟩

/-- only slots change -/
theorem CbOk.cbsCongr (h : CbOk base cbs fib nk) {cbs' : CbRef → CB V E}
    (hl : ∀ r, (cbs' r).life = (cbs r).life ∧ (cbs' r).other = (cbs r).other ∧ (cbs' r).state = (cbs r).state ∧
      (cbs' r).except = (cbs r).except) : CbOk base cbs' fib nk := by
  obtain ⟨h1, h2, h3, h0, h4, h5, h6, h7, h8, h9⟩ := h
  refine ⟨?_, ?_, ?_, ?_, ?_, ?_, ?_, ?_, ?_, ?_⟩ <;> intros <;> simp only [hl] at * <;> grind

theorem HOk.cbsCongr (h : HOk hs nh nk cbs frames kind va) {cbs' : CbRef → CB V E}
    (hl : ∀ r, (cbs' r).life = (cbs r).life) : HOk hs nh nk cbs' frames kind va := by
  obtain ⟨h1, h2, h3, h4, h5, h6, h7⟩ := h
  refine ⟨h1, h2, ?_, ?_, ?_, h6, h7⟩ <;> intros <;> simp only [hl] at * <;> grind

theorem HOk.frCongr (h : HOk hs nh nk cbs frames kind va) {fs : List (Frame L V E)}
    (hc : ctorOf fs = none) : HOk hs nh nk cbs (upd frames cur fs) kind va := by
  obtain ⟨h1, h2, h3, h4, h5, h6, h7⟩ := h
  refine ⟨h1, h2, ?_, h4, ?_, ?_, ?_⟩ <;> grind

theorem HOk.erase (h : HOk hs nh nk cbs frames kind va) (x : Nat) :
    HOk (upd hs x none) nh nk cbs frames kind va := by
  obtain ⟨h1, h2, h3, h4, h5, h6, h7⟩ := h
  refine ⟨?_, ?_, ?_, ?_, ?_, h6, h7⟩ <;> grind

theorem HOk.new (h : HOk hs nh nk cbs frames kind va) (hd : Handle)
    (h1 : ∀ k, hd.cb = some ⟨k, .own⟩ → (cbs ⟨k, .own⟩).life = .alive ∧ ∀ i, ctorOf (frames i) ≠ some k)
    (h2 : ∀ r, hd.cb = some r → (cbs r).life ≠ .unborn ∧ hd.ty = endKind (kind r.co) r.side ∧ hd.va = va r.co)
    (h3 : ∀ r x hx, hs x = some hx → hx.cb = some r → hd.cb ≠ some r) :
    HOk (upd hs nh (some hd)) (nh + 1) nk cbs frames kind va := by
  obtain ⟨g1, g2, g3, g4, g5, g6, g7⟩ := h
  refine ⟨?_, ?_, ?_, ?_, ?_, g6, g7⟩ <;> grind

end comps

/-- invariant without the control part -/
structure Mid (s : St L G V E) : Prop where
  sched : SchedOk s.cur s.frames s.base s.fib s.nk
  cb : CbOk s.base s.cbs s.fib s.nk
  hok : HOk s.hs s.nh s.nk s.cbs s.frames s.kind s.va

theorem Inv.mid {s : St L G V E} (h : Inv s) : Mid s := ⟨h.sched, h.cb, h.hok⟩

theorem Mid.local {s : St L G V E} (h : Mid s) (fs : List (Frame L V E)) (hc : ctorOf fs = none) :
    Mid (s.setFr fs) :=
  ⟨h.sched.local fs, h.cb, h.hok.frCongr hc⟩

theorem dtorSlot_eq {s s' : St L G V E} {r : CbRef} (h : dtorSlot s r = some s') :
    ∃ sl lg, s' = { s with cbs := upd s.cbs r { s.cbs r with slot := sl }, log := lg } := by
  unfold dtorSlot at h
  split at h
  · split at h
    · cases h; exact ⟨_, _, rfl⟩
    · cases h
  · cases h
    refine ⟨(s.cbs r).slot, s.log, ?_⟩
    have : upd s.cbs r { s.cbs r with slot := (s.cbs r).slot } = s.cbs := upd_self' _ _ rfl
    rw [this]

theorem state_flag_facts :
    StateT.has StateT.unwind StateT.unwind = true ∧
    StateT.has (StateT.or StateT.unwind StateT.complete) StateT.unwind = true ∧
    StateT.has StateT.none StateT.unwind = false ∧
    StateT.has StateT.unwind StateT.destroy = false ∧
    StateT.has (StateT.or StateT.unwind StateT.complete) StateT.destroy = false ∧
    StateT.has StateT.unwind StateT.complete = false ∧
    StateT.has (StateT.or StateT.unwind StateT.complete) StateT.complete = true ∧
    StateT.has StateT.none StateT.complete = false := by decide

/-- running context's view when a library function is about to return to its stack -/
structure RetOk (s : St L G V E) : Prop where
  shape : okRet (s.base s.cur) s.fr = true
  air : s.fib .air = none
  back : s.fib (.back s.cur) ≠ none ↔ unwB (s.base s.cur) s.fr = true

theorem inv_deliver {s : St L G V E} (h : Mid s) (hr : RetOk s) (v : Res V) : Inv (s.withCtl (.deliver v)) :=
  ⟨h.sched, h.cb, h.hok, hr.shape, hr.air, hr.back⟩

/-- `~fiber()` of the fiber that was at `r`, whose block has just died -/
theorem inv_dropAt {s s' : St L G V E} {r : CbRef} (h : SchedOk s.cur s.frames s.base s.fib s.nk)
    (hc : CbOk s.base s.cbs (upd s.fib (.cb r) none) s.nk)
    (hh : HOk s.hs s.nh s.nk s.cbs s.frames s.kind s.va)
    (hr : RetOk s)
    (hs : fiberDrop (s.setFib (.cb r) none) (s.fib (.cb r)) = .next s') : Inv s' := by
  unfold fiberDrop at hs
  split at hs
  · rename_i hf
    cases hs
    refine ⟨?_, hc, hh, hr.shape, ?_, ?_⟩
    · show SchedOk s.cur s.frames s.base (upd s.fib (.cb r) none) s.nk
      rw [upd_self' _ _ hf]; exact h
    · simpa [St.withCtl, St.setFib, upd] using hr.air
    · simpa [St.withCtl, St.setFib, upd, St.fr] using hr.back
  · rename_i t hf
    cases hs
    have := h.drop hf (fs := s.fr) hr.shape hr.back hr.air (notFresh_okRet hr.shape) s.cbs
    refine ⟨this.1, ?_, ?_, this.2⟩
    · refine CbOk.fibCongr hc ?_
      intro q x hq
      exact hc.full_alive q x (by simpa [St.setFib, St.pushFr, St.setFr, St.emit, upd] using hq)
    · exact hh.frCongr rfl

theorem inv_destroyCb {s s' : St L G V E} {k : Nat} (h : Mid s) (hr : RetOk s)
    (ha : (s.cbs ⟨k, .own⟩).life = .alive) (hn : ∀ x hx, s.hs x = some hx → hx.cb ≠ some ⟨k, .own⟩)
    (hct : ∀ i, ctorOf (s.frames i) ≠ some k)
    (hs : destroyCb s ⟨k, .own⟩ = .next s') : Inv s' := by
  unfold destroyCb at hs
  simp only at hs
  split at hs
  · cases hs
  · rename_i s1 hd
    obtain ⟨sl, lg, rfl⟩ := dtorSlot_eq hd
    have hs' : fiberDrop (({ s with cbs := upd s.cbs ⟨k, .own⟩ { s.cbs ⟨k, .own⟩ with
          life := .dead, slot := sl, state := StateT.orAssign (s.cbs ⟨k, .own⟩).state StateT.destroy }
                                    log := lg } : St L G V E).setFib (.cb ⟨k, .own⟩) none)
        (s.fib (.cb ⟨k, .own⟩)) = .next s' := by
      rw [← hs]
      congr 1
      simp only [St.setFib, St.setCb]
      congr 1
      funext x
      simp only [upd]
      split <;> simp_all
    refine inv_dropAt (r := ⟨k, .own⟩) (s := { s with cbs := _, log := lg }) h.sched ?_ ?_ ⟨hr.shape, hr.air, hr.back⟩ hs'
    · obtain ⟨h1, h2, h3, h0, h4, h5, h6, h7, h8, h9⟩ := h.cb
      have hk : k ≠ 0 ∧ k < s.nk := by
        refine ⟨fun hk => ?_, Nat.lt_of_not_le fun hk => ?_⟩
        · have := h1 k .own (.inl hk); simp_all
        · have := h1 k .own (.inr hk); simp_all
      refine ⟨?_, ?_, ?_, ?_, ?_, ?_, ?_, ?_, ?_, ?_⟩ <;> grind
    · obtain ⟨h1, h2, h3, h4, h5, h6, h7⟩ := h.hok
      refine ⟨h1, h2, ?_, ?_, ?_, h6, h7⟩ <;> grind

theorem inv_destroyHandle {s s' : St L G V E} {x : Nat} (h : Mid s) (hr : RetOk s)
    (hs : destroyHandle s x = .next s') : Inv s' := by
  unfold destroyHandle at hs
  split at hs
  · cases hs
  · rename_i hd hx
    have hm : Mid { s with hs := upd s.hs x none } := ⟨h.sched, h.cb, h.hok.erase x⟩
    have hr' : RetOk { s with hs := upd s.hs x none } := ⟨hr.shape, hr.air, hr.back⟩
    simp only at hs
    split at hs
    · cases hs; exact inv_deliver hm hr' _
    · rename_i r hcb
      unfold deallocate at hs
      split at hs
      · rename_i hal
        rcases r with ⟨k, _ | _⟩
        · split at hs
          · refine inv_destroyCb hm hr' hal ?_ ?_ hs
            · intro y hy hyy hc
              by_cases hyx : y = x
              · subst hyx; simp [upd] at hyy
              · simp [upd, hyx] at hyy
                exact hyx (h.hok.uniq _ _ _ _ _ hyy hx hc hcb)
            · exact (h.hok.own _ _ _ hx hcb).2
          · cases hs; exact inv_deliver hm hr' _
        · have hst := (h.cb.syn_state k hal).1
          split at hs
          · rename_i hu
            simp only [hst] at hu
            have := state_flag_facts.2.2.1
            simp_all
          · cases hs; exact inv_deliver hm hr' _
      · cases hs

end Verif
