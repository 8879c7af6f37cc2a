import Verif.Preserve

/-! # The structural invariant is preserved: switches, construction, completion. Proof material only. -/
namespace Verif
variable {L G V E : Type}

/-- a context switched out at end `r` through `fiberResume` -/
theorem inv_fiberResume {s s' : St L G V E} {r : CbRef} (h : Mid s)
    (hs : okSw (s.base s.cur) s.fr = true) (hh : hole (s.base s.cur) s.cur s.fr = some r)
    (hb : s.fib (.back s.cur) = none) (ha : s.fib .air = none) (hfr : (s.base s.cur).isFresh = false)
    (he : fiberResume s (.cb r) r = .next s') : Inv s' := by
  unfold fiberResume at he
  split at he
  · cases he
  · rename_i t hf
    cases he
    have := h.sched.resume hf hs hh hb ha hfr s.cbs
    refine ⟨this.1, ?_, h.hok, this.2⟩
    refine h.cb.fibCongr ?_
    intro q x hq
    refine h.cb.full_alive q x ?_
    by_cases hqr : q = r
    · subst hqr; simp [St.setFib, St.emit, upd] at hq
    · simpa [St.setFib, St.emit, upd, hqr] using hq

theorem inv_cbResume {s s' : St L G V E} {r : CbRef} (h : Mid s)
    (hs : okPost s.fr = true) (hbody : (s.base s.cur).isBody = true)
    (hb : s.fib (.back s.cur) = none) (ha : s.fib .air = none)
    (he : cbResume s r = .next s') : Inv s' := by
  unfold cbResume at he
  split at he
  · refine inv_fiberResume (h.local _ rfl) ?_ ?_ hb ha (notFresh_body hbody) he
    · simp [St.pushFr, St.setFr, St.fr, okSw] at *; simp [hs, hbody]
    · simp [St.setFr, St.fr, hole]
  · cases he

/-- the running context is user code waiting for the API call it just made -/
structure ApiOk (s : St L G V E) : Prop where
  shape : okUsr s.fr = true
  body : (s.base s.cur).isBody = true
  air : s.fib .air = none
  back : s.fib (.back s.cur) = none

theorem okRet_of_okUsr {b : Base L} {fs : List (Frame L V E)} (h : okUsr fs = true) (hb : b.isBody = true) :
    okRet b fs = true := by
  cases fs with
  | nil => simp_all [okUsr]
  | cons f t => cases f <;> simp_all [okUsr, okRet]

theorem unwB_body {b : Base L} {fs : List (Frame L V E)} (hb : b.isBody = true) :
    unwB b fs = fs.any Frame.isCF := by
  simp [unwB, body_noLam hb]

theorem ApiOk.ret {s : St L G V E} (h : ApiOk s) : RetOk s where
  shape := okRet_of_okUsr h.shape h.body
  air := h.air
  back := by rw [unwB_body h.body, okUsr_noCF h.shape, h.back]; simp

theorem SetRes_slot {P : Prog L G V E} {s s' : St L G V E} {q : CbRef} {a : PushArg V E} {v : Option V}
    (h : cbSet P s q a = .ok s' v) :
    ∃ sl lg, s' = { s with cbs := upd s.cbs q { s.cbs q with slot := sl, bvalid := true }, log := lg } ∨
      (s.va q.co = .void ∧ s' = s) := by
  unfold cbSet at h
  split at h
  · cases h; exact ⟨.raw, [], .inr ⟨‹_›, rfl⟩⟩
  · split at h <;> cases h
    exact ⟨_, _, .inl rfl⟩
  · have key : ∀ s1 : St L G V E, setDestroyOld s q = some s1 →
        ∃ sl lg, s1 = { s with cbs := upd s.cbs q { s.cbs q with slot := sl }, log := lg } := by
      intro s1 h1
      unfold setDestroyOld at h1
      split at h1
      · split at h1 <;> cases h1
        exact ⟨_, _, rfl⟩
      · cases h1
        refine ⟨(s.cbs q).slot, s.log, ?_⟩
        have : upd s.cbs q { s.cbs q with slot := (s.cbs q).slot } = s.cbs := upd_self' _ _ rfl
        rw [this]
    have key2 : ∀ (s1 : St L G V E) (w : V), setDestroyOld s q = some s1 →
        ∃ sl lg, setNew s1 q w = { s with cbs := upd s.cbs q { s.cbs q with slot := sl, bvalid := true }, log := lg } := by
      intro s1 w h1
      obtain ⟨sl, lg, rfl⟩ := key s1 h1
      refine ⟨.live w, .pushed q.co w :: .tctor q.co :: lg, ?_⟩
      simp only [setNew, St.setCb, St.emit]
      congr 1
      funext x; simp only [upd]; split <;> simp_all
    split at h
    · cases h
    · split at h
      · cases h
      · rename_i s1 hd
        split at h
        · cases h; obtain ⟨sl, lg, hh⟩ := key2 _ ‹V› hd; exact ⟨sl, lg, .inl hh⟩
        · cases h; obtain ⟨sl, lg, hh⟩ := key2 _ ‹V› hd; exact ⟨sl, lg, .inl hh⟩
        · cases h
        · split at h
          · cases h; obtain ⟨sl, lg, hh⟩ := key2 _ ‹V› hd; exact ⟨sl, lg, .inl hh⟩
          · cases h
        · cases h

theorem SetRes_throws {P : Prog L G V E} {s s' : St L G V E} {q : CbRef} {a : PushArg V E} {e : E}
    (h : cbSet P s q a = .throws s' e) :
    ∃ sl lg, s' = { s with cbs := upd s.cbs q { s.cbs q with slot := sl }, log := lg } := by
  unfold cbSet at h
  split at h
  · cases h
  · split at h <;> cases h
  · split at h
    · cases h
    · split at h
      · cases h
      · rename_i s1 hd
        have : s' = s1.emit (.setThrow q.co) := by
          split at h
          · cases h
          · cases h
          · cases h; rfl
          · split at h <;> cases h
          · cases h
        subst this
        unfold setDestroyOld at hd
        split at hd
        · split at hd <;> cases hd
          exact ⟨_, _, rfl⟩
        · cases hd
          refine ⟨(s.cbs q).slot, .setThrow q.co :: s.log, ?_⟩
          have : upd s.cbs q { s.cbs q with slot := (s.cbs q).slot } = s.cbs := upd_self' _ _ rfl
          rw [this]; rfl

theorem Mid.slot {s : St L G V E} (h : Mid s) (q : CbRef) (sl : Slot V) (bv : Bool) (lg : List (Ev V E)) :
    Mid { s with cbs := upd s.cbs q { s.cbs q with slot := sl, bvalid := bv }, log := lg } := by
  have key : ∀ r, ((upd s.cbs q { s.cbs q with slot := sl, bvalid := bv }) r).life = (s.cbs r).life ∧
      ((upd s.cbs q { s.cbs q with slot := sl, bvalid := bv }) r).other = (s.cbs r).other ∧
      ((upd s.cbs q { s.cbs q with slot := sl, bvalid := bv }) r).state = (s.cbs r).state ∧
      ((upd s.cbs q { s.cbs q with slot := sl, bvalid := bv }) r).except = (s.cbs r).except := by
    intro r; simp only [upd]; split <;> simp_all
  exact ⟨h.sched, h.cb.cbsCongr key, h.hok.cbsCongr fun r => (key r).1⟩

theorem inv_pushOp {P : Prog L G V E} {s s' : St L G V E} {x : Nat} {a : PushArg V E}
    {post : Option V → List (Frame L V E)} (h : Mid s) (hr : ApiOk s)
    (hp : ∀ v fs, okUsr fs = true → okPost (post v ++ fs) = true)
    (he : pushOp P s x a post = .next s') : Inv s' := by
  unfold pushOp at he
  split at he
  · cases he
  · split at he
    · split at he
      · cases he
      · split at he
        · split at he
          · cases he
          · rename_i q _
            split at he
            · split at he
              · cases he
              · cases he
              · rename_i s1 e hset
                cases he
                obtain ⟨sl, lg, rfl⟩ := SetRes_throws hset
                have hm := h.slot q sl (s.cbs q).bvalid lg
                refine ⟨hm.sched, hm.cb, hm.hok, ?_, hr.air, hr.back⟩
                have := hr.shape
                have hb := hr.body
                simp [St.fr] at this
                simp [okRaiseU, St.withCtl, okPost_of_okUsr this, hb]
              · rename_i s1 v hset
                have hm : Mid s1 ∧ ApiOk s1 := by
                  obtain ⟨sl, lg, rfl | ⟨_, rfl⟩⟩ := SetRes_slot hset
                  · exact ⟨h.slot q sl true lg, hr.shape, hr.body, hr.air, hr.back⟩
                  · exact ⟨h, hr⟩
                have hpo := hp v _ hm.2.shape
                refine inv_cbResume (hm.1.local _ (ctorOf_okPost hpo)) ?_ hm.2.body hm.2.back hm.2.air he
                simpa [St.setFr, St.fr] using hpo
            · cases he
        · cases he
    · cases he

theorem inv_pullOp {s s' : St L G V E} {x : Nat} {post : List (Frame L V E)} (h : Mid s) (hr : ApiOk s)
    (hp : ∀ fs, okUsr fs = true → okPost (post ++ fs) = true)
    (he : pullOp s x post = .next s') : Inv s' := by
  unfold pullOp at he
  split at he
  · cases he
  · split at he
    · split at he
      · cases he
      · have hpo := hp _ hr.shape
        refine inv_cbResume (h.local _ (ctorOf_okPost hpo)) ?_ hr.body hr.back hr.air he
        simpa [St.setFr, St.fr] using hpo
    · cases he

/-- construction: scheduling part -/
theorem SchedOk.create {cur : Nat} {frames : Nat → List (Frame L V E)} {base : Nat → Base L}
    {fib : FLoc → Option Nat} {nk : Nat} (h : SchedOk cur frames base fib nk) (fn : Nat → L)
    {f : Frame L V E} (hf : f = .pullCtor nk ∨ f = .pushCtor nk)
    (hs : okUsr (frames cur) = true) (hbody : (base cur).isBody = true) (hpos : 0 < nk)
    (hb : fib (.back cur) = none) (ha : fib .air = none) (hn : fib (.cb ⟨nk, .own⟩) = none)
    (hn' : fib (.cb ⟨nk, .syn⟩) = none) (hbn : fib (.back nk) = none) (cbs : CbRef → CB V E) :
    SchedOk nk (upd frames cur (f :: frames cur)) (upd base nk (.fresh fn))
      (upd (upd (upd fib (.cb ⟨nk, .own⟩) (some nk)) (.cb ⟨nk, .own⟩) none) .air (some cur)) (nk + 1) ∧
    CtlOk .recv nk (upd frames cur (f :: frames cur)) (upd base nk (.fresh fn))
      (upd (upd (upd fib (.cb ⟨nk, .own⟩) (some nk)) (.cb ⟨nk, .own⟩) none) .air (some cur)) cbs := by
  have hfib : upd (upd fib (.cb ⟨nk, .own⟩) (some nk)) (.cb ⟨nk, .own⟩) none = fib := by
    funext l; simp only [upd]; split <;> simp_all
  rw [hfib]
  have hnone : base nk = .none := by
    cases hx : base nk <;> first | rfl | (have := h.lt_nk nk (by simp [hx]); omega)
  have hcn : cur ≠ nk := by
    intro hc; rw [← hc] at hnone; simp [hnone, Base.isBody] at hbody
  have hcn' : ¬ nk = cur := fun h => hcn h.symm
  have hfn := h.dead_frames nk hnone
  have hsw : okSw (base cur) (f :: frames cur) = true := by
    rcases hf with rfl | rfl <;> simp [okSw, hs, hbody]
  have hho : hole (base cur) cur (f :: frames cur) = some ⟨nk, .own⟩ := by
    rcases hf with rfl | rfl <;> simp [hole]
  have hun : unwB (base cur) (f :: frames cur) = false := hole_not_unw hsw hho
  have hnf := notFresh_body hbody
  obtain ⟨h1, h2, h3, h4, h5, h6, h7, h8, h9, h10, h11, h12, h13⟩ := h
  have hfresh : ∀ i, (base i).isFresh = false := by
    intro i
    cases hbi : (base i).isFresh with
    | false => rfl
    | true => have := h5 i hbi; subst this; simp_all
  have hnk : ∀ l, fib l ≠ some nk := by
    intro l hl; exact (h8 l nk hl).2 hnone
  refine ⟨⟨?_, ?_, ?_, ?_, ?_, ?_, ?_, ?_, ?_, ?_, ?_, ?_, ?_⟩, ?_⟩
  · intro i
    by_cases hi : i = nk
    · subst hi; simp [upd]; omega
    · simpa [upd, hi] using h1 i
  · intro i hi
    by_cases hin : i = nk
    · omega
    · have := h2 i (by simpa [upd, hin] using hi); omega
  · simp [upd]
  · intro i hi
    by_cases hin : i = nk
    · subst hin; simp [upd] at hi
    · have hi' : base i = .none := by simpa [upd, hin] using hi
      have : i ≠ cur := by intro hc; subst hc; exact h3 hi'
      simpa [upd, this] using h4 i hi'
  · intro i hi
    by_cases hin : i = nk
    · exact hin
    · simp [upd, hin, hfresh i] at hi
  · intro i hi hb'
    have hb'' : base i ≠ .none := by simpa [upd, hi] using hb'
    by_cases hic : i = cur
    · subst hic; simpa [upd, hi] using hsw
    · simpa [upd, hi, hic] using h6 i hic hb''
  · grind
  · grind
  · intro x hx hx'
    by_cases hxc : x = cur
    · exact ⟨.air, by grind⟩
    · obtain ⟨l, hl⟩ := h9 x hxc (by grind)
      exact ⟨l, by grind⟩
  · intro r t hr
    have hr' : fib (.cb r) = some t := by simpa [upd] using hr
    have := h8 _ _ hr'
    have htn : t ≠ nk := fun hc => hnk _ (hc ▸ hr')
    simpa [upd, htn, this.1] using h10 r t hr'
  · grind
  · intro k b hk
    have hk' : fib (.back k) = some b := by simpa [upd] using hk
    have := h8 _ _ hk'
    have hbn' : b ≠ nk := fun hc => hnk _ (hc ▸ hk')
    have hkn : k ≠ nk := by intro hc; subst hc; simp [hbn] at hk'
    simpa [upd, hbn', this.1, hkn] using h12 k b hk'
  · intro i hi
    by_cases hic : i = cur
    · subst hic; simp [upd, hi, hun, hb]
    · simpa [upd, hi, hic] using h13 i hic
  · refine ⟨?_, ?_, ?_, ?_⟩
    · simp [upd, hcn', hfn, okSw]
    · intro u hu
      have : u = cur := by simp [upd] at hu; exact hu.symm
      subst this
      refine ⟨⟨nk, .own⟩, ?_, ?_, ?_, ?_⟩
      · simpa [upd, hcn] using hho
      · simp [upd, hcn', hfn, hole]
      · simpa [upd] using hn
      · simpa [upd] using hn'
    · intro hu; simp [upd] at hu
    · simp [upd, hbn, hcn', hfn, unwB, Base.isLam]

theorem inv_mkOp {s s' : St L G V E} {kd : Kind} {va : Var} {ft : Fault E} {fn : Nat → L}
    (h : Mid s) (hr : ApiOk s) (hpos : 0 < s.nk) (he : mkOp s kd va ft fn = .next s') : Inv s' := by
  have hraise : okRaiseU (s.base s.cur) (s.frames s.cur) = true := by
    have := hr.shape
    simp [St.fr] at this
    simp [okRaiseU, okPost_of_okUsr this, hr.body]
  unfold mkOp at he
  split at he
  · cases he
    exact ⟨h.sched, h.cb, h.hok, hraise, hr.air, hr.back⟩
  · cases he
    refine ⟨?_, ?_, ?_, hraise, hr.air, hr.back⟩
    · obtain ⟨h1, h2, h3, h4, h5, h6, h7, h8, h9, h10, h11, h12, h13⟩ := h.sched
      exact ⟨h1, fun i hi => Nat.lt_succ_of_lt (h2 i hi), h3, h4, h5, h6, h7, h8, h9, h10, h11, h12, h13⟩
    · obtain ⟨h1, h2, h3, h0, h4, h5, h6, h7, h8, h9⟩ := h.cb
      exact ⟨fun k sd hk => h1 k sd (by rcases hk with hk | hk; exact .inl hk; exact .inr (Nat.le_of_succ_le hk)),
        h2, h3, h0, h4, h5, h6, h7, h8, h9⟩
    · obtain ⟨h1, h2, h3, h4, h5, h6, h7⟩ := h.hok
      exact ⟨h1, h2, h3, h4, h5, h6, h7⟩
  · have hunb : ∀ sd, (s.cbs ⟨s.nk, sd⟩).life = .unborn := fun sd => h.cb.unborn _ _ (.inr (Nat.le_refl _))
    have hnof : ∀ sd, s.fib (.cb ⟨s.nk, sd⟩) = none := by
      intro sd
      cases hx : s.fib (.cb ⟨s.nk, sd⟩) with
      | none => rfl
      | some t => have := h.cb.full_alive _ _ hx; simp [hunb] at this
    have hnone : s.base s.nk = .none := by
      cases hx : s.base s.nk <;> first | rfl | (have := h.sched.lt_nk s.nk (by simp [hx]); omega)
    have hcn : s.nk ≠ s.cur := by
      intro hc; rw [hc] at hnone; exact h.sched.cur_live hnone
    have hbn : s.fib (.back s.nk) = none := by
      have := h.sched.back_unw s.nk hcn
      simpa [hnone, h.sched.dead_frames _ hnone, unwB, Base.isLam] using this
    have hnoct : ∀ i, ctorOf (s.frames i) ≠ some s.nk := by
      intro i hi; have := h.hok.ctor i _ hi; simp [hunb] at this
    have hct0 : ctorOf (s.frames s.cur) = none := ctorOf_okUsr hr.shape
    have hf : (ctorFrame kd s.nk : Frame L V E) = .pullCtor s.nk ∨ (ctorFrame kd s.nk : Frame L V E) = .pushCtor s.nk := by
      cases kd <;> simp [ctorFrame]
    simp only [fiberResume, St.pushFr, St.setFr, St.emit, St.setFib, St.fr] at he
    rw [upd_same] at he
    simp only at he
    cases he
    generalize hfk : (ctorFrame kd s.nk : Frame L V E) = f at hf
    have := h.sched.create fn hf hr.shape hr.body hpos hr.back hr.air (hnof _) (hnof _) hbn
      (upd s.cbs ⟨s.nk, .own⟩
        { life := .alive, other := none, state := StateT.unwind, except := none, bvalid := false, slot := .raw })
    refine ⟨this.1, ?_, ?_, this.2⟩
    · have hlive := h.sched.lt_nk
      obtain ⟨h1, h2, h3, h0, h4, h5, h6, h7, h8, h9⟩ := h.cb
      refine ⟨?_, ?_, ?_, ?_, ?_, ?_, ?_, ?_, ?_, ?_⟩
      · intro k sd hk
        replace hk : k = 0 ∨ s.nk + 1 ≤ k := hk
        have hne : (⟨k, sd⟩ : CbRef) ≠ ⟨s.nk, .own⟩ := by intro hc; simp at hc; omega
        simp only [upd, hne, if_false]
        exact h1 k sd (by omega)
      · grind
      · grind
      · intro k hk
        by_cases hkn : k = s.nk
        · subst hkn; simp [upd, hunb]
        · simp [upd, hkn] at hk ⊢; exact h0 k hk
      · intro k
        by_cases hk : k = s.nk
        · subst hk; simp [upd, hunb, Base.synAlive]
        · simp [upd, hk]; exact h4 k
      · intro r t hrt
        have : r ≠ ⟨s.nk, .own⟩ := by rintro rfl; simp [upd] at hrt
        simp [upd, this] at hrt ⊢
        exact h5 r t hrt
      · intro k hk
        by_cases hkn : k = s.nk
        · subst hkn; simp [upd, Base.isFresh]
        · simp [upd, hkn] at hk ⊢; exact h6 k hk
      · intro k hk
        simp [upd] at hk ⊢; exact h7 k hk
      · intro k hk
        by_cases hkn : k = s.nk
        · subst hkn; simp [upd, Base.isFinal]
        · simp [upd, hkn] at hk ⊢; exact h8 k hk
      · intro k hk
        simp [upd] at hk ⊢; exact h9 k hk
    · obtain ⟨h1, h2, h3, h4, h5, h6, h7⟩ := h.hok
      have hctf : ctorOf (f :: s.frames s.cur) = some s.nk := by
        rcases hf with rfl | rfl <;> rfl
      have hcf : ∀ i k, ctorOf ((upd s.frames s.cur (f :: s.frames s.cur)) i) = some k →
          (i = s.cur ∧ k = s.nk) ∨ (ctorOf (s.frames i) = some k) := by
        intro i k hik
        by_cases hi : i = s.cur
        · subst hi; rw [upd_same, hctf] at hik; left; simp at hik; exact ⟨rfl, hik.symm⟩
        · right; simpa [upd, hi] using hik
      have hlt : ∀ k sd, (s.cbs ⟨k, sd⟩).life ≠ .unborn → k ≠ s.nk := by
        intro k sd hk hc; subst hc; exact hk (hunb sd)
      refine ⟨h1, h2, ?_, ?_, ?_, ?_, ?_⟩
      · intro x hx k hxx hc
        have := h3 x hx k hxx hc
        have hkn := hlt k .own (by simp [this.1])
        refine ⟨by simp [upd, hkn, this.1], ?_⟩
        intro i hi
        rcases hcf i k hi with ⟨_, hk⟩ | hk
        · exact hkn hk
        · exact this.2 i hk
      · intro x hx r hxx hc
        have := h4 x hx r hxx hc
        have hkn := hlt r.co r.side this.1
        have hrn : r ≠ ⟨s.nk, .own⟩ := by rintro rfl; exact hkn rfl
        simpa [upd, hrn, hkn] using this
      · intro i k hi
        rcases hcf i k hi with ⟨_, hk⟩ | hk
        · subst hk; simp [upd]
        · have := h5 i k hk
          have hkn := hlt k .own (by simp [this])
          simpa [upd, hkn] using this
      · intro i j k hi hj
        rcases hcf i k hi with ⟨hi', hk⟩ | hk <;> rcases hcf j k hj with ⟨hj', hk'⟩ | hk'
        · rw [hi', hj']
        · subst hk; exact absurd hk' (hnoct j)
        · subst hk'; exact absurd hk (hnoct i)
        · exact h6 i j k hk hk'
      · intro i k hi
        rcases hcf i k hi with ⟨rfl, rfl⟩ | hk
        · simp [upd, hfk]
        · have := h7 i k hk
          have hkn := hlt k .own (by simp [h5 i k hk])
          have hic : i ≠ s.cur := by rintro rfl; simp [hct0] at hk
          simpa [upd, hkn, hic] using this

end Verif
