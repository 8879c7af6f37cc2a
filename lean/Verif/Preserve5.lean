import Verif.Preserve4

/-! # The structural invariant is preserved by every step of every program (continued). Proof material only. -/
namespace Verif
variable {L G V E : Type}

theorem okU_tail {f : Frame L V E} {t : List (Frame L V E)} (h : okU (f :: t) = true) : okU t = true := by
  simp [okU] at h ⊢; exact h.2

/-- build an invariant for running user code -/
theorem inv_eval {s : St L G V E} (h : Mid s) (h1 : okU s.fr = true) (h2 : (s.base s.cur).isBody = true)
    (h3 : s.fib .air = none) (h4 : s.fib (.back s.cur) = none) (l : L) : Inv (s.withCtl (.eval l)) :=
  ⟨h.sched, h.cb, h.hok, h1, h2, h3, h4⟩

theorem inv_retn {s : St L G V E} (h : Mid s) (h1 : okU s.fr = true) (h2 : (s.base s.cur).isBody = true)
    (h3 : s.fib .air = none) (h4 : s.fib (.back s.cur) = none) : Inv (s.withCtl .retn) :=
  ⟨h.sched, h.cb, h.hok, h1, h2, h3, h4⟩

theorem inv_raiseU {s : St L G V E} (h : Mid s) (h1 : okRaiseU (s.base s.cur) s.fr = true)
    (h3 : s.fib .air = none) (h4 : s.fib (.back s.cur) = none) (e : E) : Inv (s.withCtl (.raise (.user e))) :=
  ⟨h.sched, h.cb, h.hok, h1, h3, h4⟩

theorem inv_raiseF {s : St L G V E} (h : Mid s) (h1 : okRaiseF (s.base s.cur) s.fr = true)
    (h3 : s.fib .air = none) (h4 : s.fib (.back s.cur) ≠ none) : Inv (s.withCtl (.raise .forced)) :=
  ⟨h.sched, h.cb, h.hok, h1, h3, h4⟩

theorem inv_emit {s : St L G V E} (h : Inv s) (e : Ev V E) : Inv (s.emit e) :=
  ⟨h.sched, h.cb, h.hok, h.ctl⟩

theorem inv_endObj {P : Prog L G V E} {s : St L G V E} (h : Inv s) (o : Nat) : Inv (s.endObj P o) :=
  ⟨h.sched, h.cb, h.hok, h.ctl⟩

theorem okRaiseF_okU {b : Base L} {fs : List (Frame L V E)} (h : okU fs = true) (hb : b.isBody = true) :
    okRaiseF b fs = true := by
  cases fs with
  | nil => cases b <;> simp_all [Base.isBody, okRaiseF]
  | cons f t =>
    have : okRaiseU b (f :: t) = true := by simp [okRaiseU, h, hb]
    cases f <;> simp_all [okRaiseF, okU, Frame.isU]

theorem okRaiseF_okPost {b : Base L} {fs : List (Frame L V E)} (h : okPost fs = true) (hb : b.isBody = true) :
    okRaiseF b fs = true := by
  cases fs with
  | nil => simp_all [okPost]
  | cons f t =>
    have : okRaiseU b (f :: t) = true := by simp [okRaiseU, h, hb]
    cases f <;> simp_all [okRaiseF, okPost]

theorem inv_deliverStep {s s' : St L G V E} {v : Res V} (h : Inv s) (hc : s.ctl = .deliver v)
    (he : deliverStep s v = .next s') : Inv s' := by
  have hctl := h.ctl
  rw [hc] at hctl
  obtain ⟨hsh, hair, hback⟩ := hctl
  have hpop : ∀ t : List (Frame L V E), okUsr t = true → (s.base s.cur).isBody = true →
      (s.fib (.back s.cur) = none) → RetOk (s.setFr t) := by
    intro t ht hb hbk
    refine ⟨?_, hair, ?_⟩
    · have := okRet_of_okUsr ht hb
      simpa [St.setFr, St.fr] using this
    · have : unwB (s.base s.cur) t = false := by rw [unwB_body hb, okUsr_noCF ht]
      simp [St.setFr, St.fr, this, hbk]
  have hnb : ∀ (f : Frame L V E) (t : List (Frame L V E)), s.frames s.cur = f :: t → f.isCF = false →
      t.any Frame.isCF = false → (s.base s.cur).isBody = true → s.fib (.back s.cur) = none := by
    intro f t h1 h2 h3 h4
    have : unwB (s.base s.cur) (s.frames s.cur) = false := by
      rw [unwB_body h4, h1, List.any_cons, h2, h3]; rfl
    cases hx : s.fib (.back s.cur) with
    | none => rfl
    | some b => rw [this, hx] at hback; simp at hback
  unfold deliverStep at he
  split at he
  · rename_i k t hfr
    have hfr' : s.frames s.cur = .usr k :: t := hfr
    rw [hfr'] at hsh
    simp only [okRet, Bool.and_eq_true] at hsh
    cases he
    refine inv_eval (h.mid.local t (ctorOf_okU hsh.1)) (by simpa [St.setFr, St.fr] using hsh.1) hsh.2 hair
      (hnb _ _ hfr' rfl (okU_noCF hsh.1) hsh.2) _
  · rename_i x t hfr
    have hfr' : s.frames s.cur = .fetch x :: t := hfr
    rw [hfr'] at hsh
    simp only [okRet, Bool.and_eq_true] at hsh
    split at he <;> cases he
    exact inv_deliver (h.mid.local t (ctorOf_okUsr hsh.1)) (hpop t hsh.1 hsh.2 (hnb _ _ hfr' rfl (okUsr_noCF hsh.1) hsh.2)) _
  · rename_i x t hfr
    have hfr' : s.frames s.cur = .pfetch x :: t := hfr
    rw [hfr'] at hsh
    simp only [okRet, Bool.and_eq_true] at hsh
    split at he <;> cases he
    exact inv_deliver (h.mid.local t (ctorOf_okUsr hsh.1)) (hpop t hsh.1 hsh.2 (hnb _ _ hfr' rfl (okUsr_noCF hsh.1) hsh.2)) _
  · rename_i x t hfr
    have hfr' : s.frames s.cur = .resid x :: t := hfr
    rw [hfr'] at hsh
    simp only [okRet, Bool.and_eq_true] at hsh
    cases he
    exact inv_deliver (h.mid.local t (ctorOf_okUsr hsh.1)) (hpop t hsh.1 hsh.2 (hnb _ _ hfr' rfl (okUsr_noCF hsh.1) hsh.2)) _
  · rename_i e t hfr
    have hfr' : s.frames s.cur = .ctorFail e :: t := hfr
    rw [hfr'] at hsh
    simp only [okRet, Bool.and_eq_true] at hsh
    cases he
    refine inv_raiseU (h.mid.local t (ctorOf_okUsr hsh.1)) ?_ hair (hnb _ _ hfr' rfl (okUsr_noCF hsh.1) hsh.2) _
    simp [St.setFr, St.fr, okRaiseU, okPost_of_okUsr hsh.1, hsh.2]
  · rename_i va t hfr
    have hfr' : s.frames s.cur = .ctorDrop va :: t := hfr
    rw [hfr'] at hsh
    simp only [okRet, Bool.and_eq_true] at hsh
    cases he
    exact inv_newHandle (h.mid.local t (ctorOf_okUsr hsh.1))
      (hpop t hsh.1 hsh.2 (hnb _ _ hfr' rfl (okUsr_noCF hsh.1) hsh.2)) _ (by simp) (by simp) (by simp) _
  · rename_i x t hfr
    have hfr' : s.frames s.cur = .cRaise x :: t := hfr
    rw [hfr'] at hsh
    simp only [okRet, Bool.and_eq_true, Bool.or_eq_true] at hsh
    cases he
    have hcf : t.any Frame.isCF = false := by
      rcases hsh.1 with hx | hx
      · exact okU_noCF hx
      · exact okUsr_noCF hx
    have hct : ctorOf t = none := by
      rcases hsh.1 with hx | hx
      · exact ctorOf_okU hx
      · exact ctorOf_okUsr hx
    cases x with
    | user e =>
      refine inv_raiseU (h.mid.local t hct) ?_ hair (hnb _ _ hfr' rfl hcf hsh.2) _
      rcases hsh.1 with hx | hx
      · simp [St.setFr, St.fr, okRaiseU, hx, hsh.2]
      · simp [St.setFr, St.fr, okRaiseU, okPost_of_okUsr hx, hsh.2]
    | forced =>
      refine inv_raiseF (h.mid.local t hct) ?_ hair ?_
      · rcases hsh.1 with hx | hx
        · simpa [St.setFr, St.fr] using okRaiseF_okU hx hsh.2
        · simpa [St.setFr, St.fr] using okRaiseF_okPost (okPost_of_okUsr hx) hsh.2
      · show s.fib (.back s.cur) ≠ none
        rw [hback, hfr']
        simp [unwB, Frame.isCF]
  · rename_i t hfr
    have hfr' : s.frames s.cur = .cRet :: t := hfr
    rw [hfr'] at hsh
    simp only [okRet, Bool.and_eq_true] at hsh
    cases he
    exact inv_retn (h.mid.local t (ctorOf_okU hsh.1)) (by simpa [St.setFr, St.fr] using hsh.1) hsh.2 hair
      (hnb _ _ hfr' rfl (okU_noCF hsh.1) hsh.2)
  · rename_i l t hfr
    have hfr' : s.frames s.cur = .cLeave l :: t := hfr
    rw [hfr'] at hsh
    simp only [okRet, Bool.and_eq_true] at hsh
    cases he
    exact inv_eval (h.mid.local t (ctorOf_okU hsh.1)) (by simpa [St.setFr, St.fr] using hsh.1) hsh.2 hair
      (hnb _ _ hfr' rfl (okU_noCF hsh.1) hsh.2) _
  · rename_i hfr
    split at he
    · exact inv_leaveLambdaCb h.mid ⟨hsh, hair, hback⟩ ‹_› hfr he
    · exact inv_exitCtx h.mid ⟨hsh, hair, hback⟩ ‹_› he
    · cases he
  · cases he

theorem inv_retStep {s s' : St L G V E} (h : Inv s) (hc : s.ctl = .retn)
    (he : retStep P s = .next s') : Inv s' := by
  have hctl := h.ctl
  rw [hc] at hctl
  obtain ⟨hsh, hbody, hair, hback⟩ := hctl
  have hret : ∀ t : List (Frame L V E), okU t = true → Inv (s.setFr t) := by
    intro t ht
    have := inv_retn (h.mid.local t (ctorOf_okU ht)) (by simpa [St.setFr, St.fr] using ht) hbody hair hback
    have e : (s.setFr t).withCtl .retn = s.setFr t := by simp [St.withCtl, St.setFr, hc]
    rwa [e] at this
  unfold retStep at he
  split at he
  · rename_i o t hfr
    have hfr' : s.frames s.cur = .gObj o :: t := hfr
    rw [hfr'] at hsh
    cases he
    exact inv_endObj (hret t (okU_tail hsh)) _
  · rename_i x t hfr
    have hfr' : s.frames s.cur = .gCoro x :: t := hfr
    rw [hfr'] at hsh
    refine inv_destroyHandle (h.mid.local _ rfl) ?_ he
    have ht := okU_tail hsh
    refine ⟨?_, hair, ?_⟩
    · simp [St.setFr, St.fr, okRet, ht, hbody]
    · simp [St.setFr, St.fr, unwB_body hbody, hback]
      have := okU_noCF ht
      exact ⟨rfl, by simpa using this⟩
  · rename_i a b t hfr
    have hfr' : s.frames s.cur = .hdl a b :: t := hfr
    rw [hfr'] at hsh
    cases he
    exact hret t (okU_tail hsh)
  · rename_i l t hfr
    have hfr' : s.frames s.cur = .fnRet l :: t := hfr
    rw [hfr'] at hsh
    cases he
    exact inv_eval (h.mid.local t (ctorOf_okU (okU_tail hsh))) (by simpa [St.setFr, St.fr] using okU_tail hsh) hbody hair hback _
  · rename_i hfr
    split at he
    · cases he
    · rename_i x hbase
      split at he
      · refine inv_finish (s := (dropFn s s.cur).emit (.fin s.cur none)) (x := x) s.cbs h.sched h.cb h.hok ?_ rfl rfl rfl
          hbase hfr hback hair he
        simp [dropFn, St.emit, upd_self]
      · cases he
    · cases he
  · cases he

theorem inv_raiseStep {s s' : St L G V E} {x : Exn E} (h : Inv s) (hc : s.ctl = .raise x)
    (he : raiseStep P s x = .next s') : Inv s' := by
  -- uniform view of both kinds of exception
  have hctl : okRaiseF (s.base s.cur) (s.frames s.cur) = true ∧ s.fib .air = none ∧
      (s.fib (.back s.cur) ≠ none ↔ x = .forced) ∧
      (∀ e, x = .user e → okRaiseU (s.base s.cur) (s.frames s.cur) = true) := by
    have := h.ctl
    rw [hc] at this
    cases x with
    | user e =>
      obtain ⟨h1, h2, h3⟩ := this
      refine ⟨?_, h2, by simp [h3], fun _ _ => h1⟩
      simp only [okRaiseU, Bool.and_eq_true, Bool.or_eq_true] at h1
      rcases h1.1 with hx | hx
      · exact okRaiseF_okU hx h1.2
      · exact okRaiseF_okPost hx h1.2
    | forced =>
      obtain ⟨h1, h2, h3⟩ := this
      exact ⟨h1, h2, by simp [h3], by simp⟩
  obtain ⟨hsh, hair, hback, hshU⟩ := hctl
  have hraise : ∀ t : List (Frame L V E), (okU t = true ∨ okPost t = true) → (s.base s.cur).isBody = true →
      Inv (s.setFr t) := by
    intro t ht hb
    have hct : ctorOf t = none := by
      rcases ht with hx | hx
      · exact ctorOf_okU hx
      · exact ctorOf_okPost hx
    have key : Inv ((s.setFr t).withCtl (.raise x)) := by
      cases x with
      | user e =>
        refine inv_raiseU (h.mid.local t hct) ?_ hair ?_ _
        · rcases ht with hx | hx <;> simp [St.setFr, St.fr, okRaiseU, hx, hb]
        · show s.fib (.back s.cur) = none
          cases hx : s.fib (.back s.cur) with
          | none => rfl
          | some b => rw [hx] at hback; simp at hback
      | forced =>
        refine inv_raiseF (h.mid.local t hct) ?_ hair (hback.2 rfl)
        rcases ht with hx | hx
        · simpa [St.setFr, St.fr] using okRaiseF_okU hx hb
        · simpa [St.setFr, St.fr] using okRaiseF_okPost hx hb
    have e : (s.setFr t).withCtl (.raise x) = s.setFr t := by simp [St.withCtl, St.setFr, hc]
    rwa [e] at key
  have hunw : ∀ t : List (Frame L V E), (okU t = true ∨ okUsr t = true) → (s.base s.cur).isBody = true →
      RetOk (s.setFr (.cRaise x :: t)) := by
    intro t ht hb
    have hcf : t.any Frame.isCF = false := by
      rcases ht with hx | hx
      · exact okU_noCF hx
      · exact okUsr_noCF hx
    refine ⟨?_, hair, ?_⟩
    · rcases ht with hx | hx <;> simp [St.setFr, St.fr, okRet, hx, hb]
    · have : unwB (s.base s.cur) (.cRaise x :: t) = Frame.isCF (.cRaise x : Frame L V E) := by
        rw [unwB_body hb, List.any_cons, hcf, Bool.or_false]
      simp only [St.setFr, St.fr, upd_same]
      rw [hback, this]
      cases x <;> simp [Frame.isCF]
  unfold raiseStep at he
  split at he
  · rename_i o t hfr
    have hfr' : s.frames s.cur = .gObj o :: t := hfr
    rw [hfr'] at hsh
    simp only [okRaiseF, okRaiseU, okPost, Bool.or_false, Bool.and_eq_true] at hsh
    cases he
    exact inv_endObj (hraise t (.inl (okU_tail hsh.1)) hsh.2) _
  · rename_i y t hfr
    have hfr' : s.frames s.cur = .gCoro y :: t := hfr
    rw [hfr'] at hsh
    simp only [okRaiseF, okRaiseU, okPost, Bool.or_false, Bool.and_eq_true] at hsh
    exact inv_destroyHandle (h.mid.local _ rfl) (hunw t (.inl (okU_tail hsh.1)) hsh.2) he
  · rename_i sw f t hfr
    have hfr' : s.frames s.cur = .hdl sw f :: t := hfr
    rw [hfr'] at hsh
    simp only [okRaiseF, okRaiseU, okPost, Bool.or_false, Bool.and_eq_true] at hsh
    split at he
    · cases he
      refine inv_eval (h.mid.local t (ctorOf_okU (okU_tail hsh.1))) (by simpa [St.setFr, St.fr] using okU_tail hsh.1) hsh.2 hair ?_ _
      show s.fib (.back s.cur) = none
      cases hx : s.fib (.back s.cur) with
      | none => rfl
      | some b => rw [hx] at hback; simp at hback
    · split at he <;> cases he
      exact hraise t (.inl (okU_tail hsh.1)) hsh.2
  · rename_i l t hfr
    have hfr' : s.frames s.cur = .fnRet l :: t := hfr
    rw [hfr'] at hsh
    simp only [okRaiseF, okRaiseU, okPost, Bool.or_false, Bool.and_eq_true] at hsh
    cases he
    exact hraise t (.inl (okU_tail hsh.1)) hsh.2
  · rename_i k t hfr
    have hfr' : s.frames s.cur = .usr k :: t := hfr
    rw [hfr'] at hsh
    simp only [okRaiseF, okRaiseU, okPost, Bool.and_eq_true, Bool.or_eq_true] at hsh
    have ht : okU t = true := by
      rcases hsh.1 with hx | hx
      · exact okU_tail hx
      · exact hx
    split at he <;> cases he
    · exact inv_emit (hraise t (.inl ht) hsh.2) _
    · exact hraise t (.inl ht) hsh.2
  · rename_i y t hfr
    have hfr' : s.frames s.cur = .fetch y :: t := hfr
    rw [hfr'] at hsh
    simp only [okRaiseF, okRaiseU, okPost, okU, List.all_cons, Frame.isU, Bool.false_and, Bool.false_or, Bool.and_eq_true] at hsh
    cases he
    exact hraise t (.inr (okPost_of_okUsr hsh.1)) hsh.2
  · rename_i y t hfr
    have hfr' : s.frames s.cur = .pfetch y :: t := hfr
    rw [hfr'] at hsh
    simp only [okRaiseF, okRaiseU, okPost, okU, List.all_cons, Frame.isU, Bool.false_and, Bool.false_or, Bool.and_eq_true] at hsh
    cases he
    exact hraise t (.inr (okPost_of_okUsr hsh.1)) hsh.2
  · rename_i y t hfr
    have hfr' : s.frames s.cur = .resid y :: t := hfr
    rw [hfr'] at hsh
    simp only [okRaiseF, okRaiseU, okPost, okU, List.all_cons, Frame.isU, Bool.false_and, Bool.false_or, Bool.and_eq_true] at hsh
    cases he
    exact hraise t (.inr (okPost_of_okUsr hsh.1)) hsh.2
  · rename_i y t hfr
    have hfr' : s.frames s.cur = .asg y :: t := hfr
    rw [hfr'] at hsh
    simp only [okRaiseF, Bool.and_eq_true] at hsh
    cases he
    exact hraise t (.inr hsh.1) hsh.2
  · rename_i k t hfr
    have hfr' : s.frames s.cur = .pullCtor k :: t := hfr
    rw [hfr'] at hsh
    simp only [okRaiseF, Bool.and_eq_true] at hsh
    have hcto : ctorOf (s.frames s.cur) = some k := by rw [hfr']; rfl
    refine inv_ctorDies (k := k) (s := s.setFr (.cRaise x :: t)) (h.mid.local _ rfl) (hunw t (.inr hsh.1) hsh.2)
      (h.hok.ctor _ _ hcto) (fun y hy hyy hcc => (h.hok.own y hy k hyy hcc).2 _ hcto) (h.hok.popCtor hcto rfl) ?_
    exact he
  · rename_i k t hfr
    have hfr' : s.frames s.cur = .pushCtor k :: t := hfr
    rw [hfr'] at hsh
    simp only [okRaiseF, Bool.and_eq_true] at hsh
    have hcto : ctorOf (s.frames s.cur) = some k := by rw [hfr']; rfl
    refine inv_ctorDies (k := k) (s := s.setFr (.cRaise x :: t)) (h.mid.local _ rfl) (hunw t (.inr hsh.1) hsh.2)
      (h.hok.ctor _ _ hcto) (fun y hy hyy hcc => (h.hok.own y hy k hyy hcc).2 _ hcto) (h.hok.popCtor hcto rfl) ?_
    exact he
  · rename_i hfr
    split at he
    · cases he
    · rename_i y e hbase
      have hb0 : s.fib (.back s.cur) = none := by
        cases hx : s.fib (.back s.cur) with
        | none => rfl
        | some b => rw [hx] at hback; simp at hback
      split at he
      · refine inv_finish (s := storeExcept ((dropFn s s.cur).emit (.fin s.cur (some e))) s.cur e) (x := y) s.cbs
          h.sched h.cb h.hok ?_ ?_ ?_ ?_ hbase hfr hb0 hair he
        all_goals simp [dropFn, St.emit, storeExcept, St.setCb]
      · cases he
    · rename_i y hbase
      refine inv_leaveLambda (s := dropFn s s.cur) ⟨h.sched, h.cb, h.hok⟩ (.inl ⟨_, hbase⟩) hfr (hback.2 rfl) hair he
    · rename_i y f hbase
      exact inv_leaveLambda h.mid (.inr (.inl ⟨_, _, hbase⟩)) hfr (hback.2 rfl) hair he
    · rename_i y hbase
      exact inv_leaveLambda h.mid (.inr (.inr ⟨_, hbase⟩)) hfr (hback.2 rfl) hair he
    · rename_i f hbase
      have hfr' : s.frames s.cur = [] := hfr
      rw [hbase, hfr'] at hsh
      simp [okRaiseF] at hsh
    · cases he
  · cases he

theorem HOk.moveCtor {hs : Nat → Option Handle} {nh nk : Nat} {cbs : CbRef → CB V E}
    {frames : Nat → List (Frame L V E)} {kind : Nat → Kind} {va : Nat → Var} {x : Nat} {hd : Handle}
    (h : HOk hs nh nk cbs frames kind va) (hx : hs x = some hd) :
    HOk (upd (upd hs x (some { hd with cb := none })) nh (some hd)) (nh + 1) nk cbs frames kind va := by
  have h0 : HOk (upd hs x (some { hd with cb := none })) nh nk cbs frames kind va := by
    obtain ⟨h1, h2, h3, h4, h5, h6, h7⟩ := h
    refine ⟨?_, ?_, ?_, ?_, h5, h6, h7⟩
    · intro y hy
      by_cases hyx : y = x
      · exact h1 y (by rw [hyx, hx]; simp)
      · exact h1 y (by simpa [upd, hyx] using hy)
    · intro y y' hd1 hd2 r e1 e2 e3 e4
      by_cases hyx : y = x
      · simp [upd, hyx] at e1; subst e1; simp at e3
      · by_cases hyx' : y' = x
        · simp [upd, hyx'] at e2; subst e2; simp at e4
        · simp [upd, hyx] at e1; simp [upd, hyx'] at e2; exact h2 y y' hd1 hd2 r e1 e2 e3 e4
    · intro y hd1 k e1 e2
      by_cases hyx : y = x
      · simp [upd, hyx] at e1; subst e1; simp at e2
      · simp [upd, hyx] at e1; exact h3 y hd1 k e1 e2
    · intro y hd1 r e1 e2
      by_cases hyx : y = x
      · simp [upd, hyx] at e1; subst e1; simp at e2
      · simp [upd, hyx] at e1; exact h4 y hd1 r e1 e2
  refine h0.new hd (fun k hk => h.own x hd k hx hk) (fun r hr => h.born x hd r hx hr) ?_
  intro r y hy e1 e2 e3
  by_cases hyx : y = x
  · simp [upd, hyx] at e1; subst e1; simp at e2
  · simp [upd, hyx] at e1
    exact hyx (h.uniq y x hy hd r e1 hx e2 e3)

theorem HOk.swap {hs : Nat → Option Handle} {nh nk : Nat} {cbs : CbRef → CB V E}
    {frames : Nat → List (Frame L V E)} {kind : Nat → Kind} {va : Nat → Var} {d c : Nat} {hd hc : Handle}
    (h : HOk hs nh nk cbs frames kind va) (hd' : hs d = some hd) (hc' : hs c = some hc)
    (ht : hd.ty = hc.ty ∧ hd.va = hc.va) :
    HOk (upd (upd hs d (some { hd with cb := hc.cb })) c (some { hc with cb := hd.cb })) nh nk cbs frames kind va := by
  obtain ⟨h1, h2, h3, h4, h5, h6, h7⟩ := h
  -- where a block is found afterwards, and where it was before
  have key : ∀ y hy, (upd (upd hs d (some { hd with cb := hc.cb })) c (some { hc with cb := hd.cb })) y = some hy →
      ∃ hy0, hs (if y = c then d else if y = d then c else y) = some hy0 ∧ hy0.cb = hy.cb ∧ hy0.ty = hy.ty ∧ hy0.va = hy.va := by
    intro y hy e
    by_cases hyc : y = c
    · simp [upd, hyc] at e; subst e
      exact ⟨hd, by simp [hyc, hd'], rfl, by simp [ht.1], by simp [ht.2]⟩
    · by_cases hyd : y = d
      · simp [upd, hyc, hyd] at e
        have hdc : d ≠ c := by rintro rfl; exact hyc hyd
        simp [hdc] at e
        subst e
        exact ⟨hc, by simp [hyd, hdc, hc'], rfl, by simp [ht.1], by simp [ht.2]⟩
      · simp [upd, hyc, hyd] at e
        exact ⟨hy, by simp [hyc, hyd, e], rfl, rfl, rfl⟩
  refine ⟨?_, ?_, ?_, ?_, h5, h6, h7⟩
  · intro y hy
    by_cases hyc : y = c
    · exact h1 y (by rw [hyc, hc']; simp)
    · by_cases hyd : y = d
      · exact h1 y (by rw [hyd, hd']; simp)
      · exact h1 y (by simpa [upd, hyc, hyd] using hy)
  · intro y y' hy hy' r e1 e2 e3 e4
    obtain ⟨a, a1, a2, _, _⟩ := key y hy e1
    obtain ⟨b, b1, b2, _, _⟩ := key y' hy' e2
    have := h2 _ _ a b r a1 b1 (by rw [a2, e3]) (by rw [b2, e4])
    grind
  · intro y hy k e1 e2
    obtain ⟨a, a1, a2, _, _⟩ := key y hy e1
    exact h3 _ a k a1 (by rw [a2, e2])
  · intro y hy r e1 e2
    obtain ⟨a, a1, a2, a3, a4⟩ := key y hy e1
    have := h4 _ a r a1 (by rw [a2, e2])
    rw [← a3, ← a4]; exact this

theorem inv_apiStep {P : Prog L G V E} {s s' : St L G V E} {op : Op L V E} (h : Mid s) (hr : ApiOk s)
    (he : apiStep P s op = .next s') : Inv s' := by
  have hdel : ∀ v, Inv (s.withCtl (.deliver v)) := fun v => inv_deliver h hr.ret v
  unfold apiStep at he
  split at he
  · exact inv_mkOp h hr h.nk_pos he
  · exact inv_pullOp h hr (fun fs hf => by simpa using okPost_of_okUsr hf) he
  · refine inv_pushOp h hr ?_ he
    intro v fs hf
    cases v with
    | none => simpa using okPost_of_okUsr hf
    | some v => simpa [okPost] using hf
  · split at he
    · rename_i o hrs
      unfold readSlot at hrs
      subst he
      split at hrs
      · cases hrs
      · split at hrs
        · split at hrs
          · cases hrs
          · split at hrs
            · split at hrs <;> cases hrs
            · cases hrs
        · cases hrs
    · rename_i r v hrs
      cases he
      split
      · have := h.slot r (.live (P.mv v)) (s.cbs r).bvalid (.got r.co v :: s.log)
        exact inv_deliver this ⟨hr.ret.shape, hr.ret.air, hr.ret.back⟩ _
      · exact inv_emit (hdel _) _
  · split at he <;> cases he
    exact hdel _
  · split at he <;> cases he
    exact hdel _
  · split at he
    · cases he
    · rename_i x hd hx
      cases he
      exact ⟨h.sched, h.cb, h.hok.moveCtor hx, hr.ret.shape, hr.ret.air, hr.ret.back⟩
  · split at he
    · rename_i hd hc hx hy
      split at he
      · split at he
        · cases he; exact hdel _
        · cases he
          exact ⟨h.sched, h.cb, h.hok.swap hx hy ‹_›, hr.ret.shape, hr.ret.air, hr.ret.back⟩
      · cases he
    · cases he
  · exact inv_destroyHandle h hr.ret he
  · split at he
    · cases he
    · split at he
      · cases he
      · split at he
        · cases he; exact hdel _
        · split at he <;> cases he
          exact hdel _
  · split at he
    · cases he
    · exact inv_pullOp h hr (fun fs hf => by simpa [okPost] using hf) he
  · split at he
    · cases he
    · split at he
      · rename_i o hrs
        unfold readSlot at hrs
        subst he
        split at hrs
        · cases hrs
        · split at hrs
          · split at hrs
            · cases hrs
            · split at hrs
              · split at hrs <;> cases hrs
              · cases hrs
          · cases hrs
      · cases he
        exact inv_emit (hdel _) _
  · split at he
    · cases he
    · split at he
      · cases he
      · exact inv_pushOp h hr (fun v fs hf => by simpa [okPost] using hf) he

theorem inv_evalStep {P : Prog L G V E} {s s' : St L G V E} {l : L} (h : Inv s) (hc : s.ctl = .eval l)
    (he : evalStep P s l = .next s') : Inv s' := by
  have hctl := h.ctl
  rw [hc] at hctl
  obtain ⟨hsh, hbody, hair, hback⟩ := hctl
  have hpush : ∀ f : Frame L V E, f.isU = true → ∀ l', Inv ((s.pushFr f).withCtl (.eval l')) := by
    intro f hf l'
    have hok : okU (f :: s.frames s.cur) = true := by
      simp only [okU, List.all_cons, Bool.and_eq_true]; exact ⟨hf, hsh⟩
    exact inv_eval (h.mid.local _ (ctorOf_okU hok)) (by simpa [St.setFr, St.fr] using hok) hbody hair hback _
  have hpop : ∀ (f : Frame L V E) t, s.fr = f :: t → ∀ l', Inv ((s.setFr t).withCtl (.eval l')) := by
    intro f t hfr l'
    have hfr' : s.frames s.cur = f :: t := hfr
    rw [hfr'] at hsh
    exact inv_eval (h.mid.local t (ctorOf_okU (okU_tail hsh))) (by simpa [St.setFr, St.fr] using okU_tail hsh) hbody hair hback _
  unfold evalStep at he
  split at he
  · cases he
    exact ⟨h.sched, h.cb, h.hok, hsh, hbody, hair, hback⟩
  · cases he
    exact inv_emit (hpush _ rfl _) _
  · cases he; exact hpush _ rfl _
  · split at he
    · cases he; exact inv_endObj (P := P) (hpop _ _ ‹_› _) _
    · rename_i x t hfr
      have hfr' : s.frames s.cur = .gCoro x :: t := hfr
      rw [hfr'] at hsh
      have ht := okU_tail hsh
      refine inv_destroyHandle (h.mid.local _ rfl) ⟨?_, hair, ?_⟩ he
      · simp [St.setFr, St.fr, okRet, ht, hbody]
      · simp [St.setFr, St.fr, unwB_body hbody, hback]
        have := okU_noCF ht
        exact ⟨rfl, by simpa using this⟩
    · cases he
  · cases he; exact hpush _ rfl _
  · split at he
    · cases he; exact hpop _ _ ‹_› _
    · cases he
  · cases he; exact hpush _ rfl _
  · cases he
    exact inv_retn h.mid hsh hbody hair hback
  · cases he
    refine inv_raiseU h.mid ?_ hair hback _
    have : okU s.fr = true := hsh
    simp [okRaiseU, this, hbody]
  · refine inv_apiStep (h.mid.local _ rfl) ⟨?_, hbody, hair, hback⟩ he
    simpa [St.setFr, St.fr, okUsr] using hsh

/-- **The structural invariant is inductive.** -/
theorem inv_step {P : Prog L G V E} {s s' : St L G V E} (h : Inv s) (he : step P s = .next s') : Inv s' := by
  unfold step at he
  split at he
  · exact inv_evalStep h ‹_› he
  · exact inv_deliverStep h ‹_› he
  · exact inv_raiseStep h ‹_› he
  · exact inv_retStep h ‹_› he
  · exact inv_recv h ‹_› he

theorem inv_reach {P : Prog L G V E} {l0 : L} {g0 : G} {s : St L G V E} (h : Reach P l0 g0 s) : Inv s := by
  induction h with
  | init => exact inv_init l0 g0
  | step _ he ih => exact inv_step ih he

end Verif
