import Verif.Rel2

/-! # `imp` is unreachable: the model elaborates every situation that can occur. Proof material only. -/
namespace Verif
variable {L G V E : Type}

theorem fiberResume_noImp {s t : St L G V E} {l : FLoc} {r : CbRef} : fiberResume s l r ≠ .imp t := by
  unfold fiberResume; split <;> simp

theorem fiberDrop_noImp {s t : St L G V E} {f : Option Nat} : fiberDrop s f ≠ .imp t := by
  unfold fiberDrop; split <;> simp

theorem destroyCb_noImp {s t : St L G V E} {r : CbRef} : destroyCb s r ≠ .imp t := by
  unfold destroyCb; simp only
  split
  · simp
  · exact fiberDrop_noImp

theorem deallocate_noImp {s t : St L G V E} {r : CbRef} : deallocate s r ≠ .imp t := by
  unfold deallocate
  split
  · split
    · exact destroyCb_noImp
    · simp
  · simp

theorem destroyHandle_noImp {s t : St L G V E} {h : Nat} : destroyHandle s h ≠ .imp t := by
  unfold destroyHandle
  split
  · simp
  · simp only
    split
    · simp
    · exact deallocate_noImp

theorem cbResume_noImp {s t : St L G V E} {r : CbRef} : cbResume s r ≠ .imp t := by
  unfold cbResume; split
  · exact fiberResume_noImp
  · simp

theorem pullOp_noImp {s t : St L G V E} {h : Nat} {p : List (Frame L V E)} : pullOp s h p ≠ .imp t := by
  unfold pullOp
  split
  · simp
  · split
    · split
      · simp
      · exact cbResume_noImp
    · simp

theorem pushOp_noImp {P : Prog L G V E} {s t : St L G V E} {h : Nat} {a : PushArg V E} {p : Option V → List (Frame L V E)} :
    pushOp P s h a p ≠ .imp t := by
  unfold pushOp
  split
  · simp
  · split
    · split
      · simp
      · split
        · split
          · simp
          · split
            · split
              · simp
              · simp
              · simp
              · exact cbResume_noImp
            · simp
        · simp
    · simp

theorem readSlot_noImp {s t : St L G V E} {h : Nat} {o : Out (St L G V E)} (hr : readSlot s h = .error o) : o ≠ .imp t := by
  rintro rfl
  unfold readSlot at hr
  split at hr
  · cases hr
  · split at hr
    · split at hr
      · cases hr
      · split at hr
        · split at hr <;> cases hr
        · cases hr
    · cases hr

theorem apiStep_noImp {P : Prog L G V E} {s t : St L G V E} {op : Op L V E} : apiStep P s op ≠ .imp t := by
  unfold apiStep
  split
  · unfold mkOp
    split
    · simp
    · simp
    · exact fiberResume_noImp
  · exact pullOp_noImp
  · exact pushOp_noImp
  · split
    · exact readSlot_noImp ‹_›
    · simp
  · split <;> simp
  · split <;> simp
  · split <;> simp
  · split
    · split
      · split <;> simp
      · simp
    · simp
  · exact destroyHandle_noImp
  · split
    · simp
    · split
      · simp
      · split
        · simp
        · split <;> simp
  · split
    · simp
    · exact pullOp_noImp
  · split
    · simp
    · split
      · exact readSlot_noImp ‹_›
      · simp
  · split
    · simp
    · split
      · simp
      · exact pushOp_noImp

theorem finish_noImp {s t : St L G V E} {h : Nat} : finish s h ≠ .imp t := by
  unfold finish; simp only
  split
  · split
    · simp
    · split
      · exact fiberResume_noImp
      · simp
  · simp

theorem startFn_noImp {s t : St L G V E} {h : Nat} {fn : Nat → L} : startFn s h fn ≠ .imp t := by
  unfold startFn; simp only
  split
  · split
    · exact finish_noImp
    · simp
  · simp

theorem enterLambda_noImp {s t : St L G V E} {fn : Nat → L} : enterLambda s fn ≠ .imp t := by
  unfold enterLambda
  split
  · split
    · exact startFn_noImp
    · exact fiberResume_noImp
  · simp

theorem leaveLambda_noImp {s t : St L G V E} {h : Nat} : leaveLambda s h ≠ .imp t := destroyHandle_noImp

theorem eval_noImp {P : Prog L G V E} {s t : St L G V E} {l : L} : evalStep P s l ≠ .imp t := by
  unfold evalStep
  split
  · simp
  · simp
  · simp
  · split
    · simp
    · exact destroyHandle_noImp
    · simp
  · simp
  · split <;> simp
  · simp
  · simp
  · simp
  · exact apiStep_noImp

theorem deliver_noImp {s t : St L G V E} {v : Res V} (hi : Inv s) (hc : s.ctl = .deliver v) :
    deliverStep s v ≠ .imp t := by
  have hctl := hi.ctl
  rw [hc] at hctl
  obtain ⟨hsh, hair, hback⟩ := hctl
  cases hx : s.fr with
  | nil =>
    have hfr' : s.frames s.cur = [] := hx
    rw [hfr'] at hsh hback
    unfold deliverStep
    simp only [hx]
    split
    · unfold leaveLambdaCb
      simp only
      split
      · simp
      · exact fiberDrop_noImp
    · rename_i hb
      unfold exitCtx
      simp only
      split
      · rename_i hbk
        rw [hbk, hb] at hback
        simp [unwB, Base.isLam] at hback
      · split <;> simp
    · rename_i h1 h2
      clear hback hi hc
      cases hb : s.base s.cur <;> rw [hb] at hsh <;> simp_all [okRet, Base.isLam]
  | cons f tl =>
    have hfr' : s.frames s.cur = f :: tl := hx
    rw [hfr'] at hsh
    clear hback hi hc
    unfold deliverStep
    simp only [hx]
    cases f <;> simp only <;> first
      | (simp only [okRet] at hsh; contradiction)
      | (simp; done)
      | (split <;> simp; done)
      | (split <;> (try split) <;> simp; done)

theorem raise_noImp {s t : St L G V E} {x : Exn E} (hi : Inv s) (hc : s.ctl = .raise x) :
    raiseStep P s x ≠ .imp t := by
  have hctl := hi.ctl
  rw [hc] at hctl
  have hsh : okRaiseF (s.base s.cur) (s.frames s.cur) = true := by
    cases x with
    | user e =>
      have h1 := hctl.1
      simp only [okRaiseU, Bool.and_eq_true, Bool.or_eq_true] at h1
      rcases h1.1 with hx | hx
      · exact okRaiseF_okU hx h1.2
      · exact okRaiseF_okPost hx h1.2
    | forced => exact hctl.1
  have hbU : ∀ e, x = .user e → (s.base s.cur).isBody = true := by
    rintro e rfl
    have h1 := hctl.1
    simp only [okRaiseU, Bool.and_eq_true] at h1
    exact h1.2
  clear hctl hc hi
  cases hx : s.fr with
  | nil =>
    have hfr' : s.frames s.cur = [] := hx
    rw [hfr'] at hsh
    unfold raiseStep
    simp only [hx]
    split
    · simp
    · split
      · exact finish_noImp
      · simp
    · exact leaveLambda_noImp
    · exact leaveLambda_noImp
    · exact leaveLambda_noImp
    · rename_i hb; rw [hb] at hsh; simp [okRaiseF] at hsh
    · rename_i y _ _ h1 h2 h3 h4 h5 h6
      exfalso
      cases y with
      | forced => cases hb : s.base s.cur <;> rw [hb] at hsh <;> simp_all [okRaiseF]
      | user e =>
        have := hbU e rfl
        cases hb : s.base s.cur <;> rw [hb] at this <;> simp_all [Base.isBody]
  | cons f tl =>
    have hfr' : s.frames s.cur = f :: tl := hx
    rw [hfr'] at hsh
    unfold raiseStep
    simp only [hx]
    cases f <;> simp only <;> first
      | (simp [okRaiseF, okRaiseU, okU, okPost, Frame.isU] at hsh; done)
      | (simp; done)
      | exact destroyHandle_noImp
      | exact fiberDrop_noImp
      | (split <;> simp; done)
      | (split <;> (try split) <;> simp; done)

theorem ret_noImp {s t : St L G V E} (hi : Inv s) (hc : s.ctl = .retn) : retStep P s ≠ .imp t := by
  have hctl := hi.ctl
  rw [hc] at hctl
  obtain ⟨hsh, hbody, -, -⟩ := hctl
  clear hc hi
  cases hx : s.fr with
  | nil =>
    unfold retStep
    simp only [hx]
    split
    · simp
    · split
      · exact finish_noImp
      · simp
    · cases hb : s.base s.cur <;> rw [hb] at hbody <;> simp_all [Base.isBody]
  | cons f tl =>
    have hfr' : s.frames s.cur = f :: tl := hx
    rw [hfr'] at hsh
    unfold retStep
    simp only [hx]
    cases f <;> simp only <;> first
      | (simp [okU, Frame.isU] at hsh; done)
      | (simp; done)
      | exact destroyHandle_noImp

theorem recv_noImp {P : Prog L G V E} {s t : St L G V E} (hi : Inv s) (hc : s.ctl = .recv) : recvStep P s ≠ .imp t := by
  have hctl := hi.ctl
  rw [hc] at hctl
  obtain ⟨hsh, -⟩ := hctl
  cases hx : s.fr with
  | nil =>
    have hfr' : s.frames s.cur = [] := hx
    rw [hfr'] at hsh
    unfold recvStep
    simp only [hx]
    split
    · exact enterLambda_noImp
    · rename_i h fn hb
      obtain ⟨u, hu, hn, -, -⟩ := hi.recvAir hc (q := ⟨s.cur, .syn⟩) (by rw [hx, hb]; rfl) (.inr rfl)
      split
      · exact startFn_noImp
      · rename_i h1 h2; rw [hn] at h2; cases h2
      · simp
    · split
      · split
        · exact leaveLambda_noImp
        · simp
      · exact leaveLambda_noImp
    · clear hi hc
      cases hb : s.base s.cur <;> rw [hb] at hsh <;> simp_all [okSw]
  | cons f tl =>
    have hfr' : s.frames s.cur = f :: tl := hx
    rw [hfr'] at hsh
    have hair : ∀ q, hole (s.base s.cur) s.cur s.fr = some q → (s.cbs q).life = .alive → s.fib (.cb q) = none := by
      intro q h1 h2
      obtain ⟨u, hu, hn, -, -⟩ := hi.recvAir hc h1 (.inl h2)
      exact hn
    rw [hx] at hair
    unfold recvStep
    simp only [hx]
    cases f
    case asg r =>
      simp only
      split
      · rename_i hal
        rw [hair r rfl hal]
        simp only
        split <;> simp
      · simp
    case pullCtor k =>
      simp only
      split
      · rename_i hal
        rw [hair ⟨k, .own⟩ rfl hal]
        simp only
        split
        · exact fiberDrop_noImp
        · split
          · simp
          · exact deallocate_noImp
      · simp
    case pushCtor k =>
      simp only
      split
      · rename_i hal
        rw [hair ⟨k, .own⟩ rfl hal]
        simp
      · simp
    case wait => simp
    all_goals simp [okSw] at hsh

theorem no_imp_inv {P : Prog L G V E} {s t : St L G V E} (hi : Inv s) : step P s ≠ .imp t := by
  unfold step
  split
  · exact eval_noImp
  · exact deliver_noImp hi ‹_›
  · exact raise_noImp hi ‹_›
  · exact ret_noImp hi ‹_›
  · exact recv_noImp hi ‹_›

end Verif
