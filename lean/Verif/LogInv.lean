import Verif.CtorInv
import Verif.Spec

/-! # Events only mention coroutines that exist. Proof material. -/
namespace Verif
variable {L G V E : Type}

def LogFresh (s : St L G V E) : Prop := ∀ e ∈ s.log, ∀ k, e.about = some k → k < s.nk

theorem LogFresh.append {s s' : St L G V E} {evs : List (Ev V E)} (h : LogFresh s) (hl : s'.log = evs ++ s.log)
    (hn : s.nk ≤ s'.nk) (he : ∀ e ∈ evs, ∀ k, e.about = some k → k < s'.nk) : LogFresh s' := by
  intro e hm k hk
  rw [hl, List.mem_append] at hm
  rcases hm with hm | hm
  · exact he e hm k hk
  · exact Nat.lt_of_lt_of_le (h e hm k hk) hn

theorem readSlot_ok {s : St L G V E} {h : Nat} {r : CbRef} {v : V} (hr : readSlot s h = .ok (r, v)) :
    ∃ hd, s.hs h = some hd ∧ hd.ty = .pull ∧ hd.va ≠ .void ∧ hd.cb = some r ∧ (s.cbs r).life = .alive ∧
      (s.cbs r).slot = .live v := by
  unfold readSlot at hr
  split at hr
  · cases hr
  · rename_i hd hh
    split at hr
    · rename_i hty
      split at hr
      · cases hr
      · rename_i r' hcb
        split at hr
        · rename_i hal
          split at hr
          · rename_i v' hsl
            cases hr
            exact ⟨hd, hh, hty.1, hty.2, hcb, hal, hsl⟩
          · cases hr
          · cases hr
        · cases hr
    · cases hr

theorem Dtor.about {kd : Kind} {va : Var} {b : CB V E} {r : CbRef} {sl : Slot V} {evs : List (Ev V E)}
    (h : Dtor kd va b r sl evs) : ∀ e ∈ evs, ∀ k, e.about = some k → k = r.co := by
  cases h <;> simp [Ev.about]
theorem SetOk.about {mv : V → V} {va : Var} {b b' : CB V E} {j : Nat} {a : PushArg V E} {evs : List (Ev V E)} {w : Option V}
    (h : SetOk mv va b j a b' evs w) : ∀ e ∈ evs, ∀ k, e.about = some k → k = j := by
  cases h <;> simp [Ev.about]
theorem SetThrows.about {va : Var} {b b' : CB V E} {j : Nat} {evs : List (Ev V E)}
    (h : SetThrows va b j b' evs) : ∀ e ∈ evs, ∀ k, e.about = some k → k = j := by
  cases h <;> simp [Ev.about]

theorem Scope.log {P : Prog L G V E} {s s1 : St L G V E} {h : Nat} (hs : Scope P s h s1) :
    s1.log = s.log ∨ (s1.log = .fnDtor s.cur :: s.log) := by
  cases hs <;> simp

theorem Dying.log {P : Prog L G V E} {s s0 : St L G V E} {f : Option Nat} (hs : Dying P s f s0) (hi : Inv s) :
    ∃ evs, s0.log = evs ++ s.log ∧ ∀ e ∈ evs, ∀ k, e.about = some k → k < s.nk := by
  have hcur := hi.sched.lt_nk s.cur hi.sched.cur_live
  cases hs
  case handle h s1 hd k sl evs hsc h1 h2 h3 h4 =>
    obtain ⟨e1, e2, e3, e4, e5, e6, e7, e8, e9, e10, e11⟩ := hsc.eqs
    have hk : k < s.nk := hi.cb.lt_nk (r := ⟨k, .own⟩) (by rw [← e2, h3]; simp)
    rcases hsc.log with hl | hl
    · refine ⟨evs, by simp [hl], ?_⟩
      intro e he j hj
      rw [h4.about e he j hj]; exact hk
    · refine ⟨evs ++ [.fnDtor s.cur], by simp [hl], ?_⟩
      intro e he j hj
      rw [List.mem_append] at he
      rcases he with he | he
      · rw [h4.about e he j hj]; exact hk
      · simp at he; subst he; simp [Ev.about] at hj; omega
  case ctorInvalid k _ _ _ _ _ _ _ h3 _ _ _ _ h4 =>
    have hk : k < s.nk := hi.cb.lt_nk (r := ⟨k, .own⟩) (by rw [h3]; simp)
    refine ⟨_, rfl, ?_⟩
    intro e he j hj
    rw [h4.about e he j hj]; exact hk
  case ctorThrow k _ _ _ _ _ _ h3 _ _ _ =>
    have hk : k < s.nk := hi.cb.lt_nk (r := ⟨k, .own⟩) (by rw [h3]; simp)
    refine ⟨[_], rfl, ?_⟩
    simp [Ev.about]; exact hk
  case ctorUnw => exact ⟨[], rfl, by simp⟩
  case syn h4 =>
    refine ⟨_, rfl, ?_⟩
    intro e he j hj
    rw [h4.about e he j hj]; exact hcur

theorem Step.logFresh {P : Prog L G V E} {s s' : St L G V E} (hs : Step P s s') (hi : Inv s) (hl : LogFresh s) :
    LogFresh s' := by
  have hcur := hi.sched.lt_nk s.cur hi.sched.cur_live
  have hal : ∀ r : CbRef, (s.cbs r).life = .alive → r.co < s.nk := fun r h => hi.cb.lt_nk (by rw [h]; simp)
  cases hs
  case loc h =>
    refine hl.append rfl (Nat.le_refl _) ?_
    cases h <;> simp [Ev.about]
    rename_i h
    obtain ⟨hd, -, -, -, -, h5, -⟩ := readSlot_ok h
    exact hal _ h5
  case get h =>
    obtain ⟨hd, -, -, -, -, h5, -⟩ := readSlot_ok h
    exact hl.append (evs := [_]) rfl (Nat.le_refl _) (by simp [Ev.about]; exact hal _ h5)
  case moveCtor => exact hl
  case moveAssign => exact hl
  case ctorDrop => exact hl
  case mkFn => exact hl.append (evs := [_]) rfl (Nat.le_succ _) (by simp [Ev.about])
  case mk => exact hl.append (evs := [_, _, _]) rfl (Nat.le_succ _) (by simp [Ev.about])
  case pushThrow h1 _ h2 _ h =>
    refine hl.append rfl (Nat.le_refl _) ?_
    intro e he k hk
    rw [h.about e he k hk]; exact hal _ h1
  case push h1 _ _ h _ =>
    refine hl.append (evs := _ :: _) rfl (Nat.le_refl _) ?_
    intro e he k hk
    rcases List.mem_cons.1 he with rfl | he
    · simp [Ev.about] at hk; rw [← hk]; exact hal _ h1
    · rw [h.about e he k hk]; exact hal _ h1
  case pull h1 _ =>
    exact hl.append (evs := [_]) rfl (Nat.le_refl _) (by simp [Ev.about]; exact hal _ h1)
  case enterPull => exact hl.append (evs := [_]) rfl (Nat.le_refl _) (by simp [Ev.about]; exact hcur)
  case enterPush => exact hl.append (evs := [_]) rfl (Nat.le_refl _) (by simp [Ev.about]; exact hcur)
  case startPush => exact hl.append (evs := [_]) rfl (Nat.le_refl _) (by simp [Ev.about]; exact hcur)
  case wait => exact hl
  case asg => exact hl
  case asgThrow h1 _ _ _ => exact hl.append (evs := [_]) rfl (Nat.le_refl _) (by simp [Ev.about]; exact hal _ h1)
  case pullCtor => exact hl
  case pushCtor => exact hl
  case fin => exact hl.append (evs := [_, _, _]) rfl (Nat.le_refl _) (by simp [Ev.about]; exact hcur)
  case nop hsc _ _ =>
    have e7 := hsc.eqs.2.2.2.2.2.2.1
    rcases hsc.log with h | h
    · exact hl.append (evs := []) h (Nat.le_of_eq e7.symm) (by simp)
    · exact hl.append (evs := [_]) h (Nat.le_of_eq e7.symm) (by simp [Ev.about, e7]; exact hcur)
  case dropNone hd =>
    have e7 := hd.eqs.2.2.2.2.1
    obtain ⟨evs, h1, h2⟩ := hd.log hi
    exact hl.append h1 (Nat.le_of_eq e7.symm) (by simpa [e7] using h2)
  case dropSome hd =>
    have e7 := hd.eqs.2.2.2.2.1
    obtain ⟨evs, h1, h2⟩ := hd.log hi
    refine hl.append (evs := _ :: evs) (by simp [h1]; rfl) (Nat.le_of_eq e7.symm) ?_
    intro e he k hk
    rcases List.mem_cons.1 he with rfl | he
    · simp [Ev.about] at hk
    · simpa [e7] using h2 e he k hk
  case exit =>
    refine hl.append (evs := .dealloc s.cur :: (if s.fnObj s.cur = .record then [.fnDtor s.cur] else [])) rfl (Nat.le_refl _) ?_
    split <;> simp [Ev.about] <;> exact hcur

theorem logFresh_reach {P : Prog L G V E} {l0 : L} {g0 : G} {s : St L G V E} (h : Reach P l0 g0 s) : LogFresh s := by
  induction h with
  | init => intro e he; simp [init] at he
  | step hr hs ih =>
    have hi := inv_reach hr
    exact (step_rel hi hs).logFresh hi ih

end Verif
