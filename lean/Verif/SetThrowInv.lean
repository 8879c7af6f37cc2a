import Verif.SlotInv
import Verif.Switch

/-! # Only values are copied.  Proof material. -/
namespace Verif
variable {L G V E : Type} {P : Prog L G V E} {l0 : L} {g0 : G} {s s' : St L G V E}

theorem nSetThrow_app {c : Nat} {a l : List (Ev V E)} (h : ∀ e ∈ a, Ev.isSetThrow c e = false) : nSetThrow c (a ++ l) = nSetThrow c l := by
  simp only [nSetThrow, List.countP_append]
  rw [List.countP_eq_zero.2]
  · simp
  · intro e he; simp [h e he]

theorem Scope.setThrow {h : Nat} (hs : Scope P s h s') (c : Nat) : nSetThrow c s'.log = nSetThrow c s.log := by
  cases hs <;> simp [nSetThrow, List.countP_cons, Ev.isSetThrow]

theorem Dtor.setThrow {kd : Kind} {va : Var} {b : CB V E} {r : CbRef} {sl : Slot V} {evs : List (Ev V E)} (h : Dtor kd va b r sl evs)
    (c : Nat) : ∀ e ∈ evs, Ev.isSetThrow c e = false := by
  cases h <;> simp [Ev.isSetThrow]

theorem Dying.setThrow {f : Option Nat} (hs : Dying P s f s') (c : Nat) : nSetThrow c s'.log = nSetThrow c s.log := by
  cases hs
  case handle hsc _ _ _ hd => rw [nSetThrow_app (hd.setThrow c)]; exact hsc.setThrow c
  case ctorInvalid hd => exact nSetThrow_app (hd.setThrow c)
  case ctorThrow => simp [nSetThrow, List.countP_cons, Ev.isSetThrow]
  case ctorUnw => rfl
  case syn hd => exact nSetThrow_app (hd.setThrow c)

theorem Step.setThrow (hs : Step P s s') (hi : Inv s) (c : Nat) (hv : s.va c ≠ .val ∨ s.nk ≤ c) :
    nSetThrow c s'.log = nSetThrow c s.log := by
  cases hs
  case loc h => exact nSetThrow_app (by cases h <;> simp [Ev.isSetThrow])
  case pushThrow r b evs e _ _ _ _ _ _ hal _ _ _ hst =>
    refine nSetThrow_app ?_
    have : r.co ≠ c := by
      rintro rfl
      rcases hv with hv | hv
      · cases hst <;> contradiction
      · have := hi.cb.lt_nk (r := r) (by rw [hal]; simp); omega
    cases hst <;> simp [Ev.isSetThrow, this]
  case push hso _ =>
    show nSetThrow c (_ :: (_ ++ _)) = _
    rw [← List.cons_append]
    exact nSetThrow_app (by cases hso <;> simp [Ev.isSetThrow])
  case nop hsc _ _ => exact hsc.setThrow c
  case dropNone hd => exact hd.setThrow c
  case dropSome hd =>
    show nSetThrow c (_ :: _) = _
    rw [nSetThrow, List.countP_cons, if_neg (by simp [Ev.isSetThrow])]
    exact hd.setThrow c
  all_goals (try simp only [nSetThrow, List.countP_cons, Ev.isSetThrow]) <;> (try rfl) <;> (try simp) <;>
    (split <;> simp [Ev.isSetThrow])

theorem Scope.va {h : Nat} (hs : Scope P s h s') : s'.va = s.va := by cases hs <;> rfl

theorem Dying.va : ∀ {f : Option Nat} {s' : St L G V E}, Dying P s f s' → s'.va = s.va := by
  intro f s' hd
  cases hd <;> (try rfl)
  case handle hsc _ _ _ _ => exact hsc.va

theorem Step.va (hs : Step P s s') (c : Nat) (hn : c ≠ s.nk) : s'.va c = s.va c := by
  cases hs <;> (try rfl) <;> (try simp [upd, hn])
  case nop hsc _ _ => rw [hsc.va]
  case dropNone hd => rw [hd.va]
  case dropSome hd => rw [hd.va]

theorem setThrow_reach (hr : Reach P l0 g0 s) : ∀ c, s.va c ≠ .val → nSetThrow c s.log = 0 := by
  induction hr with
  | init => intro c _; rfl
  | @step s s' hr hs ih =>
    intro c hv
    have hi := inv_reach hr
    have hst := step_rel hi hs
    by_cases hn : c = s.nk
    · rw [hst.setThrow hi c (.inr (by omega))]
      have hl := logFresh_reach hr
      refine List.countP_eq_zero.2 ?_
      intro e he hx
      have := hl e he
      cases e <;> simp [Ev.isSetThrow, Ev.about] at hx this
      omega
    · rw [hst.va c hn] at hv
      rw [hst.setThrow hi c (.inl hv)]; exact ih c hv

end Verif
