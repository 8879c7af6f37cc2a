import Verif.Unwind
import Verif.SpecObj

/-! # Who writes memory: user code, and the destructors of locals.  Proof material. -/
namespace Verif
variable {L G V E : Type}
variable {P : Prog L G V E} {l0 : L} {g0 : G} {s s' : St L G V E}

theorem effects_append (a b : List (Ev V E)) (g : G) : effects P (a ++ b) g = effects P a (effects P b g) := by
  induction a with
  | nil => rfl
  | cons e a ih => cases e <;> simp [effects, ih]

theorem undone_id (h : ∀ o g, P.dtor o g = g) (os : List Nat) (g : G) : undone P os g = g := by
  induction os with
  | nil => rfl
  | cons o os ih => simpa [undone, h] using ih

theorem Dtor.effects {kd : Kind} {va : Var} {b : CB V E} {r : CbRef} {sl : Slot V} {evs : List (Ev V E)}
    (h : Dtor kd va b r sl evs) (g : G) : Verif.effects P evs g = g := by
  cases h <;> rfl

theorem Scope.mem {h : Nat} (hs : Scope P s h s') : ∃ evs, s'.log = evs ++ s.log ∧ s'.g = effects P evs s.g := by
  cases hs
  all_goals first
    | exact ⟨[], rfl, rfl⟩
    | exact ⟨[_], rfl, rfl⟩
    | exact ⟨[_, _], rfl, rfl⟩

theorem Dying.mem {f : Option Nat} (hs : Dying P s f s') : ∃ evs, s'.log = evs ++ s.log ∧ s'.g = effects P evs s.g := by
  cases hs
  case handle hsc _ _ _ hdt =>
    obtain ⟨evs, h1, h2⟩ := hsc.mem
    exact ⟨_, by rw [h1, ← List.append_assoc], by rw [effects_append, hdt.effects]; exact h2⟩
  case syn hdt => exact ⟨_, rfl, (hdt.effects _).symm⟩
  all_goals first
    | exact ⟨[], rfl, rfl⟩
    | exact ⟨[_], rfl, rfl⟩
    | (rename_i hdt; exact ⟨_, rfl, (hdt.effects _).symm⟩)

theorem Step.mem (hs : Step P s s') : ∃ evs, s'.log = evs ++ s.log ∧ (¬ Computes P s → s'.g = effects P evs s.g) := by
  cases hs
  case loc hl =>
    refine ⟨_, rfl, fun hn => ?_⟩
    cases hl
    case tau h1 h2 => exact absurd ⟨_, _, _, h1, h2⟩ hn
    all_goals rfl
  case pushThrow hst => exact ⟨_, rfl, fun _ => by cases hst <;> rfl⟩
  case push hst _ => exact ⟨_ :: _, rfl, fun _ => by cases hst <;> rfl⟩
  case nop hsc _ _ =>
    obtain ⟨evs, h1, h2⟩ := hsc.mem
    exact ⟨evs, h1, fun _ => h2⟩
  case dropNone hd =>
    obtain ⟨evs, h1, h2⟩ := hd.mem
    exact ⟨evs, h1, fun _ => h2⟩
  case dropSome hd =>
    obtain ⟨evs, h1, h2⟩ := hd.mem
    exact ⟨.unwind _ _ :: evs, congrArg (_ :: ·) h1, fun _ => h2⟩
  case exit => exact ⟨_, rfl, fun _ => by simp only [List.cons_append, effects]; split <;> rfl⟩
  all_goals first
    | exact ⟨[], rfl, fun _ => rfl⟩
    | exact ⟨[_], rfl, fun _ => rfl⟩
    | exact ⟨[_, _, _], rfl, fun _ => rfl⟩

/-- a step that is not internal computation of user code changes memory by the destructors that run, and not otherwise -/
theorem step_mem (hr : Reach P l0 g0 s) (e : step P s = .next s') :
    ∃ evs, s'.log = evs ++ s.log ∧ (¬ Computes P s → s'.g = effects P evs s.g) :=
  (step_rel (inv_reach hr) e).mem

theorem NoUser.mem (h : NoUser P s s') (hr : Reach P l0 g0 s) : ∃ evs, s'.log = evs ++ s.log ∧ s'.g = effects P evs s.g := by
  induction h with
  | refl => exact ⟨[], rfl, rfl⟩
  | step hu e _ ih =>
    obtain ⟨e1, h1, h2⟩ := step_mem hr e
    obtain ⟨e2, h3, h4⟩ := ih (hr.step e)
    have h2 := h2 (fun ⟨l, _, _, h, _⟩ => hu ⟨l, h⟩)
    exact ⟨e2 ++ e1, by rw [h3, h1, List.append_assoc], by rw [h4, h2, effects_append]⟩

/-- … the same for a whole call -/
theorem CallRuns.mem (h : CallRuns P s s') (hr : Reach P l0 g0 s) (hn : ¬ Computes P s) :
    ∃ evs, s'.log = evs ++ s.log ∧ s'.g = effects P evs s.g := by
  obtain ⟨s1, e, h⟩ := h
  obtain ⟨e1, h1, h2⟩ := step_mem hr e
  obtain ⟨e2, h3, h4⟩ := h.mem (hr.step e)
  exact ⟨e2 ++ e1, by rw [h3, h1, List.append_assoc], by rw [h4, h2 hn, effects_append]⟩

theorem CallRuns.mem_of {evs : List (Ev V E)} (h : CallRuns P s s') (hr : Reach P l0 g0 s) (hn : ¬ Computes P s)
    (hl : s'.log = evs ++ s.log) : s'.g = effects P evs s.g := by
  obtain ⟨evs', h1, h2⟩ := h.mem hr hn
  rw [h2, List.append_cancel_right (hl.symm.trans h1)]

theorem Calls.notComputes {op : Op L V E} {k : Res V → L} (h : Calls P s op k) : ¬ Computes P s := by
  obtain ⟨l, h1, h2⟩ := h
  rintro ⟨l', g, l'', h3, h4⟩
  rw [h1] at h3; cases h3
  rw [h2] at h4; cases h4

theorem Ends.notComputes {h : Nat} {fs : List (Frame L V E)} {x : Ctl L V E} (he : Ends P s h fs x) : ¬ Computes P s := by
  cases he with
  | api h => exact h.notComputes
  | leave h1 h2 _ =>
    rintro ⟨l', g, l'', h3, h4⟩
    rw [h1] at h3; cases h3
    rw [h2] at h4; cases h4
  | raise h1 _ => rintro ⟨l', g, l'', h3, h4⟩; rw [h1] at h3; cases h3
  | ret h1 _ => rintro ⟨l', g, l'', h3, h4⟩; rw [h1] at h3; cases h3

end Verif
