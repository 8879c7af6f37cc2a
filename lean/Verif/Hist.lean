import Verif.Unwind

/-!
# Histories only grow

Proof material for the property files.
-/
namespace Verif
variable {L G V E : Type}

theorem Step.logApp {P : Prog L G V E} {s s' : St L G V E} (hs : Step P s s') (hi : Inv s) : ∃ evs, s'.log = evs ++ s.log := by
  cases hs
  case loc evs _ => exact ⟨evs, rfl⟩
  case pushThrow evs _ _ _ _ _ _ _ _ _ _ _ _ => exact ⟨evs, rfl⟩
  case push evs w t _ _ _ _ _ _ _ _ _ _ _ => exact ⟨_ :: evs, rfl⟩
  case nop hsc _ _ =>
    rcases hsc.log with h | h
    · exact ⟨[], h⟩
    · exact ⟨[_], h⟩
  case dropNone hdy => obtain ⟨evs, h, _⟩ := hdy.log hi; exact ⟨evs, h⟩
  case dropSome hdy =>
    obtain ⟨evs, h, _⟩ := hdy.log hi
    exact ⟨_ :: evs, by show _ :: _ = _; rw [h]; rfl⟩
  case exit => exact ⟨_ :: _, rfl⟩
  all_goals first
    | exact ⟨[], rfl⟩
    | exact ⟨[_], rfl⟩
    | exact ⟨[_, _], rfl⟩
    | exact ⟨[_, _, _], rfl⟩

theorem Later.log {P : Prog L G V E} {l0 : L} {g0 : G} {s s' : St L G V E} (hr : Reach P l0 g0 s) (h : Later P s s') :
    ∃ evs, s'.log = evs ++ s.log := by
  induction h with
  | refl => exact ⟨[], rfl⟩
  | step hl hs ih =>
    obtain ⟨e1, h1⟩ := ih
    have hi := inv_reach (hl.reach hr)
    obtain ⟨e2, h2⟩ := (step_rel hi hs).logApp hi
    exact ⟨e2 ++ e1, by rw [h2, h1, List.append_assoc]⟩

/-- numbers of life-cycle events of `k`, as inequalities -/
theorem life_facts {P : Prog L G V E} {l0 : L} {g0 : G} {s : St L G V E} (h : Reach P l0 g0 s) (k : Nat) :
    nDealloc k s.log ≤ nCreated k s.log ∧ nCreated k s.log ≤ nAlloc k s.log ∧ nAlloc k s.log ≤ 1 ∧
    nFin k s.log ≤ nFnDtor k s.log ∧ nFin k s.log ≤ nEnter k s.log ∧ nEnter k s.log ≤ nCreated k s.log ∧
    nDealloc k s.log ≤ nFnDtor k s.log ∧ nFnDtor k s.log ≤ nCreated k s.log := by
  have := life_reach h k
  generalize s.base k = b at this
  cases b <;> simp only [LifeOk] at this
  case none =>
    split at this
    · rcases this with ⟨_, _, h1, h2, h3, h4, h5, h6⟩ | ⟨_, _, n, m, _, _, h1, h2, h3, h4, h5, h6⟩ <;> omega
    · obtain ⟨_, _, h1, h2, h3, h4, h5, h6⟩ := this; omega
  case main => obtain ⟨_, h1, h2, h3, h4, h5, h6⟩ := this; omega
  case fresh => obtain ⟨_, _, h1, h2, h3, h4, h5, h6⟩ := this; omega
  case pushEntry => obtain ⟨_, _, h1, h2, h3, h4, h5, h6⟩ := this; omega
  case inFn => obtain ⟨_, _, h1, h2, h3, h4, h5, h6⟩ := this; omega
  case final => obtain ⟨_, _, h1, h2, h3, h4, h5, h6⟩ := this; omega
  case lamA => rcases this with ⟨_, ⟨_, h1, h2, h3, h4, h5, h6⟩ | ⟨_, m, _, h1, h2, h3, h4, h5, h6⟩⟩ <;> omega
  case lamB => rcases this with ⟨_, ⟨_, h1, h2, h3, h4, h5, h6⟩ | ⟨_, m, _, h1, h2, h3, h4, h5, h6⟩⟩ <;> omega

theorem count_mono {p : Ev V E → Bool} {a b : List (Ev V E)} (h : ∃ evs, b = evs ++ a) : a.countP p ≤ b.countP p := by
  obtain ⟨e, rfl⟩ := h; rw [List.countP_append]; omega

end Verif
