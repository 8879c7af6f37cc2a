import Verif.Legal
import Verif.SpecValue

/-! # The slot of a coroutine in which no copy has thrown over a stored value.  Proof material. -/
namespace Verif
variable {L G V E : Type}

theorem slotRep_valid {mv : V → V} {va : Var} {k : Nat} : ∀ {l : List (Ev V E)}, (slotRep mv va k l).2 = (lastPushed k l).isSome
  | [] => rfl
  | e :: l => by
    have ih := slotRep_valid (mv := mv) (va := va) (k := k) (l := l)
    cases e <;> simp only [slotRep, lastPushed] <;> (try exact ih) <;> split <;> simp_all

theorem nSetThrow_tail {k : Nat} {e : Ev V E} {l : List (Ev V E)} (h : nSetThrow k (e :: l) = 0) :
    nSetThrow k l = 0 ∧ e.isSetThrow k = false := by
  simp only [nSetThrow, List.countP_cons] at h
  refine ⟨by unfold nSetThrow; omega, ?_⟩
  cases he : e.isSetThrow k with
  | false => rfl
  | true => rw [he] at h; simp at h

theorem spoiled_tail {k : Nat} {e : Ev V E} {l : List (Ev V E)} (h : spoiled k (e :: l) = false) : spoiled k l = false := by
  cases e <;> simp_all [spoiled]

variable {c : Nat}

theorem spoiled_mono {evs l : List (Ev V E)} (h : spoiled c l = true) : spoiled c (evs ++ l) = true := by
  induction evs with
  | nil => exact h
  | cons e t ih => rw [List.cons_append]; cases e <;> simp_all [spoiled]

theorem spoiled_of_none : ∀ {l : List (Ev V E)}, nSetThrow c l = 0 → spoiled c l = false
  | [], _ => rfl
  | e :: l, h => by
    obtain ⟨h1, h2⟩ := nSetThrow_tail h
    have ih := spoiled_of_none h1
    cases e <;> simp_all [spoiled, Ev.isSetThrow]

theorem slotRep_unspoiled {mv : V → V} {va : Var} : ∀ {l : List (Ev V E)}, spoiled c l = false → (slotRep mv va c l).2 = true →
    ∃ v, (slotRep mv va c l).1 = .live v
  | [], _, h => by simp [slotRep] at h
  | e :: l, h0, h => by
    have ih := slotRep_unspoiled (mv := mv) (va := va) (l := l)
    cases e with
    | pushed j v =>
      simp only [slotRep] at h ⊢
      split
      · exact ⟨_, rfl⟩
      · rename_i hj; rw [if_neg hj] at h; exact ih h0 h
    | got j v =>
      simp only [slotRep] at h ⊢
      split
      · exact ⟨_, rfl⟩
      · rename_i hj; rw [if_neg hj] at h; exact ih h0 h
    | setThrow j =>
      simp only [spoiled, Bool.or_eq_false_iff, Bool.and_eq_false_iff, decide_eq_false_iff_not] at h0
      simp only [slotRep] at h ⊢
      by_cases hj : j = c
      · rw [if_pos hj] at h
        have h3 : (lastPushed c l).isSome = false := by
          rcases h0.1 with h | h
          · exact absurd hj h
          · exact h
        rw [← slotRep_valid (mv := mv) (va := va)] at h3
        simp [h3] at h
      · rw [if_neg hj] at h ⊢; exact ih h0.2 h
    | _ => exact ih h0 h

theorem SlotInv.unspoiled {P : Prog L G V E} {s : St L G V E} (h : SlotInv P s) {r : CbRef} (hn : spoiled r.co s.log = false)
    (hal : (s.cbs r).life = .alive) (hp : isPullSide (s.kind r.co) r.side = true) (hb : (s.cbs r).bvalid = true) :
    ∃ v, (s.cbs r).slot = .live v := by
  have hr : r = ⟨r.co, pullSide (s.kind r.co)⟩ := by
    rcases r with ⟨k, sd⟩; simp only [isPullSide_iff] at hp; rw [hp]
  have := (h r.co).rep (by rw [← hr]; exact hal)
  rw [← hr] at this
  obtain ⟨v, hv⟩ := slotRep_unspoiled (mv := P.mv) (va := s.va r.co) hn (by rw [this]; exact hb)
  rw [this] at hv
  exact ⟨v, hv⟩

end Verif
