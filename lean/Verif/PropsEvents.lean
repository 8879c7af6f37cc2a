import Verif.EventsRun
import Verif.PropsRobin

/-!
# C74: an event loop over push coroutines is an event loop over callbacks
-/
namespace Verif.Events
variable {Q V E : Type} {δ : Q → V → React Q E} {mv : V → V} {gl : Bool}

namespace Aux

theorem about_cons {A : Type} (j i : Nat) (a : A) (out : List (Nat × A)) : about j ((i, a) :: out) = if i = j then a :: about j out else about j out := by
  by_cases h : i = j <;> simp [about, h]

/-- an ended handler -/
theorem lost_about (j : Nat) (es : List (Nat × V)) : ∀ st : List (Option Q), st[j]? = some none →
    about j (dispatch δ es st) = (about j es).map .lost := by
  induction es with
  | nil => intro st _; rfl
  | cons ev es ih =>
    obtain ⟨i, v⟩ := ev
    intro st hx
    by_cases hij : i = j
    · subst hij
      simp only [dispatch, hx, about_cons, if_true, List.map_cons, ih st hx]
    · have hs : ∀ o, (st.set i o)[j]? = some none := fun o => by rw [List.getElem?_set_ne hij]; exact hx
      simp only [dispatch, about_cons, if_neg hij]
      split
      · exact ih st hx
      · rw [about_cons, if_neg hij]; exact ih st hx
      · rw [about_cons, if_neg hij]
        split
        · exact ih _ (hs _)
        · exact ih _ (hs _)
        · exact ih _ (hs _)
        · rw [about_cons, if_neg hij]; exact ih _ (hs _)

theorem dispatch_about (j : Nat) (es : List (Nat × V)) : ∀ (st : List (Option Q)) (q : Q), st[j]? = some (some q) →
    about j (dispatch δ es st) = account δ q (about j es) := by
  induction es with
  | nil => intro st q _; rfl
  | cons ev es ih =>
    obtain ⟨i, v⟩ := ev
    intro st q hx
    by_cases hij : i = j
    · subst hij
      have hlt : i < st.length := (List.getElem?_eq_some_iff.1 hx).1
      have hs : ∀ o, (st.set i o)[i]? = some o := fun o => List.getElem?_set_self hlt
      simp only [dispatch, hx, about_cons, if_true, account]
      cases δ q v with
      | again q' => simp only [ih _ q' (hs _)]
      | deep o q' => simp only [ih _ q' (hs _)]
      | quit => simp only [lost_about i es _ (hs _)]
      | fail e => simp only [about_cons, if_true, lost_about i es _ (hs _)]
    · have hs : ∀ o, (st.set i o)[j]? = some (some q) := fun o => by rw [List.getElem?_set_ne hij]; exact hx
      simp only [dispatch, about_cons, if_neg hij]
      split
      · exact ih st q hx
      · rw [about_cons, if_neg hij]; exact ih st q hx
      · rw [about_cons, if_neg hij]
        split
        · exact ih _ q (hs _)
        · exact ih _ q (hs _)
        · exact ih _ q (hs _)
        · rw [about_cons, if_neg hij]; exact ih _ q (hs _)

end Aux

/-- C74: whatever the handlers and the events are, the event loop comes to its end, and has noted what an event loop over callbacks notes that keep
their states in a table. -/
theorem C74_dispatch (qs : List Q) (es : List (Nat × V)) :
    ∃ s' : S Q V E, Later (prog δ mv gl) (init (.spawn qs [] es) ((), [])) s' ∧ step (prog δ mv gl) s' = .done s' ∧
      s'.g.2 = dispatch δ es (qs.map some) := by
  obtain ⟨s1, hs, l1, a1, i1⟩ := spawn (δ := δ) (mv := mv) (gl := gl) es qs [] [] [] (init (.spawn qs [] es) ((), [])) .init
    ⟨rfl, rfl, rfl, rfl, rfl⟩ ⟨rfl, by simp, by simp⟩
  have r1 := l1.reach .init
  obtain ⟨s2, st, l2, a2, i2⟩ := events es hs _ _ s1 r1 a1 i1
  obtain ⟨s3, l3, e3, g3⟩ := clean hs _ s2 (l2.reach r1) a2 (fun i h h1 =>
    have hl : i < st.length := by rw [← i2.len]; exact (List.getElem?_eq_some_iff.1 h1).1
    ⟨_, i2.has i h st[i] h1 (List.getElem?_eq_getElem hl)⟩) i2.inj
  exact ⟨s3, (l1.trans l2).trans l3, e3, by rw [g3]; simp⟩

/-- C74: this is its only end: it meets no undefined behaviour, and no exception leaves main. -/
theorem C74_only (qs : List Q) (es : List (Nat × V)) {s : S Q V E}
    (hl : Later (prog δ mv gl) (init (.spawn qs [] es) ((), [])) s) (he : ∀ s', step (prog δ mv gl) s ≠ .next s') :
    step (prog δ mv gl) s = .done s ∧ s.g.2 = dispatch δ es (qs.map some) := by
  obtain ⟨s', l', e', g'⟩ := C74_dispatch (δ := δ) (mv := mv) (gl := gl) qs es
  have : s = s' := Robin.Aux.one_end l' (fun x => by rw [e']; simp) hl he
  subst this
  exact ⟨e', g'⟩

/-- C74: what is noted about a handler depends only on its first state and on the events for it: neither on the other handlers, nor on whether they
end or throw, nor on how the events for it lie among the others. -/
theorem C74_independent (qs : List Q) (es : List (Nat × V)) {s : S Q V E}
    (hl : Later (prog δ mv gl) (init (.spawn qs [] es) ((), [])) s) (he : ∀ s', step (prog δ mv gl) s ≠ .next s') {j : Nat} {q : Q}
    (hq : qs[j]? = some q) : about j s.g.2 = account δ q (about j es) := by
  rw [(C74_only qs es hl he).2]
  exact Aux.dispatch_about j es _ q (by simp [hq])

/-! Non-vacuity: a handler adds up what it hears, calls a function after every odd number (so its calls get deeper and deeper), ends when the sum is
ten, and throws when it is greater.  Handler 0 throws when two calls deep, handler 1 ends, handler 2 never gets an event, handler 3 has not ended at
the end of the program and is unwound; there is no handler 9. -/

/-- the handlers -/
def demo (q v : Nat) : React Nat String :=
  if q + v = 10 then .quit else if 10 < q + v then .fail "x" else if v % 2 = 1 then .deep v (q + v) else .again (q + v)

example : ∃ s' : S Nat Nat String, Later (prog demo (fun _ => 0) false)
      (init (.spawn [0, 6, 0, 0] [] [(0, 3), (1, 1), (0, 5), (3, 1), (9, 1), (0, 4), (1, 3), (0, 7), (3, 2), (1, 8)]) ((), [])) s' ∧
    step (prog demo (fun _ => 0) false) s' = .done s' ∧
    s'.g.2 = [(0, .heard 3), (1, .heard 1), (0, .heard 5), (3, .heard 1), (0, .heard 4), (0, .failed "x"), (1, .heard 3), (0, .lost 7), (3, .heard 2),
      (1, .lost 8)] := C74_dispatch [0, 6, 0, 0] _
example : account demo 0 [3, 5, 4, 7] = [.heard 3, .heard 5, .heard 4, .failed "x", .lost 7] := by decide
example : ([0, 6, 0, 0] : List Nat)[1]? = some 6 := rfl

end Verif.Events
