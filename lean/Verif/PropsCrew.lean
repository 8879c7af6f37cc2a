import Verif.CrewRun
import Verif.PropsRobin

/-!
# C73: a task that fails does not disturb the others
-/
namespace Verif.Crew
variable {V E : Type} {mv : V → V} {gl : Bool}

namespace Aux

theorem about_append (j : Nat) (xs ys : List (Nat × Note V E)) : about j (xs ++ ys) = about j xs ++ about j ys := List.filterMap_append

theorem about_self (j : Nat) (ns : List (Note V E)) : about j (ns.map (Prod.mk j)) = ns := by
  induction ns with
  | nil => rfl
  | cons n ns ih => simp only [about] at ih; simp [about, ih]

theorem about_other {i j : Nat} (hn : i ≠ j) (ns : List (Note V E)) : about j (ns.map (Prod.mk i)) = [] := by
  induction ns with
  | nil => rfl
  | cons n ns ih => simp only [about] at ih; simp [about, hn, ih]

theorem opening_about (j : Nat) (ts : List (Job V E)) : ∀ n, about j (opening n ts) =
    if n ≤ j then (match ts[j - n]? with | some t => fails t.said t.ends | none => []) else [] := by
  induction ts with
  | nil => intro n; simp [opening, about]
  | cons t ts ih =>
    intro n
    rw [opening, about_append, ih]
    rcases Nat.lt_trichotomy n j with h | rfl | h
    · rw [about_other (by omega), if_pos (by omega), if_pos (by omega)]
      obtain ⟨k, rfl⟩ : ∃ k, j = n + 1 + k := ⟨j - (n + 1), by omega⟩
      rw [show n + 1 + k - n = k + 1 by omega, show n + 1 + k - (n + 1) = k by omega]
      rfl
    · rw [about_self, if_neg (by omega), if_pos (by omega)]
      simp
    · rw [about_other (by omega), if_neg (by omega), if_neg (by omega)]
      rfl

/-- a report that has begun: what is left to be noted -/
theorem report_nil (r : Option E) (n : Nat) : report ([] : List V) r n = r.toList.map .failed := by simp [report]

theorem report_zero {xs : List V} {r : Option E} : report xs r 0 = fails xs r := by
  cases xs <;> cases r <;> rfl

theorem report_split (xs : List V) (r : Option E) (n : Nat) : fails xs r ++ report xs (left xs r) n = report xs r n := by
  cases xs with
  | nil => cases r <;> simp [report, fails, left]
  | cons v ys => cases r <;> rfl

theorem report_succ (v : V) (ys : List V) (r : Option E) (n : Nat) : report (v :: ys) r (n + 1) = .said v :: report ys r n := by
  simp [report]

theorem serve_about (j : Nat) (js : List Nat) : ∀ (st : List (List V × Option E)) (xs : List V) (r : Option E), st[j]? = some (xs, left xs r) →
    about j (serve js st) = report xs (left xs r) (js.count j) := by
  induction js with
  | nil =>
    intro st xs r _
    rw [List.count_nil, report_zero]
    cases xs <;> cases r <;> rfl
  | cons i js ih =>
    intro st xs r hx
    by_cases hij : i = j
    · subst hij
      cases xs with
      | nil =>
        have := ih st [] r hx
        simp only [left, report_nil] at this ⊢
        simpa [serve, hx] using this
      | cons v ys =>
        have hlt : i < st.length := (List.getElem?_eq_some_iff.1 hx).1
        have := ih (st.set i (ys, left ys r)) ys r (List.getElem?_set_self hlt)
        rw [List.count_cons_self]
        simp only [left] at hx ⊢
        rw [report_succ, ← report_split ys r, ← this]
        simp only [serve, hx]
        rw [← List.singleton_append, about_append, about_append, about_self]
        simp [about]
    · rw [List.count_cons_of_ne hij]
      have hs : ∀ p, (st.set i p)[j]? = some (xs, left xs r) := fun p => by rw [List.getElem?_set_ne hij]; exact hx
      simp only [serve]
      split
      · rename_i v ys r' hi
        rw [← List.singleton_append, about_append, about_append, about_other hij, ih _ xs r (hs _)]
        simp [about, hij]
      · exact ih st xs r hx

end Aux

/-- C73: whatever the tasks and the plan are, the scheduler comes to its end, and has noted what the plan says. -/
theorem C73_plan (ts : List (Job V E)) (js : List Nat) :
    ∃ s' : S V E, Later (prog mv gl) (init (.spawn ts [] js) ((), [])) s' ∧ step (prog mv gl) s' = .done s' ∧
      s'.g.2 = opening 0 ts ++ serve js (ts.map fun t => (t.said, left t.said t.ends)) := by
  obtain ⟨s1, hs, l1, a1, i1⟩ := spawn (mv := mv) (gl := gl) js ts [] [] [] (init (.spawn ts [] js) ((), [])) .init
    ⟨rfl, rfl, rfl, rfl, rfl⟩ ⟨rfl, by simp, by simp⟩
  have r1 := l1.reach .init
  obtain ⟨s2, st, l2, a2, i2⟩ := plan js hs _ _ s1 r1 a1 i1
  obtain ⟨s3, l3, e3, g3⟩ := clean hs st _ s2 (l2.reach r1) a2 i2
  exact ⟨s3, (l1.trans l2).trans l3, e3, by rw [g3]; simp⟩

/-- C73: this is its only end: it meets no undefined behaviour, and no exception leaves main. -/
theorem C73_only (ts : List (Job V E)) (js : List Nat) {s : S V E}
    (hl : Later (prog mv gl) (init (.spawn ts [] js) ((), [])) s) (he : ∀ s', step (prog mv gl) s ≠ .next s') :
    step (prog mv gl) s = .done s ∧ s.g.2 = opening 0 ts ++ serve js (ts.map fun t => (t.said, left t.said t.ends)) := by
  obtain ⟨s', l', e', g'⟩ := C73_plan (mv := mv) (gl := gl) ts js
  have : s = s' := Robin.Aux.one_end l' (fun x => by rw [e']; simp) hl he
  subst this
  exact ⟨e', g'⟩

/-- C73: what is noted about a task that gets `n` turns are its first `n` values, and, if it has no more, the exception it ends with: once, and
nothing after it.  It depends neither on the other tasks, nor on whether they fail, nor on their turns. -/
theorem C73_independent (ts : List (Job V E)) (js : List Nat) {s : S V E}
    (hl : Later (prog mv gl) (init (.spawn ts [] js) ((), [])) s) (he : ∀ s', step (prog mv gl) s ≠ .next s') {j : Nat} {t : Job V E}
    (ht : ts[j]? = some t) : about j s.g.2 = report t.said t.ends (js.count j) := by
  rw [(C73_only ts js hl he).2, Aux.about_append, Aux.opening_about, if_pos (Nat.zero_le _), Nat.sub_zero, ht,
    Aux.serve_about j js _ t.said t.ends (by simp [ht]), Aux.report_split]

/-- C73: any other tasks and any other plan instead, as long as task `j` and the number of its turns are the same. -/
theorem C73_isolated {mv' : V → V} {gl' : Bool} (ts ts' : List (Job V E)) (js js' : List Nat) {s s' : S V E}
    (hl : Later (prog mv gl) (init (.spawn ts [] js) ((), [])) s) (he : ∀ x, step (prog mv gl) s ≠ .next x)
    (hl' : Later (prog mv' gl') (init (.spawn ts' [] js') ((), [])) s') (he' : ∀ x, step (prog mv' gl') s' ≠ .next x)
    {j : Nat} {t : Job V E} (ht : ts[j]? = some t) (ht' : ts'[j]? = some t) (hc : js.count j = js'.count j) : about j s.g.2 = about j s'.g.2 := by
  rw [C73_independent ts js hl he ht, C73_independent ts' js' hl' he' ht', hc]

/-! Non-vacuity: task 0 fails in a function it has called, after two values and with a local object alive; task 1 fails at once, in the constructor;
task 2 fails too, but is not given enough turns to get there; task 3 returns. -/

/-- the tasks -/
def demo : List (Job Nat String) :=
  [.say 1 (.sub (.obj 7 (.say 2 (.fail "x"))) (.say 3 .ret)), .fail "y", .say 10 (.say 11 (.fail "z")), .sub (.say 20 .ret) (.say 21 .ret)]

example : ∃ s' : S Nat String, Later (prog (fun _ => 0) false) (init (.spawn demo [] [0, 3, 2, 1, 0, 3, 0, 9]) ((), [])) s' ∧
    step (prog (fun _ => 0) false) s' = .done s' ∧
    s'.g.2 = [(1, .failed "y"), (0, .said 1), (3, .said 20), (2, .said 10), (0, .said 2), (0, .failed "x"), (3, .said 21)] := C73_plan demo _
example : report (demo[0].said) (demo[0].ends) 3 = [.said 1, .said 2, .failed "x"] ∧ report (demo[2].said) (demo[2].ends) 1 = [.said 10] := by decide
example : demo[0]? = ([demo[0], .ret, .say 5 .ret] : List (Job Nat String))[0]? := rfl

end Verif.Crew
