import Verif.RobinRun

/-!
# C71: coroutines as cooperative tasks
-/
namespace Verif.Robin
variable {V E : Type} {mv : V → V} {gl : Bool}

namespace Aux

theorem le_longest {xs : List V} {xss : List (List V)} (h : xs ∈ xss) : xs.length ≤ longest xss := by
  induction xss with
  | nil => cases h
  | cons ys xss ih =>
    simp only [longest, List.map_cons, List.foldr_cons] at ih ⊢
    rcases List.mem_cons.1 h with rfl | h
    · exact Nat.le_max_left ..
    · exact Nat.le_trans (ih h) (Nat.le_max_right ..)

theorem column_tail (i : Nat) (xss : List (List V)) : column (i + 1) xss = column i (xss.map List.tail) := by
  simp [column, List.filterMap_map, Function.comp_def]

theorem column_perm (xss : List (List V)) : (column 0 xss ++ (xss.map List.tail).flatten).Perm xss.flatten := by
  induction xss with
  | nil => exact .refl _
  | cons xs xss ih =>
    cases xs with
    | nil => simpa [column] using ih
    | cons v ys =>
      simp only [column, List.filterMap_cons, List.getElem?_cons_zero, List.map_cons, List.tail_cons, List.flatten_cons, List.cons_append] at ih ⊢
      refine .cons _ ?_
      rw [← List.append_assoc]
      refine (List.Perm.append_right _ List.perm_append_comm).trans ?_
      rw [List.append_assoc]
      exact ih.append_left _

theorem range_perm (n : Nat) : ∀ xss : List (List V), (∀ xs ∈ xss, xs.length ≤ n) →
    ((List.range n).flatMap fun i => column i xss).Perm xss.flatten := by
  induction n with
  | zero =>
    intro xss h
    have : xss.flatten = [] := by
      simp only [List.flatten_eq_nil_iff]
      intro xs hx
      exact List.eq_nil_of_length_eq_zero (Nat.le_zero.1 (h xs hx))
    rw [this]
    exact .refl _
  | succ n ih =>
    intro xss h
    rw [List.range_succ_eq_map, List.flatMap_cons, List.flatMap_map]
    simp only [column_tail, Nat.succ_eq_add_one]
    refine (List.Perm.append_left _ (ih (xss.map List.tail) ?_)).trans (column_perm xss)
    intro xs hx
    obtain ⟨ys, hy, rfl⟩ := List.mem_map.1 hx
    have := h ys hy
    simp only [List.length_tail]
    omega

/-- a deterministic machine has one end -/
theorem one_end {L G V E : Type} {P : Prog L G V E} {a b c : St L G V E} (hab : Later P a b) (hb : ∀ x, step P b ≠ .next x) (hac : Later P a c)
    (hc : ∀ x, step P c ≠ .next x) : c = b := by
  have : Later P c b := by
    clear hc
    induction hac with
    | refl => exact hab
    | step _ e ih =>
      rcases later_head ih e with rfl | h
      · exact absurd e (hb _)
      · exact h
  exact (later_stuck this hc).symm

end Aux

/-- C71: the scheduler comes to its end, and what it has read is one value of each task, then one more of each task that has more, and so
on: every task goes on where it was left, in whatever function it was, however many other tasks have run in between. -/
theorem C71_schedule (ts : List (Task V)) :
    ∃ s' : St (Pt V) (Unit × List V) V E, Later (prog mv gl) (init (.spawn ts []) ((), [])) s' ∧ step (prog mv gl) s' = .done s' ∧
      s'.g.2 = robin (ts.map Task.said) := by
  obtain ⟨s1, items, l1, a1, i1, h1⟩ := spawn (mv := mv) (gl := gl) (E := E) ts [] (init (.spawn ts []) ((), [])) .init
    ⟨rfl, rfl, rfl, rfl, rfl⟩ ⟨by simp, by simp⟩
  obtain ⟨s2, l2, e2, g2⟩ := rounds (longest (ts.map Task.said)) items [] s1 (l1.reach .init) a1 i1 (fun it hit => by
    refine Aux.le_longest ?_
    have : it.2 ∈ items.map Prod.snd := List.mem_map_of_mem hit
    rw [h1] at this
    simpa using this)
  refine ⟨s2, l1.trans l2, e2, ?_⟩
  rw [g2, h1]
  simp [robin]

/-- C71: the machine is deterministic, so this is its only end: it meets no undefined behaviour, and no exception leaves main. -/
theorem C71_only (ts : List (Task V)) {s : St (Pt V) (Unit × List V) V E} (hl : Later (prog mv gl) (init (.spawn ts []) ((), [])) s)
    (he : ∀ s', step (prog mv gl) s ≠ .next s') : step (prog mv gl) s = .done s ∧ s.g.2 = robin (ts.map Task.said) := by
  obtain ⟨s', l', e', g'⟩ := C71_schedule (mv := mv) (gl := gl) (E := E) ts
  have : s = s' := Aux.one_end l' (fun x => by rw [e']; simp) hl he
  subst this
  exact ⟨e', g'⟩

/-- C71: nothing that a task says is lost, and nothing is read twice. -/
theorem C71_all (xss : List (List V)) : (robin xss).Perm xss.flatten := Aux.range_perm _ _ fun _ => Aux.le_longest

/-! Non-vacuity: four tasks, of which one says nothing, one calls a function that has a local object, and one has more to say than the others. -/

/-- 1, then 2 and 3 from a function called, then 4 -/
def demo : List (Task Nat) :=
  [.say 1 (.sub (.obj 7 (.say 2 (.say 3 .ret))) (.say 4 .ret)), .ret, .obj 8 (.say 10 .ret), .say 20 (.sub (.say 21 .ret) .ret)]

example : demo.map Task.said = [[1, 2, 3, 4], [], [10], [20, 21]] := rfl
example : robin (demo.map Task.said) = [1, 10, 20, 2, 21, 3, 4] := by decide
example : ∃ s' : St (Pt Nat) (Unit × List Nat) Nat Unit, Later (prog (fun _ => 0) false) (init (.spawn demo []) ((), [])) s' ∧
    step (prog (fun _ => 0) false) s' = .done s' ∧ s'.g.2 = [1, 10, 20, 2, 21, 3, 4] := C71_schedule demo

end Verif.Robin
