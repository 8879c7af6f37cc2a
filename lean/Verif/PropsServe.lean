import Verif.ServeRun
import Verif.PropsRobin

/-!
# C72: tasks that are resumed in any order
-/
namespace Verif.Serve
variable {V E : Type} {mv : V → V} {gl : Bool}

namespace Aux

theorem serve_by (j : Nat) (js : List Nat) : ∀ (xss : List (List V)) (xs : List V), xss[j]? = some xs → by_ j (serve js xss) = xs.take (js.count j) := by
  induction js with
  | nil => intro xss xs _; simp [serve, by_]
  | cons i js ih =>
    intro xss xs hx
    by_cases hij : i = j
    · subst hij
      cases xs with
      | nil => simpa [serve, hx] using ih xss [] hx
      | cons v ys =>
        have hlt : i < xss.length := (List.getElem?_eq_some_iff.1 hx).1
        have := ih (xss.set i ys) ys (List.getElem?_set_self hlt)
        simp only [by_] at this
        simp [serve, hx, by_, this]
    · rw [List.count_cons_of_ne hij]
      cases hi : xss[i]? with
      | none => simpa [serve, hi] using ih xss xs hx
      | some zs =>
        cases zs with
        | nil => simpa [serve, hi] using ih xss xs hx
        | cons v ys =>
          have := ih (xss.set i ys) xs (by rw [List.getElem?_set_ne hij]; exact hx)
          simp only [by_] at this
          simp [serve, hi, by_, hij, this]

end Aux

/-- C72: whatever the plan is, the scheduler comes to its end, and has read what the plan says. -/
theorem C72_plan (ts : List (Robin.Task V)) (js : List Nat) :
    ∃ s' : St (Pt V) (Unit × List (Nat × V)) V E, Later (prog mv gl) (init (.spawn ts [] js) ((), [])) s' ∧ step (prog mv gl) s' = .done s' ∧
      s'.g.2 = serve js (ts.map Robin.Task.said) := by
  obtain ⟨s1, hs, l1, a1, i1⟩ := spawn (mv := mv) (gl := gl) (E := E) js ts [] [] (init (.spawn ts [] js) ((), [])) .init
    ⟨rfl, rfl, rfl, rfl, rfl⟩ ⟨rfl, by simp, by simp⟩
  have r1 := l1.reach .init
  obtain ⟨s2, xss, l2, a2, i2⟩ := plan js hs _ [] s1 r1 a1 i1
  obtain ⟨s3, l3, e3, g3⟩ := clean hs xss _ s2 (l2.reach r1) a2 i2
  exact ⟨s3, (l1.trans l2).trans l3, e3, by rw [g3]; simp⟩

/-- C72: this is its only end: it meets no undefined behaviour, and no exception leaves main. -/
theorem C72_only (ts : List (Robin.Task V)) (js : List Nat) {s : St (Pt V) (Unit × List (Nat × V)) V E}
    (hl : Later (prog mv gl) (init (.spawn ts [] js) ((), [])) s) (he : ∀ s', step (prog mv gl) s ≠ .next s') :
    step (prog mv gl) s = .done s ∧ s.g.2 = serve js (ts.map Robin.Task.said) := by
  obtain ⟨s', l', e', g'⟩ := C72_plan (mv := mv) (gl := gl) (E := E) ts js
  have : s = s' := Robin.Aux.one_end l' (fun x => by rw [e']; simp) hl he
  subst this
  exact ⟨e', g'⟩

/-- C72: a task given `n` turns has said the first `n` values it says when it runs on its own (all of them, if it has fewer): it depends neither
on the other tasks nor on their turns. -/
theorem C72_independent (ts : List (Robin.Task V)) (js : List Nat) :
    ∃ s' : St (Pt V) (Unit × List (Nat × V)) V E, Later (prog mv gl) (init (.spawn ts [] js) ((), [])) s' ∧ step (prog mv gl) s' = .done s' ∧
      ∀ j t, ts[j]? = some t → by_ j s'.g.2 = t.said.take (js.count j) := by
  obtain ⟨s', l', e', g'⟩ := C72_plan (mv := mv) (gl := gl) (E := E) ts js
  refine ⟨s', l', e', fun j t ht => ?_⟩
  rw [g']
  exact Aux.serve_by j js _ _ (by simp [ht])

/-! Non-vacuity: three tasks; task 0 gets three turns, of which it needs two, task 2 one turn of the three it needs, and there is a turn for a task
that does not exist. -/

/-- the tasks -/
def demo : List (Robin.Task Nat) := [.say 1 (.sub (.obj 7 (.say 2 .ret)) .ret), .ret, .obj 8 (.sub (.say 10 (.say 11 .ret)) (.say 12 .ret))]

example : ∃ s' : St (Pt Nat) (Unit × List (Nat × Nat)) Nat Unit, Later (prog (fun _ => 0) false) (init (.spawn demo [] [0, 2, 9, 1, 0, 0]) ((), [])) s' ∧
    step (prog (fun _ => 0) false) s' = .done s' ∧ s'.g.2 = [(0, 1), (2, 10), (0, 2)] := C72_plan demo _
example : by_ 2 [(0, 1), (2, 10), (0, 2)] = [10] ∧ by_ 0 [(0, 1), (2, 10), (0, 2)] = [1, 2] := by decide

end Verif.Serve
