import Verif.ExSegm
import Verif.Via
import Verif.Shape

/-!
# C65: the example `segmented.cpp`, for every depth of the recursion
-/
namespace Verif.Segm
variable {E : Type} {first : List String} {n : Int} {gl : Bool}

abbrev A (E : Type) := Coro.St Pt (List Line) Unit E

/-- What `bar( m)` has to print: `m. iteration` down to `1. iteration` (segmented.cpp:24-31). -/
def lines (m : Nat) : List Line := (List.range m).reverse.map fun (k : Nat) => .iteration (k + 1)

theorem lines_succ (m : Nat) : lines (m + 1) = .iteration (m + 1 : Nat) :: lines m := by
  simp [lines, List.range_succ]

/-- the calls that are open: at most `B` in the coroutine, none elsewhere -/
def D (B : Nat) (a : A E) : Prop := nCalls (Coro.opened a 0) = 0 ∧ nCalls (Coro.opened a 1) ≤ B ∧ ∀ i, nCalls (Coro.opened a (i + 2)) = 0

/-- the state in which the lambda is entered -/
def inLam (E : Type) (first : List String) : A E where
  active := [1, 0]
  ctl := .eval .lam
  g := first.map .other
  stack := upd (upd (fun _ => []) 0 [.use (onHandle fun h => .scope h)]) 0 [.creates 1, .use (onHandle fun h => .scope h)]
  co := upd (upd (fun _ => {}) 1 { phase := .fresh fun _ => .lam }) 1 { phase := .body 0 }
  hs := upd (fun _ => none) 0 (some ⟨.push, .void, some ⟨1, .syn⟩⟩)
  nh := 1
  nk := 2
  obs := [.enter 1]

/-- the state in which the coroutine is at `x`, has `j` calls open, and `out` has been printed -/
def at_ (x : Coro.Ctl Pt Unit E) (j : Nat) (out : List Line) : A E :=
  { inLam E first with ctl := x, stack := upd (inLam E first).stack 1 (List.replicate j (.caller .back)), g := out }

theorem calls_replicate (l : Pt) (j : Nat) : nCalls ((List.replicate j (.caller l : Coro.Fr Pt Unit E)).filterMap Coro.scopeOf) = j := by
  induction j with
  | zero => rfl
  | succ j ih =>
    rw [List.replicate_succ, List.filterMap_cons]
    show nCalls (.call l :: _) = j + 1
    unfold nCalls at *
    rw [List.countP_cons, ih]
    rfl

theorem at_calls {x : Coro.Ctl Pt Unit E} {j : Nat} {out : List Line} : nCalls (Coro.opened (at_ (first := first) x j out) 1) = j :=
  calls_replicate _ j

theorem at_D {x : Coro.Ctl Pt Unit E} {j B : Nat} {out : List Line} (h : j ≤ B) : D B (at_ (first := first) x j out) :=
  ⟨rfl, by rw [at_calls]; exact h, fun _ => rfl⟩

theorem upd_upd {α β : Type} [DecidableEq α] (f : α → β) (a : α) (b c : β) : upd (upd f a b) a c = upd f a c := by
  funext x; simp only [upd]; split <;> rfl

local notation "PP" => prog first n gl
local notation "AT" => at_ (E := E) (first := first)

theorem st_bar {m : Nat} {j out} : Coro.step PP (AT (.eval (.bar (m + 1 : Nat))) j out) = .next (AT (.eval (.print (m + 1 : Nat))) j out) := by
  have : ((m + 1 : Nat) : Int) > 0 := by omega
  simp only [Coro.step, at_, inLam, Coro.evalStep, prog, code, if_pos this, Coro.St.goto]
theorem st_stop {i : Int} (hi : ¬ i > 0) {j out} : Coro.step PP (AT (.eval (.bar i)) j out) = .next (AT (.eval .back) j out) := by
  simp only [Coro.step, at_, inLam, Coro.evalStep, prog, code, if_neg hi, Coro.St.goto]
theorem st_print {i : Int} {j out} : Coro.step PP (AT (.eval (.print i)) j out) = .next (AT (.eval (.again i)) j (out ++ [.iteration i])) := rfl
theorem st_again {i : Int} {j out} : Coro.step PP (AT (.eval (.again i)) j out) = .next (AT (.eval (.bar (i - 1))) (j + 1) out) := by
  simp [Coro.step, at_, inLam, Coro.evalStep, prog, code, Coro.St.goto, Coro.St.push, Coro.St.setStack, upd_upd, upd_same, List.replicate_succ]
theorem st_back {j out} : Coro.step PP (AT (.eval .back) j out) = .next (AT .ret j out) := rfl
theorem st_ret {j out} : Coro.step PP (AT .ret (j + 1) out) = .next (AT (.eval .back) j out) := by
  simp [Coro.step, at_, inLam, Coro.retStep, Coro.St.goto, Coro.St.setStack, upd_upd, upd_same, List.replicate_succ]

/-- going down: all the calls of `bar` -/
theorem down {B : Nat} (m : Nat) : ∀ (j : Nat) (out : List Line), j + m ≤ B →
    Via PP (D B) (AT (.eval (.bar m)) j out) (AT (.eval (.bar (0 : Nat))) (j + m) (out ++ lines m)) := by
  induction m with
  | zero => intro j out h; simpa [lines] using Via.here (P := PP) (at_D (first := first) (x := (.eval (.bar (0 : Nat)) : Coro.Ctl Pt Unit E)) (out := out) h)
  | succ m ih =>
    intro j out h
    refine .head (at_D (by omega)) st_bar (.head (at_D (by omega)) st_print (.head (at_D (by omega)) st_again ?_))
    have := ih (j + 1) (out ++ [.iteration (m + 1 : Nat)]) (by omega)
    rw [show ((m + 1 : Nat) : Int) - 1 = (m : Nat) by omega, lines_succ]
    simpa [Nat.add_assoc, Nat.add_comm 1 m] using this

/-- coming up: all the calls return -/
theorem up {B : Nat} {out : List Line} : ∀ j, j ≤ B → Via PP (D B) (AT (.eval .back) j out) (AT .ret 0 out)
  | 0, h => .head (at_D h) st_back (.here (at_D h))
  | j + 1, h => .head (at_D h) st_back (.head (at_D h) st_ret (up j (by omega)))

theorem last_eq {B : Nat} {out : List Line} : ∃ t : A E, Coro.run PP 11 (AT .ret 0 out) = .next t ∧ Coro.step PP t = .done t ∧
    along PP (D B) 11 (AT .ret 0 out) ∧
    t.g = out ++ [.done] ∧ t.obs = [.fin 1 none, .enter 1] := by
  refine ⟨_, rfl, ?_, ?_, ?_, ?_⟩
  rotate_left
  rotate_left
  · rfl
  · rfl
  · rfl
  repeat' first | exact fun _ => rfl | exact Nat.zero_le _ | exact rfl | refine ⟨?_, _, rfl, ?_⟩ | refine ⟨?_, ?_⟩ | refine ⟨?_, ?_, ?_⟩

/-- from the start to `bar( n)` -/
theorem first_ok : along PP (D (E := E) (n.toNat + 1)) 4 (Coro.init .main []) := by
  repeat' first | exact fun _ => rfl | exact Nat.zero_le _ | exact Nat.le_add_left _ _ | exact rfl | refine ⟨?_, _, rfl, ?_⟩ | refine ⟨?_, ?_⟩ | refine ⟨?_, ?_, ?_⟩

theorem first_via : Via PP (D (E := E) (n.toNat + 1)) (Coro.init .main []) (AT (.eval (.bar n)) 1 (first.map .other)) :=
  first_ok.via rfl

/-- to the innermost call … -/
theorem down_via : Via PP (D (E := E) (n.toNat + 1)) (Coro.init .main [])
    (AT (.eval (.bar (min n 0))) (n.toNat + 1) (first.map .other ++ lines n.toNat)) := by
  by_cases hn : n > 0
  · have h := down (E := E) (first := first) (n := n) (gl := gl) (B := n.toNat + 1) n.toNat 1 (first.map .other) (by omega)
    rw [show ((n.toNat : Nat) : Int) = n by omega, Nat.add_comm 1] at h
    rw [show min n 0 = ((0 : Nat) : Int) by omega]
    exact first_via.trans h
  · rw [show min n 0 = n by omega, show n.toNat = 0 by omega]
    have h := first_via (E := E) (first := first) (n := n) (gl := gl)
    rw [show n.toNat = 0 by omega] at h
    simpa [lines] using h

/-- … and back -/
theorem up_via : Via PP (D (E := E) (n.toNat + 1)) (Coro.init .main []) (AT .ret 0 (first.map .other ++ lines n.toNat)) :=
  down_via.trans (.head (at_D (Nat.le_refl _)) (st_stop (by omega)) (up _ (Nat.le_refl _)))

theorem all_via : ∃ t : A E, Via PP (D (n.toNat + 1)) (Coro.init .main []) t ∧ Coro.step PP t = .done t ∧
    t.g = first.map .other ++ lines n.toNat ++ [.done] ∧ t.obs = [.fin 1 none, .enter 1] := by
  obtain ⟨t, h1, h2, h3, h4⟩ := last_eq (E := E) (first := first) (n := n) (gl := gl) (B := n.toNat + 1) (out := first.map .other ++ lines n.toNat)
  exact ⟨t, up_via.trans (h3.via h1), h2, h4⟩

/-- C65: the program ends, and prints `n. iteration`, …, `1. iteration`, then `main: done`; the coroutine's function has been entered
once and has returned (the newest event is the first of the list). -/
theorem C65_output (E : Type) (first : List String) (n : Int) (gl : Bool) : ∃ N, ∃ t : St Pt (List Line) Unit E,
    run (prog first n gl) N (init .main []) = .done t ∧ t.g = first.map .other ++ lines n.toNat ++ [.done] ∧
      t.log.filter Coro.noticed = [.fin 1 none, .enter 1] := by
  obtain ⟨t, h1, h2, h3, h4⟩ := all_via (E := E) (first := first) (n := n) (gl := gl)
  obtain ⟨N, hN⟩ := h1.run h2
  exact (C55_same_end (h1.meaningful h2) _ _).2 ⟨N, t, hN, h3, h4⟩

/-- C65: the recursion takes place on the coroutine's stack: at no time is there a call on any other stack, and never more than
`n + 1` calls are open there; … -/
theorem C65_depth {s : St Pt (List Line) Unit E} (h : Reach (prog first n gl) .main [] s) :
    nCalls (opened s 1) ≤ n.toNat + 1 ∧ ∀ i, i ≠ 1 → nCalls (opened s i) = 0 := by
  obtain ⟨t, h1, h2, _⟩ := all_via (E := E) (first := first) (n := n) (gl := gl)
  obtain ⟨a, ha, hs⟩ := reach_sim (h1.meaningful h2) h
  obtain ⟨d0, d1, d2⟩ := h1.all h2 ha
  simp only [hs.agree.scopes] at d0 d1 d2
  refine ⟨d1, fun i hi => ?_⟩
  match i, hi with
  | 0, _ => exact d0
  | i + 2, _ => exact d2 i

/-- … and that many are, when everything has been printed.  So a stack has to have room for `n + 1` activations of `bar`, each with its
4 kB buffer: 385 in the example, more than 1.5 MB. -/
theorem C65_deepest (E : Type) (first : List String) (n : Int) (gl : Bool) : ∃ s : St Pt (List Line) Unit E, Reach (prog first n gl) .main [] s ∧
    s.cur = 1 ∧ s.ctl = .eval (.bar (min n 0)) ∧ nCalls (opened s 1) = n.toNat + 1 ∧ s.g = first.map .other ++ lines n.toNat := by
  obtain ⟨t, h1, h2, _⟩ := all_via (E := E) (first := first) (n := n) (gl := gl)
  obtain ⟨s, hr, ha⟩ := C55_complete (h1.meaningful h2) (down_via.reach .init)
  refine ⟨s, hr, ?_, (ha.user _).1 rfl, ?_, ha.mem.symm⟩
  · have := ha.running
    exact (Option.some.inj this).symm
  · rw [← ha.scopes]; exact at_calls

/-- segmented.cpp:32: 384 -/
example : (lines 384).head? = some (.iteration 384) ∧ (lines 384).getLast? = some (.iteration 1) ∧ (lines 384).length = 384 := by
  decide +kernel

/-- the example itself, run in the model -/
example : (Coro.run (prog (E := Unit) ["using standard stacks"] 384 false) 2000 (Coro.init .main [])).seen.map (·.1) =
    some (.other "using standard stacks" :: lines 384 ++ [.done]) := by
  decide +kernel

end Verif.Segm
