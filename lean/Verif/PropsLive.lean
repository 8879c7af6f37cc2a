import Verif.Work
import Verif.PropsRefine
import Verif.PropsOrder
import Verif.DemoTick

/-! # C56: the library always gets back to user code

C01-C55 say what the library does.  This file says that it *does it*: between two steps of user code the library takes finitely many
steps, and over a whole run their number is at most a constant factor of the number of steps user code takes.  There is no call that
hangs inside the library, no two control blocks that hand the control back and forth, no destruction that does not end.  -/
namespace Verif
variable {L G V E : Type}

/-! ## Spec -/

/-- What lies on the stacks in state `s`: three per entry on any stack, eight per coroutine
whose context exists.  (A count of the stack
contents of pull_control_block_cc.ipp:63-110 and push_control_block_cc.ipp:61-107 plus everything above.) -/
def load (s : St L G V E) : Nat :=
  ((List.range s.nk).map fun k => 3 * (s.frames k).length + (match s.base k with | .none | .main => 0 | _ => 8)).sum

/-- Number of steps of user code among the first `n` steps from `s`; every other step is one inside
include/boost/coroutine2/detail/*.ipp or in the standard's unwinding. -/
def userSteps (P : Prog L G V E) : Nat → St L G V E → Nat
  | 0, _ => 0
  | n+1, s =>
    (match s.ctl with | .eval _ => 1 | _ => 0) + (match step P s with | .next s' => userSteps P n s' | _ => 0)

/-! ## Theorems -/

theorem work_le_load (s : St L G V E) : work s ≤ load s := by
  unfold work load
  have h : ∀ k, cwork s k ≤ 3 * (s.frames k).length + (match s.base k with | .none | .main => 0 | _ => 8) := by
    intro k
    have hf : ∀ fs : List (Frame L V E), (fs.map fwork).sum ≤ 3 * fs.length := by
      intro fs
      induction fs with
      | nil => simp
      | cons f fs ih =>
        have : fwork f ≤ 3 := by cases f <;> simp [fwork]
        simp only [List.map_cons, List.sum_cons, List.length_cons]
        omega
    have := hf (s.frames k)
    unfold cwork
    cases s.base k <;> simp only [bwork] <;> omega
  induction s.nk with
  | zero => simp
  | succ n ih =>
    simp only [List.range_succ, List.map_append, List.sum_append, List.map_cons, List.map_nil, List.sum_cons, List.sum_nil]
    have := h n
    omega

variable {P : Prog L G V E} {l0 : L} {g0 : G}

theorem terminates_aux (w : Nat) : ∀ s : St L G V E, Reach P l0 g0 s → work s ≤ w →
    ∃ n s', n ≤ work s ∧ run P n s = .next s' ∧ NoUser P s s' ∧ (UserRuns s' ∨ ∀ t, step P s' ≠ .next t) := by
  induction w with
  | zero =>
    intro s hr hw
    by_cases hu : UserRuns s
    · exact ⟨0, s, by omega, rfl, .refl, .inl hu⟩
    · refine ⟨0, s, by omega, rfl, .refl, .inr fun t ht => ?_⟩
      have := (step_rel (inv_reach hr) ht).work (inv_reach hr) hu
      omega
  | succ w ih =>
    intro s hr hw
    by_cases hu : UserRuns s
    · exact ⟨0, s, by omega, rfl, .refl, .inl hu⟩
    · by_cases hs : ∃ t, step P s = .next t
      · obtain ⟨t, ht⟩ := hs
        have := (step_rel (inv_reach hr) ht).work (inv_reach hr) hu
        obtain ⟨n, s', h1, h2, h3, h4⟩ := ih t (.step hr ht) (by omega)
        exact ⟨n + 1, s', by omega, by simp only [run, ht, h2], .step hu ht h3, h4⟩
      · exact ⟨0, s, by omega, rfl, .refl, .inr fun t ht => hs ⟨t, ht⟩⟩

/-- C56: whatever the library is doing, it hands the control to user code, or the program stops, after at most `load s` steps. -/
theorem C56_terminates {s : St L G V E} (hr : Reach P l0 g0 s) :
    ∃ n s', n ≤ load s ∧ run P n s = .next s' ∧ NoUser P s s' ∧ (UserRuns s' ∨ ∀ t, step P s' ≠ .next t) := by
  obtain ⟨n, s', h1, h2⟩ := terminates_aux (work s) s hr (Nat.le_refl _)
  exact ⟨n, s', Nat.le_trans h1 (work_le_load s), h2⟩

open Demo in
/-- Non-trivial case: a coroutine that owns another one is being destroyed, with the locals of both still there.  The library is busy
for twenty steps, then user code runs; the bound is 52. -/
example : Reach Demo.P orderMain [] (stateAt orderMain 15) ∧ load (stateAt orderMain 15) = 52 ∧ ¬ UserRuns (stateAt orderMain 34) ∧
    run Demo.P 20 (stateAt orderMain 15) = .next (stateAt orderMain 35) ∧ UserRuns (stateAt orderMain 35) :=
  ⟨reach _ _ rfl, rfl, (by rintro ⟨l, h⟩; cases h), rfl, ⟨_, rfl⟩⟩

/-- C56: in a program the documentation gives a meaning (C55), every step user code takes - an operation on a coroutine object, say -
leads, with the library alone at work in between, to user code again, or the program is over. -/
theorem C56_call (hm : Coro.Meaningful P l0 g0) {s : St L G V E} (hr : Reach P l0 g0 s) :
    (∃ s', CallRuns P s s' ∧ (UserRuns s' ∨ step P s' = .done s' ∨ step P s' = .uncaught s')) ∨
      step P s = .done s ∨ step P s = .uncaught s := by
  rcases C55_defined hm hr with ⟨s1, h⟩ | h
  · obtain ⟨n, s', _, h2, h3, h4⟩ := C56_terminates (hr.step h)
    refine .inl ⟨s', ⟨s1, h, h3⟩, h4.imp_right fun h4 => ?_⟩
    rcases C55_defined hm (reach_run (hr.step h) h2) with ⟨s2, h⟩ | h
    · exact absurd h (h4 s2)
    · exact h
  · exact .inr h

open Demo in
/-- Non-trivial case: the destruction of that coroutine is such a step, in a program with a meaning. -/
example : Coro.Meaningful Demo.P orderMain [] ∧ Reach Demo.P orderMain [] (stateAt orderMain 14) ∧
    Calls Demo.P (stateAt orderMain 14) (.destroy 3) (fun _ => Code.ret) :=
  ⟨meaningful_done (n := 60) rfl, reach _ _ rfl, ⟨_, rfl, rfl⟩⟩

theorem amortised_aux (n : Nat) : ∀ s : St L G V E, Reach P l0 g0 s → ∀ s', run P n s = .next s' →
    n + work s' ≤ work s + 13 * userSteps P n s := by
  induction n with
  | zero => intro s _ s' h; simp only [run, Out.next.injEq] at h; subst h; simp
  | succ n ih =>
    intro s hr s' h
    simp only [run] at h
    cases ht : step P s with
    | next t =>
      simp only [ht] at h
      have h1 := ih t (.step hr ht) s' h
      have hi := inv_reach hr
      have hst := step_rel hi ht
      simp only [userSteps, ht]
      cases hc : s.ctl with
      | eval l => have := hst.work_user hi ⟨l, hc⟩; simp only []; omega
      | deliver _ | raise _ | retn | recv =>
        have := hst.work hi (by rintro ⟨l, hl⟩; rw [hc] at hl; cases hl)
        simp only []; omega
    | _ => simp [ht] at h

/-- C56: over any run of any program, at least every thirteenth step on average is one of user code: all the library ever does is at most
twelve steps per step of user code. -/
theorem C56_amortised {n : Nat} {s : St L G V E} (h : run P n (init l0 g0) = .next s) : n ≤ 13 * userSteps P n (init l0 g0) := by
  have := amortised_aux (P := P) n (init l0 g0) (l0 := l0) (g0 := g0) .init s h
  have : work (init (V := V) (E := E) l0 g0) = 0 := by simp [work, init, cwork, bwork]
  omega

open Demo in
/-- Non-trivial case: the whole run of that program, 36 steps, ten of which are of user code. -/
example : run Demo.P 36 (init orderMain []) = .next (stateAt orderMain 36) ∧ userSteps Demo.P 36 (init orderMain []) = 10 := ⟨rfl, rfl⟩

theorem run_add {n m : Nat} {x a : St L G V E} (h : run P n x = .next a) : run P (n + m) x = run P m a := by
  induction n generalizing x with
  | zero => simp only [run, Out.next.injEq] at h; subst h; rw [Nat.zero_add]
  | succ n ih =>
    rw [show n + 1 + m = (n + m) + 1 by omega]
    simp only [run] at h ⊢
    cases ht : step P x with
    | next t => simp only [ht] at h ⊢; exact ih h
    | _ => simp [ht] at h

/-- C56: a program that never stops runs user code again and again: it does not end up inside the library for ever. -/
theorem C56_infinitely_often (hinf : ∀ n, ∃ s, run P n (init l0 g0) = .next s) (n : Nat) :
    ∃ m s, n ≤ m ∧ run P m (init l0 g0) = .next s ∧ UserRuns s := by
  obtain ⟨s, hs⟩ := hinf n
  obtain ⟨d, s', _, hd, _, he⟩ := C56_terminates (reach_run .init hs)
  have hsum : run P (n + d) (init l0 g0) = .next s' := by rw [run_add hs, hd]
  refine ⟨n + d, s', by omega, hsum, ?_⟩
  rcases he with he | he
  · exact he
  · obtain ⟨t, ht⟩ := hinf (n + d + 1)
    rw [run_step hsum] at ht
    exact absurd ht (he t)

/-- Non-trivial case: an endless generator, consumed endlessly. -/
example : ∀ n, ∃ s, run Tick.P n (init Tick.Pt.start 0) = .next s := (C55_same_divergence Tick.meaningful).2 Tick.forever

end Verif
