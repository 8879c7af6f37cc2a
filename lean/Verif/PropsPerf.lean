import Verif.PropsHops
import Verif.ExPerf
import Verif.PropsSwitch

/-!
# C67: the benchmark, and examples for C66 and C67
-/
namespace Verif.Perf
variable {E : Type} {jobs : Nat} {gl : Bool}

abbrev A (E : Type) := Coro.St Pt Unit Unit E

/-- the states in which main runs user code: `fn` waits in `c()` -/
def at_ (x : Coro.Ctl Pt Unit E) : A E where
  active := [0]
  ctl := x
  g := ()
  stack := upd (upd (fun _ => []) 0 [.co 1, .caller .finish]) 1 [.resumed ⟨1, .syn⟩, .use fun _ => .fn 0]
  co := upd (fun _ => {}) 1 { phase := .body 0 }
  hs := upd (upd (fun _ => none) 0 (some ⟨.push, .void, some ⟨1, .syn⟩⟩)) 1 (some ⟨.pull, .void, some ⟨1, .own⟩⟩)
  nh := 2
  nk := 2
  obs := [.enter 1]

theorem ext {s t : A E} (h1 : s.active = t.active) (h2 : s.ctl = t.ctl) (h4 : ∀ i, s.stack i = t.stack i) (h5 : ∀ i, s.co i = t.co i)
    (h6 : ∀ i, s.hs i = t.hs i) (h7 : s.nh = t.nh) (h8 : s.nk = t.nk) (h9 : s.obs = t.obs) : s = t := by
  cases s; cases t; simp_all; exact ⟨funext h4, funext h5, funext h6⟩

local notation "PP" => prog jobs gl

theorem first_run : Coro.run PP 7 (Coro.init .main () : A E) = .next (at_ (.eval (.start 1))) := by
  have : ∃ b, Coro.run PP 7 (Coro.init .main () : A E) = .next b ∧ b = at_ (.eval (.start 1)) := by
    refine ⟨_, rfl, ext rfl rfl ?_ ?_ ?_ rfl rfl rfl⟩ <;> intro i <;> match i with
    | 0 => rfl
    | 1 => rfl
    | i + 2 => rfl
  obtain ⟨b, h, rfl⟩ := this
  exact h

theorem one_job (i : Nat) : Coro.run PP 6 (at_ (E := E) (.eval (.resume 1 i))) = .next (at_ (.eval (.loop 1 (i + 1)))) := by
  have : ∃ b, Coro.run PP 6 (at_ (E := E) (.eval (.resume 1 i))) = .next b ∧ b = at_ (.eval (.loop 1 (i + 1))) := by
    refine ⟨_, rfl, ext rfl rfl ?_ ?_ ?_ rfl rfl rfl⟩ <;> intro i <;> match i with
    | 0 => rfl
    | 1 => rfl
    | i + 2 => rfl
  obtain ⟨b, h, rfl⟩ := this
  exact h

theorem one_job_hops (i : Nat) : Coro.hops PP 6 (at_ (E := E) (.eval (.resume 1 i))) = 2 := rfl

theorem loop_go {i : Nat} (h : i < jobs) : Coro.step PP (at_ (E := E) (.eval (.loop 1 i))) = .next (at_ (.eval (.resume 1 i))) := by
  simp only [Coro.step, at_, Coro.evalStep, prog, code, if_pos h, Coro.St.goto]
theorem loop_end {i : Nat} (h : ¬ i < jobs) : Coro.step PP (at_ (E := E) (.eval (.loop 1 i))) = .next (at_ (.eval .stop)) := by
  simp only [Coro.step, at_, Coro.evalStep, prog, code, if_neg h, Coro.St.goto]

theorem loop_run (k : Nat) : ∀ i, i + k = jobs → ∃ m, Coro.run PP m (at_ (E := E) (.eval (.loop 1 i))) = .next (at_ (.eval .stop)) ∧
    Coro.hops PP m (at_ (E := E) (.eval (.loop 1 i))) = 2 * k := by
  induction k with
  | zero => intro i h; exact ⟨1, by simp only [Coro.run, loop_end (E := E) (gl := gl) (show ¬ i < jobs by omega)],
      by rw [Coro.hops_step (loop_end (by omega))]; rfl⟩
  | succ k ih =>
    intro i h
    obtain ⟨m, h1, h2⟩ := ih (i + 1) (by omega)
    refine ⟨6 + m + 1, ?_, ?_⟩
    · simp only [Coro.run, loop_go (E := E) (gl := gl) (show i < jobs by omega)]
      rw [coroRuns_add (one_job i), h1]
    · rw [Coro.hops_step (loop_go (by omega)), coroHops_add (one_job i), one_job_hops, h2]
      show 0 + _ = _
      omega

theorem last_run : ∃ b, Coro.run PP 11 (at_ (E := E) (.eval .stop)) = .done b ∧ b.g = () ∧ b.obs = [.enter 1] := ⟨_, rfl, rfl, rfl⟩

theorem main_loop : ∃ m, Coro.run PP m (at_ (E := E) (.eval (.start 1))) = .next (at_ (.eval .stop)) ∧
    Coro.hops PP m (at_ (E := E) (.eval (.start 1))) = 2 * jobs := by
  obtain ⟨m, h1, h2⟩ := loop_run (E := E) (jobs := jobs) (gl := gl) jobs 0 (by omega)
  have h0 : Coro.step PP (at_ (E := E) (.eval (.start 1))) = .next (at_ (.eval (.loop 1 0))) := rfl
  refine ⟨m + 1, by simp only [Coro.run, h0, h1], ?_⟩
  rw [Coro.hops_step h0, h2]
  exact Nat.zero_add _

theorem whole : ∃ n b, Coro.run PP n (Coro.init .main () : A E) = .done b ∧ b.obs = [.enter 1] := by
  obtain ⟨m, h, _⟩ := main_loop (E := E) (jobs := jobs) (gl := gl)
  obtain ⟨b, h1, _, h2⟩ := last_run (E := E) (jobs := jobs) (gl := gl)
  exact ⟨7 + (m + 11), b, by rw [coroRuns_add first_run, coroRuns_add h, h1], h2⟩

theorem meaningful : Coro.Meaningful (E := E) PP .main () := by
  obtain ⟨n, b, h, _⟩ := whole (E := E) (jobs := jobs) (gl := gl)
  exact C55_ends_meaningful (.inl h)

/-- C67: between the two readings of the clock control is transferred `2 * jobs` times, which is what the benchmark divides by (`total /=
jobs`, `total /= 2`). -/
theorem C67_benchmark (E : Type) (jobs : Nat) (gl : Bool) : ∃ n s m t, run (prog (E := E) jobs gl) n (init .main ()) = .next s ∧
    s.ctl = .eval (.start 1) ∧ run (prog jobs gl) m s = .next t ∧ t.ctl = .eval .stop ∧ hops (prog jobs gl) m s = 2 * jobs := by
  obtain ⟨n, s, h1, h2, _⟩ := Sim.lead meaningful .init (sim_init (P := prog (E := E) jobs gl) .main ()) first_run
  obtain ⟨k, h3, h4⟩ := main_loop (E := E) (jobs := jobs) (gl := gl)
  have hr : Coro.Reach (prog jobs gl) .main () (at_ (E := E) (.eval (.start 1))) := coroReach_next .init first_run
  obtain ⟨m, t, h5, h6, h7⟩ := h2.lead meaningful hr h3
  exact ⟨n, s, m, t, h1, (h2.agree.user _).1 rfl, h5, (h6.agree.user _).1 rfl, by rw [h7, h4]⟩

/-- C67: the benchmark ends, although the function it runs does not: the function has been entered once, and has neither returned nor
thrown. -/
theorem C67_benchmark_ends (E : Type) (jobs : Nat) (gl : Bool) : ∃ n t, run (prog (E := E) jobs gl) n (init .main ()) = .done t ∧
    t.log.filter Coro.noticed = [.enter 1] := by
  obtain ⟨n, b, h, h2⟩ := whole (E := E) (jobs := jobs) (gl := gl)
  obtain ⟨n', t, h1, _, h3⟩ := (C55_same_end meaningful b.g b.obs).2 ⟨n, b, h, rfl, rfl⟩
  exact ⟨n', t, h1, h3.trans h2⟩

/-- the benchmark with 5 jobs: 10 transfers, two before and two after -/
example : hops (prog (E := Unit) 5 false) 200 (init .main ()) = 2 + 10 + 2 := by decide +kernel

end Verif.Perf

namespace Verif
open Demo

/-- C66: in `crossMain` main resumes coroutine 2 and coroutine 2 resumes coroutine 1, which main has created; then all of them come
back. -/
example : ReachOk Demo.P crossMain [] (stateAt crossMain 12) ∧ callStack (stateAt crossMain 12).log = some [1, 2, 0] ∧
    nIn (stateAt crossMain 12).log = 3 ∧ nOut (stateAt crossMain 12).log = 1 ∧ ReachOk Demo.P crossMain [] (stateAt crossMain 38) ∧
    (stateAt crossMain 38).cur = 0 ∧ callStack (stateAt crossMain 38).log = some [0] ∧ nIn (stateAt crossMain 38).log = 5 :=
  ⟨reachOk _ _ rfl, by decide +kernel, by decide +kernel, by decide +kernel, reachOk _ _ (by decide +kernel), by decide +kernel, by decide +kernel,
    by decide +kernel⟩

/-- C67: a program with a meaning. -/
example : Coro.Meaningful Demo.P crossMain [] ∧ run Demo.P 12 (init crossMain []) = .next (stateAt crossMain 12) ∧
    hops Demo.P 12 (init crossMain []) = 4 := ⟨meaningful_done (n := 100) (by decide +kernel), rfl, by decide +kernel⟩

open Code in
/-- Coroutine 1 creates coroutine 2, which yields in coroutine 1's name: the argument of coroutine 1's function is used by another
function (doc/asymmetric.qbk:267-272). -/
def strayMain : Demo.C := mk .pull .val (fun h => mk .pull .val (fun _ => push h 1 ret) fun _ => ret) fun _ => ret

/-- C66 needs the rules: main gets control back although coroutine 2, which was entered last, has not been left. -/
theorem C66_needs_rules : ∃ s, Reach Demo.P strayMain [] s ∧ s.cur = 0 ∧ callStack s.log = none ∧ nIn s.log ≠ nOut s.log :=
  ⟨stateAt strayMain 5, reach _ _ rfl, by decide +kernel, by decide +kernel, by decide +kernel⟩

end Verif
