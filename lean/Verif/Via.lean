import Verif.PropsRefine

/-!
# Runs of the specification machine, piece by piece (used for the examples)
-/
namespace Verif
variable {L G V E : Type} {P : Prog L G V E} {D : Coro.St L G V E → Prop} {a b c : Coro.St L G V E}

/-- `a` runs to `b`, and `D` holds in all states on the way. -/
inductive Via (P : Prog L G V E) (D : Coro.St L G V E → Prop) : Coro.St L G V E → Coro.St L G V E → Prop
  | here {x : Coro.St L G V E} : D x → Via P D x x
  | head {x y z : Coro.St L G V E} : D x → Coro.step P x = .next y → Via P D y z → Via P D x z

theorem Via.start (h : Via P D a b) : D a := by cases h <;> assumption

theorem Via.trans (h1 : Via P D a b) (h2 : Via P D b c) : Via P D a c := by
  induction h1 with
  | here _ => exact h2
  | head d s _ ih => exact .head d s (ih h2)

theorem Via.reach {l0 : L} {g0 : G} (h1 : Via P D a b) (h : Coro.Reach P l0 g0 a) : Coro.Reach P l0 g0 b := by
  induction h1 with
  | here _ => exact h
  | head _ s _ ih => exact ih (.step h s)

theorem Via.run (h1 : Via P D a b) (hb : Coro.step P b = .done b) : ∃ n, Coro.run P n a = .done b := by
  induction h1 with
  | here _ => exact ⟨1, by simp only [Coro.run, hb]⟩
  | head _ s _ ih =>
    obtain ⟨n, hn⟩ := ih hb
    exact ⟨n + 1, by simp only [Coro.run, s, hn]⟩

/-- the machine is deterministic: all states of a program that ends are on the way -/
theorem Via.all {l0 : L} {g0 : G} (h : Via P D (Coro.init l0 g0) b) (hb : Coro.step P b = .done b) (hc : Coro.Reach P l0 g0 c) : D c := by
  have : Via P D c b := by
    induction hc with
    | init => exact h
    | step _ s ih =>
      cases ih with
      | here _ => rw [hb] at s; cases s
      | head _ s' h' => rw [s] at s'; cases s'; exact h'
  exact this.start

theorem Via.meaningful {l0 : L} {g0 : G} (h : Via P D (Coro.init l0 g0) b) (hb : Coro.step P b = .done b) : Coro.Meaningful P l0 g0 := by
  obtain ⟨n, hn⟩ := h.run hb
  exact C55_ends_meaningful (.inl hn)

/-- what holds for `k` steps -/
def along (P : Prog L G V E) (D : Coro.St L G V E → Prop) : Nat → Coro.St L G V E → Prop
  | 0, a => D a
  | k + 1, a => D a ∧ ∃ b, Coro.step P a = .next b ∧ along P D k b

theorem along.via : ∀ {k : Nat} {a : Coro.St L G V E}, along P D k a → Coro.run P k a = .next b → Via P D a b
  | 0, _, h, e => by cases e; exact .here h
  | _ + 1, _, ⟨d, _, s, h⟩, e => .head d s (along.via h (by simpa only [Coro.run, s] using e))

end Verif
