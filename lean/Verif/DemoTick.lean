import Verif.SimTop

/-! # A program that runs for ever: an endless generator, consumed endlessly.  Nothing here models library code. -/
namespace Verif.Tick

/-- Control points: main constructs, reads and resumes; the generator pushes the counter and increments it. -/
inductive Pt
  | start | read (h : Nat) | next (h : Nat) | gen (h : Nat) | inc (h : Nat) | stop

/-- what main does with the constructed object -/
def made : Res Nat → Pt
  | .handle h => .read h
  | _ => .stop

/-- `pull_type source([](push_type& sink) { for (;;) { sink(n); ++n; } });  for (;;) { source.get(); source(); }` -/
def code : Pt → Nat → Act Pt Nat Nat Nat
  | .start, _ => .api (.mk .pull .val .ok .gen) made
  | .read h, _ => .api (.get h) fun _ => .next h
  | .next h, _ => .api (.resume h) fun _ => .read h
  | .gen h, n => .api (.push h (.copy n)) fun _ => .inc h
  | .inc h, n => .tau (n + 1) (.gen h)
  | .stop, _ => .ret

def P : Prog Pt Nat Nat Nat where
  code := code
  mv := fun _ => 0

abbrev A := Coro.St Pt Nat Nat Nat

/-- What stays the same in the loop. -/
structure Fix (a : A) : Prop where
  own : a.hs 1 = some ⟨.pull, .val, some ⟨1, .own⟩⟩
  syn : a.hs 0 = some ⟨.push, .val, some ⟨1, .syn⟩⟩
  co : ∃ v, a.co 1 = { kind := .pull, va := .val, phase := .body 0, val := some v, err := none }

structure At (a : A) (act : List Nat) (x : Coro.Ctl Pt Nat Nat) (m g : List (Coro.Fr Pt Nat Nat)) : Prop extends Fix a where
  active : a.active = act
  ctl : a.ctl = x
  main : a.stack 0 = m
  gen : a.stack 1 = g

/-- The states of the loop. -/
inductive In (a : A) : Prop
  | read {w} : At a [0] (.eval (.read 1)) [] [.resumed ⟨1, .syn⟩, .give w, .use fun _ => .inc 0] → In a
  | res {w v} : At a [0] (.res v) [.use fun _ => .next 1] [.resumed ⟨1, .syn⟩, .give w, .use fun _ => .inc 0] → In a
  | next {w} : At a [0] (.eval (.next 1)) [] [.resumed ⟨1, .syn⟩, .give w, .use fun _ => .inc 0] → In a
  | over {w} : At a [1, 0] .back [.resumed ⟨1, .own⟩, .use fun _ => .read 1] [.resumed ⟨1, .syn⟩, .give w, .use fun _ => .inc 0] → In a
  | give {w} : At a [1, 0] (.res .unit) [.resumed ⟨1, .own⟩, .use fun _ => .read 1] [.give w, .use fun _ => .inc 0] → In a
  | given {v} : At a [1, 0] (.res v) [.resumed ⟨1, .own⟩, .use fun _ => .read 1] [.use fun _ => .inc 0] → In a
  | inc : At a [1, 0] (.eval (.inc 0)) [.resumed ⟨1, .own⟩, .use fun _ => .read 1] [] → In a
  | gen : At a [1, 0] (.eval (.gen 0)) [.resumed ⟨1, .own⟩, .use fun _ => .read 1] [] → In a
  | back {w} : At a [0] .back [.resumed ⟨1, .own⟩, .use fun _ => .read 1] [.resumed ⟨1, .syn⟩, .give w, .use fun _ => .inc 0] → In a
  | resumed {w} : At a [0] (.res .unit) [.use fun _ => .read 1] [.resumed ⟨1, .syn⟩, .give w, .use fun _ => .inc 0] → In a

local macro "go" : tactic => `(tactic| (
  simp [Coro.step, Coro.evalStep, Coro.resStep, Coro.backStep, P, code, Coro.call, Coro.value, Coro.objValid, Coro.valid, Coro.St.push,
    Coro.St.setStack, Coro.Phase.isEnded, Coro.takes, Coro.pullFrom, Coro.pushTo, Coro.switch, Coro.sleeps, Coro.store, Coro.St.goto,
    Coro.St.see, Coro.St.setCo, upd, *]; rfl))

theorem stepTo {a b : A} (e : Coro.step P a = .next b) (h : In b) : ∃ b, Coro.step P a = .next b ∧ In b := ⟨b, e, h⟩

theorem In.step {a : A} (h : In a) : ∃ b, Coro.step P a = .next b ∧ In b := by
  cases h with
  | read h =>
    obtain ⟨⟨h1, h2, v, h3⟩, h4, h5, h6, h7⟩ := h
    apply stepTo
    · go
    · exact .res ⟨⟨h1, h2, _, rfl⟩, rfl, rfl, rfl, h7⟩
  | res h =>
    obtain ⟨⟨h1, h2, v, h3⟩, h4, h5, h6, h7⟩ := h
    apply stepTo
    · go
    · exact .next ⟨⟨h1, h2, _, h3⟩, rfl, rfl, rfl, h7⟩
  | next h =>
    obtain ⟨⟨h1, h2, v, h3⟩, h4, h5, h6, h7⟩ := h
    apply stepTo
    · go
    · exact .over ⟨⟨h1, h2, _, h3⟩, rfl, rfl, rfl, h7⟩
  | over h =>
    obtain ⟨⟨h1, h2, v, h3⟩, h4, h5, h6, h7⟩ := h
    apply stepTo
    · go
    · exact .give ⟨⟨h1, h2, _, h3⟩, rfl, rfl, h6, rfl⟩
  | give h =>
    obtain ⟨⟨h1, h2, v, h3⟩, h4, h5, h6, h7⟩ := h
    apply stepTo
    · go
    · exact .given ⟨⟨h1, h2, _, h3⟩, rfl, rfl, h6, rfl⟩
  | given h =>
    obtain ⟨⟨h1, h2, v, h3⟩, h4, h5, h6, h7⟩ := h
    apply stepTo
    · go
    · exact .inc ⟨⟨h1, h2, _, h3⟩, rfl, rfl, h6, rfl⟩
  | inc h =>
    obtain ⟨⟨h1, h2, v, h3⟩, h4, h5, h6, h7⟩ := h
    apply stepTo
    · go
    · exact .gen ⟨⟨h1, h2, _, h3⟩, rfl, rfl, h6, h7⟩
  | gen h =>
    obtain ⟨⟨h1, h2, v, h3⟩, h4, h5, h6, h7⟩ := h
    apply stepTo
    · go
    · exact .back ⟨⟨h1, h2, _, rfl⟩, rfl, rfl, h6, rfl⟩
  | back h =>
    obtain ⟨⟨h1, h2, v, h3⟩, h4, h5, h6, h7⟩ := h
    apply stepTo
    · go
    · exact .resumed ⟨⟨h1, h2, _, h3⟩, rfl, rfl, rfl, h7⟩
  | resumed h =>
    obtain ⟨⟨h1, h2, v, h3⟩, h4, h5, h6, h7⟩ := h
    apply stepTo
    · go
    · exact .read ⟨⟨h1, h2, _, h3⟩, rfl, rfl, rfl, h7⟩

theorem In.run {n : Nat} : ∀ {a : A}, In a → ∃ b, Coro.run P n a = .next b := by
  induction n with
  | zero => intro a _; exact ⟨a, rfl⟩
  | succ n ih =>
    intro a h
    obtain ⟨b, hb, hi⟩ := h.step
    obtain ⟨c, hc⟩ := ih hi
    exact ⟨c, by simp only [Coro.run, hb, hc]⟩

/-- In the specification the program runs for ever. -/
theorem forever (n : Nat) : ∃ a, Coro.run P n (Coro.init .start 0) = .next a := by
  rcases Nat.lt_or_ge n 5 with h | h
  · match n, h with
    | 0, _ | 1, _ | 2, _ | 3, _ | 4, _ => exact ⟨_, rfl⟩
  · obtain ⟨m, rfl⟩ : ∃ m, n = m + 5 := ⟨n - 5, by omega⟩
    exact In.run (n := m) (a := _) (.read (w := 0) ⟨⟨rfl, rfl, 0, rfl⟩, rfl, rfl, rfl, rfl⟩)

theorem meaningful : Coro.Meaningful P .start 0 := by
  intro a hr he
  obtain ⟨n, hn⟩ := coroRun_of_reach hr
  obtain ⟨b, hb⟩ := forever (n + 1)
  rw [coroRun_step hn, he] at hb
  cases hb

end Verif.Tick
