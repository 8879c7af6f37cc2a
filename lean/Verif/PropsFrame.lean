import Verif.SpecFrame
import Verif.Back
import Verif.PropsMove

/-!
# Coroutines do not interfere (C25)
-/
namespace Verif
variable {L G V E : Type} {P : Prog L G V E} {s s' : St L G V E} {l0 : L} {g0 : G}

private theorem off {α β : Type} [DecidableEq α] {f : α → β} {a x : α} {b : β} (h : x ≠ a) : upd f a b x = f x := by
  simp [upd, h]

private theorem SameCo.refl (d : Nat) : SameCo s s d := ⟨fun _ _ => ⟨rfl, rfl⟩, rfl, rfl, rfl, rfl, rfl⟩

/-- What a scope exit does before the object dies. -/
private theorem Scope.sameCo {h d : Nat} {s1 : St L G V E} (hs : Scope P s h s1) (hd : ¬ Subject P s d) :
    SameCo s s1 d ∧ s1.hs = s.hs ∧ ∀ ty r, Refers s h ty (some r) → r.co ≠ d := by
  have own : ¬ UserRuns s → s.fr = [] → d ≠ s.cur := by
    rintro h1 h2 rfl; exact hd (.own h1 h2)
  cases hs
  case leave a b c => exact ⟨⟨fun _ _ => ⟨rfl, rfl⟩, rfl, rfl, rfl, rfl, rfl⟩, rfl, fun _ _ hr e => hd (e ▸ .scope (.inr ⟨_, _, a, b⟩) c hr)⟩
  case api a b => exact ⟨⟨fun _ _ => ⟨rfl, rfl⟩, rfl, rfl, rfl, rfl, rfl⟩, rfl, fun _ _ hr e => hd (e ▸ .call ⟨_, a, b⟩ .destroy hr)⟩
  case raise a b => exact ⟨⟨fun _ _ => ⟨rfl, rfl⟩, rfl, rfl, rfl, rfl, rfl⟩, rfl, fun _ _ hr e => hd (e ▸ .scope (.inl (by rintro ⟨_, e⟩; rw [a] at e; cases e)) b hr)⟩
  case ret a b => exact ⟨⟨fun _ _ => ⟨rfl, rfl⟩, rfl, rfl, rfl, rfl, rfl⟩, rfl, fun _ _ hr e => hd (e ▸ .scope (.inl (by rintro ⟨_, e⟩; rw [a] at e; cases e)) b hr)⟩
  case unwFn a b c =>
    have hu : ¬ UserRuns s := by rintro ⟨_, e⟩; rw [a] at e; cases e
    have := own hu b
    exact ⟨⟨fun _ _ => ⟨rfl, rfl⟩, off this, off this, rfl, rfl, rfl⟩, rfl, fun _ _ hr e => hd (e ▸ .counterpart hu b (.inl c) hr)⟩
  case unwEntry a b c =>
    have hu : ¬ UserRuns s := by rintro ⟨_, e⟩; rw [a] at e; cases e
    have := own hu b
    exact ⟨⟨fun _ _ => ⟨rfl, rfl⟩, off this, rfl, rfl, rfl, rfl⟩, rfl,
      fun _ _ hr e => hd (e ▸ .counterpart hu b (.inr (.inl ⟨_, c⟩)) hr)⟩
  case unwFinal a b c =>
    have hu : ¬ UserRuns s := by rintro ⟨_, e⟩; rw [a] at e; cases e
    have := own hu b
    exact ⟨⟨fun _ _ => ⟨rfl, rfl⟩, off this, rfl, rfl, rfl, rfl⟩, rfl,
      fun _ _ hr e => hd (e ▸ .counterpart hu b (.inr (.inr c)) hr)⟩
  case final u a b x c =>
    have hu : ¬ UserRuns s := by rintro ⟨_, e⟩; rw [a] at e; cases e
    have := own hu b
    refine ⟨⟨fun r _ => ⟨rfl, ?_⟩, off this, rfl, rfl, rfl, rfl⟩, rfl,
      fun _ _ hr e => hd (e ▸ .counterpart hu b (.inr (.inr c)) hr)⟩
    dsimp only
    rw [off (by simp), off (by simp)]

private theorem Dying.sameCo {f : Option Nat} {d : Nat} {s0 : St L G V E} (hs : Dying P s f s0) (hd : ¬ Subject P s d) : SameCo s s0 d := by
  cases hs
  case handle h s1 hdl k sl evs a b c e g =>
    obtain ⟨⟨h1, h2⟩, h3, h4⟩ := a.sameCo hd
    have hk : k ≠ d := h4 _ ⟨k, .own⟩ ⟨hdl, h3 ▸ b, rfl, c⟩
    refine ⟨fun r hr => ?_, h2⟩
    have : r ≠ ⟨k, .own⟩ := by rintro rfl; exact hk hr
    refine ⟨?_, ?_⟩
    · dsimp only; rw [off this]; exact (h1 r hr).1
    · dsimp only; rw [off (by simpa using this)]; exact (h1 r hr).2
  case ctorInvalid k t sl evs u a b c e g i j m n =>
    have hu : ¬ UserRuns s := by rintro ⟨_, e⟩; rw [a] at e; cases e
    refine ⟨fun r hr => ?_, rfl, rfl, rfl, rfl, rfl⟩
    have : r ≠ ⟨k, .own⟩ := by rintro rfl; exact hd (hr ▸ .ctor hu (.inl b))
    exact ⟨off this, by dsimp only; exact off (by simp)⟩
  case ctorThrow k t e u a b c e g i j =>
    have hu : ¬ UserRuns s := by rintro ⟨_, e⟩; rw [a] at e; cases e
    refine ⟨fun r hr => ?_, rfl, rfl, rfl, rfl, rfl⟩
    have : r ≠ ⟨k, .own⟩ := by rintro rfl; exact hd (hr ▸ .ctor hu (.inl b))
    exact ⟨off this, by dsimp only; exact off (by simp)⟩
  case ctorUnw x f k t a b c =>
    have hu : ¬ UserRuns s := by rintro ⟨_, e⟩; rw [a] at e; cases e
    refine ⟨fun r hr => ?_, rfl, rfl, rfl, rfl, rfl⟩
    have : r ≠ ⟨k, .own⟩ := by
      rintro rfl
      refine hd (hr ▸ Subject.ctor (t := t) hu ?_)
      rcases c with rfl | rfl
      · exact .inl b
      · exact .inr b
    exact ⟨off this, by dsimp only; exact off (by simpa using this)⟩
  case syn r sl evs a b c e =>
    have hu : ¬ UserRuns s := by rintro ⟨_, e⟩; rw [a] at e; cases e
    have hc : d ≠ s.cur := by rintro rfl; exact hd (.own hu b)
    refine ⟨fun r hr => ?_, off hc, rfl, rfl, rfl, rfl⟩
    have : r ≠ ⟨s.cur, .syn⟩ := by rintro rfl; exact hc hr.symm
    exact ⟨off this, by dsimp only; exact off (by simpa using this)⟩

private theorem readSlot_refers {h : Nat} {r : CbRef} {v : V} (hr : readSlot s h = .ok (r, v)) : ∃ ty, Refers s h ty (some r) := by
  obtain ⟨hd, h1, _, _, h2, _⟩ := readSlot_ok hr
  exact ⟨_, hd, h1, rfl, h2⟩

theorem Step.sameCo {d : Nat} (hs : Step P s s') (hd : ¬ Subject P s d) : SameCo s s' d := by
  have own : ¬ UserRuns s → s.fr = [] → d ≠ s.cur := by
    rintro h1 h2 rfl; exact hd (.own h1 h2)
  cases hs
  case loc => exact SameCo.refl d
  case get a b c =>
    obtain ⟨ty, hr⟩ := readSlot_refers c
    refine ⟨fun r' hr' => ⟨off ?_, rfl⟩, rfl, rfl, rfl, rfl, rfl⟩
    rintro rfl; exact hd (hr' ▸ .call ⟨_, a, b⟩ .get hr)
  case moveCtor => exact SameCo.refl d
  case moveAssign => exact SameCo.refl d
  case ctorDrop => exact SameCo.refl d
  case mkFn a b =>
    have : d ≠ s.nk := by rintro rfl; exact hd (.create ⟨_, a, b⟩)
    exact ⟨fun _ _ => ⟨rfl, rfl⟩, rfl, rfl, off this, rfl, rfl⟩
  case mk a b =>
    have : d ≠ s.nk := by rintro rfl; exact hd (.create ⟨_, a, b⟩)
    refine ⟨fun r hr => ⟨off ?_, by dsimp only; exact off (by simp)⟩, off this, off this, off this, off this, off this⟩
    rintro rfl; exact this hr.symm
  case pushThrow h a' post hdl r b evs e a1 a2 a3 a4 a5 a6 a7 a8 a9 a10 a11 =>
    refine ⟨fun r' hr' => ⟨off ?_, rfl⟩, rfl, rfl, rfl, rfl, rfl⟩
    rintro rfl
    refine hd (hr' ▸ Subject.call (r := r) (h := h) ⟨_, a1, a2⟩ ?_ ⟨_, a4, a5, a6⟩)
    cases a3
    · exact .push
    · exact .put
  case push h a' post hdl r b evs w t a1 a2 a3 a4 a5 a6 a7 a8 a9 a10 a11 =>
    have hne : r.co ≠ d := by
      intro e
      refine hd (e ▸ Subject.call (r := r) (h := h) ⟨_, a1, a2⟩ ?_ ⟨_, a4, a5, a6⟩)
      cases a3
      · exact .push
      · exact .put
    refine ⟨fun r' hr' => ⟨off ?_, ?_⟩, rfl, rfl, rfl, rfl, rfl⟩
    · rintro rfl; exact hne hr'
    · dsimp only
      rw [off (by simp), off]
      simp only [ne_eq, FLoc.cb.injEq]; rintro rfl; exact hne hr'
  case pull h post hdl r t a1 a2 a3 a4 a5 a6 a7 a8 =>
    have hne : r.co ≠ d := by
      intro e
      refine hd (e ▸ Subject.call (r := r) (h := h) ⟨_, a1, a2⟩ ?_ ⟨_, a4, a5, a6⟩)
      cases a3
      · exact .resume
      · exact .next
    refine ⟨fun r' hr' => ⟨rfl, ?_⟩, rfl, rfl, rfl, rfl, rfl⟩
    · dsimp only
      rw [off (by simp), off]
      simp only [ne_eq, FLoc.cb.injEq]; rintro rfl; exact hne hr'
  case enterPull a b c e g i =>
    have hc := own (by rintro ⟨_, e⟩; rw [a] at e; cases e) b
    refine ⟨fun r hr => ⟨?_, ?_⟩, off hc, off hc, rfl, rfl, rfl⟩
    · dsimp only
      rw [off (by rintro rfl; exact hc hr.symm), off (by rintro rfl; exact hc hr.symm)]
    · dsimp only
      rw [off (by simp), off (by intro e; cases e; exact hc hr.symm)]
  case enterPush a b c e g i =>
    have hc := own (by rintro ⟨_, e⟩; rw [a] at e; cases e) b
    refine ⟨fun r hr => ⟨?_, ?_⟩, off hc, rfl, rfl, rfl, rfl⟩
    · dsimp only
      rw [off (by rintro rfl; exact hc hr.symm), off (by rintro rfl; exact hc hr.symm)]
    · dsimp only
      rw [off (by simp), off (by intro e; cases e; exact hc hr.symm)]
  case startPush a b c e g i =>
    have hc := own (by rintro ⟨_, e⟩; rw [a] at e; cases e) b
    refine ⟨fun r hr => ⟨rfl, ?_⟩, off hc, off hc, rfl, rfl, rfl⟩
    · dsimp only
      rw [off (by simp), off (by intro e; cases e; exact hc hr.symm)]
  case wait => exact SameCo.refl d
  case asg a b c e g i =>
    refine ⟨fun r' hr' => ⟨rfl, ?_⟩, rfl, rfl, rfl, rfl, rfl⟩
    · dsimp only
      rw [off (by simp), off (by intro e; cases e; exact hd (hr' ▸ .pending a b))]
  case asgThrow a b c e g i =>
    refine ⟨fun r' hr' => ⟨rfl, ?_⟩, rfl, rfl, rfl, rfl, rfl⟩
    · dsimp only
      rw [off (by simp), off (by intro e; cases e; exact hd (hr' ▸ .pending a b))]
  case pullCtor a b c e g i j k =>
    have hu : ¬ UserRuns s := by rintro ⟨_, e⟩; rw [a] at e; cases e
    refine ⟨fun r' hr' => ⟨rfl, ?_⟩, rfl, rfl, rfl, rfl, rfl⟩
    · dsimp only
      rw [off (by simp), off (by intro e; cases e; exact hd (hr' ▸ .ctor hu (.inl b)))]
  case pushCtor a b c e g i =>
    have hu : ¬ UserRuns s := by rintro ⟨_, e⟩; rw [a] at e; cases e
    refine ⟨fun r' hr' => ⟨rfl, ?_⟩, rfl, rfl, rfl, rfl, rfl⟩
    · dsimp only
      rw [off (by simp), off (by intro e; cases e; exact hd (hr' ▸ .ctor hu (.inr b)))]
  case fin a b c e g =>
    have hu : ¬ UserRuns s := by
      rintro ⟨_, e⟩
      rcases a with ⟨a, -⟩ | ⟨_, a, -⟩ <;> rw [a] at e <;> cases e
    have hc := own hu b
    refine ⟨fun r hr => ⟨off ?_, ?_⟩, off hc, off hc, rfl, rfl, rfl⟩
    · rintro rfl; exact hc hr.symm
    · dsimp only
      rw [off (by simp), off (by intro e; cases e; exact hc hr.symm)]
  case nop a b c => exact (a.sameCo hd).1
  case dropNone a => exact a.sameCo hd
  case dropSome a =>
    obtain ⟨h1, h2⟩ := a.sameCo hd
    refine ⟨fun r hr => ⟨(h1 r hr).1, ?_⟩, h2⟩
    dsimp only
    rw [off (by simp)]
    exact (h1 r hr).2
  case exit a b c e g =>
    have hc := own (by rintro ⟨_, e⟩; rw [a] at e; cases e) b
    refine ⟨fun r hr => ⟨?_, ?_⟩, off hc, ?_, off hc, rfl, rfl⟩
    · dsimp only [freeCbs]
      rw [off (by rintro rfl; exact hc hr.symm), off (by rintro rfl; exact hc hr.symm)]
    · dsimp only; exact off (by simp)
    · show (if _ then _ else _ : Nat → _) d = _
      split
      · exact off hc
      · rfl

/-- C25: in every reachable state of every program, the next step leaves every coroutine it is not about as it is, and it changes the
frames on no stack but the running context's own. -/
theorem C25_step (hr : Reach P l0 g0 s) (hs : step P s = .next s') {d : Nat} (hd : ¬ Subject P s d) :
    SameCo s s' d ∧ (d ≠ s.cur → s'.frames d = s.frames d) :=
  have h := step_rel (inv_reach hr) hs
  ⟨h.sameCo hd, h.framesOther⟩

/-- When user code makes a call on an object, the step is about the coroutine this object refers to, and no other. -/
private theorem Subject.of_call {op : Op L V E} {k : Res V → L} {h d : Nat} {ty : Kind} {r : CbRef} (hc : Calls P s op k)
    (ha : ActsOn op h) (hh : Refers s h ty (some r)) (hsub : Subject P s d) : d = r.co := by
  obtain ⟨l, c1, c2⟩ := hc
  have hu : UserRuns s := ⟨l, c1⟩
  cases hsub with
  | @call _ _ _ _ r' a b c =>
    obtain ⟨l', a1, a2⟩ := a
    rw [c1] at a1; cases a1
    rw [c2] at a2; cases a2
    obtain ⟨_, d1, _, d2⟩ := c
    obtain ⟨_, b1, _, b2⟩ := hh
    have : r = r' := by cases ha <;> cases b <;> (rw [d1] at b1; cases b1; rw [d2] at b2; cases b2; rfl)
    rw [this]
  | create a =>
    obtain ⟨l', a1, a2⟩ := a
    rw [c1] at a1; cases a1
    rw [c2] at a2; cases a2
    cases ha
  | pending a => rw [c1] at a; cases a
  | ctor a => exact absurd hu a
  | scope a =>
    rcases a with a | ⟨l', _, a1, a2⟩
    · exact absurd hu a
    · rw [c1] at a1; cases a1
      rw [c2] at a2; cases a2
  | own a => exact absurd hu a
  | counterpart a => exact absurd hu a

/-- C25: a call on an object that refers to one coroutine leaves every other coroutine as it is. -/
theorem C25_call (hr : Reach P l0 g0 s) {op : Op L V E} {k : Res V → L} {h : Nat} {ty : Kind} {r : CbRef} (hc : Calls P s op k)
    (ha : ActsOn op h) (hh : Refers s h ty (some r)) (hs : step P s = .next s') {d : Nat} (hd : d ≠ r.co) :
    SameCo s s' d ∧ (d ≠ s.cur → s'.frames d = s.frames d) :=
  C25_step hr hs fun hsub => hd (hsub.of_call hc ha hh)

/-- C25: as long as a coroutine does not run and no step is about it, everything that belongs to it, its stack included, stays the same,
whatever the rest of the program does meanwhile. -/
theorem C25_untouched (hr : Reach P l0 g0 s) {d : Nat} (hw : Without P d s s') : SameCo s s' d ∧ s'.frames d = s.frames d := by
  suffices h : Reach P l0 g0 s' ∧ SameCo s s' d ∧ s'.frames d = s.frames d from h.2
  induction hw with
  | refl => exact ⟨hr, SameCo.refl d, rfl⟩
  | step _ hc hn hs ih =>
    obtain ⟨h1, ⟨h2, h3, h4, h5, h6, h7⟩, h8⟩ := ih
    obtain ⟨⟨g2, g3, g4, g5, g6, g7⟩, g8⟩ := C25_step h1 hs hn
    exact ⟨h1.step hs, ⟨fun r hr => ⟨(g2 r hr).1.trans (h2 r hr).1, (g2 r hr).2.trans (h2 r hr).2⟩, g3.trans h3, g4.trans h4, g5.trans h5,
      g6.trans h6, g7.trans h7⟩, (g8 fun e => hc e.symm).trans h8⟩

open Demo in
/-- C25: a program with two coroutines, both suspended after pushing a value; step 21 of `shuffleMain` resumes coroutine 2, which leaves
coroutine 1, its stored value included, as it is; from step 9 to step 18 no step is about coroutine 1. -/
example : Reach Demo.P shuffleMain [] (stateAt shuffleMain 21) ∧ (∃ k, Calls Demo.P (stateAt shuffleMain 21) (.resume 4) k) ∧
    Refers (stateAt shuffleMain 21) 4 .pull (some ⟨2, .own⟩) ∧ (1 ≠ (⟨2, .own⟩ : CbRef).co) ∧
    ((stateAt shuffleMain 21).cbs ⟨1, .own⟩).bvalid = true ∧ ((stateAt shuffleMain 21).fib (.cb ⟨1, .own⟩)).isSome ∧
    (∃ s', step Demo.P (stateAt shuffleMain 21) = .next s' ∧ s'.cur = 2) :=
  ⟨reach _ _ rfl, ⟨_, _, rfl, rfl⟩, ⟨_, rfl, rfl, rfl⟩, by decide, rfl, rfl, stateAt shuffleMain 22, rfl, rfl⟩

private theorem Subject.of_pending {d : Nat} {r : CbRef} {t : List (Frame L V E)} (h3 : s.ctl = .recv) (h2 : s.fr = .asg r :: t)
    (h : Subject P s d) : d = r.co := by
  cases h with
  | call a => obtain ⟨_, a, _⟩ := a; rw [h3] at a; cases a
  | create a => obtain ⟨_, a, _⟩ := a; rw [h3] at a; cases a
  | pending a b => rw [h2] at b; cases b; rfl
  | ctor a b => rw [h2] at b; rcases b with b | b <;> cases b
  | scope a b => rw [h2] at b; cases b
  | own a b => rw [h2] at b; cases b
  | counterpart a b => rw [h2] at b; cases b

open Demo in
/-- C25: coroutine 1 is untouched while coroutine 2 is resumed and runs. -/
example : Without Demo.P 1 (stateAt shuffleMain 21) (stateAt shuffleMain 23) ∧ (stateAt shuffleMain 21).cur = 0 ∧
    (stateAt shuffleMain 23).cur = 2 :=
  ⟨.step (.step .refl (by decide)
      (fun h => absurd (h.of_call (op := .resume 4) ⟨_, rfl, rfl⟩ .resume (r := ⟨2, .own⟩) ⟨_, rfl, rfl, rfl⟩) (by decide)) rfl)
      (by decide) (fun h => absurd (h.of_pending (r := ⟨2, .syn⟩) rfl rfl) (by decide)) rfl, rfl, rfl⟩

end Verif
