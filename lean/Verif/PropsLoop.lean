import Verif.SpecLoop
import Verif.PropsFrame
import Verif.PropsIter
import Verif.PropsUnwind

/-!
# Range-for loops (C07) and lazy consumption (C42)
-/
namespace Verif
variable {L G V E : Type}
variable {P : Prog L G V E} {l0 : L} {g0 : G} {s s' s0 t : St L G V E} {h c : Nat} {k : Res V → L} {ty : Kind} {v : V}
open Aux AuxIter

namespace AuxLoop

/-! ### counting in the history -/

theorem nJump_cons_ne {r : CbRef} {e : Ev V E} {l : List (Ev V E)} (h : ∀ i j, e ≠ .jump r i j) : nJump r (e :: l) = nJump r l := by
  show List.countP _ _ = _
  rw [List.countP_cons, if_neg]
  · rfl
  · cases e <;> simp
    rintro rfl
    exact h _ _ rfl

theorem nJump_cons_eq {r : CbRef} {i j : Nat} {l : List (Ev V E)} : nJump r (.jump r i j :: l) = nJump r l + 1 := by
  show List.countP _ _ = _
  rw [List.countP_cons, if_pos (by simp)]; rfl

def lastOwn (c : Nat) (l : List (Ev V E)) : Nat :=
  match lastJump c l with
  | some (r, _, _) => if r.side = .own then 1 else 0
  | none => 0

theorem jumps_count {c : Nat} : ∀ {l : List (Ev V E)}, JumpsOk l → nJump ⟨c, .own⟩ l = nJump ⟨c, .syn⟩ l + lastOwn c l
  | [], _ => rfl
  | e :: l, h => by
    have ih := jumps_count (c := c) (jumps_tail h)
    by_cases he : ∃ r i j, e = .jump r i j ∧ r.co = c
    · obtain ⟨r, i, j, rfl, rfl⟩ := he
      have h0 := h.1
      rcases r with ⟨c, sd⟩
      have hlo : lastOwn c (.jump ⟨c, sd⟩ i j :: l) = if sd = .own then 1 else 0 := by simp [lastOwn, lastJump]
      rw [hlo]
      cases hl : lastJump c l with
      | none =>
        rw [hl] at h0
        have : sd = .own := h0.1
        subst this
        have hz : lastOwn c l = 0 := by simp [lastOwn, hl]
        rw [nJump_cons_eq, nJump_cons_ne (by simp), ih, hz]
        simp
      | some x =>
        obtain ⟨r', i', j'⟩ := x
        rw [hl] at h0
        have h1 : r' = (⟨c, sd⟩ : CbRef).partner := h0.1
        subst h1
        have hz : lastOwn c l = if sd = .own then 0 else 1 := by
          simp only [lastOwn, hl]; cases sd <;> rfl
        rw [hz] at ih
        cases sd
        · rw [nJump_cons_eq, nJump_cons_ne (by simp), ih]; simp
        · rw [nJump_cons_eq, nJump_cons_ne (by simp), ih]; simp
    · have h1 : ∀ sd i j, e ≠ .jump ⟨c, sd⟩ i j := fun sd i j hh => he ⟨_, i, j, hh, rfl⟩
      rw [nJump_cons_ne (h1 _), nJump_cons_ne (h1 _), ih]
      have : lastJump c (e :: l) = lastJump c l := by
        cases e <;> simp only [lastJump]
        rename_i r i j
        rw [if_neg]
        intro hr
        exact he ⟨r, i, j, rfl, hr⟩
      simp [lastOwn, this]

theorem pushedList_app {c : Nat} {l : List (Ev V E)} : ∀ {a : List (Ev V E)}, pushedList c (a ++ l) = pushedList c l ++ pushedList c a
  | [] => by simp [pushedList]
  | e :: a => by
    have ih := pushedList_app (c := c) (l := l) (a := a)
    cases e <;> simp only [List.cons_append, pushedList, ih]
    split <;> simp

def one (p : Prop) [Decidable p] : Nat := if p then 1 else 0

theorem pushes_count {kd : Nat → Kind} {va : Nat → Var} {c : Nat} (hk : kd c = .pull) (hv : va c ≠ .void) :
    ∀ {l : List (Ev V E)}, TransfersOk kd va l → JumpsOk l →
      (pushedList c l).length ≤ nJump ⟨c, .syn⟩ l + one (headPushed l = some c) ∧
      nJump ⟨c, .syn⟩ l + one (headPushed l = some c) + one (headFin l = some c) ≤ (pushedList c l).length + nFin c l
  | [], _, _ => by simp [pushedList, nJump, nFin, headPushed, headFin, one]
  | e :: l, ht, hj => by
    have ih := pushes_count hk hv ht.1 (jumps_tail hj)
    have h2 := ht.2
    cases e with
    | jump r i j =>
      have hpl : pushedList c (.jump r i j :: l) = pushedList c l := rfl
      have hnf : nFin c (.jump r i j :: l : List (Ev V E)) = nFin c l := by simp [nFin, Ev.isFin]
      have z1 : one (headPushed (.jump r i j :: l : List (Ev V E)) = some c) = 0 := by simp [one, headPushed]
      have z2 : one (headFin (.jump r i j :: l : List (Ev V E)) = some c) = 0 := by simp [one, headFin]
      rw [hpl, hnf, z1, z2]
      by_cases hr : r = ⟨c, .syn⟩
      · subst hr
        rw [nJump_cons_eq]
        cases hp : headPushed l with
        | some x =>
          simp only [hp] at h2
          obtain rfl : c = x := congrArg CbRef.co h2
          rw [hp] at ih
          simp only [one, if_true] at ih
          have : headFin l = none := by cases l with
            | nil => rfl
            | cons e l => cases e <;> simp_all [headPushed, headFin]
          rw [this] at ih
          simp at ih
          omega
        | none =>
          simp only [hp] at h2
          have h3 := h2 (by rw [hk]; rfl)
          rcases h3 with h3 | h3 | h3
          · exact absurd h3 hv
          · have h0 := hj.1
            simp only at h0 h3
            rw [h3] at h0
            exact absurd h0.1 (by simp)
          · rw [hp, h3.1] at ih
            simp [one] at ih
            omega
      · rw [nJump_cons_ne (by rintro i j h; cases h; exact hr rfl)]
        have : one (headPushed l = some c) = 0 := by
          unfold one
          rw [if_neg]
          intro hp
          rw [hp] at h2
          simp only [hk] at h2
          exact hr h2
        rw [this] at ih
        omega
    | pushed x w =>
      have hnf : nFin c (.pushed x w :: l : List (Ev V E)) = nFin c l := by simp [nFin, Ev.isFin]
      have z2 : one (headFin (.pushed x w :: l : List (Ev V E)) = some c) = 0 := by simp [one, headFin]
      rw [hnf, z2, nJump_cons_ne (by simp)]
      have h0 : one (headPushed l = some c) = 0 := by simp [one, h2.1]
      rw [h0] at ih
      by_cases hx : x = c
      · subst hx
        simp [one, headPushed, pushedList]
        omega
      · simp [one, headPushed, pushedList, hx]
        omega
    | fin x w =>
      have hpl : pushedList c (.fin x w :: l : List (Ev V E)) = pushedList c l := rfl
      have h0 : one (headPushed l = some c) = 0 := by have : headPushed l = none := h2; simp [one, this]
      rw [h0] at ih
      rw [nJump_cons_ne (by simp), hpl]
      by_cases hx : x = c
      · subst hx
        have : nFin x (.fin x w :: l : List (Ev V E)) = nFin x l + 1 := by simp [nFin, Ev.isFin]
        rw [this]
        simp [one, headPushed, headFin]
        omega
      · have : nFin c (.fin x w :: l : List (Ev V E)) = nFin c l := by simp [nFin, Ev.isFin, hx]
        rw [this]
        simp [one, headPushed, headFin, hx]
        omega
    | _ =>
      have h0 : one (headPushed l = some c) = 0 := by have : headPushed l = none := h2; simp [one, this]
      rw [h0] at ih
      rw [nJump_cons_ne (by simp)]
      simp [one, headPushed, headFin, pushedList, nFin, Ev.isFin] at ih ⊢
      omega

/-! ### which coroutine the events of a step are about -/

def concern : Ev V E → Option Nat
  | .fin k _ => some k
  | .jump r _ _ => some r.co
  | .pushed k _ => some k
  | .got k _ => some k
  | .setThrow k => some k
  | _ => none

def isJump : Ev V E → Bool
  | .jump _ _ _ => true
  | _ => false

/-- The events of one step are about its subject; control moves with a jump, which is the last event of its step. -/
def Good (P : Prog L G V E) (s s' : St L G V E) (evs : List (Ev V E)) : Prop :=
  s'.log = evs ++ s.log ∧ (∀ e ∈ evs, ∀ d, concern e = some d → Subject P s d) ∧
  ((∀ e ∈ evs, isJump e = false) ∨ ∃ r i j evs', evs = .jump r i j :: evs' ∧ s'.cur = j ∧ ∀ e ∈ evs', isJump e = false)

theorem quietGood {evs : List (Ev V E)} (hl : s'.log = evs ++ s.log) (hq : ∀ e ∈ evs, concern e = none) : Good P s s' evs :=
  ⟨hl, fun e he d hd => (nomatch (hq e he).symm.trans hd), .inl fun e he => (by
    have := hq e he
    cases e <;> simp_all [concern, isJump])⟩

theorem local_quiet {g : G} {fs : List (Frame L V E)} {x : Ctl L V E} {evs : List (Ev V E)} (h : Local P s g fs x evs) :
    ∀ e ∈ evs, concern e = none := by
  cases h <;> simp [concern]

theorem dtor_quiet {kd : Kind} {va : Var} {b : CB V E} {r : CbRef} {sl : Slot V} {evs : List (Ev V E)} (h : Dtor kd va b r sl evs) :
    ∀ e ∈ evs, concern e = none := by
  cases h <;> simp [concern]

theorem scope_quiet {s1 : St L G V E} (hs : Scope P s h s1) : ∃ evs, s1.log = evs ++ s.log ∧ ∀ e ∈ evs, concern e = none := by
  rcases hs.log with h | h
  · exact ⟨[], h, by simp⟩
  · exact ⟨[_], h, by simp [concern]⟩

theorem dying_quiet {f : Option Nat} {s1 : St L G V E} (hs : Dying P s f s1) : ∃ evs, s1.log = evs ++ s.log ∧ ∀ e ∈ evs, concern e = none := by
  cases hs
  case handle evs hsc _ _ _ hd =>
    obtain ⟨e1, h1, h2⟩ := scope_quiet hsc
    refine ⟨evs ++ e1, by simp [h1], fun e he => ?_⟩
    rcases List.mem_append.1 he with he | he
    · exact dtor_quiet hd e he
    · exact h2 e he
  case ctorInvalid hd => exact ⟨_, rfl, dtor_quiet hd⟩
  case ctorThrow => exact ⟨[_], rfl, by simp [concern]⟩
  case ctorUnw => exact ⟨[], rfl, by simp⟩
  case syn hd => exact ⟨_, rfl, dtor_quiet hd⟩

theorem setOk_about {mv : V → V} {va : Var} {b b' : CB V E} {k : Nat} {a : PushArg V E} {evs : List (Ev V E)} {w : Option V}
    (h : SetOk mv va b k a b' evs w) : ∀ e ∈ evs, isJump e = false ∧ ∀ d, concern e = some d → d = k := by
  cases h <;> simp +contextual [concern, isJump]

theorem setThrows_about {va : Var} {b b' : CB V E} {k : Nat} {evs : List (Ev V E)}
    (h : SetThrows va b k b' evs) : ∀ e ∈ evs, isJump e = false ∧ ∀ d, concern e = some d → d = k := by
  cases h <;> simp +contextual [concern, isJump]

theorem step_good (hs : Step P s s') : ∃ evs, Good P s s' evs := by
  cases hs
  case loc hl => exact ⟨_, quietGood rfl (local_quiet hl)⟩
  case get a b x =>
    obtain ⟨hd, h1, _, _, h2, _⟩ := readSlot_ok x
    refine ⟨[_], rfl, ?_, .inl (by simp [isJump])⟩
    intro e he d hd
    simp only [List.mem_singleton] at he
    subst he
    cases hd
    exact .call ⟨_, a, b⟩ .get ⟨_, h1, rfl, h2⟩
  case mkFn => exact ⟨[_], quietGood rfl (by simp [concern])⟩
  case mk a b =>
    refine ⟨[_, _, _], rfl, ?_, .inr ⟨_, _, _, _, rfl, rfl, by simp [isJump]⟩⟩
    intro e he d hd
    simp only [List.mem_cons, List.not_mem_nil, or_false] at he
    rcases he with rfl | rfl | rfl <;> cases hd
    exact .create ⟨_, a, b⟩
  case pushThrow h a' post hdl r b evs e a1 a2 a3 a4 a5 a6 a7 a8 a9 a10 a11 =>
    have hq := setThrows_about a11
    refine ⟨_, rfl, fun e he d hd => ?_, .inl fun e he => (hq e he).1⟩
    obtain rfl := (hq e he).2 d hd
    refine Subject.call (r := r) (h := h) ⟨_, a1, a2⟩ ?_ ⟨_, a4, a5, a6⟩
    cases a3
    · exact .push
    · exact .put
  case push h a' post hdl r b evs w t a1 a2 a3 a4 a5 a6 a7 a8 a9 a10 a11 =>
    have hq := setOk_about a10
    have hsub : Subject P s r.co := by
      refine Subject.call (r := r) (h := h) ⟨_, a1, a2⟩ ?_ ⟨_, a4, a5, a6⟩
      cases a3
      · exact .push
      · exact .put
    refine ⟨_ :: _, rfl, fun e he d hd => ?_, .inr ⟨_, _, _, _, rfl, rfl, fun e he => (hq e he).1⟩⟩
    rcases List.mem_cons.1 he with rfl | he
    · cases hd; exact hsub
    · obtain rfl := (hq e he).2 d hd; exact hsub
  case pull h post hdl r t a1 a2 a3 a4 a5 a6 a7 a8 =>
    refine ⟨[_], rfl, fun e he d hd => ?_, .inr ⟨_, _, _, _, rfl, rfl, by simp⟩⟩
    obtain rfl := List.mem_singleton.1 he
    cases hd
    refine Subject.call (r := r) (h := h) ⟨_, a1, a2⟩ ?_ ⟨_, a4, a5, a6⟩
    cases a3
    · exact .resume
    · exact .next
  case enterPush a b c e g i =>
    refine ⟨[_], rfl, fun e he d hd => ?_, .inr ⟨_, _, _, _, rfl, rfl, by simp⟩⟩
    obtain rfl := List.mem_singleton.1 he
    cases hd
    exact .own (by rintro ⟨_, e⟩; rw [a] at e; cases e) b
  case fin a b c e g =>
    have hu : ¬ UserRuns s := by
      rintro ⟨_, e⟩
      rcases a with ⟨a, -⟩ | ⟨_, a, -⟩ <;> rw [a] at e <;> cases e
    refine ⟨[_, _, _], rfl, fun e he d hd => ?_, .inr ⟨_, _, _, _, rfl, rfl, by simp [isJump]⟩⟩
    simp only [List.mem_cons, List.not_mem_nil, or_false] at he
    rcases he with rfl | rfl | rfl <;> cases hd <;> exact .own hu b
  case nop hsc _ _ => obtain ⟨evs, h1, h2⟩ := scope_quiet hsc; exact ⟨evs, quietGood h1 h2⟩
  case dropNone hd => obtain ⟨evs, h1, h2⟩ := dying_quiet hd; exact ⟨evs, quietGood h1 h2⟩
  case dropSome hd =>
    obtain ⟨evs, h1, h2⟩ := dying_quiet hd
    exact ⟨.unwind _ _ :: evs, quietGood (by show _ :: _ = _; rw [h1]; rfl) (by simpa [concern] using h2)⟩
  case exit => exact ⟨_ :: _, quietGood rfl (by simp [concern])⟩
  all_goals first
    | exact ⟨[], quietGood rfl (by simp)⟩
    | exact ⟨[_], quietGood rfl (by simp [concern])⟩

/-- What the history says about coroutine `c`, as far as it matters here. -/
structure SameHist (c : Nat) (l l' : List (Ev V E)) : Prop where
  pushed : pushedList c l' = pushedList c l
  last : lastPushed c l' = lastPushed c l
  got : gotSince c l' = gotSince c l
  fin : nFin c l' = nFin c l
  spoil : spoiled c l' = spoiled c l
  jump : lastJump c l' = lastJump c l
  nj : ∀ sd, nJump ⟨c, sd⟩ l' = nJump ⟨c, sd⟩ l

theorem SameHist.rfl {l : List (Ev V E)} : SameHist c l l := ⟨.refl _, .refl _, .refl _, .refl _, .refl _, .refl _, fun _ => .refl _⟩

theorem SameHist.app {l : List (Ev V E)} : ∀ {evs : List (Ev V E)}, (∀ e ∈ evs, concern e ≠ some c) → SameHist c l (evs ++ l)
  | [], _ => .rfl
  | e :: evs, h => by
    obtain ⟨h1, h2, h3, h4, h5, h6, h7⟩ := SameHist.app (l := l) (evs := evs) fun e he => h e (List.mem_cons_of_mem _ he)
    have h0 := h e List.mem_cons_self
    refine ⟨?_, ?_, ?_, ?_, ?_, ?_, fun sd => (nJump_cons_ne (by rintro i j rfl; exact h0 _root_.rfl)).trans (h7 sd)⟩ <;>
      (cases e <;> simp [concern] at h0) <;>
      first
      | simpa [pushedList, h0] using h1
      | simpa [lastPushed, h0] using h2
      | simpa [gotSince, h0] using h3
      | simpa [nFin, Ev.isFin, h0] using h4
      | simpa [spoiled, h0] using h5
      | simpa [lastJump, h0] using h6

theorem SameHist.trans {l l' l'' : List (Ev V E)} (h : SameHist c l l') (h' : SameHist c l' l'') : SameHist c l l'' :=
  ⟨h'.1.trans h.1, h'.2.trans h.2, h'.3.trans h.3, h'.4.trans h.4, h'.5.trans h.5, h'.6.trans h.6, fun sd => (h'.7 sd).trans (h.7 sd)⟩

theorem without_hist (hr : Reach P l0 g0 s) (hw : Without P c s s') : Reach P l0 g0 s' ∧ SameHist c s.log s'.log := by
  induction hw with
  | refl => exact ⟨hr, .rfl⟩
  | step _ hc hn hs ih =>
    obtain ⟨h1, h2⟩ := ih
    obtain ⟨evs, e1, e2, -⟩ := step_good (step_rel (inv_reach h1) hs)
    refine ⟨h1.step hs, h2.trans ?_⟩
    rw [e1]
    exact .app fun e he hc => hn (e2 e he _ hc)

/-! ### values -/

theorem lastPushed_getLast {l : List (Ev V E)} : lastPushed c l = (pushedList c l).getLast? := by
  induction l with
  | nil => rfl
  | cons e l ih =>
    cases e <;> simp only [lastPushed, pushedList] <;> try exact ih
    split
    · simp
    · exact ih

theorem void_no_push {kd : Nat → Kind} {va : Nat → Var} : ∀ {l : List (Ev V E)}, TransfersOk kd va l → pushedList c l ≠ [] → va c ≠ .void
  | [], _, h => absurd rfl h
  | e :: l, ht, h => by
    have ih := void_no_push ht.1
    cases e <;> simp only [pushedList] at h <;> try exact ih h
    rename_i x w
    by_cases hx : x = c
    · subst hx; exact ht.2.2.1
    · rw [if_neg hx] at h; exact ih h

theorem own_pull (hr : Reach P l0 g0 s) (hh : Refers s h .pull (some ⟨c, .own⟩)) : s.kind c = .pull := by
  have := end_of hr hh
  cases hk : s.kind c with
  | pull => rfl
  | push => rw [hk] at this; cases this

/-- the number of values pushed so far -/
theorem count_pushed (hr : Reach P l0 g0 s) (hk : s.kind c = .pull) (hv : s.va c ≠ .void) :
    (pushedList c s.log).length ≤ nJump ⟨c, .own⟩ s.log ∧
    (lastOwn c s.log = 0 → nFin c s.log = 0 → (pushedList c s.log).length = nJump ⟨c, .own⟩ s.log) := by
  have ht := tinv_reach hr
  have hj := (jinv_reach hr).chain
  have h1 := pushes_count hk hv ht.tr hj
  have h2 := jumps_count (c := c) hj
  rw [ht.hp] at h1
  simp only [one, reduceCtorEq, if_false] at h1
  refine ⟨by omega, fun a b => by omega⟩

theorem suspended_last {l : List (Ev V E)} (hs : Suspended c l) : lastOwn c l = 0 := by
  obtain ⟨j, h⟩ := hs
  simp [lastOwn, h]

/-! ### control goes to `c` and comes back -/

theorem away_hist {t : Nat} (hr : Reach P l0 g0 s0) {s1 : St L G V E} (he : step P s0 = .next s1)
    (hl : s1.log = .jump ⟨c, .own⟩ s0.cur t :: s0.log) (ha : Away P s0 s) :
    Reach P l0 g0 s ∧ lastJump c s.log = some (⟨c, .own⟩, s0.cur, t) ∧
      ∀ sd, nJump ⟨c, sd⟩ s.log = nJump ⟨c, sd⟩ (.jump ⟨c, .own⟩ s0.cur t :: s0.log) := by
  induction ha with
  | first e _ =>
    rw [he] at e; cases e
    exact ⟨hr.step he, by rw [hl]; simp [lastJump], fun sd => by rw [hl]⟩
  | next _ e hne ih =>
    rename_i s s' _
    obtain ⟨h1, h2, h3⟩ := ih
    have h1' := h1.step e
    obtain ⟨evs, e1, -, e3⟩ := step_good (step_rel (inv_reach h1) e)
    have key : ∀ {evs : List (Ev V E)}, (∀ e ∈ evs, isJump e = false) → lastJump c (evs ++ s.log) = lastJump c s.log ∧
        ∀ sd, nJump ⟨c, sd⟩ (evs ++ s.log) = nJump ⟨c, sd⟩ s.log := by
      intro evs
      induction evs with
      | nil => intro _; exact ⟨rfl, fun _ => rfl⟩
      | cons e evs ih =>
        intro h
        have h4 := h e List.mem_cons_self
        obtain ⟨h5, h6⟩ := ih fun e he => h e (List.mem_cons_of_mem _ he)
        refine ⟨?_, fun sd => (nJump_cons_ne (by rintro i j rfl; cases h4)).trans (h6 sd)⟩
        cases e <;> simp [isJump] at h4 <;> simpa [lastJump] using h5
    rcases e3 with hq | ⟨r, i, j, evs', rfl, hj, hq⟩
    · obtain ⟨k1, k2⟩ := key hq
      exact ⟨h1', by rw [e1, k1, h2], fun sd => by rw [e1, k2, h3]⟩
    · obtain ⟨k1, k2⟩ := key hq
      by_cases hrc : r.co = c
      · exfalso
        have hc := (jinv_reach h1').chain
        rw [e1] at hc
        have h0 := hc.1
        have h0' : lastJump r.co (evs' ++ s.log) = some (⟨c, .own⟩, s0.cur, t) := by rw [hrc, k1, h2]
        simp only [List.append_eq] at h0
        rw [h0'] at h0
        exact hne (hj.trans h0.2)
      · have hl' : s'.log = .jump r i j :: (evs' ++ s.log) := e1
        refine ⟨h1', ?_, fun sd => ?_⟩
        · rw [hl', ← h2, ← k1]; simp [lastJump, hrc]
        · rw [hl', nJump_cons_ne (by rintro i j hh; cases hh; exact hrc rfl), k2, h3]

/-- what has happened when control is back in `++it` -/
theorem inc_hist (hr : Reach P l0 g0 s0) (hi : Increments P h c s0 t) :
    Reach P l0 g0 t ∧ ∃ l i, t.log = .jump ⟨c, .syn⟩ i t.cur :: l ∧
      nJump ⟨c, .own⟩ t.log = nJump ⟨c, .own⟩ s0.log + 1 ∧ nJump ⟨c, .syn⟩ t.log = nJump ⟨c, .syn⟩ s0.log + 1 := by
  obtain ⟨⟨k, hc⟩, hh, hb, hctl, hh'⟩ := hi
  obtain ⟨hrt, hcur, hfr, hj⟩ := next_back hr hc hh hb
  refine ⟨hrt, ?_⟩
  have hal := own_alive hrt hh'
  obtain ⟨s2, ha, e2, hc2⟩ := hb
  obtain ⟨s1, e1⟩ : ∃ s1, step P s0 = .next s1 := by
    clear e2 hc2
    induction ha with
    | first e h => exact ⟨_, e⟩
    | next _ e _ ih => exact ih
  have hl1 : ∃ t1, s1.log = .jump ⟨c, .own⟩ s0.cur t1 :: s0.log := by
    obtain ⟨l, h1, h2⟩ := hc
    obtain ⟨hd, r', t, a1, a2, a3, a4, a5, a6⟩ := (step_rel (inv_reach hr) e1).pullInv h1 h2 .it
    obtain ⟨hd', b1, -, b3⟩ := hh
    rw [b1] at a1; cases a1
    rw [b3] at a3; cases a3
    exact ⟨t, by rw [a6]⟩
  obtain ⟨t1, hl1⟩ := hl1
  obtain ⟨r2, h2, h3⟩ := away_hist hr e1 hl1 ha
  obtain ⟨i, l, hl⟩ : ∃ i l, t.log = .jump ⟨c, .syn⟩ i t.cur :: l := by
    rcases arrived_reach hrt hctl with ⟨q, i, l, b1, b2, b3, b4⟩ | ⟨q, l, b1, b2⟩
    · have : q.partner = ⟨c, .own⟩ := by
        rw [hfr] at b4
        exact (Option.some.inj b4).symm
      have hq : q = ⟨c, .syn⟩ := by
        rcases q with ⟨c', sd⟩
        cases sd <;> simp [CbRef.partner, Side.flip] at this ⊢
        exact this
      rw [hq] at b1
      exact ⟨i, l, b1⟩
    · exfalso
      rcases back_asg hrt hctl hfr with ⟨_, u, hu, -⟩ | ⟨hn, -⟩
      · rw [b2] at hu; cases hu
      · exact hn hal
  refine ⟨l, i, hl, ?_⟩
  obtain ⟨evs, g1, -, g3⟩ := step_good (step_rel (inv_reach r2) e2)
  have key : ∀ {evs : List (Ev V E)}, (∀ e ∈ evs, isJump e = false) → lastJump c (evs ++ s2.log) = lastJump c s2.log ∧
      ∀ sd, nJump ⟨c, sd⟩ (evs ++ s2.log) = nJump ⟨c, sd⟩ s2.log := by
    intro evs
    induction evs with
    | nil => intro _; exact ⟨rfl, fun _ => rfl⟩
    | cons e evs ih =>
      intro h
      have h4 := h e List.mem_cons_self
      obtain ⟨h5, h6⟩ := ih fun e he => h e (List.mem_cons_of_mem _ he)
      refine ⟨?_, fun sd => (nJump_cons_ne (by rintro i j rfl; cases h4)).trans (h6 sd)⟩
      cases e <;> simp [isJump] at h4 <;> simpa [lastJump] using h5
  rcases g3 with hq | ⟨r, i', j, evs', rfl, hj', hq⟩
  · exfalso
    obtain ⟨k1, k2⟩ := key hq
    rw [← g1, hl, h2] at k1
    simp [lastJump] at k1
  · obtain ⟨k1, k2⟩ := key hq
    rw [hl] at g1
    simp only [List.cons_append, List.cons.injEq] at g1
    obtain ⟨g0, g2⟩ := g1
    rw [hl, nJump_cons_ne (by simp), nJump_cons_eq, g2, k2, k2, h3, h3, nJump_cons_eq, nJump_cons_ne (by simp)]
    exact ⟨rfl, rfl⟩

/-- and which values have been pushed -/
theorem inc_pushed (hr : Reach P l0 g0 s0) (hi : Increments P h c s0 t) (hv : s0.va c ≠ .void) (hp : pushedList c s0.log ≠ [])
    (hl : lastOwn c s0.log = 0) (hf : nFin c s0.log = 0) :
    lastOwn c t.log = 0 ∧ t.kind c = .pull ∧ t.va c ≠ .void ∧
    (nFin c t.log = 0 → ∃ x, pushedList c t.log = pushedList c s0.log ++ [x] ∧ gotSince c t.log = none) ∧
    (nFin c t.log ≠ 0 → pushedList c t.log = pushedList c s0.log) := by
  obtain ⟨hrt, l, i, hlog, hn1, hn2⟩ := inc_hist hr hi
  obtain ⟨_, hh, hb, hctl, hh'⟩ := hi
  have hk := own_pull hr hh
  have hk' := own_pull hrt hh'
  obtain ⟨evs, happ⟩ := hb.later.log hr
  have hpl : pushedList c t.log = pushedList c s0.log ++ pushedList c evs := by rw [happ, pushedList_app]
  have hv' : t.va c ≠ .void := void_no_push (tinv_reach hrt).tr (by rw [hpl]; simp [hp])
  have hlt : lastOwn c t.log = 0 := by rw [hlog]; simp [lastOwn, lastJump]
  have hlen0 := (count_pushed hr hk hv).2 hl hf
  refine ⟨hlt, hk', hv', fun hf' => ?_, fun hf' => ?_⟩
  · have hlen := (count_pushed hrt hk' hv').2 hlt hf'
    rw [hpl, List.length_append, hn1, hlen0] at hlen
    have : (pushedList c evs).length = 1 := by omega
    obtain ⟨x, hx⟩ := List.length_eq_one_iff.1 this
    refine ⟨x, by rw [hpl, hx], ?_⟩
    obtain ⟨v, -, h⟩ := value_pushed (r := ⟨c, .own⟩) hrt hlog (by rw [hk']; rfl) (by rw [hn1]; omega) hv' (fun _ => hf')
    exact h
  · have ht := (tinv_reach hrt).tr
    have hj := (jinv_reach hrt).chain
    have h5 := hn2
    rw [hlog] at ht hj h5
    have hlf : nFin c t.log = nFin c l := by rw [hlog]; simp [nFin, Ev.isFin]
    rw [hlf] at hf'
    have h3 := ht.2
    have hhp : headPushed l = none := by
      cases hp' : headPushed l with
      | none => rfl
      | some x =>
        rw [hp'] at h3
        obtain rfl : c = x := congrArg CbRef.co h3
        match l, hp' with
        | .pushed _ w :: l', h6 =>
          cases h6
          exfalso
          have := ht.1.2.2.2 hk'
          apply hf'
          rw [← this]
          simp [nFin, Ev.isFin]
    simp only [hhp] at h3
    rcases h3 (by rw [hk']; rfl) with h | h | h
    · exact absurd h hv'
    · have h0 := hj.1
      simp only [] at h0 h
      rw [h] at h0
      exact absurd h0.1 (by simp)
    · have hpl' : pushedList c t.log = pushedList c l := by rw [hlog]; rfl
      match l, h.1 with
      | .fin _ x :: l', h6 =>
        cases h6
        have hfin1 : nFin c t.log = 1 := by
          rcases (jinv_reach hrt).own _ (own_alive hrt hh') with ⟨_, _, h⟩ | ⟨_, _, h⟩
          · exact absurd (hlf ▸ h) hf'
          · exact h
        have hz : nFin c l' = 0 := by
          rw [hlf] at hfin1
          simpa [nFin, Ev.isFin] using hfin1
        have h7 := pushes_count hk' hv' ht.1.1 (jumps_tail (jumps_tail hj))
        have h8 : headPushed l' = none := ht.1.2
        rw [h8, hz] at h7
        simp only [one, reduceCtorEq, if_false] at h7
        rw [nJump_cons_eq, nJump_cons_ne (by simp)] at h5
        have h9 := jumps_count (c := c) (jinv_reach hr).chain
        rw [hpl'] at hpl ⊢
        have hpl2 : pushedList c (.fin c x :: l') = pushedList c l' := rfl
        rw [hpl2] at hpl ⊢
        have hle := congrArg List.length hpl
        rw [List.length_append] at hle
        have : (pushedList c evs).length = 0 := by omega
        rw [hpl, List.length_eq_zero_iff.1 this, List.append_nil]

theorem runs_no_crash {a : St L G V E} (h1 : CallRuns P s a) (ha : UserRuns a) : ¬ CallCrashes P s := by
  obtain ⟨s1, e1, n1⟩ := h1
  rintro (⟨u, t, h⟩ | ⟨s2, e2, b, s3, n2, hb, h⟩)
  · rw [e1] at h; cases h
  · rw [e1] at e2; cases e2
    clear e1
    induction n1 with
    | refl =>
      cases n2 with
      | refl => exact hb ha
      | step hu _ _ => exact hu ha
    | step hu hs _ ih =>
      cases n2 with
      | refl =>
        rcases h with ⟨u, h⟩ | ⟨_, h⟩ <;> rw [hs] at h <;> cases h
      | step hu' hs' h' => rw [hs] at hs'; cases hs'; exact ih ha h'

theorem runs_before {a b : St L G V E} (h1 : CallRuns P s a) (h2 : CallRuns P s b) (hb : UserRuns b) : Later P a b := by
  obtain ⟨s1, e1, n1⟩ := h1
  obtain ⟨s2, e2, n2⟩ := h2
  rw [e1] at e2; cases e2
  clear e1
  induction n1 with
  | refl => exact n2.later
  | step hu hs _ ih =>
    cases n2 with
    | refl => exact absurd hb hu
    | step hu' hs' h' => rw [hs] at hs'; cases hs'; exact ih h'

/-- what `++it` does once control is back -/
theorem inc_result (hr : Reach P l0 g0 s0) (hi : Increments P h c s0 t) (hc : Calls P s0 (.itNext (some h)) k) :
    (nFin c t.log = 0 ∧ ∃ s', CallRuns P t s' ∧ Returned s0 k (.it (some h)) s' ∧ s'.log = t.log ∧ s'.va = t.va ∧ s'.kind = t.kind) ∨
    (Ev.fin c none ∈ t.log ∧ ∃ s', CallRuns P t s' ∧ Returned s0 k (.it none) s' ∧ s'.log = t.log ∧ s'.va = t.va ∧ s'.kind = t.kind) ∨
    (∃ e, Ev.fin c (some e) ∈ t.log ∧ ∃ s', CallRuns P t s' ∧ Threw s0 e s' ∧ ∃ ev evs, s'.log = ev :: evs ++ t.log) ∨ CallCrashes P t := by
  obtain ⟨-, hh, hb, hctl, hh'⟩ := hi
  obtain ⟨hrt, hcur, hfr, hj⟩ := next_back hr hc hh hb
  rcases asg_done hrt hctl hcur hfr .fetch with ⟨s', v, hrun, hret, hx, hal, hl, hhs, hcb, hk, hva, -, han⟩ | ⟨s', e, hrun, ht, hx, hal, hl, -⟩ | h
  · cases han
    rename_i b hbb
    rw [bang_not] at hbb
    have hr' := CallRuns.reach hrt hrun
    have hh2 : Refers s' h .pull (some ⟨c, .own⟩) := by
      obtain ⟨hd, g⟩ := hh'; exact ⟨hd, by rw [hhs]; exact g.1, g.2⟩
    have hvo := valid_own hr' ⟨_, hret.2.2⟩ hh2
    obtain ⟨hd, g1, g2, g3⟩ := hh2
    have hb' : handleBool s' h = .ok (decide (nFin c s'.log = 0)) := by
      unfold handleBool
      simp only [g1, g3, hcb, hal, if_true, hvo]
    rw [hb'] at hbb
    have hbe : b = !decide (nFin c s'.log = 0) := by cases hbb; rfl
    by_cases hf : nFin c s'.log = 0
    · rw [hf] at hbe
      simp only [decide_true, Bool.not_true] at hbe
      subst hbe
      exact .inl ⟨by rw [← hl]; exact hf, s', hrun, hret, hl, hva, hk⟩
    · simp only [hf, decide_false, Bool.not_false] at hbe
      subst hbe
      rcases (jinv_reach hrt).own _ hal with ⟨_, _, h⟩ | ⟨_, b, h⟩
      · rw [hl] at hf; exact absurd h hf
      · rw [hx] at b
        exact .inr (.inl ⟨b, s', hrun, hret, hl, hva, hk⟩)
  · rcases (jinv_reach hrt).own _ hal with ⟨_, h, _⟩ | ⟨_, b, h⟩
    · rw [hx] at h; cases h
    · rw [hx] at b
      exact .inr (.inr (.inl ⟨e, b, s', hrun, ht, _, [_], hl⟩))
  · exact .inr (.inr (.inr h))

/-- the loop, at the start of a round -/
structure LoopInv (P : Prog L G V E) (l0 : L) (g0 : G) (s0 s : St L G V E) (c : Nat) (xs : List V) : Prop where
  reach : Reach P l0 g0 s
  last : lastOwn c s.log = 0
  fin : nFin c s.log = 0
  got : gotSince c s.log = none
  va : s.va c ≠ .void
  vals : ∃ x, pushedList c s.log = (pushedList c s0.log).dropLast ++ xs ++ [x]

/-- one round, up to the point where control is back in `++it` -/
theorem loop_round {xs : List V} {s1 s2 s3 : St L G V E} (hv : LoopInv P l0 g0 s0 s c xs) (hw : Without P c s s1) (hd : Reads P h c s1 v s2)
    (hw' : Without P c s2 s3) (ht : spoiled c s3.log = false) :
    Reach P l0 g0 s3 ∧ lastOwn c s3.log = 0 ∧ nFin c s3.log = 0 ∧ s3.va c ≠ .void ∧
      pushedList c s3.log = (pushedList c s0.log).dropLast ++ (xs ++ [v]) := by
  obtain ⟨r0, h1, h2, h3, h4, x, h5⟩ := hv
  obtain ⟨r1, w1⟩ := without_hist r0 hw
  obtain ⟨k, hc, hh, hrun, hret, hlog⟩ := hd
  have hs2 : SameHist c s1.log s2.log := by rw [hlog]; exact SameHist.app (evs := [_]) (by simp [concern])
  have r2 := CallRuns.reach r1 hrun
  obtain ⟨r3, w3⟩ := without_hist r2 hw'
  have hlp : lastPushed c s1.log = some x := by rw [w1.last, lastPushed_getLast, h5]; simp
  have hnt : spoiled c s1.log = false := by rw [← hs2.spoil, ← w3.spoil]; exact ht
  obtain ⟨s2', q1, q2, -⟩ := C34_deref r1 hc hh (.inl rfl) hlp (by rw [w1.got]; exact h3) hnt
  obtain rfl := CallRuns.unique hrun ⟨_, hret.2.2⟩ q1 ⟨k (.val x), by rw [q2]⟩
  have hvx : v = x := by
    have := congrArg St.log q2
    rw [hlog] at this
    simpa using this
  subst hvx
  have hall := (w1.trans hs2).trans w3
  have hpl : pushedList c s3.log = (pushedList c s0.log).dropLast ++ (xs ++ [v]) := by rw [hall.pushed, h5, List.append_assoc]
  refine ⟨r3, ?_, ?_, void_no_push (tinv_reach r3).tr (by rw [hpl]; simp), hpl⟩
  · unfold lastOwn; rw [hall.jump]; exact h1
  · rw [hall.fin]; exact h2

theorem spoiled_later (hr : Reach P l0 g0 s) (hl : Later P s s') (h : spoiled c s'.log = false) : spoiled c s.log = false := by
  obtain ⟨evs, he⟩ := hl.log hr
  cases hx : spoiled c s.log with
  | false => rfl
  | true => rw [he, spoiled_mono hx] at h; cases h

theorem last_nJump {r : CbRef} {i j : Nat} {l : List (Ev V E)} (hj : lastJump c l = some (r, i, j)) (hz : nJump r l = 0) : False := by
  induction l with
  | nil => cases hj
  | cons e l ih =>
    have hle : nJump r l = 0 := by
      have : nJump r l ≤ nJump r (e :: l) := count_mono ⟨[e], rfl⟩
      omega
    cases e <;> simp only [lastJump] at hj <;> try exact ih hj hle
    split at hj
    · cases hj; rw [nJump_cons_eq] at hz; omega
    · exact ih hj hle

theorem without_later (hw : Without P c s s') : Later P s s' := by
  induction hw with
  | refl => exact .refl
  | step _ _ _ e ih => exact .step ih e

theorem runs_later (h : CallRuns P s s') : Later P s s' := by
  obtain ⟨s1, e, hn⟩ := h
  exact (Later.step .refl e).trans hn.later

theorem looping_later {xs : List V} (hl : Looping P h c s0 xs s) : Later P s0 s := by
  induction hl with
  | start _ _ hrun _ _ => exact runs_later hrun
  | round _ hw hd hw' hi _ hrun _ _ _ ih =>
    obtain ⟨_, _, _, hrun', _⟩ := hd
    exact (((((ih.trans (without_later hw)).trans (runs_later hrun')).trans (without_later hw')).trans hi.2.2.1.later).trans (runs_later hrun))

theorem looping_refers {xs : List V} (hl : Looping P h c s0 xs s) : Refers s0 h .pull (some ⟨c, .own⟩) := by
  induction hl with
  | start _ hh _ _ _ => exact hh
  | round _ _ _ _ _ _ _ _ _ _ ih => exact ih

theorem loop_inv (hr : Reach P l0 g0 s0) (hs : Suspended c s0.log) (hg : gotSince c s0.log = none) {xs : List V}
    (hl : Looping P h c s0 xs s) (ht : spoiled c s.log = false) : LoopInv P l0 g0 s0 s c xs := by
  induction hl with
  | @start s k hc hh hrun honly htest =>
    have hr' := CallRuns.reach hr hrun
    obtain ⟨hd, a1, a2, a3⟩ := hh
    have hu : UserRuns s0 := by obtain ⟨l, hl, -⟩ := hc; exact ⟨l, hl⟩
    have hvo := valid_own hr hu ⟨hd, a1, a2, a3⟩
    have hal := own_alive hr ⟨hd, a1, a2, a3⟩
    have hk := own_pull hr ⟨hd, a1, a2, a3⟩
    have hbool : handleBool s0 h = .ok (decide (nFin c s0.log = 0)) := by
      unfold handleBool
      simp only [a1, a3, hal, if_true, hvo]
    have hvv : s0.va c = hd.va := ((inv_reach hr).hok.born h hd _ a1 a3).2.2.symm
    obtain ⟨l, h1, h2⟩ := hc
    have hv : hd.va ≠ .void := by
      intro hv
      obtain ⟨s1, e1, -⟩ := hrun
      have : (s0.pushFr (.usr k)).hs h = some hd := a1
      simp only [step, h1, evalStep, h2, apiStep, this, if_pos hv] at e1
      cases e1
    have hf : nFin c s0.log = 0 := by
      have e1 := reach_step hr (.loc (.itBeginPull h1 h2 a1 a2 hv hbool))
      have e2 := reach_step (hr.step e1) (.loc (.dUsr rfl (upd_at ..)))
      have hrun' : CallRuns P s0 _ := ⟨_, e1, .step (by rintro ⟨_, h⟩; cases h) e2 .refl⟩
      have := CallRuns.unique hrun ⟨_, by rw [honly]⟩ hrun' ⟨_, rfl⟩
      rw [this] at honly
      have hctl := congrArg St.ctl honly
      by_cases hf : nFin c s0.log = 0
      · exact hf
      · exfalso
        simp only [hf, decide_false, Bool.false_eq_true, if_false, Ctl.eval.injEq] at hctl
        exact htest hctl.symm
    have hlog : s.log = s0.log := by rw [honly]
    have hva : s.va = s0.va := by rw [honly]
    have hlo := suspended_last hs
    refine ⟨hr', by rw [hlog]; exact hlo, by rw [hlog]; exact hf, by rw [hlog]; exact hg, by rw [hva, hvv]; exact hv, ?_⟩
    have hlen := (count_pushed hr hk (by rw [hvv]; exact hv)).2 hlo hf
    have hne : pushedList c s0.log ≠ [] := by
      intro hz
      rw [hz] at hlen
      have hjc := jumps_count (c := c) (jinv_reach hr).chain
      obtain ⟨j, hj⟩ := hs
      have : nJump ⟨c, .syn⟩ s0.log = 0 := by simp at hlen; omega
      exact last_nJump hj this
    refine ⟨(pushedList c s0.log).getLast hne, ?_⟩
    rw [hlog, List.append_nil, List.dropLast_concat_getLast]
  | @round xs v s s1 s2 s3 t s' k hlp hw hd hw' hi hc hrun hret hlog htest ih =>
    have l0 := looping_later hlp
    have rs := l0.reach hr
    have l1 : Later P s s3 := by
      obtain ⟨_, _, _, hrun', _⟩ := hd
      exact ((without_later hw).trans (runs_later hrun')).trans (without_later hw')
    have r3 := l1.reach rs
    have l3 : Later P s3 s' := hi.2.2.1.later.trans (runs_later hrun)
    have t3 := spoiled_later r3 l3 ht
    obtain ⟨-, q1, q2, q3, q4⟩ := loop_round (ih (spoiled_later rs l1 t3)) hw hd hw' t3
    have rt := hi.2.2.1.later.reach r3
    obtain ⟨p1, p2, p3, p4, p5⟩ := inc_pushed r3 hi q3 (by rw [q4]; simp) q1 q2
    rcases inc_result r3 hi hc with ⟨f, s'', u1, u2, u3, u4, -⟩ | ⟨f, s'', u1, u2, -⟩ | ⟨e, f, s'', u1, -, ev, evs, u2⟩ | hcr
    · obtain rfl := CallRuns.unique hrun ⟨_, hret.2.2⟩ u1 ⟨_, u2.2.2⟩
      obtain ⟨x, px, pg⟩ := p4 f
      exact ⟨CallRuns.reach rt hrun, by rw [u3]; exact p1, by rw [u3]; exact f, by rw [u3]; exact pg, by rw [u4]; exact p3, x,
        by rw [u3, px, q4]⟩
    · obtain rfl := CallRuns.unique hrun ⟨_, hret.2.2⟩ u1 ⟨_, u2.2.2⟩
      exact absurd (Ctl.eval.inj (hret.2.2.symm.trans u2.2.2)) htest
    · exfalso
      obtain ⟨evs', h⟩ := (runs_before u1 hrun ⟨_, hret.2.2⟩).log (CallRuns.reach rt u1)
      rw [hlog, u2] at h
      have := congrArg List.length h
      simp at this
      omega
    · exact absurd hcr (runs_no_crash hrun ⟨_, hret.2.2⟩)

end AuxLoop
open AuxLoop

/-- C07: a range-for loop over the pull coroutine object `h` begins in `s0`; the coroutine is suspended and the value it pushed last has not
been taken by `get()`.  The body was executed for `xs`, and in `t` control has come back to the `++it` that ends the round.  Then
* if the function has not ended, exactly one value was pushed that the body has not seen yet, and the loop goes on;
* if it returned, the body has seen every value pushed, in order, each once (from the one that was there in `s0` on), and the loop ends;
* if it threw `e`, the body has seen every value pushed, in order, each once, and `e` leaves the loop.
(Or undefined behaviour: the calling context's own coroutine object has been destroyed.) -/
theorem C07_round (hr : Reach P l0 g0 s0) (hs : Suspended c s0.log) (hg : gotSince c s0.log = none) {xs : List V}
    (hl : LoopedTo P h c s0 xs s t) (ht : spoiled c s.log = false) (hc : Calls P s (.itNext (some h)) k) :
    (nFin c t.log = 0 ∧ (∃ x, pushedList c t.log = (pushedList c s0.log).dropLast ++ xs ++ [x]) ∧
      ∃ s', CallRuns P t s' ∧ Returned s k (.it (some h)) s' ∧ (Tests k h → Looping P h c s0 xs s')) ∨
    (Ev.fin c none ∈ t.log ∧ pushedList c t.log = (pushedList c s0.log).dropLast ++ xs ∧
      ∃ s', CallRuns P t s' ∧ Returned s k (.it none) s') ∨
    (∃ e, Ev.fin c (some e) ∈ t.log ∧ pushedList c t.log = (pushedList c s0.log).dropLast ++ xs ∧
      ∃ s', CallRuns P t s' ∧ Threw s e s') ∨
    CallCrashes P t := by
  obtain ⟨ys, v, s1, s2, s3, rfl, hlp, hw, hd, hw', hi⟩ := hl
  have r1 := (looping_later hlp).reach hr
  have l1 : Later P s1 s := by
    obtain ⟨_, _, _, hrun', _⟩ := hd
    exact ((without_later hw).trans (runs_later hrun')).trans (without_later hw')
  obtain ⟨r3, q1, q2, q3, q4⟩ := loop_round (loop_inv hr hs hg hlp (spoiled_later r1 l1 ht)) hw hd hw' ht
  obtain ⟨p1, p2, p3, p4, p5⟩ := inc_pushed r3 hi q3 (by rw [q4]; simp) q1 q2
  rcases inc_result r3 hi hc with ⟨f, s'', u1, u2, u3, u4, -⟩ | ⟨f, s'', u1, u2, -⟩ | ⟨e, f, s'', u1, u2, -⟩ | hcr
  · obtain ⟨x, px, pg⟩ := p4 f
    exact .inl ⟨f, ⟨x, by rw [px, q4]⟩, s'', u1, u2, fun htest => .round hlp hw hd hw' hi hc u1 u2 u3 htest⟩
  · exact .inr (.inl ⟨f, by rw [p5 (nFin_of_mem f), q4], s'', u1, u2⟩)
  · exact .inr (.inr (.inl ⟨e, f, by rw [p5 (nFin_of_mem f), q4], s'', u1, u2⟩))
  · exact .inr (.inr (.inr hcr))

/-- C07, for programs that follow the usage rules and a coroutine that has just been created (control has been transferred to it once): when
the loop has ended, the body has been executed exactly for the values the coroutine-function pushed, in order. -/
theorem C07_range_for (ho : Obeys P l0 g0) (hr : Reach P l0 g0 s0) (hs : Suspended c s0.log) (hg : gotSince c s0.log = none)
    (hn : nJump ⟨c, .own⟩ s0.log = 1) {xs : List V} (hl : LoopedTo P h c s0 xs s t) (ht : spoiled c s.log = false)
    (hc : Calls P s (.itNext (some h)) k) :
    (nFin c t.log = 0 ∧ (∃ x, pushedList c t.log = xs ++ [x]) ∧
      ∃ s', CallRuns P t s' ∧ Returned s k (.it (some h)) s' ∧ (Tests k h → Looping P h c s0 xs s')) ∨
    (Ev.fin c none ∈ t.log ∧ pushedList c t.log = xs ∧ ∃ s', CallRuns P t s' ∧ Returned s k (.it none) s') ∨
    (∃ e, Ev.fin c (some e) ∈ t.log ∧ pushedList c t.log = xs ∧ ∃ s', CallRuns P t s' ∧ Threw s e s') := by
  have hold : (pushedList c s0.log).dropLast = [] := by
    obtain ⟨ys, v, s1, s2, s3, rfl, hlp, hw, hd, hw', hi⟩ := hl
    have r1 := (looping_later hlp).reach hr
    have l1 : Later P s1 s := by
      obtain ⟨_, _, _, hrun', _⟩ := hd
      exact ((without_later hw).trans (runs_later hrun')).trans (without_later hw')
    have hle : (pushedList c s0.log).length ≤ 1 := by
      have hh := looping_refers hlp
      by_cases hv : s0.va c = .void
      · have : pushedList c s0.log = [] := by
          exact Classical.byContradiction fun hne => void_no_push (tinv_reach hr).tr hne hv
        rw [this]; simp
      · have := (count_pushed hr (own_pull hr hh) hv).1
        omega
    match hpl : pushedList c s0.log, hle with
    | [], _ => rfl
    | [_], _ => rfl
  have hrt : Reach P l0 g0 t := by
    obtain ⟨ys, v, s1, s2, s3, rfl, hlp, hw, hd, hw', hi⟩ := hl
    have r1 := (looping_later hlp).reach hr
    obtain ⟨_, _, _, hrun', _⟩ := hd
    exact ((((without_later hw).trans (runs_later hrun')).trans (without_later hw')).trans hi.2.2.1.later).reach r1
  have := C07_round hr hs hg hl ht hc
  rw [hold] at this
  simp only [List.nil_append] at this
  rcases this with h | h | h | h
  · exact .inl h
  · exact .inr (.inl h)
  · exact .inr (.inr h)
  · exact absurd h (C32_calls_do_not_crash (ho.reachOk hrt) (ho.callOk hrt))

/-- C07, no values: `begin()` of an object that is not-a-coroutine (the function returned without pushing, C01) is `end()`, so the body of the
loop is not executed. -/
theorem C07_empty (hr : Reach P l0 g0 s) (hc : Calls P s (.itBegin h) k) (hh : Refers s h .pull none) :
    (∃ s', CallRuns P s s' ∧ OnlyResult s k (.it none) s') ∨ (∃ t, step P s = .ill t) := by
  obtain ⟨hd, a1, a2, a3⟩ := hh
  obtain ⟨l, h1, h2⟩ := hc
  by_cases hv : hd.va = .void
  · refine .inr ⟨s.pushFr (.usr k), ?_⟩
    have : (s.pushFr (.usr k)).hs h = some hd := a1
    simp only [step, h1, evalStep, h2, apiStep, this, if_pos hv]
  have hb : handleBool s h = .ok false := by
    unfold handleBool
    simp only [a1, a3]
  have e1 := reach_step hr (.loc (.itBeginPull h1 h2 a1 a2 hv hb))
  have e2 := reach_step (hr.step e1) (.loc (.dUsr rfl (upd_at ..)))
  have hrun : CallRuns P s _ := ⟨_, e1, .step (by rintro ⟨_, h⟩; cases h) e2 .refl⟩
  refine .inl ⟨_, hrun, ?_⟩
  simp [OnlyResult, upd_upd, upd_self' s.frames s.cur (b := s.fr) rfl]

/-- C42: a pull coroutine never runs ahead: it has pushed at most as many values as control was transferred to it (once by the constructor,
then once per `operator()` or `++`); no assumption that the function ends. -/
theorem C42_lazy (hr : Reach P l0 g0 s) (hk : s.kind c = .pull) (hv : s.va c ≠ .void) :
    (pushedList c s.log).length ≤ nJump ⟨c, .own⟩ s.log :=
  (count_pushed hr hk hv).1

/-- C42: whenever the coroutine is suspended and its function has not ended, it has pushed exactly as many values as control was transferred
to it: it is at its n-th push. -/
theorem C42_exact (hr : Reach P l0 g0 s) (hk : s.kind c = .pull) (hv : s.va c ≠ .void) (hs : Suspended c s.log) (hf : nFin c s.log = 0) :
    (pushedList c s.log).length = nJump ⟨c, .own⟩ s.log :=
  (count_pushed hr hk hv).2 (suspended_last hs) hf

/-- C42: destroying the object then terminates it: the destructor returns, the stack is given back, and the function has neither pushed
another value nor ended. -/
theorem C42_destroy (hk : ReachOk P l0 g0 s) (hc : CallOk P s) {fs : List (Frame L V E)} {x : Ctl L V E} (he : Ends P s h fs x)
    (hh : Refers s h .pull (some ⟨c, .own⟩)) :
    ∃ s', CallRuns P s s' ∧ s'.cur = s.cur ∧ s'.frames s.cur = fs ∧ s'.ctl = x ∧ s'.hs h = none ∧ nDealloc c s'.log = 1 ∧
      pushedList c s'.log = pushedList c s.log ∧ nFin c s'.log = nFin c s.log ∧ nJump ⟨c, .own⟩ s'.log = nJump ⟨c, .own⟩ s.log := by
  obtain ⟨s', evs, h, -⟩ := C13_locals_destroyed_rules hk hc he hh
  have : SameHist c s.log s'.log := by
    rw [h.log]
    refine .app fun e he hcon => ?_
    have := h.only e he
    cases e <;> simp_all [concern]
  exact ⟨s', h.runs, h.cur, h.stack, h.ctl, h.object, h.returned, this.pushed, this.fin, this.nj _⟩

namespace Demo
open Code

/-- The generator pushes 1 and 2, then returns; main: `for (auto & x : h) { obj 3; }`, unrolled. -/
def loopMain : C :=
  mk .pull .val (fun h => push h 1 (push h 2 ret)) fun h =>
    op (.itBegin h) fun
      | .it (some i) => op (.itDeref (some i)) fun _ => obj 3 (op (.itNext (some i)) fun
        | .it (some i) => op (.itDeref (some i)) fun _ => op (.itNext (some i)) fun _ => ret
        | _ => ret)
      | _ => ret

end Demo

namespace AuxLoop
theorem obj_not_subject {l l' : L} {o d : Nat} (hc : s.ctl = .eval l) (hl : P.code l s.g = .newObj o l') : ¬ Subject P s d := by
  have hu : UserRuns s := ⟨l, hc⟩
  intro h
  cases h
  case call a _ _ => obtain ⟨_, a1, a2⟩ := a; rw [hc] at a1; cases a1; rw [hl] at a2; cases a2
  case create a => obtain ⟨_, a1, a2⟩ := a; rw [hc] at a1; cases a1; rw [hl] at a2; cases a2
  case pending a _ => rw [hc] at a; cases a
  case ctor a _ => exact a hu
  case scope a _ _ =>
    rcases a with a | ⟨_, _, a1, a2⟩
    · exact a hu
    · rw [hc] at a1; cases a1; rw [hl] at a2; cases a2
  case own a _ => exact a hu
  case counterpart a _ _ _ => exact a hu
end AuxLoop

open Demo in
/-- C07: in step 5 of `loopMain` the loop begins; in step 26 control is back in the second `++`: the body was executed with 1 and 2 (in
the first round it constructs an object), and the function has returned. -/
theorem loopMain_loops :
    LoopedTo Demo.P 1 1 (stateAt loopMain 5) [1, 2] (stateAt loopMain 20) (stateAt loopMain 26) := by
  have r : ∀ (n : Nat), step Demo.P (stateAt loopMain n) = .next (stateAt loopMain (n + 1)) →
      step Demo.P (stateAt loopMain (n + 1)) = .next (stateAt loopMain (n + 2)) → ¬ UserRuns (stateAt loopMain (n + 1)) →
      CallRuns Demo.P (stateAt loopMain n) (stateAt loopMain (n + 2)) := fun n h1 h2 h3 => ⟨_, h1, .step h3 h2 .refl⟩
  have c5 : CallRuns Demo.P (stateAt loopMain 5) (stateAt loopMain 7) := r 5 rfl rfl (by rintro ⟨_, h⟩; cases h)
  have c7 : CallRuns Demo.P (stateAt loopMain 7) (stateAt loopMain 9) := r 7 rfl rfl (by rintro ⟨_, h⟩; cases h)
  have c18 : CallRuns Demo.P (stateAt loopMain 18) (stateAt loopMain 20) := r 18 rfl rfl (by rintro ⟨_, h⟩; cases h)
  have c15 : CallRuns Demo.P (stateAt loopMain 15) (stateAt loopMain 18) :=
    ⟨stateAt loopMain 16, rfl, .step (by rintro ⟨_, h⟩; cases h) (s1 := stateAt loopMain 17) rfl
      (.step (by rintro ⟨_, h⟩; cases h) rfl .refl)⟩
  have b5 : Looping Demo.P 1 1 (stateAt loopMain 5) [] (stateAt loopMain 7) := by
    obtain ⟨k, hk, k1, f, k2⟩ : ∃ k, Calls Demo.P (stateAt loopMain 5) (.itBegin 1) k ∧ Code.act (k (.it none)) [] = .ret ∧
        ∃ f, Code.act (k (.it (some 1))) [] = .api (.itDeref (some 1)) f := ⟨_, ⟨_, rfl, rfl⟩, rfl, _, rfl⟩
    obtain ⟨l, f', q1, q2⟩ : ∃ l f', (stateAt loopMain 7).ctl = .eval l ∧ Code.act l [] = .api (.itDeref (some 1)) f' := ⟨_, _, rfl, rfl⟩
    have hh : Refers (stateAt loopMain 5) 1 .pull (some ⟨1, .own⟩) := ⟨_, rfl, rfl, rfl⟩
    rcases C26_begin (reach loopMain 5 rfl) hk hh with ⟨s', i, b, h1, h2, -, -, -, h3⟩ | ⟨u, t, h⟩ | ⟨t, h⟩
    · obtain rfl := CallRuns.unique c5 ⟨l, q1⟩ h1 ⟨_, by rw [h2]⟩
      have hct := congrArg St.ctl h2
      rw [q1] at hct
      have hct' : l = k (.it i) := Ctl.eval.inj hct
      rcases h3 with rfl | rfl
      · rw [hct', k1] at q2; cases q2
      · refine .start hk hh c5 h2 fun h => ?_
        rw [h, k1] at k2; cases k2
    · rw [c5.choose_spec.1] at h; cases h
    · rw [c5.choose_spec.1] at h; cases h
  have b18 : Looping Demo.P 1 1 (stateAt loopMain 5) [1] (stateAt loopMain 18) :=
    .round (v := 1) b5 .refl
      ⟨_, ⟨_, rfl, rfl⟩, ⟨_, rfl, rfl, rfl⟩, c7, ⟨rfl, rfl, rfl⟩, rfl⟩
      (.step (s1 := stateAt loopMain 9) (s2 := stateAt loopMain 10) .refl (by decide) (obj_not_subject rfl rfl) rfl)
      ⟨⟨_, _, rfl, rfl⟩, ⟨_, rfl, rfl, rfl⟩, back _ 10 3 rfl, rfl, ⟨_, rfl, rfl, rfl⟩⟩ ⟨_, rfl, rfl⟩ c15 ⟨rfl, rfl, rfl⟩ rfl
      (by intro h; have := congrArg (fun c => Code.act c []) h; cases this)
  exact ⟨[1], 2, stateAt loopMain 18, _, stateAt loopMain 20, rfl, b18,
    .refl, ⟨_, ⟨_, rfl, rfl⟩, ⟨_, rfl, rfl, rfl⟩, c18, ⟨rfl, rfl, rfl⟩, rfl⟩, .refl,
    ⟨⟨_, _, rfl, rfl⟩, ⟨_, rfl, rfl, rfl⟩, back _ 20 4 rfl, rfl, ⟨_, rfl, rfl, rfl⟩⟩⟩

open Demo in
/-- C07: the other hypotheses are met; the program follows the usage rules; the second case of the conclusion applies. -/
example : Obeys Demo.P loopMain [] ∧ Reach Demo.P loopMain [] (stateAt loopMain 5) ∧ Suspended 1 (stateAt loopMain 5).log ∧
    gotSince 1 (stateAt loopMain 5).log = none ∧ nJump ⟨1, .own⟩ (stateAt loopMain 5).log = 1 ∧ spoiled 1 (stateAt loopMain 20).log = false ∧
    (∃ k, Calls Demo.P (stateAt loopMain 20) (.itNext (some 1)) k) ∧ Ev.fin 1 none ∈ (stateAt loopMain 26).log ∧
    pushedList 1 (stateAt loopMain 26).log = [1, 2] :=
  ⟨obeys _ 40 rfl, reach _ _ rfl, ⟨_, rfl⟩, rfl, rfl, rfl, ⟨_, _, rfl, rfl⟩, .tail _ (.head _), rfl⟩

open Demo in
/-- C42: the generator of `loopMain` at its second push, in step 18: two values, two transfers of control to it.  In step 18 of `pullMain`
a generator that has not ended is destroyed. -/
example : Reach Demo.P loopMain [] (stateAt loopMain 18) ∧ (stateAt loopMain 18).kind 1 = .pull ∧ (stateAt loopMain 18).va 1 ≠ .void ∧
    Suspended 1 (stateAt loopMain 18).log ∧ nFin 1 (stateAt loopMain 18).log = 0 ∧
    (pushedList 1 (stateAt loopMain 18).log).length = 2 ∧
    ReachOk Demo.P pullMain [] (stateAt pullMain 18) ∧ CallOk Demo.P (stateAt pullMain 18) ∧
    Ends Demo.P (stateAt pullMain 18) 1 [] (.eval Code.ret) ∧ Refers (stateAt pullMain 18) 1 .pull (some ⟨1, .own⟩) ∧
    nFin 1 (stateAt pullMain 18).log = 0 :=
  ⟨reach _ _ rfl, rfl, by decide, ⟨_, rfl⟩, rfl, rfl, reachOk _ _ rfl, (obeys _ 40 rfl).callOk (reach _ _ rfl),
    .api (k := fun _ => Code.ret) ⟨_, rfl, rfl⟩, ⟨_, rfl, rfl, rfl⟩, rfl⟩

end Verif
