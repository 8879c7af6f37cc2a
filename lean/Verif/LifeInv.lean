import Verif.Rel2
import Verif.Spec

/-!
# The life of a coroutine, in terms of the history

Proof material: for every coroutine, where its entry lambda is determines which of its life-cycle events have happened.
-/
namespace Verif
variable {L G V E : Type}

/-- Events of `k` counted: stack allocated, deallocated, created, entered, ended, callable destroyed. -/
structure Cnt (k : Nat) (log : List (Ev V E)) (al de cr en fi fd : Nat) : Prop where
  al : nAlloc k log = al
  de : nDealloc k log = de
  cr : nCreated k log = cr
  en : nEnter k log = en
  fi : nFin k log = fi
  fd : nFnDtor k log = fd

/-- What has happened to coroutine `k` so far. -/
def LifeOk (k nk : Nat) (b : Base L) (st : Stk) (fo : FnObj) (log : List (Ev V E)) : Prop :=
  match b with
  | .main => st = .none ∧ Cnt k log 0 0 0 0 0 0
  | .none =>
    if k < nk then
      (st = .allocated ∧ fo = .none ∧ Cnt k log 1 0 0 0 0 0) ∨
      (st = .freed ∧ fo = .gone ∧ ∃ n m, m ≤ n ∧ n ≤ 1 ∧ Cnt k log 1 1 1 n m 1)
    else st = .none ∧ fo = .none ∧ Cnt k log 0 0 0 0 0 0
  | .fresh _ | .pushEntry _ _ => st = .allocated ∧ fo = .record ∧ Cnt k log 1 0 1 0 0 0
  | .inFn _ => st = .allocated ∧ fo = .«local» ∧ Cnt k log 1 0 1 1 0 0
  | .final _ => st = .allocated ∧ fo = .gone ∧ Cnt k log 1 0 1 1 1 1
  | .lamA | .lamB =>
    st = .allocated ∧ ((fo = .record ∧ Cnt k log 1 0 1 0 0 0) ∨
      (fo = .gone ∧ ∃ m, m ≤ 1 ∧ Cnt k log 1 0 1 1 m 1))

def LifeInv (s : St L G V E) : Prop := ∀ k, LifeOk k s.nk (s.base k) (s.stk k) (s.fnObj k) s.log

/-- no life-cycle event of `k` -/
def quiet (k : Nat) (e : Ev V E) : Bool :=
  !(e.isAlloc k || e.isDealloc k || e.isCreated k || e.isEnter k || e.isFin k || e.isFnDtor k)

theorem Cnt.append_iff {k : Nat} {evs log : List (Ev V E)} {a b c d f g : Nat} (hq : ∀ e ∈ evs, quiet k e = true) :
    Cnt k (evs ++ log) a b c d f g ↔ Cnt k log a b c d f g := by
  have hz : ∀ p : Ev V E → Bool, (∀ e, p e = true → quiet k e = false) → (evs ++ log).countP p = log.countP p := by
    intro p hp
    rw [List.countP_append, List.countP_eq_zero.2, Nat.zero_add]
    intro e he hpe
    have := hp e hpe
    rw [hq e he] at this
    cases this
  have key : ∀ {x y : Nat}, x = y → ∀ n, (x = n ↔ y = n) := by intro x y h n; rw [h]
  have e1 : nAlloc k (evs ++ log) = nAlloc k log := hz _ (by intro e h; simp [quiet, h])
  have e2 : nDealloc k (evs ++ log) = nDealloc k log := hz _ (by intro e h; simp [quiet, h])
  have e3 : nCreated k (evs ++ log) = nCreated k log := hz _ (by intro e h; simp [quiet, h])
  have e4 : nEnter k (evs ++ log) = nEnter k log := hz _ (by intro e h; simp [quiet, h])
  have e5 : nFin k (evs ++ log) = nFin k log := hz _ (by intro e h; simp [quiet, h])
  have e6 : nFnDtor k (evs ++ log) = nFnDtor k log := hz _ (by intro e h; simp [quiet, h])
  constructor
  · rintro ⟨h1, h2, h3, h4, h5, h6⟩
    exact ⟨e1 ▸ h1, e2 ▸ h2, e3 ▸ h3, e4 ▸ h4, e5 ▸ h5, e6 ▸ h6⟩
  · rintro ⟨h1, h2, h3, h4, h5, h6⟩
    exact ⟨e1.trans h1, e2.trans h2, e3.trans h3, e4.trans h4, e5.trans h5, e6.trans h6⟩

theorem LifeOk.append {k nk : Nat} {b : Base L} {st : Stk} {fo : FnObj} {evs log : List (Ev V E)}
    (hq : ∀ e ∈ evs, quiet k e = true) (h : LifeOk k nk b st fo log) : LifeOk k nk b st fo (evs ++ log) := by
  simpa only [LifeOk, Cnt.append_iff hq] using h

theorem LifeInv.quiet {s s' : St L G V E} {evs : List (Ev V E)} (h : LifeInv s) (h1 : s'.nk = s.nk)
    (h2 : s'.base = s.base) (h3 : s'.stk = s.stk) (h4 : s'.fnObj = s.fnObj) (h5 : s'.log = evs ++ s.log)
    (hq : ∀ k, ∀ e ∈ evs, quiet k e = true) : LifeInv s' := by
  intro k
  rw [h1, h2, h3, h4, h5]
  exact (h k).append (hq k)

/-- Only coroutine `c` changes. -/
theorem LifeInv.change {s s' : St L G V E} {evs : List (Ev V E)} (c : Nat) (h : LifeInv s)
    (h1 : s'.nk = s.nk ∨ (s'.nk = s.nk + 1 ∧ c = s.nk))
    (h2 : ∀ k, k ≠ c → s'.base k = s.base k) (h3 : ∀ k, k ≠ c → s'.stk k = s.stk k)
    (h4 : ∀ k, k ≠ c → s'.fnObj k = s.fnObj k) (h5 : s'.log = evs ++ s.log)
    (hq : ∀ k, k ≠ c → ∀ e ∈ evs, Verif.quiet k e = true)
    (hc : LifeOk c s'.nk (s'.base c) (s'.stk c) (s'.fnObj c) s'.log) : LifeInv s' := by
  intro k
  by_cases hk : k = c
  · subst hk; exact hc
  · rw [h2 k hk, h3 k hk, h4 k hk, h5]
    refine LifeOk.append (hq k hk) ?_
    rcases h1 with h1 | ⟨h1, h1'⟩
    · rw [h1]; exact h k
    · rw [h1]
      have := h k
      unfold LifeOk at *
      split <;> simp_all
      have e : (k < s.nk + 1) ↔ k < s.nk := by omega
      simpa [e] using this

theorem Dtor.quiet {kd : Kind} {va : Var} {b : CB V E} {r : CbRef} {sl : Slot V} {evs : List (Ev V E)}
    (h : Dtor kd va b r sl evs) (k : Nat) : ∀ e ∈ evs, Verif.quiet k e = true := by
  cases h <;> simp [Verif.quiet, Ev.isAlloc, Ev.isDealloc, Ev.isCreated, Ev.isEnter, Ev.isFin, Ev.isFnDtor]

theorem SetOk.quiet {mv : V → V} {va : Var} {b b' : CB V E} {j : Nat} {a : PushArg V E} {evs : List (Ev V E)} {w : Option V}
    (h : SetOk mv va b j a b' evs w) (k : Nat) : ∀ e ∈ evs, Verif.quiet k e = true := by
  cases h <;> simp [Verif.quiet, Ev.isAlloc, Ev.isDealloc, Ev.isCreated, Ev.isEnter, Ev.isFin, Ev.isFnDtor]

theorem SetThrows.quiet {va : Var} {b b' : CB V E} {j : Nat} {evs : List (Ev V E)}
    (h : SetThrows va b j b' evs) (k : Nat) : ∀ e ∈ evs, Verif.quiet k e = true := by
  cases h <;> simp [Verif.quiet, Ev.isAlloc, Ev.isDealloc, Ev.isCreated, Ev.isEnter, Ev.isFin, Ev.isFnDtor]

theorem Local.quiet {P : Prog L G V E} {s : St L G V E} {g : G} {fs : List (Frame L V E)} {c : Ctl L V E} {evs : List (Ev V E)}
    (h : Local P s g fs c evs) (k : Nat) : ∀ e ∈ evs, Verif.quiet k e = true := by
  cases h <;> simp [Verif.quiet, Ev.isAlloc, Ev.isDealloc, Ev.isCreated, Ev.isEnter, Ev.isFin, Ev.isFnDtor]

theorem Scope.life {P : Prog L G V E} {s s1 : St L G V E} {h : Nat} (hs : Scope P s h s1) (hl : LifeInv s) : LifeInv s1 := by
  cases hs
  case leave => exact hl
  case api => exact hl
  case raise => exact hl
  case ret => exact hl
  case unwFn hb =>
    refine hl.change (evs := [.fnDtor s.cur]) s.cur (.inl rfl) ?_ ?_ ?_ rfl ?_ ?_
    · intro k hk; simp [upd, hk]
    · intro k hk; rfl
    · intro k hk; simp [upd, hk]
    · intro k hk; simp [Verif.quiet, Ev.isAlloc, Ev.isDealloc, Ev.isCreated, Ev.isEnter, Ev.isFin, Ev.isFnDtor]; grind
    · have := hl s.cur
      rw [hb] at this
      simp only [LifeOk, upd_same] at *
      obtain ⟨h1, h2, h3⟩ := this
      refine ⟨h1, .inr ⟨trivial, 0, by omega, ?_⟩⟩
      obtain ⟨g1, g2, g3, g4, g5, g6⟩ := h3
      constructor <;> simp_all [nAlloc, nDealloc, nCreated, nEnter, nFin, nFnDtor, List.countP_cons, Ev.isAlloc, Ev.isDealloc, Ev.isCreated, Ev.isEnter, Ev.isFin, Ev.isFnDtor]
  all_goals
    rename_i hb
    try rename_i hb _
    refine hl.change (evs := []) s.cur (.inl rfl) ?_ ?_ ?_ rfl ?_ ?_
    · intro k hk; simp [upd, hk]
    · intro k hk; rfl
    · intro k hk; rfl
    · simp
    · have := hl s.cur
      rw [hb] at this
      simp only [LifeOk, upd_same] at *
      obtain ⟨h1, h2, h3⟩ := this
      first
        | exact ⟨h1, .inl ⟨h2, h3⟩⟩
        | exact ⟨h1, .inr ⟨h2, 1, by omega, h3⟩⟩

theorem Dying.life {P : Prog L G V E} {s s0 : St L G V E} {f : Option Nat} (hs : Dying P s f s0) (hl : LifeInv s) : LifeInv s0 := by
  cases hs
  case handle hsc _ _ _ hd => exact (hsc.life hl).quiet rfl rfl rfl rfl rfl hd.quiet
  case ctorInvalid hd => exact hl.quiet rfl rfl rfl rfl rfl hd.quiet
  case ctorThrow =>
    refine hl.quiet (evs := [_]) rfl rfl rfl rfl rfl ?_
    simp [Verif.quiet, Ev.isAlloc, Ev.isDealloc, Ev.isCreated, Ev.isEnter, Ev.isFin, Ev.isFnDtor]
  case ctorUnw => exact hl
  case syn hb hd =>
    refine hl.change s.cur (.inl rfl) ?_ ?_ ?_ rfl ?_ ?_
    · intro k hk; simp [upd, hk]
    · intro k hk; rfl
    · intro k hk; rfl
    · intro k hk; exact hd.quiet k
    · have := hl s.cur
      rw [hb] at this
      simp only [upd_same]
      exact LifeOk.append (hd.quiet _) (by simpa only [LifeOk] using this)

macro "evq" : tactic =>
  `(tactic| simp [Verif.quiet, Ev.isAlloc, Ev.isDealloc, Ev.isCreated, Ev.isEnter, Ev.isFin, Ev.isFnDtor])
macro "cntq" : tactic =>
  `(tactic| (constructor <;> simp_all [nAlloc, nDealloc, nCreated, nEnter, nFin, nFnDtor, List.countP_cons, Ev.isAlloc, Ev.isDealloc, Ev.isCreated, Ev.isEnter, Ev.isFin, Ev.isFnDtor]))

theorem Step.life {P : Prog L G V E} {s s' : St L G V E} (hs : Step P s s') (hi : Inv s) (hl : LifeInv s) : LifeInv s' := by
  have hnb : s.base s.nk = .none := by
    cases hb : s.base s.nk with
    | none => rfl
    | _ => exact absurd (hi.sched.lt_nk s.nk (by rw [hb]; simp)) (by omega)
  cases hs
  case loc h => exact hl.quiet rfl rfl rfl rfl rfl h.quiet
  case get => exact hl.quiet (evs := [_]) rfl rfl rfl rfl rfl (by evq)
  case moveCtor => exact hl
  case moveAssign => exact hl
  case ctorDrop => exact hl
  case mkFn =>
    refine hl.change (evs := [_]) s.nk (.inr ⟨rfl, rfl⟩) ?_ ?_ ?_ rfl ?_ ?_
    · intro k hk; rfl
    · intro k hk; simp [upd, hk]
    · intro k hk; rfl
    · intro k hk; evq; grind
    · have := hl s.nk
      rw [hnb] at this
      simp only [LifeOk, hnb, upd_same] at *
      simp at *
      obtain ⟨h1, h2, g1, g2, g3, g4, g5, g6⟩ := this
      refine ⟨h2, ?_⟩
      cntq
  case mk =>
    refine hl.change (evs := [_, _, _]) s.nk (.inr ⟨rfl, rfl⟩) ?_ ?_ ?_ rfl ?_ ?_
    · intro k hk; simp [upd, hk]
    · intro k hk; simp [upd, hk]
    · intro k hk; simp [upd, hk]
    · intro k hk; evq; grind
    · have := hl s.nk
      rw [hnb] at this
      simp only [LifeOk, upd_same] at *
      simp at *
      obtain ⟨h1, h2, g1, g2, g3, g4, g5, g6⟩ := this
      cntq
  case pushThrow h => exact hl.quiet rfl rfl rfl rfl rfl h.quiet
  case push h _ =>
    refine hl.quiet (evs := _ :: _) rfl rfl rfl rfl rfl ?_
    intro k e he
    rcases List.mem_cons.1 he with rfl | he
    · evq
    · exact h.quiet k e he
  case pull => exact hl.quiet (evs := [_]) rfl rfl rfl rfl rfl (by evq)
  case enterPull hb _ _ _ =>
    refine hl.change (evs := [_]) s.cur (.inl rfl) ?_ ?_ ?_ rfl ?_ ?_
    · intro k hk; simp [upd, hk]
    · intro k hk; rfl
    · intro k hk; simp [upd, hk]
    · intro k hk; evq; grind
    · have := hl s.cur
      rw [hb] at this
      simp only [LifeOk, upd_same] at *
      obtain ⟨h1, h2, g1, g2, g3, g4, g5, g6⟩ := this
      refine ⟨h1, trivial, ?_⟩
      cntq
  case enterPush hb _ _ _ =>
    refine hl.change (evs := [_]) s.cur (.inl rfl) ?_ ?_ ?_ rfl ?_ ?_
    · intro k hk; simp [upd, hk]
    · intro k hk; rfl
    · intro k hk; rfl
    · intro k hk; evq
    · have := hl s.cur
      rw [hb] at this
      simp only [LifeOk, upd_same] at *
      obtain ⟨h1, h2, g1, g2, g3, g4, g5, g6⟩ := this
      refine ⟨h1, h2, ?_⟩
      cntq
  case startPush hb _ _ _ =>
    refine hl.change (evs := [_]) s.cur (.inl rfl) ?_ ?_ ?_ rfl ?_ ?_
    · intro k hk; simp [upd, hk]
    · intro k hk; rfl
    · intro k hk; simp [upd, hk]
    · intro k hk; evq; grind
    · have := hl s.cur
      rw [hb] at this
      simp only [LifeOk, upd_same] at *
      obtain ⟨h1, h2, g1, g2, g3, g4, g5, g6⟩ := this
      refine ⟨h1, trivial, ?_⟩
      cntq
  case wait => exact hl
  case asg => exact hl
  case asgThrow => exact hl.quiet (evs := [_]) rfl rfl rfl rfl rfl (by evq)
  case pullCtor => exact hl
  case pushCtor => exact hl
  case fin hb _ _ =>
    refine hl.change (evs := [_, _, _]) s.cur (.inl rfl) ?_ ?_ ?_ rfl ?_ ?_
    · intro k hk; simp [upd, hk]
    · intro k hk; rfl
    · intro k hk; simp [upd, hk]
    · intro k hk; evq; grind
    · have := hl s.cur
      rw [hb] at this
      simp only [LifeOk, upd_same] at *
      obtain ⟨h1, h2, g1, g2, g3, g4, g5, g6⟩ := this
      refine ⟨h1, trivial, ?_⟩
      cntq
  case nop h _ _ => exact h.life hl
  case dropNone h => exact h.life hl
  case dropSome h => exact (h.life hl).quiet (evs := [_]) rfl rfl rfl rfl rfl (by evq)
  case exit b hb _ _ =>
    have hlt := hi.sched.lt_nk s.cur (by rw [hb]; simp)
    refine hl.change (evs := .dealloc s.cur :: (if s.fnObj s.cur = .record then [.fnDtor s.cur] else [])) s.cur (.inl rfl) ?_ ?_ ?_ rfl ?_ ?_
    · intro k hk; simp [upd, hk]
    · intro k hk; simp [upd, hk]
    · intro k hk
      dsimp only
      split <;> simp [upd, hk]
    · intro k hk; split <;> evq <;> grind
    · have := hl s.cur
      rw [hb] at this
      simp only [LifeOk, upd_same, hlt, if_true] at *
      obtain ⟨h1, ⟨h2, g1, g2, g3, g4, g5, g6⟩ | ⟨h2, m, hm, g1, g2, g3, g4, g5, g6⟩⟩ := this
      · rw [if_pos h2, if_pos h2]
        refine .inr ⟨trivial, by simp, 0, 0, by omega, by omega, ?_⟩
        cntq
      · have h3 : s.fnObj s.cur ≠ .record := by rw [h2]; simp
        rw [if_neg h3, if_neg h3]
        refine .inr ⟨trivial, by simp [h2], 1, m, by omega, by omega, ?_⟩
        cntq

theorem lifeInv_init (l0 : L) (g0 : G) : LifeInv (init l0 g0 : St L G V E) := by
  intro k
  by_cases hk : k = 0
  · subst hk
    simp only [init, LifeOk]
    refine ⟨trivial, ?_⟩
    constructor <;> rfl
  · have : ¬ k < 1 := by omega
    simp [init, LifeOk, hk, this]
    constructor <;> rfl

theorem life_reach {P : Prog L G V E} {l0 : L} {g0 : G} {s : St L G V E} (h : Reach P l0 g0 s) : LifeInv s := by
  induction h with
  | init => exact lifeInv_init l0 g0
  | step hr hs ih => exact (step_rel (inv_reach hr) hs).life (inv_reach hr) ih

end Verif
