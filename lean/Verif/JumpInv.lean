import Verif.LogInv
import Verif.LifeInv

/-!
# Transfers of control as a function of the history

Proof material: who is suspended where, from the jump events alone; completion and rethrown exceptions.
-/
namespace Verif
variable {L G V E : Type}

/-- no jump, no end of function, no rethrow -/
def jq : Ev V E → Bool
  | .jump _ _ _ | .fin _ _ | .rethrow _ _ _ => false
  | _ => true

theorem lastJump_jq {k : Nat} {evs log : List (Ev V E)} (h : ∀ e ∈ evs, jq e = true) :
    lastJump k (evs ++ log) = lastJump k log := by
  induction evs with
  | nil => rfl
  | cons e t ih =>
    have h1 := h e (List.mem_cons_self ..)
    have h2 := ih (fun x hx => h x (List.mem_cons_of_mem _ hx))
    rw [List.cons_append]
    cases e <;> simp_all [lastJump, jq]

theorem jumpsOk_jq {evs log : List (Ev V E)} (h : ∀ e ∈ evs, jq e = true) : JumpsOk (evs ++ log) ↔ JumpsOk log := by
  induction evs with
  | nil => rfl
  | cons e t ih =>
    have h1 := h e (List.mem_cons_self ..)
    have h2 := ih (fun x hx => h x (List.mem_cons_of_mem _ hx))
    rw [List.cons_append]
    cases e <;> simp_all [JumpsOk, jq]

theorem count_jq {k : Nat} {evs log : List (Ev V E)} (h : ∀ e ∈ evs, jq e = true) :
    nFin k (evs ++ log) = nFin k log ∧ nRethrow k (evs ++ log) = nRethrow k log ∧
    (∀ x, Ev.fin k x ∈ evs ++ log ↔ Ev.fin k x ∈ log) ∧ (∀ i x, Ev.rethrow k i x ∈ evs ++ log ↔ Ev.rethrow k i x ∈ log) := by
  unfold nFin nRethrow
  rw [List.countP_append, List.countP_append]
  have h1 : evs.countP (Ev.isFin k) = 0 := by
    rw [List.countP_eq_zero]; intro e he hp; have := h e he; cases e <;> simp_all [jq, Ev.isFin]
  have h2 : evs.countP (Ev.isRethrow k) = 0 := by
    rw [List.countP_eq_zero]; intro e he hp; have := h e he; cases e <;> simp_all [jq, Ev.isRethrow]
  refine ⟨by omega, by omega, ?_, ?_⟩
  · intro x; rw [List.mem_append]
    exact ⟨fun h' => h'.resolve_left (fun h'' => by have := h _ h''; simp [jq] at this), .inr⟩
  · intro i x; rw [List.mem_append]
    exact ⟨fun h' => h'.resolve_left (fun h'' => by have := h _ h''; simp [jq] at this), .inr⟩

theorem lastJump_fresh {k : Nat} {log : List (Ev V E)} (h : ∀ e ∈ log, e.about ≠ some k) :
    lastJump k log = none ∧ nFin k log = 0 ∧ nRethrow k log = 0 := by
  induction log with
  | nil => simp [lastJump, nFin, nRethrow]
  | cons e t ih =>
    have h1 := h e (List.mem_cons_self ..)
    obtain ⟨a, b, c⟩ := ih (fun x hx => h x (List.mem_cons_of_mem _ hx))
    cases e <;> simp_all [lastJump, nFin, nRethrow, Ev.about, List.countP_cons, Ev.isFin, Ev.isRethrow]

structure JInv (s : St L G V E) : Prop where
  held : ∀ r t, s.fib (.cb r) = some t → ∃ j, lastJump r.co s.log = some (r.partner, t, j)
  air : s.ctl = .recv → ∀ u r, s.fib .air = some u → hole (s.base u) u (s.frames u) = some r →
    lastJump r.co s.log = some (r, u, s.cur) ∧ (s.cbs r).life = .alive
  chain : JumpsOk s.log
  /-- own block: completion, flags and stored exception -/
  own : ∀ k, (s.cbs ⟨k, .own⟩).life = .alive →
    ((s.cbs ⟨k, .own⟩).state = StateT.unwind ∧ (s.cbs ⟨k, .own⟩).except = none ∧ nFin k s.log = 0) ∨
    ((s.cbs ⟨k, .own⟩).state = StateT.or StateT.unwind StateT.complete ∧ Ev.fin k (s.cbs ⟨k, .own⟩).except ∈ s.log ∧
      nFin k s.log = 1)
  finJ : ∀ k, nFin k s.log ≠ 0 →
    (∃ j, lastJump k s.log = some (⟨k, .syn⟩, k, j)) ∨ (∃ i, lastJump k s.log = some (⟨k, .own⟩, i, k))
  finS : ∀ k, nFin k s.log ≠ 0 → s.fib (.cb ⟨k, .syn⟩) = none
  re1 : ∀ k, nRethrow k s.log ≤ 1
  re : ∀ k, nRethrow k s.log ≠ 0 → nFin k s.log ≠ 0 ∧
    ((s.cbs ⟨k, .own⟩).life = .alive → s.fib (.cb ⟨k, .own⟩) ≠ none ∨ ∃ i, lastJump k s.log = some (⟨k, .own⟩, i, k))
  reE : ∀ k i e, Ev.rethrow k i e ∈ s.log → Ev.fin k (some e) ∈ s.log

/-- a step without transfer of control -/
theorem JInv.keep {s s' : St L G V E} {evs : List (Ev V E)} (h : JInv s)
    (hf : ∀ r t, s'.fib (.cb r) = some t → s.fib (.cb r) = some t)
    (ha : s'.ctl = .recv → s'.fib .air = none)
    (hl : s'.log = evs ++ s.log) (hq : ∀ e ∈ evs, jq e = true)
    (hc : ∀ k, (s'.cbs ⟨k, .own⟩).life = .alive → (s.cbs ⟨k, .own⟩).life = .alive ∧
      (s'.cbs ⟨k, .own⟩).state = (s.cbs ⟨k, .own⟩).state ∧ (s'.cbs ⟨k, .own⟩).except = (s.cbs ⟨k, .own⟩).except ∧
      s'.fib (.cb ⟨k, .own⟩) = s.fib (.cb ⟨k, .own⟩)) : JInv s' := by
  have hn := fun k => count_jq (k := k) (log := s.log) hq
  constructor
  · intro r t hr; rw [hl, lastJump_jq hq]; exact h.held r t (hf r t hr)
  · intro h1 u r h2; rw [ha h1] at h2; cases h2
  · rw [hl, jumpsOk_jq hq]; exact h.chain
  · intro k hk
    obtain ⟨a, b, c, d⟩ := hc k hk
    rw [hl, (hn k).1, (hn k).2.2.1, b, c]; exact h.own k a
  · intro k hk; rw [hl, lastJump_jq hq]; rw [hl, (hn k).1] at hk; exact h.finJ k hk
  · intro k hk
    rw [hl, (hn k).1] at hk
    have := h.finS k hk
    cases hfb : s'.fib (.cb ⟨k, .syn⟩) with
    | none => rfl
    | some t => rw [hf _ t hfb] at this; cases this
  · intro k; rw [hl, (hn k).2.1]; exact h.re1 k
  · intro k hk
    rw [hl, (hn k).2.1] at hk
    rw [hl, (hn k).1, lastJump_jq hq]
    obtain ⟨h1, h2⟩ := h.re k hk
    refine ⟨h1, fun hal => ?_⟩
    obtain ⟨a, b, c, d⟩ := hc k hal
    rw [d]; exact h2 a
  · intro k i e he; rw [hl, (hn k).2.2.2] at he; rw [hl, (hn k).2.2.1]; exact h.reE k i e he

theorem lastJump_jump {k : Nat} {r : CbRef} {i j : Nat} {l : List (Ev V E)} :
    lastJump k (.jump r i j :: l) = if r.co = k then some (r, i, j) else lastJump k l := rfl

/-- the fiber received is stored at `q` -/
theorem JInv.store {s s' : St L G V E} {evs : List (Ev V E)} {q : CbRef} {u : Nat} (h : JInv s) (hi : Inv s)
    (hlf : LifeInv s) (hr : s.ctl = .recv) (hair : s.fib .air = some u)
    (hq0 : hole (s.base s.cur) s.cur s.fr = some q)
    (hf : s'.fib = upd (upd s.fib (.cb q) (some u)) .air none)
    (ha : s'.ctl ≠ .recv)
    (hl : s'.log = evs ++ s.log) (hq : ∀ e ∈ evs, jq e = true)
    (hc : ∀ k, (s'.cbs ⟨k, .own⟩).life = .alive → (s.cbs ⟨k, .own⟩).life = .alive ∧
      (s'.cbs ⟨k, .own⟩).state = (s.cbs ⟨k, .own⟩).state ∧ (s'.cbs ⟨k, .own⟩).except = (s.cbs ⟨k, .own⟩).except)
    (hnfin : s.base s.cur = .none ∨ (s.base s.cur).isBody = true ∨ nFin s.cur s.log = 0) : JInv s' := by
  have hn := fun k => count_jq (k := k) (log := s.log) hq
  have hctl := hi.ctl
  rw [hr] at hctl
  obtain ⟨r, hr1, hr2, hr3, hr4⟩ := hctl.2.1 u hair
  have hqr : q = r.partner := by
    have : hole (s.base s.cur) s.cur s.fr = some r.partner := hr2
    rw [hq0] at this; injection this
  obtain ⟨hj, hjal⟩ := h.air hr u r hair hr1
  have hne : ∀ r', r' ≠ q → s'.fib (.cb r') = s.fib (.cb r') := by
    intro r' hr'; simp [hf, upd, hr']
  have heq : s'.fib (.cb q) = some u := by simp [hf, upd]
  constructor
  · intro r' t ht
    rw [hl, lastJump_jq hq]
    by_cases hrq : r' = q
    · subst hrq
      rw [heq] at ht; cases ht
      rw [hqr]
      exact ⟨s.cur, by simpa using hj⟩
    · rw [hne r' hrq] at ht; exact h.held r' t ht
  · intro h1; exact absurd h1 ha
  · rw [hl, jumpsOk_jq hq]; exact h.chain
  · intro k hk
    obtain ⟨a, b, c⟩ := hc k hk
    rw [hl, (hn k).1, (hn k).2.2.1, b, c]; exact h.own k a
  · intro k hk; rw [hl, lastJump_jq hq]; rw [hl, (hn k).1] at hk; exact h.finJ k hk
  · intro k hk
    rw [hl, (hn k).1] at hk
    by_cases hkq : (⟨k, .syn⟩ : CbRef) = q
    · exfalso
      have hrr : r = ⟨k, .own⟩ := by apply partner_inj; rw [← hqr, ← hkq]; rfl
      rw [hrr] at hj
      have h5 : s.cur = k := by
        rcases h.finJ k hk with ⟨j, h4⟩ | ⟨i, h4⟩
        · rw [hj] at h4; simp at h4
        · rw [hj] at h4; simp at h4; exact h4.2
      subst h5
      rcases hnfin with h6 | h6 | h6
      · exact hi.sched.cur_live h6
      · have := hlf s.cur
        cases hb : s.base s.cur <;> rw [hb] at h6 this <;> simp [Base.isBody] at h6
        · exact hk this.2.fi
        · exact hk this.2.2.fi
      · exact hk h6
    · rw [hne _ hkq]; exact h.finS k hk
  · intro k; rw [hl, (hn k).2.1]; exact h.re1 k
  · intro k hk
    rw [hl, (hn k).2.1] at hk
    rw [hl, (hn k).1, lastJump_jq hq]
    obtain ⟨h1, h2⟩ := h.re k hk
    refine ⟨h1, fun hal => ?_⟩
    by_cases hkq : (⟨k, .own⟩ : CbRef) = q
    · left; rw [hkq, heq]; simp
    · rw [hne _ hkq]; exact h2 (hc k hal).1
  · intro k i e he; rw [hl, (hn k).2.2.2] at he; rw [hl, (hn k).2.2.1]; exact h.reE k i e he

/-- control passes from the running context to `t` through end `r` -/
theorem JInv.jump {s s' : St L G V E} {evs : List (Ev V E)} {r : CbRef} {t : Nat} (h : JInv s)
    (hf : s'.fib = upd (upd s.fib (.cb r) none) .air (some s.cur)) (hcur : s'.cur = t)
    (hl : s'.log = .jump r s.cur t :: (evs ++ s.log)) (hq : ∀ e ∈ evs, jq e = true)
    (hh : ∀ r', hole (s'.base s.cur) s.cur (s'.frames s.cur) = some r' → r' = r)
    (hal : (s'.cbs r).life = .alive)
    (hp : s.fib (.cb r.partner) = none)
    (hj : match lastJump r.co s.log with
      | none => r.side = .own ∧ t = r.co
      | some (r', i', _) => r' = r.partner ∧ t = i')
    (hfin : nFin r.co s.log ≠ 0 → s.fib (.cb r) ≠ none)
    (hc : ∀ k, (s'.cbs ⟨k, .own⟩).life = .alive →
      ((s.cbs ⟨k, .own⟩).life = .alive ∧
      (s'.cbs ⟨k, .own⟩).state = (s.cbs ⟨k, .own⟩).state ∧ (s'.cbs ⟨k, .own⟩).except = (s.cbs ⟨k, .own⟩).except) ∨
      ((s'.cbs ⟨k, .own⟩).state = StateT.unwind ∧ (s'.cbs ⟨k, .own⟩).except = none ∧ nFin k s.log = 0 ∧ nRethrow k s.log = 0)) : JInv s' := by
  have hlj : ∀ k, lastJump k s'.log = if r.co = k then some (r, s.cur, t) else lastJump k s.log := by
    intro k; rw [hl, lastJump_jump, lastJump_jq hq]
  have hn := fun k => count_jq (k := k) (log := s.log) hq
  have hnf : ∀ k, nFin k s'.log = nFin k s.log := by
    intro k; rw [hl, ← (hn k).1]; simp [nFin, List.countP_cons, Ev.isFin]
  have hnr : ∀ k, nRethrow k s'.log = nRethrow k s.log := by
    intro k; rw [hl, ← (hn k).2.1]; simp [nRethrow, List.countP_cons, Ev.isRethrow]
  have hmf : ∀ k x, Ev.fin k x ∈ s'.log ↔ Ev.fin k x ∈ s.log := by
    intro k x; rw [hl, List.mem_cons, (hn k).2.2.1]; simp
  have hmr : ∀ k i x, Ev.rethrow k i x ∈ s'.log ↔ Ev.rethrow k i x ∈ s.log := by
    intro k i x; rw [hl, List.mem_cons, (hn k).2.2.2]; simp
  have hfin' : nFin r.co s.log ≠ 0 → r = ⟨r.co, .own⟩ ∧ t = r.co := by
    intro h1
    have h2 := hfin h1
    have h3 := h.finS _ h1
    have hro : r = ⟨r.co, .own⟩ := by
      rcases r with ⟨k, _ | _⟩
      · rfl
      · exact absurd h3 h2
    refine ⟨hro, ?_⟩
    rcases h.finJ _ h1 with ⟨j, h4⟩ | ⟨i, h4⟩
    · rw [h4] at hj; exact hj.2
    · rw [h4] at hj
      exfalso
      have := hj.1
      rw [hro] at this
      simp at this
  constructor
  · intro r' t' ht
    have hrr : r' ≠ r := by rintro rfl; rw [hf] at ht; simp [upd] at ht
    have ht' : s.fib (.cb r') = some t' := by rw [hf] at ht; simpa [upd, hrr] using ht
    rw [hlj]
    have hrp : r' ≠ r.partner := by rintro rfl; rw [hp] at ht'; cases ht'
    have : r.co ≠ r'.co := by
      intro hco
      rcases r with ⟨k, _ | _⟩ <;> rcases r' with ⟨k', _ | _⟩ <;> simp_all
    rw [if_neg this]
    exact h.held r' t' ht'
  · intro _ u r' hu hr'
    have : u = s.cur := by rw [hf] at hu; simpa [upd, eq_comm] using hu
    subst this
    have := hh r' hr'
    subst this
    rw [hlj, hcur, if_pos rfl]
    exact ⟨rfl, hal⟩
  · rw [hl]
    refine ⟨?_, (jumpsOk_jq hq).2 h.chain⟩
    rw [lastJump_jq hq]; exact hj
  · intro k hk
    rw [hnf, hmf]
    rcases hc k hk with ⟨a, b, c⟩ | ⟨a, b, c, d⟩
    · rw [b, c]; exact h.own k a
    · exact .inl ⟨a, b, c⟩
  · intro k hk
    rw [hnf] at hk
    rw [hlj]
    by_cases hrk : r.co = k
    · subst hrk
      obtain ⟨h1, h2⟩ := hfin' hk
      right
      rw [if_pos rfl, h2]
      exact ⟨s.cur, by rw [← h1]⟩
    · rw [if_neg hrk]; exact h.finJ k hk
  · intro k hk
    rw [hnf] at hk
    rw [hf]
    simp only [upd]
    split
    · rename_i h; cases h
    · split
      · rfl
      · exact h.finS k hk
  · intro k; rw [hnr]; exact h.re1 k
  · intro k hk
    rw [hnr] at hk
    obtain ⟨h1, h2⟩ := h.re k hk
    rw [hnf]
    refine ⟨h1, fun hal' => ?_⟩
    rw [hlj]
    by_cases hrk : r.co = k
    · subst hrk
      obtain ⟨h3, h4⟩ := hfin' h1
      right
      rw [if_pos rfl, h4]
      exact ⟨s.cur, by rw [← h3]⟩
    · rw [if_neg hrk]
      have hfb : s'.fib (.cb ⟨k, .own⟩) = s.fib (.cb ⟨k, .own⟩) := by
        rw [hf]
        have : (⟨k, .own⟩ : CbRef) ≠ r := by rintro rfl; exact hrk rfl
        simp [upd, this]
      rw [hfb]
      rcases hc k hal' with ⟨a, b, c⟩ | ⟨a, b, c, d⟩
      · exact h2 a
      · exact absurd d hk
  · intro k i e he; rw [hmr] at he; rw [hmf]; exact h.reE k i e he

theorem Scope.fibs {P : Prog L G V E} {s s1 : St L G V E} {h : Nat} (hs : Scope P s h s1) :
    (∀ r, s1.fib (.cb r) = s.fib (.cb r)) ∧ (s.fib .air = none → s1.fib .air = none) ∧ (s.ctl = .recv → s1.fib .air = none) := by
  cases hs <;> simp_all [upd]

theorem Scope.jq {P : Prog L G V E} {s s1 : St L G V E} {h : Nat} (hs : Scope P s h s1) :
    ∃ evs, s1.log = evs ++ s.log ∧ ∀ e ∈ evs, jq e = true := by
  rcases hs.log with h | h
  · exact ⟨[], h, by simp⟩
  · exact ⟨[_], h, by simp [Verif.jq]⟩

theorem Dtor.jq {kd : Kind} {va : Var} {b : CB V E} {r : CbRef} {sl : Slot V} {evs : List (Ev V E)}
    (h : Dtor kd va b r sl evs) : ∀ e ∈ evs, jq e = true := by
  cases h <;> simp [Verif.jq]
theorem SetOk.jq {mv : V → V} {va : Var} {b b' : CB V E} {j : Nat} {a : PushArg V E} {evs : List (Ev V E)} {w : Option V}
    (h : SetOk mv va b j a b' evs w) : ∀ e ∈ evs, jq e = true := by
  cases h <;> simp [Verif.jq]
theorem SetThrows.jq {va : Var} {b b' : CB V E} {j : Nat} {evs : List (Ev V E)}
    (h : SetThrows va b j b' evs) : ∀ e ∈ evs, jq e = true := by
  cases h <;> simp [Verif.jq]

/-- the stored exception is rethrown -/
theorem JInv.rethrow {s s' : St L G V E} {k i : Nat} {e : E} (h : JInv s)
    (hf : ∀ r, s'.fib (.cb r) = s.fib (.cb r)) (ha : s'.ctl ≠ .recv)
    (hl : s'.log = .rethrow k i e :: s.log) (hfin : Ev.fin k (some e) ∈ s.log) (hfn : nFin k s.log ≠ 0)
    (hre : nRethrow k s.log = 0)
    (hst : (s'.cbs ⟨k, .own⟩).life = .alive → s.fib (.cb ⟨k, .own⟩) ≠ none)
    (hc : ∀ k, (s'.cbs ⟨k, .own⟩).life = .alive → (s.cbs ⟨k, .own⟩).life = .alive ∧
      (s'.cbs ⟨k, .own⟩).state = (s.cbs ⟨k, .own⟩).state ∧ (s'.cbs ⟨k, .own⟩).except = (s.cbs ⟨k, .own⟩).except) : JInv s' := by
  have hlj : ∀ k, lastJump k s'.log = lastJump k s.log := by intro k; rw [hl]; rfl
  have hnf : ∀ k, nFin k s'.log = nFin k s.log := by
    intro k; rw [hl]; simp [nFin, List.countP_cons, Ev.isFin]
  have hnr : ∀ j, nRethrow j s'.log = nRethrow j s.log + if k = j then 1 else 0 := by
    intro k; rw [hl]; simp [nRethrow, List.countP_cons, Ev.isRethrow]
  have hmf : ∀ k x, Ev.fin k x ∈ s'.log ↔ Ev.fin k x ∈ s.log := by
    intro k x; rw [hl, List.mem_cons]; simp
  constructor
  · intro r t; rw [hf, hlj]; exact h.held r t
  · intro h1; exact absurd h1 ha
  · rw [hl]; exact h.chain
  · intro j hj
    obtain ⟨a, b, c⟩ := hc j hj
    rw [hnf, hmf, b, c]; exact h.own j a
  · intro j; rw [hnf, hlj]; exact h.finJ j
  · intro j; rw [hnf, hf]; exact h.finS j
  · intro j; rw [hnr]
    split
    · rename_i hkj; subst hkj; omega
    · exact h.re1 j
  · intro j hj
    rw [hnr] at hj
    rw [hnf, hf, hlj]
    by_cases hkj : k = j
    · subst hkj; exact ⟨hfn, fun hal => .inl (hst hal)⟩
    · rw [if_neg hkj] at hj
      obtain ⟨h1, h2⟩ := h.re j hj
      exact ⟨h1, fun hal => h2 (hc j hal).1⟩
  · intro j i' e' he
    rw [hmf]
    rw [hl, List.mem_cons] at he
    rcases he with he | he
    · cases he; exact hfin
    · exact h.reE j i' e' he

theorem Local.jq {P : Prog L G V E} {s : St L G V E} {g : G} {fs : List (Frame L V E)} {c : Ctl L V E} {evs : List (Ev V E)}
    (h : Local P s g fs c evs) : (∀ e ∈ evs, jq e = true) ∧ c ≠ .recv := by
  cases h <;> simp [Verif.jq]

theorem JInv.pendingOwn {s : St L G V E} (h : JInv s) (hi : Inv s) {k u : Nat} (hr : s.ctl = .recv) (hair : s.fib .air = some u)
    (hh : hole (s.base s.cur) s.cur s.fr = some ⟨k, .own⟩) :
    lastJump k s.log = some (⟨k, .syn⟩, u, s.cur) ∧ (s.cbs ⟨k, .syn⟩).life = .alive := by
  have hctl := hi.ctl
  rw [hr] at hctl
  obtain ⟨r, hr1, hr2, hr3, hr4⟩ := hctl.2.1 u hair
  have : (⟨k, .own⟩ : CbRef) = r.partner := by
    have h2 : hole (s.base s.cur) s.cur s.fr = some r.partner := hr2
    rw [hh] at h2; injection h2
  have : r = ⟨k, .syn⟩ := by apply partner_inj; rw [← this]; rfl
  subst this
  exact h.air hr u _ hair hr1

theorem JInv.noRe {s : St L G V E} (h : JInv s) (hi : Inv s) {k u : Nat} (hr : s.ctl = .recv) (hair : s.fib .air = some u)
    (hh : hole (s.base s.cur) s.cur s.fr = some ⟨k, .own⟩) (hal : (s.cbs ⟨k, .own⟩).life = .alive)
    (hf : s.fib (.cb ⟨k, .own⟩) = none) : nRethrow k s.log = 0 := by
  have hj := (h.pendingOwn hi hr hair hh).1
  by_cases hn : nRethrow k s.log = 0
  · exact hn
  · rcases (h.re k hn).2 hal with h1 | ⟨i, h1⟩
    · exact absurd hf h1
    · rw [hj] at h1; simp at h1

theorem Dying.jinv {P : Prog L G V E} {s s0 : St L G V E} {f : Option Nat} (hs : Dying P s f s0) (hi : Inv s)
    (h : JInv s) : JInv { s0 with ctl := .deliver .unit } := by
  cases hs
  case handle s1 hd k sl evs hsc _ _ _ hdt =>
    obtain ⟨e1, e2, e3, e4, e5, e6, e7, e8, e9, e10, e11⟩ := hsc.eqs
    obtain ⟨f1, f2, f3⟩ := hsc.fibs
    obtain ⟨ev, hl, hq⟩ := hsc.jq
    refine h.keep (evs := evs ++ ev) ?_ (by simp) (by simp [hl]) ?_ ?_
    · intro r t hr
      simp only [upd] at hr
      split at hr
      · cases hr
      · rw [← f1]; exact hr
    · intro e he
      rcases List.mem_append.1 he with he | he
      · exact hdt.jq e he
      · exact hq e he
    · intro j hj
      simp only [upd] at hj ⊢
      by_cases hjk : j = k
      · subst hjk; simp at hj
      · simp [hjk, e2, f1] at hj ⊢; exact hj
  case ctorInvalid hdt =>
    refine h.keep ?_ (by simp) rfl hdt.jq ?_
    · intro r t hr; simpa [upd] using hr
    · intro j hj
      simp only [upd] at hj ⊢
      split at hj
      · simp at hj
      · rename_i h; simp [h]; exact hj
  case ctorThrow k t e u hr hfr hk hal hfn hair hex =>
    have hh : hole (s.base s.cur) s.cur s.fr = some ⟨k, .own⟩ := by rw [hfr]; rfl
    have h0 := h.noRe hi hr hair hh hal hfn
    have hown := h.own k hal
    rw [hex] at hown
    simp at hown
    refine h.rethrow (k := k) (i := s.cur) (e := e) ?_ (by simp) rfl hown.2.1 (by omega) h0 ?_ ?_
    · intro r; simp [upd]
    · simp [upd]
    · intro j hj
      simp only [upd] at hj ⊢
      split at hj
      · simp at hj
      · rename_i h; simp [h]; exact hj
  case ctorUnw =>
    refine h.keep (evs := []) ?_ (by simp) rfl (by simp) ?_
    · intro r t hr
      simp only [upd] at hr
      split at hr
      · cases hr
      · exact hr
    · intro j hj
      simp only [upd] at hj ⊢
      split at hj
      · simp at hj
      · rename_i h
        simp only [CbRef.mk.injEq, and_true] at h
        simp [h]; exact hj
  case syn hdt =>
    refine h.keep ?_ (by simp) rfl hdt.jq ?_
    · intro r t hr
      simp only [upd] at hr
      split at hr
      · cases hr
      · exact hr
    · intro j hj
      simp [upd] at hj ⊢
      exact hj

theorem hole_lt_fresh {s : St L G V E} (hi : Inv s) (sd : Side) : s.fib (.cb ⟨s.nk, sd⟩) = none := by
  cases hf : s.fib (.cb ⟨s.nk, sd⟩) with
  | none => rfl
  | some t =>
    have h1 := hi.cb.full_alive _ _ hf
    rw [hi.cb.unborn s.nk sd (.inr (Nat.le_refl _))] at h1
    cases h1

theorem Step.jinv {P : Prog L G V E} {s s' : St L G V E} (hs : Step P s s') (hi : Inv s)
    (hlf : LifeInv s) (hlg : LogFresh s) (h : JInv s) : JInv s' := by
  have hfc : s.frames s.cur = s.fr := rfl
  have hsame : ∀ k, (s.cbs ⟨k, .own⟩).life = .alive → (s.cbs ⟨k, .own⟩).life = .alive ∧
      (s.cbs ⟨k, .own⟩).state = (s.cbs ⟨k, .own⟩).state ∧ (s.cbs ⟨k, .own⟩).except = (s.cbs ⟨k, .own⟩).except :=
    fun k hk => ⟨hk, rfl, rfl⟩
  have hsame' : ∀ k, (s.cbs ⟨k, .own⟩).life = .alive → (s.cbs ⟨k, .own⟩).life = .alive ∧
      (s.cbs ⟨k, .own⟩).state = (s.cbs ⟨k, .own⟩).state ∧ (s.cbs ⟨k, .own⟩).except = (s.cbs ⟨k, .own⟩).except ∧
      s.fib (.cb ⟨k, .own⟩) = s.fib (.cb ⟨k, .own⟩) :=
    fun k hk => ⟨hk, rfl, rfl, rfl⟩
  cases hs
  case loc hl => exact h.keep (fun r t hr => hr) (fun hc => absurd hc hl.jq.2) rfl hl.jq.1 hsame'
  case get =>
    refine h.keep (evs := [_]) (fun r t hr => hr) (by simp) rfl (by simp [jq]) ?_
    intro k hk
    simp only [upd] at hk ⊢
    split at hk <;> rename_i hkr
    · simp [hkr] at hk ⊢; exact hk
    · simp [hkr] at hk ⊢; exact hk
  case moveCtor => exact h.keep (evs := []) (fun r t hr => hr) (by simp) rfl (by simp) hsame'
  case moveAssign => exact h.keep (evs := []) (fun r t hr => hr) (by simp) rfl (by simp) hsame'
  case ctorDrop => exact h.keep (evs := []) (fun r t hr => hr) (by simp) rfl (by simp) hsame'
  case mkFn => exact h.keep (evs := [_]) (fun r t hr => hr) (by simp) rfl (by simp [jq]) hsame'
  case wait ha => exact h.keep (evs := []) (fun r t hr => hr) (by simp) rfl (by simp) hsame'
  case pushThrow hse =>
    refine h.keep (fun r t hr => hr) (by simp) rfl hse.jq ?_
    intro k hk
    simp only [upd] at hk ⊢
    split at hk <;> rename_i hkr
    · rw [if_pos hkr, hse.except.1, hse.except.2.2.2.1]
      rw [hse.except.2.1] at hk
      rw [hkr]; exact ⟨hk, by simp⟩
    · rw [if_neg hkr]; exact ⟨hk, by simp⟩
  case mk l kd va fn k _ _ =>
    have hnk : s.cur ≠ s.nk := by
      have := hi.sched.lt_nk _ hi.sched.cur_live; omega
    have hfr := lastJump_fresh (k := s.nk) (log := s.log) (by
      intro e he hk; have := hlg e he s.nk hk; omega)
    have hf1 := hole_lt_fresh hi .own
    have hf2 := hole_lt_fresh hi .syn
    refine h.jump (r := ⟨s.nk, .own⟩) (t := s.nk) (evs := [_, _]) ?_ rfl rfl (by simp [jq]) ?_ (by simp) hf2 ?_ ?_ ?_
    · rw [upd_self' _ _ hf1]
    · intro r' hr'
      simp [upd, hnk] at hr'
      cases kd <;> simp [ctorFrame, hole] at hr' <;> exact hr'.symm
    · dsimp only; rw [hfr.1]; exact ⟨rfl, rfl⟩
    · intro hn; exact absurd hfr.2.1 hn
    · intro j hj
      by_cases hjk : j = s.nk
      · subst hjk; right; simp [hfr]
      · left; simp [upd, hjk] at hj ⊢; exact hj
  case push l op k0 h0 a post hd r b evs w t _ _ hpc _ _ _ hal _ _ hse hf =>
    obtain ⟨j, hj⟩ := h.held _ _ hf
    refine h.jump (r := r) (t := t) (evs := evs) rfl rfl rfl hse.jq ?_ ?_ (hi.sched.one _ _ hf) ?_ ?_ ?_
    · intro r' hr'; simp [hole] at hr'; exact hr'.symm
    · simp [upd, (partner_ne r).symm, hal]
    · rw [hj]; exact ⟨rfl, rfl⟩
    · intro _; rw [hf]; simp
    · intro k hk
      left
      simp only [upd] at hk ⊢
      split at hk <;> rename_i hkr
      · rw [if_pos hkr, hse.except.1, hse.except.2.2.2]
        rw [hse.except.2.1] at hk
        rw [hkr]; exact ⟨hk, rfl, rfl⟩
      · rw [if_neg hkr]; exact ⟨hk, rfl, rfl⟩
  case pull l op k0 h0 post hd r t _ _ hpc _ _ _ hal hf =>
    obtain ⟨j, hj⟩ := h.held _ _ hf
    refine h.jump (r := r) (t := t) (evs := []) rfl rfl rfl (by simp) ?_ hal (hi.sched.one _ _ hf) ?_ ?_ ?_
    · intro r' hr'; simp [hole] at hr'; exact hr'.symm
    · rw [hj]; exact ⟨rfl, rfl⟩
    · intro _; rw [hf]; simp
    · intro k hk; exact .inl ⟨hk, rfl, rfl⟩
  case enterPull fn u hr hfr hb hk hal hair =>
    refine h.store (q := ⟨s.cur, .syn⟩) (u := u) (evs := [_]) hi hlf hr hair ?_ rfl (by simp) rfl (by simp [jq]) ?_ ?_
    · rw [hfr, hb]; rfl
    · intro k hk
      simp only [upd] at hk ⊢
      by_cases hkc : k = s.cur
      · subst hkc; simp [hal]
      · simp [hkc] at hk ⊢; exact hk
    · right; right
      have := hlf s.cur
      rw [hb] at this
      exact this.2.2.fi
  case enterPush fn u hr hfr hb hk hal hair =>
    have hctl := hi.ctl
    rw [hr] at hctl
    obtain ⟨r, hr1, hr2, hr3, hr4⟩ := hctl.2.1 u hair
    have hrr : r = ⟨s.cur, .own⟩ := by
      rw [hfc, hfr, hb] at hr2
      simp [hole] at hr2
      apply partner_inj; rw [← hr2]; rfl
    subst hrr
    obtain ⟨hj, _⟩ := h.air hr u _ hair hr1
    have hfin : nFin s.cur s.log = 0 := by
      have := hlf s.cur
      rw [hb] at this
      exact this.2.2.fi
    refine h.jump (r := ⟨s.cur, .syn⟩) (t := u) (evs := []) rfl rfl rfl (by simp) ?_ ?_ hr3 ?_ ?_ ?_
    · intro r' hr'
      simp [hfc, hfr, hole] at hr'; exact hr'.symm
    · simp [upd, synCb]
    · dsimp only at hj ⊢; rw [hj]; exact ⟨rfl, rfl⟩
    · intro hn; exact absurd hfin hn
    · intro k hk
      left
      simp only [upd] at hk ⊢
      by_cases hkc : k = s.cur
      · subst hkc; simp [hal]
      · simp [hkc] at hk ⊢; exact hk
  case startPush fn u hr hfr hb hal hair hf =>
    refine h.store (q := ⟨s.cur, .syn⟩) (u := u) (evs := [_]) hi hlf hr hair ?_ rfl (by simp) rfl (by simp [jq]) hsame ?_
    · rw [hfr, hb]; rfl
    · right; right
      have := hlf s.cur
      rw [hb] at this
      exact this.2.2.fi
  case asg r t u hr hfr hal hf hair hex =>
    refine h.store (q := r) (u := u) (evs := []) hi hlf hr hair ?_ rfl (by simp) rfl (by simp) hsame ?_
    · rw [hfr]; rfl
    · right; left
      have hctl := hi.ctl
      rw [hr, CtlOk, hfc, hfr] at hctl
      have := hctl.1
      simp [okSw] at this
      exact this.2
  case asgThrow r t u e hr hfr hal hf hair hex =>
    have hbd : (s.base s.cur).isBody = true := by
      have hctl := hi.ctl
      rw [hr, CtlOk, hfc, hfr] at hctl
      have := hctl.1
      simp [okSw] at this
      exact this.2
    have h1 : JInv { s with
        frames := upd s.frames s.cur t, ctl := .deliver .unit,
        fib := upd (upd s.fib (.cb r) (some u)) .air none } := by
      refine h.store (q := r) (u := u) (evs := []) hi hlf hr hair ?_ rfl (by simp) rfl (by simp) hsame (.inr (.inl hbd))
      rw [hfr]; rfl
    have hro : r = ⟨r.co, .own⟩ := by
      rcases r with ⟨k, _ | _⟩
      · rfl
      · rw [(hi.cb.syn_state k hal).2] at hex; cases hex
    generalize hk : r.co = k at hro
    subst hro
    have hh : hole (s.base s.cur) s.cur s.fr = some ⟨k, .own⟩ := by rw [hfr]; rfl
    have h0 := h.noRe hi hr hair hh hal hf
    have hown := h.own k hal
    rw [hex] at hown
    simp at hown
    refine h1.rethrow (k := k) (i := s.cur) (e := e) (fun _ => rfl) (by simp) rfl hown.2.1 ?_ h0 ?_ hsame
    · dsimp only; omega
    · simp [upd]
  case pullCtor k t u hr hfr hk hal hf hair hex hv =>
    refine h.store (q := ⟨k, .own⟩) (u := u) (evs := []) hi hlf hr hair ?_ rfl (by simp) rfl (by simp) hsame ?_
    · rw [hfr]; rfl
    · right; left
      have hctl := hi.ctl
      rw [hr, CtlOk, hfc, hfr] at hctl
      have := hctl.1
      simp [okSw] at this
      exact this.2
  case pushCtor k t u hr hfr hk hal hf hair =>
    refine h.store (q := ⟨k, .own⟩) (u := u) (evs := []) hi hlf hr hair ?_ rfl (by simp) rfl (by simp) hsame ?_
    · rw [hfr]; rfl
    · right; left
      have hctl := hi.ctl
      rw [hr, CtlOk, hfc, hfr] at hctl
      have := hctl.1
      simp [okSw] at this
      exact this.2
  case fin hh t x hx hfr hb hal hf =>
    have hsynA : (s.cbs ⟨s.cur, .syn⟩).life = .alive := hi.cb.full_alive _ _ hf
    have hn0 : nFin s.cur s.log = 0 := by
      have := hlf s.cur
      rw [hb] at this
      exact this.2.2.fi
    obtain ⟨j, hj⟩ := h.held _ _ hf
    have hone := hi.sched.one _ _ hf
    have hr0 : nRethrow s.cur s.log = 0 := by
      by_cases h1 : nRethrow s.cur s.log = 0
      · exact h1
      · exact absurd hn0 (h.re _ h1).1
    have hlj : ∀ k, lastJump k (Ev.jump ⟨s.cur, .syn⟩ s.cur t :: .fin s.cur x :: .fnDtor s.cur :: s.log) =
        if s.cur = k then some (⟨s.cur, .syn⟩, s.cur, t) else lastJump k s.log := fun k => rfl
    have hnf : ∀ k, nFin k (Ev.jump ⟨s.cur, .syn⟩ s.cur t :: .fin s.cur x :: .fnDtor s.cur :: s.log) =
        nFin k s.log + if s.cur = k then 1 else 0 := by
      intro k; simp [nFin, List.countP_cons, Ev.isFin]
    have hnr : ∀ k, nRethrow k (Ev.jump ⟨s.cur, .syn⟩ s.cur t :: .fin s.cur x :: .fnDtor s.cur :: s.log) =
        nRethrow k s.log := by
      intro k; simp [nRethrow, List.countP_cons, Ev.isRethrow]
    constructor
    · intro r' t' ht
      dsimp only at ht ⊢
      have hrr : r' ≠ ⟨s.cur, .syn⟩ := by rintro rfl; simp [upd] at ht
      have ht' : s.fib (.cb r') = some t' := by simpa [upd, hrr] using ht
      have : s.cur ≠ r'.co := by
        intro hco
        rcases r' with ⟨k', _ | _⟩
        · simp at hco; subst hco; simp at hone; rw [hone] at ht'; cases ht'
        · simp at hco; subst hco; exact hrr rfl
      rw [hlj, if_neg this]
      exact h.held r' t' ht'
    · intro _ u r' hu hr'
      dsimp only at hu hr' ⊢
      have : u = s.cur := by simpa [upd, eq_comm] using hu
      subst this
      rw [upd_same, hfc, hfr] at hr'
      simp [hole] at hr'
      subst hr'
      rw [hlj, if_pos rfl]
      refine ⟨rfl, ?_⟩
      simp [upd, hsynA]
    · dsimp only
      refine ⟨?_, h.chain⟩
      have : lastJump s.cur (Ev.fin s.cur x :: .fnDtor s.cur :: s.log) = lastJump s.cur s.log := rfl
      simp only [this]
      simp at hj
      rw [hj]
      exact ⟨rfl, rfl⟩
    · intro k hk
      dsimp only at hk ⊢
      rw [hnf]
      by_cases hkc : k = s.cur
      · subst hkc; right; simp [hn0]
      · have hkc' : s.cur ≠ k := fun h => hkc h.symm
        simp [upd, hkc, hkc'] at hk ⊢
        exact h.own k hk
    · intro k hk
      dsimp only at hk ⊢
      rw [hlj]
      by_cases hkc : s.cur = k
      · subst hkc; left; simp
      · rw [if_neg hkc]
        rw [hnf, if_neg hkc] at hk
        exact h.finJ k hk
    · intro k hk
      dsimp only at hk ⊢
      by_cases hkc : s.cur = k
      · subst hkc; simp [upd]
      · rw [hnf, if_neg hkc] at hk
        have := h.finS k hk
        have hkc' : k ≠ s.cur := fun h => hkc h.symm
        simpa [upd, hkc'] using this
    · intro k; dsimp only; rw [hnr]; exact h.re1 k
    · intro k hk
      dsimp only at hk ⊢
      rw [hnr] at hk
      have hkc : s.cur ≠ k := by rintro rfl; exact hk hr0
      have hkc' : k ≠ s.cur := fun h => hkc h.symm
      rw [hnf, hlj, if_neg hkc, if_neg hkc]
      simpa [upd, hkc'] using h.re k hk
    · intro k i e he
      simp at he ⊢
      exact .inr (h.reE k i e he)
  case nop h0 s1 hd hsc _ _ =>
    obtain ⟨e1, e2, e3, e4, e5, e6, e7, e8, e9, e10, e11⟩ := hsc.eqs
    obtain ⟨f1, f2, f3⟩ := hsc.fibs
    obtain ⟨ev, hl, hq⟩ := hsc.jq
    refine h.keep (evs := ev) ?_ (by simp) (by simp [hl]) hq ?_
    · intro r t hr; rw [← f1]; exact hr
    · intro k hk
      dsimp only at hk ⊢
      rw [f1, e2] at *
      exact hsame' k hk
  case dropNone hd => exact hd.jinv hi h
  case dropSome hd =>
    refine (hd.jinv hi h).keep (evs := [_]) ?_ (by simp) rfl (by simp [jq]) ?_
    · intro r t hr; simpa [upd] using hr
    · intro k hk; exact ⟨hk, rfl, rfl, by simp [upd]⟩
  case exit r b hc hfr hb hback hdead =>
    refine h.keep (evs := .dealloc s.cur :: (if s.fnObj s.cur = .record then [.fnDtor s.cur] else [])) ?_ ?_ rfl ?_ ?_
    · intro r t hr; simpa [upd] using hr
    · intro _
      have hctl := hi.ctl
      rw [hc] at hctl
      simp [upd, hctl.2.1]
    · split <;> simp [jq]
    · intro k hk
      dsimp only at hk ⊢
      by_cases hkc : k = s.cur
      · subst hkc; simp [freeCbs, upd] at hk
      · simp [freeCbs, upd, hkc] at hk ⊢; exact hk

theorem jinv_init (l0 : L) (g0 : G) : JInv (init l0 g0 : St L G V E) := by
  constructor <;> simp [init, JumpsOk, nFin, nRethrow]

/-- Every reachable state satisfies `JInv`. -/
theorem jinv_reach {P : Prog L G V E} {l0 : L} {g0 : G} {s : St L G V E} (h : Reach P l0 g0 s) : JInv s := by
  induction h with
  | init => exact jinv_init l0 g0
  | step hr hs ih => exact (step_rel (inv_reach hr) hs).jinv (inv_reach hr) (life_reach hr) (logFresh_reach hr) ih

end Verif
