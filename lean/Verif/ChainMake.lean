import Verif.ChainRun

/-! # Construction, use and destruction of a chain on the specification machine.  Proof material. -/
namespace Verif.Chain
variable {V G E : Type} {C : Spec V G E} {mv : V → V} {gl : Bool}
open Coro (Leads Goes)

theorem upd_zero {α : Type} (f : Nat → α) (x : α) (i : Nat) : upd f 0 x (i + 1) = f (i + 1) := upd_ne _ _ (by omega)

/-- the locals of main after `k` coroutines have been constructed -/
def guards : Nat → List (Coro.Fr (Pt V E) V E)
  | 0 => []
  | k + 1 => .co (2 * k + 1) :: guards k

/-- main runs; `k` coroutines have been constructed -/
structure Base (a : A V G E) (k : Nat) : Prop where
  active : a.active = [0]
  stack : a.stack 0 = guards k
  nh : a.nh = 2 * k
  nk : a.nk = k + 1
  fresh : ∀ i, k < i → a.stack i = []

/-- The last stage, `k`, after its construction; `T`: what is left to do, a function of what is done with the items it passes on. -/
inductive Sts (C : Spec V G E) (k : Nat) (a : A V G E) (T : Cont V G E → Begun → Run (G × Begun) E) : Prop
  | alive {p : List V} {q : List (List V)} {y : V} : q.length = k → Sus a k p y → Own a k → Alive a q →
      (∀ c s, T c s = (c y (a.g, s)).bind (total C (p :: q) c)) → Sts C k a T
  | dead : a.hs (2 * k + 1) = some ⟨.pull, .val, none⟩ → (∀ j, j < k → Any a j) → (∀ c s, T c s = .ok (a.g, s)) → Sts C k a T

/-- How the construction of stage `k` ends. -/
inductive Made (C : Spec V G E) (k : Nat) (T : Cont V G E → Begun → Run (G × Begun) E) (b : A V G E) : Prop
  | ok : Base b (k + 1) → b.ctl = .eval (.make (k + 1) (2 * k + 1)) → Sts C k b T → Made C k T b
  | throws {e : E} : b.active = [0] → b.stack 0 = guards k → (∀ j, j < k → Any b j) → b.ctl = .raise (.user e) →
      (∀ c s, T c s = .error ((b.g, s), some e)) → Made C k T b

/-- coroutine `k + 1` is gone, nothing else has changed -/
structure Died (a b : A V G E) (k : Nat) : Prop where
  g : b.g = a.g
  nh : b.nh = a.nh
  nk : b.nk = a.nk
  gone : b.stack (k + 1) = []
  stack : ∀ i, i ≠ k + 1 → b.stack i = a.stack i
  co : ∀ i, i ≠ k + 1 → b.co i = a.co i
  hs : ∀ i, i ≠ 2 * k → b.hs i = a.hs i

theorem Died.eqv {a b : A V G E} {k : Nat} (h : Died a b k) : Eqv k a b :=
  ⟨fun i hi => h.hs i (by omega), fun i hi => h.stack _ (by omega), fun i hi => h.co _ (by omega)⟩

theorem over_dies {k : Nat} {r : List Nat} {a : A V G E} {e : Option E} (ha : a.active = (k + 1) :: r) (hc : a.ctl = .raise .forced)
    (h : Over a k e) : Leads (prog C mv gl) a fun b => b.active = r ∧ b.ctl = .res .unit ∧ Died a b k := by
  obtain ⟨v, hco⟩ := h.co
  refine Leads.step (Coro.step_unwound ha hc h.stack (.inr (by rw [hco])) h.snk) ?_
  refine Leads.step (Coro.step_left ha rfl h.stack (by simp)) ?_
  refine Leads.now ⟨rfl, rfl, rfl, rfl, rfl, h.stack, fun i hi => rfl, fun i hi => ?_, fun i hi => upd_ne _ _ hi⟩
  exact (upd_ne _ _ hi).trans (upd_ne _ _ hi)

theorem sus_dies {k : Nat} {r : List Nat} {a : A V G E} {p : List V} {y : V} (ha : a.active = (k + 1) :: r) (hc : a.ctl = .raise .forced)
    (h : Sus a k p y) : Leads (prog C mv gl) a fun b => b.active = r ∧ b.ctl = .res .unit ∧ Died a b k := by
  refine Leads.step (Coro.step_unwind_pop ha hc h.stack (.inr (.inr (.inl ⟨_, rfl⟩)))) ?_
  refine Leads.step (Coro.step_unwind_pop ha hc (upd_same _ _ _) (.inr (.inl ⟨_, rfl⟩))) ?_
  refine Leads.step (Coro.step_unwind_pop ha hc (upd_same _ _ _) (.inl ⟨_, rfl⟩)) ?_
  simp only [upd_upd]
  refine Leads.step (Coro.step_unwound ha hc (upd_same _ _ _) (.inl (by show (a.co _).phase = _; rw [h.co])) h.snk) ?_
  refine Leads.step (Coro.step_left ha rfl (upd_same _ _ _) (by simp)) ?_
  refine Leads.now ⟨rfl, rfl, rfl, rfl, rfl, upd_same _ _ _, fun i hi => upd_ne _ _ hi, fun i hi => ?_, fun i hi => upd_ne _ _ hi⟩
  exact (upd_ne _ _ hi).trans (upd_ne _ _ hi)

/-- The second half of a construction: the function has given back the control for the first time. -/
theorem built {k : Nat} {a b : A V G E} {m : List (List V)} (ha : b.active = [0]) (hc : b.ctl = .back)
    (hs : b.stack 0 = .creates (k + 1) :: .use (onHandle (.keep k)) :: guards k) (hnh : b.nh = 2 * k + 1) (hnk : b.nk = k + 2)
    (hf : ∀ i, k + 1 < i → b.stack i = []) (ho : Outc C k m a b) {T : Cont V G E → Begun → Run (G × Begun) E} (hT : ∀ c s, T c s = total C m c (a.g, s)) :
    Leads (prog C mv gl) b (Made C k T) := by
  cases ho with
  | yields h1 h2 h3 h4 h5 =>
    rename_i p' q' y
    have hv := valid_sus h2
    refine Leads.step (Coro.step_created ha hc hs (by rw [h2.co]) (by rw [h2.co]) hv) ?_
    refine Leads.step (Coro.step_use ha rfl (upd_same b.stack 0 _)) ?_
    refine Leads.step (Coro.step_guard ha rfl (h := b.nh) (l' := .make (k + 1) b.nh) rfl) ?_
    simp only [upd_upd, upd_same]
    rw [hnh, h2.co]
    refine Leads.now (.ok ⟨ha, by simp [guards], by simp; omega, hnk, fun i hi => ?_⟩ rfl ?_)
    · exact (upd_ne _ _ (by omega)).trans (hf i (by omega))
    · refine .alive h1 ⟨?_, h2.co, ?_⟩ (upd_same _ _ _) (Alive.eqv (k := k) (a := b) ?_ (by omega) h3) fun c s => (hT c s).trans (h5 c s)
      · dsimp only
        rw [upd_zero, h2.stack]
      · exact (upd_ne _ _ (by omega)).trans h2.snk
      · exact ⟨fun i hi => upd_ne _ _ (by omega), fun i hi => by dsimp only; rw [upd_zero], fun _ _ => rfl⟩
  | ends h1 h2 h3 =>
    have hv := valid_over h1
    have hva : (b.co (k + 1)).va = .val := by obtain ⟨v, hco⟩ := h1.co; rw [hco]
    refine Leads.step (Coro.step_created_empty ha hc hs (by obtain ⟨v, hco⟩ := h1.co; rw [hco]) (by obtain ⟨v, hco⟩ := h1.co; rw [hco]) hv (by simp)) ?_
    rw [hva]
    refine Leads.bind (over_dies (k := k) (e := none) rfl rfl ⟨?_, h1.co, h1.snk⟩) fun c ⟨c1, c2, c3⟩ => ?_
    · dsimp only; rw [upd_zero, h1.stack]
    have hst : c.stack 0 = .empty .val :: .use (onHandle (.keep k)) :: guards k := (c3.stack 0 (by omega)).trans (upd_same b.stack 0 _)
    refine Leads.step (Coro.step_empty c1 c2 hst) ?_
    refine Leads.step (Coro.step_use c1 rfl (upd_same c.stack 0 _)) ?_
    refine Leads.step (Coro.step_guard c1 rfl (h := c.nh) (l' := .make (k + 1) c.nh) rfl) ?_
    simp only [upd_upd, upd_same]
    have hcnh : c.nh = 2 * k + 1 := c3.nh.trans hnh
    rw [hcnh]
    refine Leads.now (.ok ⟨c1, by simp [guards], by simp; omega, c3.nk.trans hnk, fun i hi => ?_⟩ rfl ?_)
    · dsimp only
      rw [upd_ne _ _ (by omega), c3.stack i (by omega)]
      exact (upd_ne _ _ (by omega)).trans (hf i hi)
    · refine .dead (upd_same _ _ _) (fun j hj => (h2 j hj).eqv (k := k) ?_ hj) fun c' s => (hT c' s).trans ((h3 c' s).trans (by rw [← c3.g]))
      refine ⟨fun i hi => ?_, fun i hi => ?_, fun i hi => c3.co _ (by omega)⟩
      · exact (upd_ne _ _ (by omega)).trans (c3.hs _ (by omega))
      · dsimp only
        rw [upd_zero, c3.stack _ (by omega)]
        dsimp only
        rw [upd_zero]
  | throws h1 h2 h3 =>
    rename_i e
    refine Leads.step (Coro.step_created_err ha hc hs (e := e) (by obtain ⟨v, hco⟩ := h1.co; rw [hco]) (by simp)) ?_
    refine Leads.bind (over_dies (k := k) (e := some e) rfl rfl ⟨?_, h1.co, h1.snk⟩) fun c ⟨c1, c2, c3⟩ => ?_
    · dsimp only; rw [upd_zero, h1.stack]
    have hst : c.stack 0 = .andThen (.raise (.user e)) :: .use (onHandle (.keep k)) :: guards k := (c3.stack 0 (by omega)).trans (upd_same b.stack 0 _)
    refine Leads.step (Coro.step_andThen c1 c2 hst) ?_
    refine Leads.step (Coro.step_raise_use c1 rfl (upd_same c.stack 0 _)) ?_
    simp only [upd_upd, upd_same]
    refine Leads.now (.throws c1 (upd_same c.stack 0 _) (fun j hj => (h2 j hj).eqv (k := k) ?_ hj) rfl fun c' s => (hT c' s).trans ((h3 c' s).trans (by rw [← c3.g])))
    refine ⟨fun i hi => c3.hs _ (by omega), fun i hi => ?_, fun i hi => c3.co _ (by omega)⟩
    dsimp only
    rw [upd_zero, c3.stack _ (by omega)]
    dsimp only
    rw [upd_zero]

theorem Sts.eqv {k : Nat} {a b : A V G E} {T : Cont V G E → Begun → Run (G × Begun) E} (h : Sts C k a T) (he : Eqv (k + 1) a b) (hg : b.g = a.g) :
    Sts C k b T := by
  cases h with
  | alive h1 h2 h3 h4 h5 => exact .alive h1 (h2.eqv he (by omega)) (h3.eqv he (by omega)) (h4.eqv he (by omega)) (by rw [hg]; exact h5)
  | dead h1 h2 h3 => exact .dead ((he.hs _ (by omega)).trans h1) (fun j hj => (h2 j hj).eqv he (by omega)) (by rw [hg]; exact h3)

/-- a coroutine has just been entered, from its constructor -/
structure Entered (a b : A V G E) (k : Nat) : Prop where
  here : Here b k 0 []
  ctl : b.ctl = .eval (body C k (2 * k - 1) (2 * k))
  g : b.g = a.g
  main : b.stack 0 = .creates (k + 1) :: .use (onHandle (.keep k)) :: guards k
  nh : b.nh = 2 * k + 1
  nk : b.nk = k + 2
  fresh : ∀ i, k + 1 < i → b.stack i = []
  eqv : Eqv k a b

theorem enter {k : Nat} {a : A V G E} (hb : Base a k) (hc : a.ctl = .eval (.make k (2 * k - 1))) (hk : k ≤ C.stages.length) :
    Leads (prog C mv gl) a fun b => Entered (C := C) a b k := by
  have hcode : code C (.make k (2 * k - 1)) a.g = .api (.mk .pull .val .ok (body C k (2 * k - 1))) (onHandle (.keep k)) := by
    simp [code, hk]
  refine Leads.step (Coro.step_mk_pull hb.active hc hcode) ?_
  rw [hb.nk]
  refine Leads.step (Coro.step_enter_pull (n := k + 1) rfl rfl (by dsimp only; rw [upd_zero]; exact hb.fresh _ (by omega))
    (fn := body C k (2 * k - 1)) (by simp) (by simp)) ?_
  simp only [upd_upd, upd_same]
  rw [hb.nh]
  refine Leads.now ⟨⟨rfl, by simp, ?_, ⟨none, upd_same _ _ _⟩, upd_same _ _ _⟩, rfl, rfl, ?_, rfl, rfl, fun i hi => ?_, ?_⟩
  · dsimp only
    rw [upd_zero]
    exact hb.fresh _ (by omega)
  · dsimp only
    rw [upd_same, hb.stack]
  · exact (upd_ne _ _ (by omega)).trans (hb.fresh _ (by omega))
  · exact ⟨fun i hi => upd_ne _ _ (by omega), fun i hi => by dsimp only; rw [upd_zero], fun i hi => upd_ne _ _ (by omega)⟩

theorem Entered.built {k : Nat} {a b c : A V G E} {m : List (List V)} {T : Cont V G E → Begun → Run (G × Begun) E} (h : Entered (C := C) a b k)
    (h1 : c.active = [0]) (h2 : c.ctl = .back) (h3 : Frm (k + 1) b c) (h4 : Outc C k m b c) (hT : ∀ c s, T c s = total C m c (b.g, s)) :
    Leads (prog C mv gl) c (Made C k T) :=
  Chain.built h1 h2 ((h3.stack 0 (.inl rfl)).trans h.main) (h3.nh.trans h.nh) (h3.nk.trans h.nk)
    (fun i hi => (h3.stack i (.inr hi)).trans (h.fresh i hi)) h4 hT

/-- The reader is constructed. -/
theorem create_zero {a : A V G E} (hb : Base a 0) (hc : a.ctl = .eval (.make 0 0)) :
    Leads (prog C mv gl) a (Made C 0 fun c s => each c C.input (a.g, s)) := by
  refine Leads.bind (enter hb hc (Nat.zero_le _)) fun b h => ?_
  refine Leads.bind (loop_ok (Nat.zero_le _) [] b 0 [] C.input ⟨rfl, h.here.active, h.here.off, h.ctl, h.here.stack, h.here.co, h.here.snk, trivial⟩)
    fun c ⟨c1, c2, c3, c4⟩ => ?_
  refine h.built c1 c2 c3 c4 fun c s => ?_
  rw [h.g]
  simp only [total]
  cases each c C.input (a.g, s) <;> rfl

/-- Another stage is constructed. -/
theorem create_succ {k : Nat} {a : A V G E} {T : Cont V G E → Begun → Run (G × Begun) E} (hb : Base a (k + 1))
    (hc : a.ctl = .eval (.make (k + 1) (2 * k + 1))) (hk : k + 1 ≤ C.stages.length) (hs : Sts C k a T) :
    Leads (prog C mv gl) a (Made C (k + 1) fun c => T (pass C (k + 1) c)) := by
  refine Leads.bind (enter hb hc hk) fun b h => ?_
  obtain ⟨hact, hoff, hst, hco, hsnk⟩ := h.here
  have hctl : b.ctl = .eval (.begin (k + 1) (2 * k + 1) (2 * (k + 1))) := h.ctl
  have hs' := hs.eqv h.eqv h.g
  cases hs' with
  | alive h1 h2 h3 h4 h5 =>
    rename_i p q y
    have hv := valid_sus h2
    refine Leads.step (Coro.step_begin_some hact hctl rfl h3 (by simp) hv) ?_
    refine Leads.step (Coro.step_use hact rfl (upd_same _ _ _)) ?_
    simp only [upd_upd]
    rw [upd_self]
    refine Leads.bind (item_ok (a0 := b) (m := (y :: p) :: q) hk (fun a p' => loop_ok hk (p :: q) a 0 [] p') ⟨hact, hoff, hst, hco, hsnk⟩ rfl h1
      (Sus.eqv (k := k + 1) (a := b) ?_ (by omega) h2) h3 (Alive.eqv (k := k + 1) (a := b) ?_ (by omega) h4) (.here (by simp))
      (fun c s => total_cons C y p q _ (b.g, s)) (by simp [h1])) fun c ⟨c1, c2, c3, c4⟩ => ?_
    · exact ⟨fun _ _ => rfl, fun _ _ => rfl, fun _ _ => rfl⟩
    · exact ⟨fun _ _ => rfl, fun _ _ => rfl, fun _ _ => rfl⟩
    refine h.built c1 c2 ⟨c3.hs, c3.nh, c3.nk, c3.stack, c3.co⟩ c4 fun c s => ?_
    rw [total_nil, total_cons, h5]
    simp [h1]
  | dead h1 h2 h3 =>
    refine Leads.step (Coro.step_itBegin_none hact hctl rfl h1 (by simp)) ?_
    refine Leads.step (Coro.step_use hact rfl (upd_same _ _ _)) ?_
    simp only [upd_upd]
    rw [upd_self]
    refine Leads.bind (none_ok (a0 := b) (m := []) ⟨hact, hoff, hst, hco, hsnk⟩ rfl ?_ (fun c s => rfl)) fun c ⟨c1, c2, c3, c4⟩ => ?_
    · intro j hj
      refine Any.eqv (k := k + 1) (a := b) ?_ hj ?_
      · exact ⟨fun _ _ => rfl, fun _ _ => rfl, fun _ _ => rfl⟩
      · by_cases hjk : j = k
        · subst hjk; exact .none h1
        · exact h2 j (by omega)
    exact h.built c1 c2 ⟨c3.hs, c3.nh, c3.nk, c3.stack, c3.co⟩ c4 fun c s => (h3 _ s).trans rfl

end Verif.Chain
