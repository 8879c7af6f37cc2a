import Verif.ChainMake

/-! # The push coroutines of a chain on the specification machine.  Proof material. -/
namespace Verif.Chain
variable {V G E : Type}
open Coro (Leads Goes)

/-- the number of the writer (`i = 0`) and of the push stages -/
abbrev Spec.num (C : Spec V G E) (i : Nat) : Nat := C.stages.length + 1 + i

/-- what is done with an item that is pushed to coroutine `num i` -/
def down (C : Spec V G E) (w : V → G → G × Option E) (i : Nat) : Cont V G E := nested ((C.outs.take i).reverse.map lift) (write w)

variable {C : Spec V G E} {mv : V → V} {gl : Bool}

theorem down_succ {w : V → G → G × Option E} {i : Nat} {f : Stage V G E} (hf : C.outs[i]? = some f) :
    down C w (i + 1) = through (lift f) (down C w i) := by
  have hi : i < C.outs.length := by
    rcases Nat.lt_or_ge i C.outs.length with h | h
    · exact h
    · rw [List.getElem?_eq_none h] at hf; cases hf
  have hg : C.outs[i] = f := by simpa [List.getElem?_eq_getElem hi] using hf
  simp only [down, List.take_succ_eq_append_getElem hi, List.reverse_append, List.reverse_singleton, List.singleton_append, List.map_cons, nested, hg]

theorem fn_out {i : Nat} {f : Stage V G E} (hf : C.outs[i]? = some f) : C.fn (C.num (i + 1)) = some f := by
  rw [Spec.fn, if_neg (by simp only [Spec.num]; omega), ← hf]
  congr 1
  simp only [Spec.num]; omega

/-! ## states -/

def POwn (a : A V G E) (k : Nat) : Prop := a.hs (2 * k + 1) = some ⟨.push, .val, some ⟨k + 1, .own⟩⟩
def Src (a : A V G E) (k : Nat) : Prop := a.hs (2 * k) = some ⟨.pull, .val, some ⟨k + 1, .syn⟩⟩

/-- the function of a push coroutine has not been entered -/
structure Idle (a : A V G E) (k : Nat) (fn : Nat → Pt V E) : Prop where
  stack : a.stack (k + 1) = []
  co : a.co (k + 1) = { kind := .push, va := .val, phase := .idle (2 * k) fn, val := none, err := none }
  src : Src a k

/-- it waits for an item -/
structure Waits (a : A V G E) (k : Nat) (t : List (Coro.Fr (Pt V E) V E)) : Prop where
  stack : a.stack (k + 1) = .resumed ⟨k + 1, .syn⟩ :: t
  co : ∃ v, a.co (k + 1) = { kind := .push, va := .val, phase := .body (2 * k), val := v, err := none }
  src : Src a k

/-- it has ended -/
structure POver (a : A V G E) (k : Nat) (e : Option E) : Prop where
  stack : a.stack (k + 1) = []
  co : ∃ v, a.co (k + 1) = { kind := .push, va := .val, phase := .ended (2 * k), val := v, err := e }
  src : Src a k

/-- where the function of a stage waits, where it starts -/
def inNext (k : Nat) : List (Coro.Fr (Pt V E) V E) := [.iter (2 * k), .use (onIt (.test k (2 * k - 1)))]
def begins (k : Nat) : Nat → Pt V E := fun source => .begin k source (2 * k - 1)

/-- where the function of the writer waits -/
def inSource (k : Nat) : List (Coro.Fr (Pt V E) V E) := [.use fun _ => .wTest (2 * k), .obj 0]

structure Stg (a : A V G E) (k : Nat) : Prop where
  own : POwn a k
  st : Idle a k (begins k) ∨ Waits a k (inNext k)

structure Wrt (a : A V G E) (k : Nat) (s : Begun) : Prop where
  own : POwn a k
  st : s = false ∧ Idle a k .wEnter ∨ s = true ∧ Waits a k (inSource k)

/-- the writer and push stages 1, …, i can get an item -/
structure Ready (C : Spec V G E) (i : Nat) (s : Begun) (a : A V G E) : Prop where
  stg : ∀ m, 1 ≤ m → m ≤ i → Stg a (C.num m)
  wrt : Wrt a (C.num 0) s

/-- whatever the state of a stage is -/
inductive SAny (a : A V G E) (k : Nat) : Prop
  | idle {fn : Nat → Pt V E} : POwn a k → Idle a k fn → SAny a k
  | waits : POwn a k → Waits a k (inNext k) → SAny a k
  | over {e : Option E} : POwn a k → POver a k e → SAny a k

/-- whatever the state of the writer is; `g`: memory after it has been destroyed -/
inductive WAny (C : Spec V G E) (a : A V G E) (k : Nat) (g : G) : Prop
  | idle {fn : Nat → Pt V E} : POwn a k → Idle a k fn → g = a.g → WAny C a k g
  | waits : POwn a k → Waits a k (inSource k) → g = C.eol a.g → WAny C a k g
  | over {e : Option E} : POwn a k → POver a k e → g = a.g → WAny C a k g

/-- whatever their state is -/
structure Left (C : Spec V G E) (i : Nat) (g : G) (a : A V G E) : Prop where
  stg : ∀ m, 1 ≤ m → m ≤ i → SAny a (C.num m)
  wrt : WAny C a (C.num 0) g

theorem Ready.left {i : Nat} {s : Begun} {a : A V G E} (h : Ready C i s a) : Left C i (flush C (a.g, s)) a := by
  refine ⟨fun m h1 h2 => ?_, ?_⟩
  · rcases (h.stg m h1 h2).st with h3 | h3
    · exact .idle (h.stg m h1 h2).own h3
    · exact .waits (h.stg m h1 h2).own h3
  · rcases h.wrt.st with ⟨rfl, h3⟩ | ⟨rfl, h3⟩
    · exact .idle h.wrt.own h3 rfl
    · exact .waits h.wrt.own h3 rfl

/-- only the coroutines of the writer and of push stages 1, …, i have changed -/
structure PFrm (C : Spec V G E) (i : Nat) (a b : A V G E) : Prop where
  hs : b.hs = a.hs
  nh : b.nh = a.nh
  nk : b.nk = a.nk
  stack : ∀ x, x ≤ C.num 0 ∨ C.num i + 1 < x → b.stack x = a.stack x
  co : ∀ x, x ≤ C.num 0 ∨ C.num i + 1 < x → b.co x = a.co x

theorem PFrm.refl {i : Nat} {a : A V G E} : PFrm C i a a := ⟨rfl, rfl, rfl, fun _ _ => rfl, fun _ _ => rfl⟩

theorem PFrm.trans {i : Nat} {a b c : A V G E} (h : PFrm C i a b) (h' : PFrm C i b c) : PFrm C i a c :=
  ⟨h'.hs.trans h.hs, h'.nh.trans h.nh, h'.nk.trans h.nk, fun x hx => (h'.stack x hx).trans (h.stack x hx),
    fun x hx => (h'.co x hx).trans (h.co x hx)⟩

theorem PFrm.mono {i j : Nat} {a b : A V G E} (h : PFrm C i a b) (hj : i ≤ j) : PFrm C j a b :=
  ⟨h.hs, h.nh, h.nk, fun x hx => h.stack x (by simp only [Spec.num] at hx ⊢; omega), fun x hx => h.co x (by simp only [Spec.num] at hx ⊢; omega)⟩

/-- the parts of two states that concern the writer and push stages 1, …, i are equal -/
structure PEqv (C : Spec V G E) (i : Nat) (a b : A V G E) : Prop where
  hs : ∀ x, 2 * C.num 0 ≤ x → x ≤ 2 * C.num i + 1 → b.hs x = a.hs x
  stack : ∀ m, m ≤ i → b.stack (C.num m + 1) = a.stack (C.num m + 1)
  co : ∀ m, m ≤ i → b.co (C.num m + 1) = a.co (C.num m + 1)

section
variable {i m : Nat} {a b : A V G E} (h : PEqv C i a b) (hm : m ≤ i)
include h hm
theorem POwn.eqv (h1 : POwn a (C.num m)) : POwn b (C.num m) := (h.hs _ (by simp only [Spec.num]; omega) (by simp only [Spec.num]; omega)).trans h1
theorem Src.eqv (h1 : Src a (C.num m)) : Src b (C.num m) := (h.hs _ (by simp only [Spec.num]; omega) (by simp only [Spec.num]; omega)).trans h1
theorem Idle.eqv {fn : Nat → Pt V E} (h1 : Idle a (C.num m) fn) : Idle b (C.num m) fn :=
  ⟨(h.stack m hm).trans h1.stack, (h.co m hm).trans h1.co, h1.src.eqv h hm⟩
theorem Waits.eqv {t : List (Coro.Fr (Pt V E) V E)} (h1 : Waits a (C.num m) t) : Waits b (C.num m) t :=
  ⟨(h.stack m hm).trans h1.stack, h1.co.imp fun _ hv => (h.co m hm).trans hv, h1.src.eqv h hm⟩
theorem POver.eqv {e : Option E} (h1 : POver a (C.num m) e) : POver b (C.num m) e :=
  ⟨(h.stack m hm).trans h1.stack, h1.co.imp fun _ hv => (h.co m hm).trans hv, h1.src.eqv h hm⟩
theorem Stg.eqv (h1 : Stg a (C.num m)) : Stg b (C.num m) := ⟨h1.own.eqv h hm, h1.st.imp (Idle.eqv h hm) (Waits.eqv h hm)⟩
theorem Wrt.eqv {s : Begun} (h1 : Wrt a (C.num m) s) : Wrt b (C.num m) s :=
  ⟨h1.own.eqv h hm, h1.st.imp (And.imp_right (Idle.eqv h hm)) (And.imp_right (Waits.eqv h hm))⟩
theorem SAny.eqv (h1 : SAny a (C.num m)) : SAny b (C.num m) := by
  cases h1 with
  | idle h1 h2 => exact .idle (h1.eqv h hm) (h2.eqv h hm)
  | waits h1 h2 => exact .waits (h1.eqv h hm) (h2.eqv h hm)
  | over h1 h2 => exact .over (h1.eqv h hm) (h2.eqv h hm)
theorem WAny.eqv {g : G} (hg : b.g = a.g) (h1 : WAny C a (C.num m) g) : WAny C b (C.num m) g := by
  cases h1 with
  | idle h1 h2 h3 => exact .idle (h1.eqv h hm) (h2.eqv h hm) (by rw [hg]; exact h3)
  | waits h1 h2 h3 => exact .waits (h1.eqv h hm) (h2.eqv h hm) (by rw [hg]; exact h3)
  | over h1 h2 h3 => exact .over (h1.eqv h hm) (h2.eqv h hm) (by rw [hg]; exact h3)
theorem Ready.eqv {s : Begun} (h1 : Ready C m s a) : Ready C m s b :=
  ⟨fun j hj hj' => (h1.stg j hj hj').eqv h (by omega), h1.wrt.eqv h (by omega)⟩
theorem Left.eqv {g : G} (hg : b.g = a.g) (h1 : Left C m g a) : Left C m g b :=
  ⟨fun j hj hj' => (h1.stg j hj hj').eqv h (by omega), h1.wrt.eqv h (by omega) hg⟩
end

/-! ## an item is pushed -/

/-- How a push coroutine gives the control back after it has got item `v`. -/
inductive POut (C : Spec V G E) (w : V → G → G × Option E) (i : Nat) (v : V) (s : Begun) (a b : A V G E) : Prop
  | ok {s' : Begun} : down C w i v (a.g, s) = .ok (b.g, s') → (b.co (C.num i + 1)).err = none → Ready C i s' b → POut C w i v s a b
  | err {x : G × Begun} {e : E} : down C w i v (a.g, s) = .error (x, some e) → (b.co (C.num i + 1)).err = some e → Left C i (flush C x) b →
      POut C w i v s a b

/-- it has just got item `v`: a stage, `i ≥ 1`; the writer, `i = 0` -/
structure Got (C : Spec V G E) (i cal : Nat) (below : List Nat) (v : V) (s : Begun) (a : A V G E) : Prop where
  active : a.active = (C.num i + 1) :: cal :: below
  off : ∀ m, m ≤ i → C.num m + 1 ∉ cal :: below
  co : a.co (C.num i + 1) = { kind := .push, va := .val, phase := .body (2 * C.num i), val := some v, err := none }
  src : Src a (C.num i)
  own : POwn a (C.num i)
  at_ : if i = 0 then a.ctl = .eval (.wTest (2 * C.num i)) ∧ a.stack (C.num i + 1) = [.obj 0]
    else a.ctl = .eval (.test (C.num i) (2 * C.num i - 1) (some (2 * C.num i))) ∧ a.stack (C.num i + 1) = []
  low : ∀ j, i = j + 1 → Ready C j s a

def TurnOk (C : Spec V G E) (mv : V → V) (gl : Bool) (w : V → G → G × Option E) (i : Nat) : Prop :=
  ∀ (a : A V G E) (cal : Nat) (below : List Nat) (v : V) (s : Begun), Got C i cal below v s a →
    Leads (prog C mv gl) a fun b => b.active = cal :: below ∧ b.ctl = .back ∧ PFrm C i a b ∧ POut C w i v s a b

/-- How `sink(v)` ends. -/
inductive Pushed (C : Spec V G E) (w : V → G → G × Option E) (i : Nat) (v : V) (s : Begun) (K : Res V → Pt V E) (a b : A V G E) : Prop
  | ok {s' : Begun} : down C w i v (a.g, s) = .ok (b.g, s') → b.ctl = .eval (K (.val v)) → Ready C i s' b → Pushed C w i v s K a b
  | err {x : G × Begun} {e : E} : down C w i v (a.g, s) = .error (x, some e) → b.ctl = .raise (.user e) → Left C i (flush C x) b →
      Pushed C w i v s K a b

theorem begins_ctl {k : Nat} : (begins k (2 * k) : Pt V E) = .begin k (2 * k) (2 * k - 1) := rfl

theorem push_ok {w : V → G → G × Option E} {i : Nat} (ht : TurnOk C mv gl w i) {a : A V G E} {n : Nat} {below : List Nat} {l : Pt V E}
    {K : Res V → Pt V E} {v : V} {s : Begun} (ha : a.active = n :: below) (hc : a.ctl = .eval l)
    (hcode : code C l a.g = .api (.push (2 * C.num i + 1) (.copy v)) K) (hoff : ∀ m, m ≤ i → C.num m + 1 ∉ n :: below)
    (hn : n ≤ C.num 0 ∨ C.num i + 1 < n) (hr : Ready C i s a) :
    Leads (prog C mv gl) a fun b => b.active = n :: below ∧ PFrm C i a b ∧ Pushed C w i v s K a b := by
  have hne : C.num i + 1 ≠ n := by simp only [Spec.num] at hn ⊢; omega
  have hown : POwn a (C.num i) := by
    cases i with
    | zero => exact hr.wrt.own
    | succ i => exact (hr.stg (i + 1) (by omega) (Nat.le_refl _)).own
  -- it gets the item
  have got : Leads (prog C mv gl) a fun b => Got C i n below v s b ∧ PFrm C i { a with stack := b.stack } b ∧ b.g = a.g ∧
      b.stack n = .resumed ⟨C.num i + 1, .own⟩ :: .give v :: .use K :: a.stack n ∧
      ∀ x, x ≠ n → x ≠ C.num i + 1 → b.stack x = a.stack x := by
    have low : ∀ b : A V G E, b.hs = a.hs → (∀ x, x ≠ n → x ≠ C.num i + 1 → b.stack x = a.stack x) →
        (∀ x, x ≠ C.num i + 1 → b.co x = a.co x) → ∀ j, i = j + 1 → Ready C j s b := by
      intro b b1 b2 b3 j hj
      subst hj
      have hr' : Ready C j s a := ⟨fun m h1 h2 => hr.stg m h1 (by omega), hr.wrt⟩
      refine hr'.eqv (i := j) (a := a) ?_ (Nat.le_refl _)
      refine ⟨fun x _ _ => by rw [b1], fun m hm => b2 _ ?_ ?_, fun m hm => b3 _ ?_⟩
      · simp only [Spec.num] at hn ⊢; omega
      · simp only [Spec.num]; omega
      · simp only [Spec.num]; omega
    cases i with
    | zero =>
      rcases hr.wrt.st with ⟨rfl, h1⟩ | ⟨rfl, h1⟩
      · refine Leads.step (Coro.step_push_own ha hc hcode hown (by rw [h1.co]) (hoff 0 (Nat.le_refl _)) (.inr ⟨_, _, by rw [h1.co]⟩)) ?_
        refine Leads.step (Coro.step_enter_idle (n := C.num 0 + 1) rfl rfl ((upd_ne _ _ hne).trans h1.stack) (h := 2 * C.num 0) (fn := .wEnter)
          (by dsimp only; rw [upd_same, h1.co])) ?_
        refine Leads.step (Coro.step_newObj (n := C.num 0 + 1) rfl rfl (o := 0) (l' := .wTest (2 * C.num 0)) rfl) ?_
        refine Leads.now ⟨⟨rfl, hoff, ?_, h1.src, hown, ?_, ?_⟩, ⟨rfl, rfl, rfl, fun _ _ => rfl, ?_⟩, rfl, ?_, ?_⟩
        · dsimp only; rw [upd_same, upd_same, h1.co]
        · rw [if_pos rfl]
          refine ⟨rfl, ?_⟩
          dsimp only; rw [upd_same, upd_ne _ _ hne, h1.stack]
        · intro j hj; omega
        · intro x hx
          have : x ≠ C.num 0 + 1 := by omega
          dsimp only; rw [upd_ne _ _ this, upd_ne _ _ this]
        · dsimp only; rw [upd_ne _ _ hne.symm, upd_same]
        · intro x h2 h3
          dsimp only; rw [upd_ne _ _ h3, upd_ne _ _ h2]
      · obtain ⟨u, hco⟩ := h1.co
        refine Leads.step (Coro.step_push_own ha hc hcode hown (by rw [hco]) (hoff 0 (Nat.le_refl _)) (.inl ⟨_, by rw [hco]⟩)) ?_
        refine Leads.step (Coro.step_resumed_syn (n := C.num 0 + 1) rfl rfl ((upd_ne _ _ hne).trans h1.stack)) ?_
        refine Leads.step (Coro.step_use (n := C.num 0 + 1) rfl rfl (upd_same _ _ _)) ?_
        simp only [upd_upd]
        refine Leads.now ⟨⟨rfl, hoff, ?_, h1.src, hown, ?_, ?_⟩, ⟨rfl, rfl, rfl, fun _ _ => rfl, ?_⟩, rfl, ?_, ?_⟩
        · dsimp only; rw [upd_same, hco]
        · rw [if_pos rfl]
          refine ⟨rfl, ?_⟩
          dsimp only; rw [upd_same]
        · intro j hj; omega
        · intro x hx
          have : x ≠ C.num 0 + 1 := by omega
          dsimp only; rw [upd_ne _ _ this]
        · dsimp only; rw [upd_ne _ _ hne.symm, upd_same]
        · intro x h2 h3
          dsimp only; rw [upd_ne _ _ h3, upd_ne _ _ h2]
    | succ i =>
      rcases (hr.stg (i + 1) (by omega) (Nat.le_refl _)).st with h1 | h1
      · refine Leads.step (Coro.step_push_own ha hc hcode hown (by rw [h1.co]) (hoff _ (Nat.le_refl _)) (.inr ⟨_, _, by rw [h1.co]⟩)) ?_
        refine Leads.step (Coro.step_enter_idle (n := C.num (i + 1) + 1) rfl rfl ((upd_ne _ _ hne).trans h1.stack) (h := 2 * C.num (i + 1))
          (fn := begins (C.num (i + 1))) (by dsimp only; rw [upd_same, h1.co])) ?_
        refine Leads.step (Coro.step_begin_syn (n := C.num (i + 1) + 1) rfl rfl (h := 2 * C.num (i + 1))
          (K := onIt (.test (C.num (i + 1)) (2 * C.num (i + 1) - 1))) rfl h1.src (by simp) ?_) ?_
        · refine Coro.valid_syn (v := v) ?_ ?_
          · dsimp only; rw [upd_same, upd_same, h1.co]
          · dsimp only; rw [upd_same, upd_same]
        refine Leads.step (Coro.step_use (n := C.num (i + 1) + 1) rfl rfl (upd_same _ _ _)) ?_
        simp only [upd_upd]
        refine Leads.now ⟨⟨rfl, hoff, ?_, h1.src, hown, ?_, ?_⟩, ⟨rfl, rfl, rfl, fun _ _ => rfl, ?_⟩, rfl, ?_, ?_⟩
        · dsimp only; rw [upd_same, upd_same, h1.co]
        · rw [if_neg (by omega)]
          refine ⟨rfl, ?_⟩
          dsimp only; rw [upd_same, upd_ne _ _ hne, h1.stack]
        · refine low _ rfl (fun x h2 h3 => ?_) (fun x h3 => ?_)
          · dsimp only; rw [upd_ne _ _ h3, upd_ne _ _ h2]
          · dsimp only; rw [upd_ne _ _ h3]
        · intro x hx
          have : x ≠ C.num (i + 1) + 1 := by simp only [Spec.num] at hx ⊢; omega
          dsimp only; rw [upd_ne _ _ this]
        · dsimp only; rw [upd_ne _ _ hne.symm, upd_same]
        · intro x h2 h3
          dsimp only; rw [upd_ne _ _ h3, upd_ne _ _ h2]
      · obtain ⟨u, hco⟩ := h1.co
        refine Leads.step (Coro.step_push_own ha hc hcode hown (by rw [hco]) (hoff _ (Nat.le_refl _)) (.inl ⟨_, by rw [hco]⟩)) ?_
        refine Leads.step (Coro.step_resumed_syn (n := C.num (i + 1) + 1) rfl rfl ((upd_ne _ _ hne).trans h1.stack)) ?_
        refine Leads.step (Coro.step_iter_syn (n := C.num (i + 1) + 1) rfl rfl (upd_same _ _ _) h1.src ?_) ?_
        · refine Coro.valid_syn (v := v) ?_ ?_
          · dsimp only; rw [upd_same, hco]
          · dsimp only; rw [upd_same]
        refine Leads.step (Coro.step_use (n := C.num (i + 1) + 1) rfl rfl (upd_same _ _ _)) ?_
        simp only [upd_upd]
        refine Leads.now ⟨⟨rfl, hoff, ?_, h1.src, hown, ?_, ?_⟩, ⟨rfl, rfl, rfl, fun _ _ => rfl, ?_⟩, rfl, ?_, ?_⟩
        · dsimp only; rw [upd_same, hco]
        · rw [if_neg (by omega)]
          refine ⟨rfl, ?_⟩
          dsimp only; rw [upd_same]
        · refine low _ rfl (fun x h2 h3 => ?_) (fun x h3 => ?_)
          · dsimp only; rw [upd_ne _ _ h3, upd_ne _ _ h2]
          · dsimp only; rw [upd_ne _ _ h3]
        · intro x hx
          have : x ≠ C.num (i + 1) + 1 := by simp only [Spec.num] at hx ⊢; omega
          dsimp only; rw [upd_ne _ _ this]
        · dsimp only; rw [upd_ne _ _ hne.symm, upd_same]
        · intro x h2 h3
          dsimp only; rw [upd_ne _ _ h3, upd_ne _ _ h2]
  refine Leads.bind got fun b ⟨b1, b2, b3, b4, b5⟩ => ?_
  refine Leads.bind (ht b n below v s b1) fun c ⟨c1, c2, c3, c4⟩ => ?_
  have hst : c.stack n = .resumed ⟨C.num i + 1, .own⟩ :: .give v :: .use K :: a.stack n := (c3.stack n hn).trans b4
  have frm : ∀ d : A V G E, d.hs = c.hs → d.nh = c.nh → d.nk = c.nk → d.co = c.co → d.stack = upd c.stack n (a.stack n) → PFrm C i a d := by
    intro d d1 d2 d3 d4 d5
    refine ⟨d1.trans (c3.hs.trans b2.hs), d2.trans (c3.nh.trans b2.nh), d3.trans (c3.nk.trans b2.nk), fun x hx => ?_, fun x hx => ?_⟩
    · rw [d5]
      by_cases hx' : x = n
      · rw [hx', upd_same]
      · rw [upd_ne _ _ hx', c3.stack x hx]
        exact b5 x hx' (by simp only [Spec.num] at hx ⊢; omega)
    · rw [d4, c3.co x hx]; exact b2.co x hx
  have eqv : ∀ d : A V G E, d.hs = c.hs → d.co = c.co → d.stack = upd c.stack n (a.stack n) → PEqv C i c d := by
    intro d d1 d2 d3
    refine ⟨fun x _ _ => by rw [d1], fun m hm => ?_, fun m hm => by rw [d2]⟩
    rw [d3, upd_ne _ _ (by simp only [Spec.num] at hn ⊢; omega)]
  cases c4 with
  | ok h1 h2 h3 =>
    refine Leads.step (Coro.step_resumed_own c1 c2 hst h2) ?_
    refine Leads.step (Coro.step_give c1 rfl (upd_same _ _ _)) ?_
    refine Leads.step (Coro.step_use c1 rfl (upd_same _ _ _)) ?_
    simp only [upd_upd]
    refine Leads.now ⟨c1, frm _ rfl rfl rfl rfl rfl, .ok (by rw [← b3]; exact h1) rfl (Ready.eqv (i := i) (a := c) ?_ (Nat.le_refl _) h3)⟩
    exact eqv _ rfl rfl rfl
  | err h1 h2 h3 =>
    refine Leads.step (Coro.step_resumed_err c1 c2 hst h2) ?_
    refine Leads.step (Coro.step_raise_give c1 rfl (upd_same _ _ _)) ?_
    refine Leads.step (Coro.step_raise_use c1 rfl (upd_same _ _ _)) ?_
    simp only [upd_upd]
    refine Leads.now ⟨c1, frm _ rfl rfl rfl rfl rfl, .err (by rw [← b3]; exact h1) rfl (Left.eqv (i := i) (a := c) ?_ (Nat.le_refl _) rfl h3)⟩
    exact eqv _ rfl rfl rfl

/-! ## a push coroutine at work -/

/-- The writer. -/
theorem turn_zero {w : V → G → G × Option E} (hw : C.writer = some w) : TurnOk C mv gl w 0 := by
  intro a cal below v s h
  have hat := h.at_
  rw [if_pos rfl] at hat
  obtain ⟨hctl, hst⟩ := hat
  have hd : down C w 0 v (a.g, s) = write w v (a.g, s) := rfl
  refine Leads.step (Coro.step_bang_syn h.active hctl rfl h.src (Coro.valid_syn (v := v) (by rw [h.co]) (by rw [h.co]))) ?_
  refine Leads.step (Coro.step_use h.active rfl (upd_same _ _ _)) ?_
  simp only [upd_upd]
  rw [upd_self]
  refine Leads.step (Coro.step_get_syn h.active rfl rfl h.src (Coro.valid_syn (v := v) (by dsimp only; rw [h.co]) (by dsimp only; rw [h.co]))
    (v := v) (by dsimp only; rw [h.co]) (by dsimp only; rw [h.co])) ?_
  refine Leads.step (Coro.step_use h.active rfl (upd_same _ _ _)) ?_
  simp only [upd_upd]
  rw [upd_self, h.co]
  cases hwv : w v a.g with
  | mk g' r =>
    cases r with
    | none =>
      refine Leads.step (Coro.step_tau h.active rfl (g' := g') (l' := .wNext (2 * C.num 0)) (by
        show code C (.wItem (2 * C.num 0) v) a.g = _
        simp only [code, hw, hwv])) ?_
      refine Leads.step (Coro.step_resume_syn h.active rfl (K := fun _ => .wTest (2 * C.num 0)) rfl h.src) ?_
      refine Leads.now ⟨rfl, rfl, ⟨rfl, rfl, rfl, fun x hx => upd_ne _ _ (by omega), fun x hx => upd_ne _ _ (by omega)⟩, ?_⟩
      refine .ok (s' := true) (by rw [hd]; simp only [write, hwv]) (by dsimp only; rw [upd_same]) ⟨fun m h1 h2 => by omega, h.own, .inr ⟨rfl, ?_, ⟨_, upd_same _ _ _⟩, h.src⟩⟩
      dsimp only; rw [upd_same, hst]; rfl
    | some e =>
      refine Leads.step (Coro.step_tau h.active rfl (g' := g') (l' := .fail e) (by
        show code C (.wItem (2 * C.num 0) v) a.g = _
        simp only [code, hw, hwv])) ?_
      refine Leads.step (Coro.step_throw h.active rfl rfl) ?_
      refine Leads.step (Coro.step_raise_obj h.active rfl hst) ?_
      refine Leads.step (Coro.step_threw (h := 2 * C.num 0) h.active rfl (upd_same _ _ _) (by simp) (by dsimp only; rw [upd_same])) ?_
      simp only [upd_upd, upd_same]
      refine Leads.now ⟨rfl, rfl, ⟨rfl, rfl, rfl, fun x hx => upd_ne _ _ (by omega), fun x hx => upd_ne _ _ (by omega)⟩, ?_⟩
      refine .err (x := (g', true)) (e := e) (by rw [hd]; simp only [write, hwv]) (by dsimp only; rw [upd_same])
        ⟨fun m h1 h2 => by omega, .over (e := some e) h.own ⟨upd_same _ _ _, ⟨_, upd_same _ _ _⟩, h.src⟩ rfl⟩

/-- A stage passes its items on. -/
theorem outs_ok {w : V → G → G × Option E} {i : Nat} (ht : TurnOk C mv gl w i) {cal : Nat} {below : List Nat} {v : V} :
    ∀ (ys : List V) (a : A V G E) (s : Begun), a.active = (C.num (i + 1) + 1) :: cal :: below →
    (∀ m, m ≤ i + 1 → C.num m + 1 ∉ cal :: below) →
    a.co (C.num (i + 1) + 1) = { kind := .push, va := .val, phase := .body (2 * C.num (i + 1)), val := some v, err := none } →
    Src a (C.num (i + 1)) → POwn a (C.num (i + 1)) → a.ctl = .eval (.out (C.num (i + 1)) (2 * C.num (i + 1)) (2 * C.num (i + 1) - 1) ys) →
    a.stack (C.num (i + 1) + 1) = [] → Ready C i s a →
    Leads (prog C mv gl) a fun b => b.active = cal :: below ∧ b.ctl = .back ∧ PFrm C (i + 1) a b ∧
      ((∃ s', each (down C w i) ys (a.g, s) = .ok (b.g, s') ∧ (b.co (C.num (i + 1) + 1)).err = none ∧ Ready C (i + 1) s' b) ∨
      ∃ x e, each (down C w i) ys (a.g, s) = .error (x, some e) ∧ (b.co (C.num (i + 1) + 1)).err = some e ∧ Left C (i + 1) (flush C x) b)
  | [], a, s, h1, h2, h3, h4, h5, h6, h7, h8 => by
    refine Leads.step (Coro.step_itNext_syn h1 h6 (K := onIt (.test (C.num (i + 1)) (2 * C.num (i + 1) - 1))) (by
      show code C (.out (C.num (i + 1)) (2 * C.num (i + 1)) (2 * C.num (i + 1) - 1) []) a.g = _
      simp only [code]; rw [if_neg (by simp only [Spec.num]; omega)]) h4) ?_
    refine Leads.now ⟨rfl, rfl, ⟨rfl, rfl, rfl, fun x hx => upd_ne _ _ (by simp only [Spec.num] at hx ⊢; omega), fun x hx => rfl⟩, .inl ⟨s, rfl, by rw [h3], ?_⟩⟩
    have he : PEqv C i a { a with
        active := cal :: below, ctl := .back,
        stack := upd a.stack (C.num (i + 1) + 1) (.resumed ⟨C.num (i + 1) + 1, .syn⟩ :: .iter (2 * C.num (i + 1)) ::
          .use (onIt (.test (C.num (i + 1)) (2 * C.num (i + 1) - 1))) :: a.stack (C.num (i + 1) + 1)) } :=
      ⟨fun _ _ _ => rfl, fun m hm => upd_ne _ _ (by simp only [Spec.num]; omega), fun _ _ => rfl⟩
    have h8' := h8.eqv he (Nat.le_refl _)
    refine ⟨fun m hm hm' => ?_, h8'.wrt⟩
    by_cases hmi : m = i + 1
    · subst hmi
      refine ⟨h5, .inr ⟨?_, ⟨_, h3⟩, h4⟩⟩
      dsimp only; rw [upd_same, h7]; rfl
    · exact h8'.stg m hm (by omega)
  | y :: ys, a, s, h1, h2, h3, h4, h5, h6, h7, h8 => by
    have hne : 2 * C.num (i + 1) - 1 = 2 * C.num i + 1 := by simp only [Spec.num]; omega
    refine Leads.bind (push_ok ht (v := y) (s := s) (n := C.num (i + 1) + 1) h1 h6
      (K := fun _ => .out (C.num (i + 1)) (2 * C.num (i + 1)) (2 * C.num (i + 1) - 1) ys) ?_ ?_ (.inr (by simp only [Spec.num]; omega)) h8)
      fun b ⟨b1, b2, b3⟩ => ?_
    · show Act.api (.push (2 * C.num (i + 1) - 1) (.copy y)) _ = _
      rw [hne]
    · intro m hm hx
      rcases List.mem_cons.1 hx with hx | hx
      · simp only [Spec.num] at hx; omega
      · exact h2 m (by omega) hx
    have hco := (b2.co (C.num (i + 1) + 1) (by simp only [Spec.num]; omega)).trans h3
    have hst := (b2.stack (C.num (i + 1) + 1) (by simp only [Spec.num]; omega)).trans h7
    have hsrc : Src b (C.num (i + 1)) := by unfold Src; rw [b2.hs]; exact h4
    have hown : POwn b (C.num (i + 1)) := by unfold POwn; rw [b2.hs]; exact h5
    cases b3 with
    | ok c1 c2 c3 =>
      refine Leads.bind (outs_ok ht ys b _ b1 h2 hco hsrc hown c2 hst c3) fun d ⟨d1, d2, d3, d4⟩ => ?_
      refine Leads.now ⟨d1, d2, (b2.mono (by omega)).trans d3, ?_⟩
      simp only [each, c1, Except.bind]
      exact d4
    | err c1 c2 c3 =>
      refine Leads.step (Coro.step_threw (h := 2 * C.num (i + 1)) b1 c2 hst (by simp) (by rw [hco])) ?_
      rename_i x e
      refine Leads.now ⟨rfl, rfl, (b2.mono (by omega)).trans ⟨rfl, rfl, rfl, fun x hx => rfl, fun x hx => upd_ne _ _ (by simp only [Spec.num] at hx ⊢; omega)⟩,
        .inr ⟨x, e, ?_, ?_, ?_⟩⟩
      · simp only [each, c1, Except.bind]
      · dsimp only; rw [upd_same]
      · have hl : Left C i (flush C x) { b with
            co := upd b.co (C.num (i + 1) + 1) { b.co (C.num (i + 1) + 1) with phase := .ended (2 * C.num (i + 1)), err := some e },
            active := cal :: below, ctl := .back, obs := .fin (C.num (i + 1) + 1) (some e) :: b.obs } := by
          refine Left.eqv (i := i) (a := b) ?_ (Nat.le_refl _) rfl c3
          exact ⟨fun _ _ _ => rfl, fun _ _ => rfl, fun m hm => upd_ne _ _ (by simp only [Spec.num]; omega)⟩
        refine ⟨fun m hm hm' => ?_, hl.wrt⟩
        by_cases hmi : m = i + 1
        · subst hmi
          refine .over (e := some e) hown ⟨hst, ⟨some v, ?_⟩, hsrc⟩
          dsimp only; rw [upd_same, hco]
        · exact hl.stg m hm (by omega)

theorem turn_ok {w : V → G → G × Option E} (hw : C.writer = some w) : ∀ {i : Nat}, i ≤ C.outs.length → TurnOk C mv gl w i
  | 0, _ => turn_zero hw
  | i + 1, hi => by
    intro a cal below v s h
    have hat := h.at_
    rw [if_neg (by omega)] at hat
    obtain ⟨hctl, hst⟩ := hat
    obtain ⟨f, hf⟩ : ∃ f, C.outs[i]? = some f := ⟨C.outs[i], by simp [hi]⟩
    have hr := h.low i rfl
    refine Leads.step (Coro.step_deref_syn h.active hctl rfl h.src (by simp) (Coro.valid_syn (v := v) (by rw [h.co]) (by rw [h.co]))
      (v := v) (by rw [h.co])) ?_
    refine Leads.step (Coro.step_use h.active rfl (upd_same _ _ _)) ?_
    simp only [upd_upd]
    rw [upd_self]
    have hd : down C w (i + 1) v (a.g, s) = through (lift f) (down C w i) v (a.g, s) := by rw [down_succ hf]
    simp only [through, lift] at hd
    cases hfv : f v a.g with
    | mk g' r =>
      rw [hfv] at hd
      cases r with
      | ok ys =>
        refine Leads.step (Coro.step_tau h.active rfl (g' := g') (l' := .out (C.num (i + 1)) (2 * C.num (i + 1)) (2 * C.num (i + 1) - 1) ys) (by
          show code C (.item (C.num (i + 1)) (2 * C.num (i + 1)) (2 * C.num (i + 1) - 1) v) a.g = _
          simp only [code, fn_out hf, hfv])) ?_
        refine Leads.bind (outs_ok (turn_ok hw (i := i) (by omega)) ys _ s h.active h.off h.co h.src h.own rfl hst ?_)
          fun b ⟨b1, b2, b3, b4⟩ => Leads.now ⟨b1, b2, ⟨b3.hs, b3.nh, b3.nk, b3.stack, b3.co⟩, ?_⟩
        · refine Ready.eqv (i := i) (a := a) ?_ (Nat.le_refl _) hr
          exact ⟨fun _ _ _ => rfl, fun _ _ => rfl, fun _ _ => rfl⟩
        · rcases b4 with ⟨s', c1, c2, c3⟩ | ⟨x, e, c1, c2, c3⟩
          · exact .ok (hd.trans c1) c2 c3
          · exact .err (hd.trans c1) c2 c3
      | error e =>
        refine Leads.step (Coro.step_tau h.active rfl (g' := g') (l' := .fail e) (by
          show code C (.item (C.num (i + 1)) (2 * C.num (i + 1)) (2 * C.num (i + 1) - 1) v) a.g = _
          simp only [code, fn_out hf, hfv])) ?_
        refine Leads.step (Coro.step_throw h.active rfl rfl) ?_
        refine Leads.step (Coro.step_threw (h := 2 * C.num (i + 1)) h.active rfl hst (by simp) (by dsimp only; rw [h.co])) ?_
        refine Leads.now ⟨rfl, rfl, ⟨rfl, rfl, rfl, fun x hx => rfl, fun x hx => upd_ne _ _ (by simp only [Spec.num] at hx ⊢; omega)⟩, ?_⟩
        refine .err (x := (g', s)) (e := e) hd (by dsimp only; rw [upd_same]) ?_
        have hl : Left C i (flush C (g', s)) { a with
            g := g', co := upd a.co (C.num (i + 1) + 1) { a.co (C.num (i + 1) + 1) with phase := .ended (2 * C.num (i + 1)), err := some e },
            active := cal :: below, ctl := .back, obs := .fin (C.num (i + 1) + 1) (some e) :: .peeked (C.num (i + 1) + 1) v :: a.obs } := by
          have hl : ∀ b : A V G E, b.g = g' → PEqv C i a b → Left C i (flush C (g', s)) b := by
            intro b hb he
            rw [← hb]; exact (hr.eqv he (Nat.le_refl _)).left
          refine hl _ rfl ?_
          exact ⟨fun _ _ _ => rfl, fun _ _ => rfl, fun m hm => upd_ne _ _ (by simp only [Spec.num]; omega)⟩
        refine ⟨fun m hm hm' => ?_, hl.wrt⟩
        by_cases hmi : m = i + 1
        · subst hmi
          refine .over (e := some e) h.own ⟨hst, ⟨some v, ?_⟩, h.src⟩
          dsimp only; rw [upd_same, h.co]
        · exact hl.stg m hm (by omega)

end Verif.Chain
