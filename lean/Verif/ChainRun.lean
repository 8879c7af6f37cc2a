import Verif.ExChain
import Verif.CoroRun
import Verif.SpecChain

/-! # Runs of a chain of coroutines on the specification machine.  Proof material. -/
namespace Verif.Chain
variable {V G E : Type}
open Coro (Leads Goes)

abbrev A (V G E : Type) := Coro.St (Pt V E) G V E

/-- what is done with an item -/
abbrev Cont (V G E : Type) := V → G × Begun → Run (G × Begun) E

theorem bind_assoc (x : Run G E) (f h : G → Run G E) : (x.bind f).bind h = x.bind fun g => (f g).bind h := by
  cases x <;> rfl

/-- what stage `k` does with an item, `c` being done with what it passes on -/
def pass (C : Spec V G E) (k : Nat) (c : Cont V G E) (v : V) (g : G × Begun) : Run (G × Begun) E :=
  match C.fn k with
  | some f => through (lift f) c v g
  | none => .ok g

/-- What is left to do: `q` are the values the stages have still to pass on, last stage first. -/
def total (C : Spec V G E) : List (List V) → Cont V G E → G × Begun → Run (G × Begun) E
  | [], _, g => .ok g
  | p :: q, c, g => (each c p g).bind (total C q (pass C q.length c))

theorem total_cons (C : Spec V G E) (y : V) (p : List V) (q : List (List V)) (c : Cont V G E) (g : G × Begun) :
    total C ((y :: p) :: q) c g = (c y g).bind (total C (p :: q) c) := by
  simp only [total, each, bind_assoc]

theorem total_nil (C : Spec V G E) (q : List (List V)) (c : Cont V G E) (g : G × Begun) :
    total C ([] :: q) c g = total C q (pass C q.length c) g := rfl

inductive Less : List (List V) → List (List V) → Prop
  | here {p p' : List V} {q : List (List V)} : p'.length < p.length → Less (p' :: q) (p :: q)
  | up {p p' : List V} {q q' : List (List V)} : Less q' q → Less (p' :: q') (p :: q)

theorem Less.trans {x y z : List (List V)} (h : Less x y) (h' : Less y z) : Less x z := by
  induction h generalizing z with
  | here h =>
    cases h' with
    | here h' => exact .here (Nat.lt_trans h h')
    | up h' => exact .up h'
  | up h ih =>
    cases h' with
    | here h' => exact .up h
    | up h' => exact .up (ih h')

theorem less_wf : WellFounded (Less (V := V)) := by
  refine ⟨fun q => ?_⟩
  induction q with
  | nil => exact ⟨_, fun q h => by cases h⟩
  | cons p q ih =>
    have key : ∀ n (p : List V), p.length ≤ n → Acc Less (p :: q) := by
      clear p
      induction ih with
      | intro q _ ihq =>
        intro n
        induction n with
        | zero =>
          intro p hp
          refine ⟨_, fun x h => ?_⟩
          cases h with
          | here h => omega
          | up h => exact ihq _ h _ _ (Nat.le_refl _)
        | succ n ihn =>
          intro p hp
          refine ⟨_, fun x h => ?_⟩
          cases h with
          | here h => exact ihn _ (by omega)
          | up h => exact ihq _ h _ _ (Nat.le_refl _)
    exact key _ p (Nat.le_refl _)

/-! ## states -/

def Own (a : A V G E) (k : Nat) : Prop := a.hs (2 * k + 1) = some ⟨.pull, .val, some ⟨k + 1, .own⟩⟩
def Snk (a : A V G E) (k : Nat) : Prop := a.hs (2 * k) = some ⟨.push, .val, some ⟨k + 1, .syn⟩⟩

/-- stage `k` has passed `y` on and waits; `p` is still to be passed on -/
structure Sus (a : A V G E) (k : Nat) (p : List V) (y : V) : Prop where
  stack : a.stack (k + 1) = [.resumed ⟨k + 1, .syn⟩, .give y, .use fun _ => .out k (2 * k - 1) (2 * k) p]
  co : a.co (k + 1) = { kind := .pull, va := .val, phase := .body (2 * k), val := some y, err := none }
  snk : Snk a k

def Alive (a : A V G E) : List (List V) → Prop
  | [] => True
  | p :: q => (∃ y, Sus a q.length p y) ∧ Own a q.length ∧ Alive a q

/-- the function of stage `k` has ended -/
structure Over (a : A V G E) (k : Nat) (e : Option E) : Prop where
  stack : a.stack (k + 1) = []
  co : ∃ v, a.co (k + 1) = { kind := .pull, va := .val, phase := .ended (2 * k), val := v, err := e }
  snk : Snk a k

/-- whatever the state of stage `k` is -/
inductive Any (a : A V G E) (k : Nat) : Prop
  | none : a.hs (2 * k + 1) = some ⟨.pull, .val, none⟩ → Any a k
  | sus {p : List V} {y : V} : Own a k → Sus a k p y → Any a k
  | over {e : Option E} : Own a k → Over a k e → Any a k

/-- only coroutines 1, …, m have changed -/
structure Frm (m : Nat) (a b : A V G E) : Prop where
  hs : b.hs = a.hs
  nh : b.nh = a.nh
  nk : b.nk = a.nk
  stack : ∀ i, i = 0 ∨ m < i → b.stack i = a.stack i
  co : ∀ i, i = 0 ∨ m < i → b.co i = a.co i

theorem Frm.trans {m : Nat} {a b c : A V G E} (h : Frm m a b) (h' : Frm m b c) : Frm m a c :=
  ⟨h'.hs.trans h.hs, h'.nh.trans h.nh, h'.nk.trans h.nk, fun i hi => (h'.stack i hi).trans (h.stack i hi),
    fun i hi => (h'.co i hi).trans (h.co i hi)⟩

theorem Frm.mono {m n : Nat} {a b : A V G E} (h : Frm m a b) (hn : m ≤ n) : Frm n a b :=
  ⟨h.hs, h.nh, h.nk, fun i hi => h.stack i (by omega), fun i hi => h.co i (by omega)⟩

/-- the parts of two states that concern the stages before stage `k` are equal -/
structure Eqv (k : Nat) (a b : A V G E) : Prop where
  hs : ∀ i, i < 2 * k → b.hs i = a.hs i
  stack : ∀ i, i < k → b.stack (i + 1) = a.stack (i + 1)
  co : ∀ i, i < k → b.co (i + 1) = a.co (i + 1)

theorem Sus.eqv {k j : Nat} {a b : A V G E} {p : List V} {y : V} (h : Eqv k a b) (hj : j < k) (hs : Sus a j p y) : Sus b j p y :=
  ⟨(h.stack j hj).trans hs.stack, (h.co j hj).trans hs.co, (h.hs _ (by omega)).trans hs.snk⟩

theorem Over.eqv {k j : Nat} {a b : A V G E} {e : Option E} (h : Eqv k a b) (hj : j < k) (hs : Over a j e) : Over b j e :=
  ⟨(h.stack j hj).trans hs.stack, hs.co.imp fun v hv => (h.co j hj).trans hv, (h.hs _ (by omega)).trans hs.snk⟩

theorem Own.eqv {k j : Nat} {a b : A V G E} (h : Eqv k a b) (hj : j < k) (hs : Own a j) : Own b j :=
  (h.hs _ (by omega)).trans hs

theorem Any.eqv {k j : Nat} {a b : A V G E} (h : Eqv k a b) (hj : j < k) (hs : Any a j) : Any b j := by
  cases hs with
  | none h1 => exact .none ((h.hs _ (by omega)).trans h1)
  | sus h1 h2 => exact .sus (h1.eqv h hj) (h2.eqv h hj)
  | over h1 h2 => exact .over (h1.eqv h hj) (h2.eqv h hj)

theorem Alive.eqv {k : Nat} {a b : A V G E} (h : Eqv k a b) : ∀ {q : List (List V)}, q.length ≤ k → Alive a q → Alive b q
  | [], _, _ => trivial
  | p :: q, hk, ⟨⟨y, h1⟩, h2, h3⟩ => by
    simp only [List.length_cons] at hk
    exact ⟨⟨y, h1.eqv h (by omega)⟩, h2.eqv h (by omega), Alive.eqv h (by omega) h3⟩

theorem Alive.any {a : A V G E} : ∀ {q : List (List V)}, Alive a q → ∀ j, j < q.length → Any a j
  | p :: q, ⟨⟨y, h1⟩, h2, h3⟩, j, hj => by
    by_cases h : j = q.length
    · subst h; exact .sus h2 h1
    · exact Alive.any h3 j (by simp only [List.length_cons] at hj; omega)

theorem valid_sus {a : A V G E} {k : Nat} {p : List V} {y : V} (h : Sus a k p y) : Coro.valid a ⟨k + 1, .own⟩ = true := by
  simp [Coro.valid, h.co, Coro.Phase.isEnded]

theorem valid_over {a : A V G E} {k : Nat} {e : Option E} (h : Over a k e) : Coro.valid a ⟨k + 1, .own⟩ = false := by
  obtain ⟨v, h⟩ := h.co
  simp [Coro.valid, h, Coro.Phase.isEnded]

/-! ## a stage at work -/

variable {C : Spec V G E} {mv : V → V} {gl : Bool}

/-- How a stage gives the control back: `a` before, `b` after; `q`: what the stages had to pass on. -/
inductive Outc (C : Spec V G E) (k : Nat) (q : List (List V)) (a b : A V G E) : Prop
  | yields {p' : List V} {q' : List (List V)} {y : V} : q'.length = k → Sus b k p' y → Alive b q' → Less (p' :: q') q →
      (∀ c s, total C q c (a.g, s) = (c y (b.g, s)).bind (total C (p' :: q') c)) → Outc C k q a b
  | ends : Over b k none → (∀ j, j < k → Any b j) → (∀ c s, total C q c (a.g, s) = .ok (b.g, s)) → Outc C k q a b
  | throws {e : E} : Over b k (some e) → (∀ j, j < k → Any b j) → (∀ c s, total C q c (a.g, s) = .error ((b.g, s), some e)) → Outc C k q a b

/-- stage `k` runs and has `p` to pass on -/
structure Runs (a : A V G E) (k d : Nat) (below : List Nat) (p : List V) (q : List (List V)) : Prop where
  len : q.length = k
  active : a.active = (k + 1) :: d :: below
  off : ∀ j, j ≤ k → j + 1 ∉ d :: below
  ctl : a.ctl = .eval (.out k (2 * k - 1) (2 * k) p)
  stack : a.stack (k + 1) = []
  co : ∃ w, a.co (k + 1) = { kind := .pull, va := .val, phase := .body (2 * k), val := w, err := none }
  snk : Snk a k
  alive : Alive a q

def LoopOk (C : Spec V G E) (mv : V → V) (gl : Bool) (k : Nat) : Prop :=
  ∀ (q : List (List V)) (a : A V G E) (d : Nat) (below : List Nat) (p : List V), Runs a k d below p q →
    Leads (prog C mv gl) a fun b => b.active = d :: below ∧ b.ctl = .back ∧ Frm (k + 1) a b ∧ Outc C k (p :: q) a b

/-- How `++it` on the object of stage `k` ends. -/
inductive Pulled (C : Spec V G E) (k : Nat) (q : List (List V)) (K : Res V → Pt V E) (a b : A V G E) : Prop
  | yields {p' : List V} {q' : List (List V)} {y : V} : b.ctl = .eval (K (.it (some (2 * k + 1)))) → q'.length = k → Sus b k p' y →
      Alive b q' → Less (p' :: q') q → (∀ c s, total C q c (a.g, s) = (c y (b.g, s)).bind (total C (p' :: q') c)) → Pulled C k q K a b
  | ends : b.ctl = .eval (K (.it none)) → Over b k none → (∀ j, j < k → Any b j) → (∀ c s, total C q c (a.g, s) = .ok (b.g, s)) → Pulled C k q K a b
  | throws {e : E} : b.ctl = .raise (.user e) → Over b k (some e) → (∀ j, j < k → Any b j) →
      (∀ c s, total C q c (a.g, s) = .error ((b.g, s), some e)) → Pulled C k q K a b

theorem Outc.congr {k : Nat} {q : List (List V)} {a a' b b' : A V G E} (h : Outc C k q a b) (hg : a'.g = a.g) (hg' : b'.g = b.g)
    (he : Eqv (k + 1) b b') : Outc C k q a' b' := by
  cases h with
  | yields h1 h2 h3 h4 h5 => exact .yields h1 (h2.eqv he (by omega)) (h3.eqv he (by omega)) h4 (by rw [hg, hg']; exact h5)
  | ends h1 h2 h3 => exact .ends (h1.eqv he (by omega)) (fun j hj => (h2 j hj).eqv he (by omega)) (by rw [hg, hg']; exact h3)
  | throws h1 h2 h3 => exact .throws (h1.eqv he (by omega)) (fun j hj => (h2 j hj).eqv he (by omega)) (by rw [hg, hg']; exact h3)

theorem pull_ok {k : Nat} (hl : LoopOk C mv gl k) {q : List (List V)} {p : List V} {a : A V G E} {n : Nat} {below : List Nat} {l : Pt V E}
    {K : Res V → Pt V E} (ha : a.active = n :: below) (hc : a.ctl = .eval l) (hcode : code C l a.g = .api (.itNext (some (2 * k + 1))) K)
    (hoff : ∀ j, j ≤ k → j + 1 ∉ n :: below) (hn : n = 0 ∨ k + 1 < n) (hlen : q.length = k) {y : V} (hs : Sus a k p y) (ho : Own a k)
    (hq : Alive a q) : Leads (prog C mv gl) a fun b => b.active = n :: below ∧ Frm (k + 1) a b ∧ Pulled C k (p :: q) K a b := by
  have hne : k + 1 ≠ n := by omega
  refine Leads.step (Coro.step_itNext_own ha hc hcode ho (hoff k (Nat.le_refl _)) (by rw [hs.co])) ?_
  refine Leads.step (Coro.step_resumed_syn rfl rfl ((upd_ne _ _ hne).trans hs.stack)) ?_
  refine Leads.step (Coro.step_give rfl rfl (upd_same _ _ _)) ?_
  refine Leads.step (Coro.step_use rfl rfl (upd_same _ _ _)) ?_
  simp only [upd_upd]
  refine Leads.bind (hl q _ n below p ?_) fun b ⟨b1, b2, b3, b4⟩ => ?_
  · refine ⟨hlen, rfl, hoff, rfl, upd_same _ _ _, ⟨_, hs.co⟩, hs.snk, ?_⟩
    refine Alive.eqv (k := k) (a := a) ?_ (by omega) hq
    refine ⟨fun _ _ => rfl, fun i hi => ?_, fun _ _ => rfl⟩
    show upd _ _ _ _ = _
    rw [upd_ne _ _ (by omega), upd_ne _ _ (by omega)]
  · have hst : b.stack n = .resumed ⟨k + 1, .own⟩ :: .iter (2 * k + 1) :: .use K :: a.stack n := by
      rw [b3.stack n hn]
      show upd _ _ _ _ = _
      rw [upd_ne _ _ hne.symm, upd_same]
    have hh : b.hs (2 * k + 1) = some ⟨.pull, .val, some ⟨k + 1, .own⟩⟩ := by rw [b3.hs]; exact ho
    have frm : ∀ x : List (Coro.Fr (Pt V E) V E), x = a.stack n → ∀ c : A V G E, c.hs = b.hs → c.nh = b.nh → c.nk = b.nk → c.co = b.co →
        c.stack = upd b.stack n x → Frm (k + 1) a c := by
      intro x hx c c1 c2 c3 c4 c5
      refine ⟨c1.trans b3.hs, c2.trans b3.nh, c3.trans b3.nk, fun i hi => ?_, fun i hi => by rw [c4]; exact b3.co i hi⟩
      rw [c5]
      by_cases hin : i = n
      · rw [hin, upd_same, hx]
      · rw [upd_ne _ _ hin, b3.stack i hi]
        show upd _ _ _ _ = _
        rw [upd_ne _ _ (by omega), upd_ne _ _ hin]
    have eqv : ∀ x : List (Coro.Fr (Pt V E) V E), ∀ c : A V G E, c.hs = b.hs → c.co = b.co → c.stack = upd b.stack n x → Eqv (k + 1) b c := by
      intro x c c1 c2 c3
      refine ⟨fun i _ => by rw [c1], fun i hi => ?_, fun i _ => by rw [c2]⟩
      rw [c3, upd_ne _ _ (by omega)]
    cases b4 with
    | yields h1 h2 h3 h4 h5 =>
      refine Leads.step (Coro.step_resumed_own b1 b2 hst (by rw [h2.co])) ?_
      have hv := valid_sus h2
      refine Leads.step (Coro.step_iter_some b1 rfl (upd_same _ _ _) hh hv) ?_
      refine Leads.step (Coro.step_use b1 rfl (upd_same _ _ _)) ?_
      simp only [upd_upd]
      refine Leads.now ⟨b1, frm _ rfl _ rfl rfl rfl rfl rfl, ?_⟩
      have he := eqv (a.stack n) { b with stack := upd b.stack n (a.stack n), ctl := .eval (K (.it (some (2 * k + 1)))) } rfl rfl rfl
      exact .yields rfl h1 (h2.eqv he (by omega)) (h3.eqv he (by omega)) h4 h5
    | ends h1 h2 h3 =>
      refine Leads.step (Coro.step_resumed_own b1 b2 hst (by obtain ⟨v, h⟩ := h1.co; rw [h])) ?_
      have hv := valid_over h1
      refine Leads.step (Coro.step_iter_none b1 rfl (upd_same _ _ _) hh hv) ?_
      refine Leads.step (Coro.step_use b1 rfl (upd_same _ _ _)) ?_
      simp only [upd_upd]
      refine Leads.now ⟨b1, frm _ rfl _ rfl rfl rfl rfl rfl, ?_⟩
      have he := eqv (a.stack n) { b with stack := upd b.stack n (a.stack n), ctl := .eval (K (.it none)) } rfl rfl rfl
      exact .ends rfl (h1.eqv he (by omega)) (fun j hj => (h2 j hj).eqv he (by omega)) h3
    | throws h1 h2 h3 =>
      rename_i e
      refine Leads.step (Coro.step_resumed_err b1 b2 hst (by obtain ⟨v, h⟩ := h1.co; rw [h])) ?_
      refine Leads.step (Coro.step_raise_iter b1 rfl (upd_same _ _ _)) ?_
      refine Leads.step (Coro.step_raise_use b1 rfl (upd_same _ _ _)) ?_
      simp only [upd_upd]
      refine Leads.now ⟨b1, frm _ rfl _ rfl rfl rfl rfl rfl, ?_⟩
      have he := eqv (a.stack n) { b with stack := upd b.stack n (a.stack n), ctl := .raise (.user e), obs := .exc n e :: b.obs } rfl rfl rfl
      exact .throws rfl (h1.eqv he (by omega)) (fun j hj => (h2 j hj).eqv he (by omega)) h3

theorem stage_get {k : Nat} (hk : k + 1 ≤ C.stages.length) : ∃ f, C.stages[k]? = some f := ⟨C.stages[k], by simp [hk]⟩

theorem fn_get {k : Nat} {f : Stage V G E} (hf : C.stages[k]? = some f) : C.fn (k + 1) = some f := by
  have : k < C.stages.length := by
    rcases Nat.lt_or_ge k C.stages.length with h | h
    · exact h
    · rw [List.getElem?_eq_none h] at hf; cases hf
  rw [Spec.fn, if_pos (by omega)]
  exact hf

theorem pass_some {k : Nat} {f : Stage V G E} (hf : C.stages[k]? = some f) (c : Cont V G E) (v : V) (g : G × Begun) :
    pass C (k + 1) c v g = through (lift f) c v g := by simp [pass, fn_get hf]

/-- stage `k` runs; nothing is said about where it is -/
structure Here (a : A V G E) (k d : Nat) (below : List Nat) : Prop where
  active : a.active = (k + 1) :: d :: below
  off : ∀ j, j ≤ k → j + 1 ∉ d :: below
  stack : a.stack (k + 1) = []
  co : ∃ w, a.co (k + 1) = { kind := .pull, va := .val, phase := .body (2 * k), val := w, err := none }
  snk : Snk a k

/-- A stage that returns. -/
theorem end_ok {k d : Nat} {below : List Nat} {a : A V G E} (h : Here a k d below) (hc : a.ctl = .ret) :
    Leads (prog C mv gl) a fun b => b.active = d :: below ∧ b.ctl = .back ∧ Frm (k + 1) a b ∧ b.g = a.g ∧ Over b k none ∧ Eqv k a b := by
  obtain ⟨hact, hoff, hst, ⟨w, hco⟩, hsnk⟩ := h
  refine Leads.step (Coro.step_returned hact hc hst (by omega) (by rw [hco])) ?_
  refine Leads.now ⟨rfl, rfl, ⟨rfl, rfl, rfl, fun i hi => rfl, fun i hi => upd_ne _ _ (by omega)⟩, rfl, ⟨hst, ⟨w, ?_⟩, hsnk⟩, ?_⟩
  · simp [hco]
  · exact ⟨fun _ _ => rfl, fun _ _ => rfl, fun i hi => upd_ne _ _ (by omega)⟩

/-- A stage that lets an exception escape. -/
theorem throw_ok {k d : Nat} {below : List Nat} {a : A V G E} {e : E} (h : Here a k d below) (hc : a.ctl = .raise (.user e)) :
    Leads (prog C mv gl) a fun b => b.active = d :: below ∧ b.ctl = .back ∧ Frm (k + 1) a b ∧ b.g = a.g ∧ Over b k (some e) ∧ Eqv k a b := by
  obtain ⟨hact, hoff, hst, ⟨w, hco⟩, hsnk⟩ := h
  refine Leads.step (Coro.step_threw hact hc hst (by omega) (by rw [hco])) ?_
  refine Leads.now ⟨rfl, rfl, ⟨rfl, rfl, rfl, fun i hi => rfl, fun i hi => upd_ne _ _ (by omega)⟩, rfl, ⟨hst, ⟨w, ?_⟩, hsnk⟩, ?_⟩
  · simp [hco]
  · exact ⟨fun _ _ => rfl, fun _ _ => rfl, fun i hi => upd_ne _ _ (by omega)⟩

theorem Outc.over {k : Nat} {q : List (List V)} {a b c : A V G E} {e : Option E} (h : Over c k e) (he : Eqv k b c) (hj : ∀ j, j < k → Any b j)
    (ht : ∀ c' s, total C q c' (a.g, s) = match e with | none => .ok (c.g, s) | some e => .error ((c.g, s), some e)) : Outc C k q a c := by
  cases e with
  | none => exact .ends h (fun j hk => (hj j hk).eqv he hk) ht
  | some e => exact .throws h (fun j hk => (hj j hk).eqv he hk) ht

/-- The source of a stage is exhausted. -/
theorem none_ok {k d sink : Nat} {below : List Nat} {a a0 : A V G E} {m : List (List V)} (h : Here a k d below)
    (hc : a.ctl = .eval (.test k sink none)) (hj : ∀ j, j < k → Any a j) (ht : ∀ c s, total C m c (a0.g, s) = .ok (a.g, s)) :
    Leads (prog C mv gl) a fun b => b.active = d :: below ∧ b.ctl = .back ∧ Frm (k + 1) a b ∧ Outc C k m a0 b := by
  obtain ⟨hact, hoff, hst, hco, hsnk⟩ := h
  refine Leads.step (Coro.step_tau hact hc (g' := a.g) (l' := .stop) rfl) ?_
  refine Leads.step (Coro.step_ret hact rfl rfl) ?_
  refine Leads.bind (end_ok ⟨hact, hoff, hst, hco, hsnk⟩ rfl) fun b ⟨b1, b2, b3, b4, b5, b6⟩ => ?_
  refine Leads.now ⟨b1, b2, ⟨b3.hs, b3.nh, b3.nk, b3.stack, b3.co⟩, ?_⟩
  exact .over (b := a) b5 ⟨b6.hs, b6.stack, b6.co⟩ hj (by rw [b4]; exact ht)

/-- A stage gets an item. -/
theorem item_ok {k d : Nat} {below : List Nat} {a a0 : A V G E} {p : List V} {q m : List (List V)} {y : V} (hk : k + 1 ≤ C.stages.length)
    (hl : ∀ a p', Runs a (k + 1) d below p' (p :: q) →
      Leads (prog C mv gl) a fun b => b.active = d :: below ∧ b.ctl = .back ∧ Frm (k + 2) a b ∧ Outc C (k + 1) (p' :: p :: q) a b)
    (h : Here a (k + 1) d below) (hc : a.ctl = .eval (.test (k + 1) (2 * (k + 1)) (some (2 * k + 1)))) (hlen : q.length = k)
    (hs : Sus a k p y) (ho : Own a k) (hq : Alive a q) (hm : Less (p :: q) m)
    (ht : ∀ c s, total C m (pass C (k + 1) c) (a0.g, s) = (pass C (k + 1) c y (a.g, s)).bind (total C (p :: q) (pass C (k + 1) c)))
    (hml : m.length = k + 1) :
    Leads (prog C mv gl) a fun b => b.active = d :: below ∧ b.ctl = .back ∧ Frm (k + 2) a b ∧ Outc C (k + 1) ([] :: m) a0 b := by
  obtain ⟨f, hf⟩ := stage_get (C := C) hk
  obtain ⟨hact, hoff, hst, hco, hsnk⟩ := h
  subst hlen
  have hv := valid_sus hs
  refine Leads.step (Coro.step_itDeref_own hact hc rfl ho (by simp) hv (v := y) (by rw [hs.co])) ?_
  refine Leads.step (Coro.step_use hact rfl (upd_same _ _ _)) ?_
  simp only [upd_upd]
  rw [upd_self]
  have hal : Alive a (p :: q) := ⟨⟨y, hs⟩, ho, hq⟩
  simp only [pass_some hf, through, lift] at ht
  cases hfy : f y a.g with
  | mk g' r =>
    cases r with
    | ok ys =>
      simp only [hfy] at ht
      refine Leads.step (Coro.step_tau (g' := g') (l' := .out (q.length + 1) (2 * q.length + 1) (2 * (q.length + 1)) ys) hact rfl ?_) ?_
      · show code C (.item (q.length + 1) (2 * q.length + 1) (2 * (q.length + 1)) y) a.g = _
        simp [code, fn_get hf, hfy]
      refine Leads.bind (hl _ ys ⟨rfl, hact, hoff, rfl, hst, hco, hsnk, ?_⟩) fun b ⟨b1, b2, b3, b4⟩ => ?_
      · refine Alive.eqv (k := q.length + 1) (a := a) ?_ (Nat.le_refl _) hal
        exact ⟨fun _ _ => rfl, fun _ _ => rfl, fun _ _ => rfl⟩
      refine Leads.now ⟨b1, b2, ⟨b3.hs, b3.nh, b3.nk, b3.stack, b3.co⟩, ?_⟩
      have ht' : ∀ c s, total C ([] :: m) c (a0.g, s) = total C (ys :: p :: q) c (g', s) := by
        intro c s
        rw [total_nil, hml]
        simpa [total] using ht c s
      cases b4 with
      | yields h1 h2 h3 h4 h5 =>
        refine .yields h1 h2 h3 ?_ (fun c s => (ht' c s).trans (h5 c s))
        cases h4 with
        | here _ => exact .up hm
        | up h4 => exact .up (h4.trans hm)
      | ends h1 h2 h3 => exact .ends h1 h2 (fun c s => (ht' c s).trans (h3 c s))
      | throws h1 h2 h3 => exact .throws h1 h2 (fun c s => (ht' c s).trans (h3 c s))
    | error e =>
      simp only [hfy] at ht
      refine Leads.step (Coro.step_tau (g' := g') (l' := .fail e) hact rfl ?_) ?_
      · show code C (.item (q.length + 1) (2 * q.length + 1) (2 * (q.length + 1)) y) a.g = _
        simp [code, fn_get hf, hfy]
      refine Leads.step (Coro.step_throw hact rfl rfl) ?_
      refine Leads.bind (throw_ok ⟨hact, hoff, hst, hco, hsnk⟩ rfl) fun b ⟨b1, b2, b3, b4, b5, b6⟩ => ?_
      refine Leads.now ⟨b1, b2, ⟨b3.hs, b3.nh, b3.nk, b3.stack, b3.co⟩, ?_⟩
      refine .over (b := a) b5 ⟨b6.hs, b6.stack, b6.co⟩ hal.any fun c s => ?_
      rw [total_nil, hml, b4]
      exact ht c s

theorem loop_ok : ∀ {k : Nat}, k ≤ C.stages.length → LoopOk C mv gl k := by
  intro k
  induction k with
  | zero =>
    intro _ q a d below p h
    obtain ⟨hlen, hact, hoff, hctl, hst, ⟨w, hco⟩, hsnk, hal⟩ := h
    have hq : q = [] := List.length_eq_zero_iff.1 hlen
    subst hq
    cases p with
    | cons y p =>
      refine Leads.step (Coro.step_push_syn hact hctl rfl hsnk (by rw [hco])) ?_
      refine Leads.now ⟨rfl, rfl, ⟨rfl, rfl, rfl, fun i hi => upd_ne _ _ (by omega), fun i hi => upd_ne _ _ (by omega)⟩, ?_⟩
      refine .yields (p' := p) (q' := []) (y := y) rfl ⟨?_, ?_, hsnk⟩ trivial (.here (by simp)) fun c s => ?_
      · simp [hst]
      · simp [hco]
      · exact total_cons C y p [] c (a.g, s)
    | nil =>
      refine Leads.step (Coro.step_tau hact hctl (g' := a.g) (l' := .stop) rfl) ?_
      refine Leads.step (Coro.step_ret hact rfl rfl) ?_
      refine Leads.step (Coro.step_returned hact rfl hst (by omega) (by show (a.co _).phase = _; rw [hco])) ?_
      refine Leads.now ⟨rfl, rfl, ⟨rfl, rfl, rfl, fun i hi => rfl, fun i hi => upd_ne _ _ (by omega)⟩, ?_⟩
      refine .ends ⟨hst, ⟨w, ?_⟩, hsnk⟩ (fun j hj => by omega) fun c s => rfl
      simp [hco]
  | succ k ih =>
    intro hk q
    induction q using less_wf.induction with
    | _ q ihq =>
      intro a d below p h
      obtain ⟨hlen, hact, hoff, hctl, hst, ⟨w, hco⟩, hsnk, hal⟩ := h
      cases p with
      | cons y p =>
        refine Leads.step (Coro.step_push_syn hact hctl rfl hsnk (by rw [hco])) ?_
        refine Leads.now ⟨rfl, rfl, ⟨rfl, rfl, rfl, fun i hi => upd_ne _ _ (by omega), fun i hi => upd_ne _ _ (by omega)⟩, ?_⟩
        refine .yields (p' := p) (q' := q) (y := y) hlen ⟨?_, ?_, hsnk⟩ ?_ (.here (by simp)) fun c s => ?_
        · simp [hst]
        · simp [hco]
        · refine Alive.eqv (k := k + 1) (a := a) ?_ (by omega) hal
          refine ⟨fun _ _ => rfl, fun i hi => ?_, fun i hi => ?_⟩
          · exact upd_ne _ _ (by omega)
          · exact upd_ne _ _ (by omega)
        · exact total_cons C y p q c (a.g, s)
      | nil =>
        match q, hlen, hal with
        | p1 :: q1, hlen, ⟨⟨y1, hs1⟩, ho1, hal1⟩ =>
        simp only [List.length_cons, Nat.add_right_cancel_iff] at hlen
        subst hlen
        obtain ⟨f, hf⟩ := stage_get (C := C) hk
        have hcode : code C (.out (q1.length + 1) (2 * (q1.length + 1) - 1) (2 * (q1.length + 1)) []) a.g =
            .api (.itNext (some (2 * q1.length + 1))) (onIt (.test (q1.length + 1) (2 * (q1.length + 1)))) := by
          simp only [code]; rw [if_neg (by omega)]; rfl
        refine Leads.bind (pull_ok (ih (by omega)) hact hctl hcode ?_ (.inr (by omega)) rfl hs1 ho1 hal1) fun b ⟨b1, b2, b3⟩ => ?_
        · intro j hj hm
          rcases List.mem_cons.1 hm with hm | hm
          · omega
          · exact hoff j (by omega) hm
        have hst' : b.stack (q1.length + 1 + 1) = [] := (b2.stack _ (by omega)).trans hst
        have hco' := (b2.co (q1.length + 1 + 1) (by omega)).trans hco
        have hsnk' : Snk b (q1.length + 1) := by unfold Snk; rw [b2.hs]; exact hsnk
        cases b3 with
        | yields h1 h2 h3 h4 h5 h6 =>
          have hp : Less _ (p1 :: q1) := h5
          refine Leads.bind (item_ok (a0 := a) (m := p1 :: q1) hk (fun a p' => ihq _ hp a d below p') ⟨b1, hoff, hst', ⟨w, hco'⟩, hsnk'⟩ h1 h2 h3
            (by unfold Own; rw [b2.hs]; exact ho1) h4 hp (fun c s => h6 _ _) rfl) fun c ⟨c1, c2, c3, c4⟩ => ?_
          exact Leads.now ⟨c1, c2, (b2.mono (by omega)).trans c3, c4⟩
        | ends h1 h2 h3 h4 =>
          refine Leads.bind (none_ok (a0 := a) (m := [] :: p1 :: q1) ⟨b1, hoff, hst', ⟨w, hco'⟩, hsnk'⟩ h1 ?_ (fun c s => h4 _ _)) fun c ⟨c1, c2, c3, c4⟩ => ?_
          · intro j hj
            by_cases hjk : j = q1.length
            · subst hjk; exact .over (by unfold Own; rw [b2.hs]; exact ho1) h2
            · exact h3 j (by omega)
          exact Leads.now ⟨c1, c2, (b2.mono (by omega)).trans c3, c4⟩
        | throws h1 h2 h3 h4 =>
          refine Leads.bind (throw_ok ⟨b1, hoff, hst', ⟨w, hco'⟩, hsnk'⟩ h1) fun c ⟨c1, c2, c3, c4, c5, c6⟩ => ?_
          refine Leads.now ⟨c1, c2, (b2.mono (by omega)).trans c3, .over c5 c6 ?_ fun c' s => ?_⟩
          · intro j hj
            by_cases hjk : j = q1.length
            · subst hjk; exact .over (by unfold Own; rw [b2.hs]; exact ho1) h2
            · exact h3 j (by omega)
          · rw [c4]; exact h4 _ _
end Verif.Chain
