import Verif.Callable

/-!
# The function object given to a constructor: C53; the two variants of the code: C43

`Passed ty generic e m m'`: a coroutine is constructed from the expression `e`, which denotes the caller's object, and its function is
entered.  `m'.val fnA` is the object whose `operator()` is called.
-/
namespace Verif.Callable
variable {F : Type} {ty : FnTy F} {generic : Bool} {m m' : Mem F} {e : Expr}

/-- construction of the coroutine, then entering its function -/
def Passed (ty : FnTy F) (generic : Bool) (e : Expr) (m m' : Mem F) : Prop :=
  e.addr = argA ∧ ∃ m1, coroutine ty generic m (bind e) = some m1 ∧ enter ty m1 = some m'

/-- how a caller can name its object: `f`, `std::as_const( f)`, `std::move( f)` -/
inductive How | lvalue | constant | rvalue

def How.expr : How → Expr
  | .lvalue => ⟨argA, false, false⟩
  | .constant => ⟨argA, true, false⟩
  | .rvalue => ⟨argA, false, true⟩

namespace Aux

/-- from the captured object on, everything is the same in all cases -/
theorem tail (hc : ty.movable = true) (m1 : Mem F) :
    ∃ m', (fiberCtor ty m1).bind (enter ty) = some m' ∧ m'.val fnA = m1.val capA ∧ m'.val argA = m1.val argA ∧ m'.copies = m1.copies := by
  refine ⟨⟨fun a => if a = fnA then m1.val capA else if a = recA then ty.mv (m1.val capA) else
    if a = recA then m1.val capA else if a = capA then ty.mv (m1.val capA) else m1.val a, m1.copies⟩, ?_, ?_, ?_, rfl⟩
  · simp [fiberCtor, enter, construct, obj, Expr.move, hc]
    rfl
  · rfl
  · rfl

theorem passed_iff {m1 : Mem F} (ha : e.addr = argA) (h : capture ty generic m (bind e) = some m1) :
    Passed ty generic e m m' ↔ (fiberCtor ty m1).bind (enter ty) = some m' := by
  have h' : coroutine ty generic m (bind e) = fiberCtor ty m1 := by
    show (capture ty generic m (bind e)).bind (fiberCtor ty) = _
    rw [h]; rfl
  unfold Passed
  rw [h']
  cases fiberCtor ty m1 <;> simp [ha]

end Aux
open Aux

/-- C53: whatever way the function object is passed, the object that is called has its value. -/
theorem C53_called (h : Passed ty generic e m m') : m'.val fnA = m.val argA := by
  obtain ⟨ha, m1, h1, h2⟩ := h
  obtain ⟨a, c, r⟩ := e
  simp only at ha
  subst ha
  cases generic <;> cases c <;> cases r <;> cases h3 : ty.movable <;> cases h4 : ty.copyable <;>
    simp [coroutine, coroutineAlloc, createControlBlock, controlBlock, capture, wrap, wrapperCtor, fiberCtor, enter, construct, bind,
      Param.forward, Param.name, Expr.move, obj, h3, h4] at h1 h2 <;> subst h1 <;> simp at h2 <;> subst h2 <;>
    simp [argA, capA, recA, fnA]

/-- C53: an object passed with `std::move` need not be copyable, and is not copied; it is left moved-from. -/
theorem C53_rvalue (hm : ty.movable = true) (generic : Bool) (m : Mem F) :
    ∃ m', Passed ty generic How.rvalue.expr m m' ∧ m'.copies = m.copies ∧ m'.val argA = ty.mv (m.val argA) := by
  cases generic
  all_goals
    obtain ⟨m', h1, h2, h3, h4⟩ := tail hm { m with val := fun a => if a = capA then m.val argA else if a = argA then ty.mv (m.val argA) else m.val a }
    refine ⟨m', (passed_iff rfl (by simp [capture, wrap, wrapperCtor, bind, construct, How.expr, Param.forward, Param.name, Expr.move, hm]; rfl)).2 h1, h4, ?_⟩
    rw [h3]; simp [argA, capA]

/-- C53, partial: with generic lambdas (C++14), or if the object is `const`, an object passed by its name is left as it is, and is copied
once.  Missing: the case refuted below. -/
theorem C53_lvalue_partial (hm : ty.movable = true) (hc : ty.copyable = true) (generic : Bool) (m : Mem F) {w : How}
    (hw : w = .constant ∨ w = .lvalue ∧ generic = true) :
    ∃ m', Passed ty generic w.expr m m' ∧ m'.copies = m.copies + 1 ∧ m'.val argA = m.val argA := by
  obtain ⟨m', h1, h2, h3, h4⟩ := tail hm { val := fun a => if a = capA then m.val argA else m.val a, copies := m.copies + 1 }
  refine ⟨m', (passed_iff ?_ ?_).2 h1, h4, ?_⟩
  · cases w <;> rfl
  · rcases hw with rfl | ⟨rfl, rfl⟩
    · cases generic <;> simp [capture, wrap, wrapperCtor, bind, construct, How.expr, Param.forward, Param.name, Expr.move, hc]
    · simp [capture, bind, construct, How.expr, Param.forward, hc]
  · rw [h3]; simp [argA, capA]

/-- C53: without generic lambdas (C++11) an object passed by its name is moved from. -/
theorem C53_robbed (hm : ty.movable = true) (m : Mem F) :
    ∃ m', Passed ty false How.lvalue.expr m m' ∧ m'.val argA = ty.mv (m.val argA) := by
  obtain ⟨m', h1, h2, h3, h4⟩ := tail hm { m with val := fun a => if a = capA then m.val argA else if a = argA then ty.mv (m.val argA) else m.val a }
  refine ⟨m', (passed_iff rfl (by simp [capture, wrap, wrapperCtor, bind, construct, How.expr, Param.forward, Param.name, Expr.move, hm]; rfl)).2 h1, ?_⟩
  rw [h3]; simp [argA, capA]

/-- C53: the two variants accept the same programs, except that C++11 also accepts naming an object that cannot be copied. -/
theorem C53_accepted (w : How) (m : Mem F) :
    ((∃ m', Passed ty generic w.expr m m') ↔
      ty.copyable = true ∨ ty.movable = true ∧ (w = .rvalue ∨ w = .lvalue ∧ generic = false)) := by
  cases w <;> cases generic <;> cases h3 : ty.movable <;> cases h4 : ty.copyable <;>
    simp [Passed, How.expr, coroutine, coroutineAlloc, createControlBlock, controlBlock, capture, wrap, wrapperCtor, fiberCtor, enter, construct, bind,
      Param.forward, Param.name, Expr.move, obj, h3, h4]

/-- A function object with a state, as `moveable` in the tests (test_coroutine.cpp:60-88): moving leaves 0. -/
def counter : FnTy Nat := ⟨true, true, fun _ => 0⟩

/-- C53, refuted: the caller's object loses its value although it was passed by its name and could have been copied. -/
theorem C53_refuted : ∃ m m' : Mem Nat, counter.copyable = true ∧ Passed counter false How.lvalue.expr m m' ∧ m'.val argA ≠ m.val argA :=
  ⟨⟨fun _ => 7, 0⟩, _, rfl, ⟨rfl, _, rfl, rfl⟩, by decide⟩

/-- Non-trivial case: an object with state 7, copied by C++14, robbed by C++11. -/
example : (∃ m', Passed counter true How.lvalue.expr ⟨fun _ => 7, 0⟩ m' ∧ m'.val fnA = 7 ∧ m'.val argA = 7 ∧ m'.copies = 1) ∧
    (∃ m', Passed counter false How.lvalue.expr ⟨fun _ => 7, 0⟩ m' ∧ m'.val fnA = 7 ∧ m'.val argA = 0 ∧ m'.copies = 0) :=
  ⟨⟨_, ⟨rfl, _, rfl, rfl⟩, rfl, rfl, rfl⟩, ⟨_, ⟨rfl, _, rfl, rfl⟩, rfl, rfl, rfl⟩⟩

/-- Non-trivial case: an object that cannot be copied, passed with `std::move`; naming it is ill-formed in C++14 only. -/
example : (∃ m', Passed ⟨false, true, fun _ => 0⟩ true How.rvalue.expr (⟨fun _ => 7, 0⟩ : Mem Nat) m' ∧ m'.val fnA = 7) ∧
    (∀ m', ¬ Passed ⟨false, true, fun _ => 0⟩ true How.lvalue.expr (⟨fun _ => 7, 0⟩ : Mem Nat) m') ∧
    (∃ m', Passed ⟨false, true, fun _ => 0⟩ false How.lvalue.expr (⟨fun _ => 7, 0⟩ : Mem Nat) m') :=
  ⟨⟨_, ⟨rfl, _, rfl, rfl⟩, rfl⟩, fun m' h => by have := (C53_accepted (generic := true) .lvalue _).1 ⟨m', h⟩; simp at this, ⟨_, rfl, _, rfl, rfl⟩⟩

/-! ## C43 -/

/-- C43, refuted: the two variants treat the caller's function object differently. -/
theorem C43_refuted : ∃ m m1 m2 : Mem Nat, Passed counter true How.lvalue.expr m m1 ∧ Passed counter false How.lvalue.expr m m2 ∧
    m1.val argA ≠ m2.val argA :=
  ⟨⟨fun _ => 7, 0⟩, _, _, ⟨rfl, _, rfl, rfl⟩, ⟨rfl, _, rfl, rfl⟩, by decide⟩

/-- C43, partial: in all other cases they do the same with it.  (That they have the same runs otherwise is `C43_same_runs_partial`.) -/
theorem C43_callable_partial {w : How} (hw : w ≠ .lvalue ∨ ty.movable = false) :
    Passed ty true w.expr m m' ↔ Passed ty false w.expr m m' := by
  cases w <;> cases h3 : ty.movable <;> cases h4 : ty.copyable <;> simp [h3] at hw <;>
    simp [Passed, How.expr, coroutine, coroutineAlloc, createControlBlock, controlBlock, capture, wrap, wrapperCtor, fiberCtor, enter, construct, bind,
      Param.forward, Param.name, Expr.move, obj, h3, h4] <;> exact Iff.rfl

/-- Non-trivial case: an object that is given with `std::move`. -/
example : ∃ m', Passed counter true How.rvalue.expr ⟨fun _ => 7, 0⟩ m' ∧ m'.val fnA = 7 ∧ m'.val argA = 0 :=
  ⟨_, ⟨rfl, _, rfl, rfl⟩, rfl, rfl⟩

end Verif.Callable
