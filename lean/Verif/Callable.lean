/-!
# How the function object given to a constructor travels to the coroutine

A small model of the value categories involved: from the argument of the constructor of `pull_coroutine`/`push_coroutine` to the object
`fn` whose `operator()` is called on the coroutine's stack.  Separate from `Machine.lean`, in which the function is given as such.
Simplification: copying and moving the object does not throw (throwing: C46).
-/
namespace Verif.Callable

/-- Type of a function object: what its constructors do.  `movable = false`: no move constructor is declared, rvalues are copied;
`copyable = false`: the copy constructor is deleted.  `mv`: what a moved-from object looks like. -/
structure FnTy (F : Type) where
  copyable : Bool
  movable : Bool
  mv : F → F

/-- An expression that denotes the object at `addr`. -/
structure Expr where
  addr : Nat
  const : Bool
  rval : Bool

/-- A parameter `Fn && fn` after deduction: `Fn` is `F &`, `F const&`, `F` or `F const`. -/
structure Param where
  addr : Nat
  const : Bool
  rval : Bool

/-- template argument deduction for `Fn && fn` -/
def bind (e : Expr) : Param := ⟨e.addr, e.const, e.rval⟩
/-- the name of a parameter is an lvalue -/
def Param.name (p : Param) : Expr := ⟨p.addr, p.const, false⟩
/-- `std::forward< Fn >( fn)` -/
def Param.forward (p : Param) : Expr := ⟨p.addr, p.const, p.rval⟩
/-- `std::move( x)` -/
def Expr.move (e : Expr) : Expr := { e with rval := true }
/-- the name of a local object or of a member -/
def obj (a : Nat) : Expr := ⟨a, false, false⟩

/-- The function objects, by address, and how often one was copied. -/
structure Mem (F : Type) where
  val : Nat → F
  copies : Nat

/-- Construction of a new object at `dst` from `e`; `none`: the program is ill-formed. -/
def construct {F : Type} (ty : FnTy F) (m : Mem F) (dst : Nat) (e : Expr) : Option (Mem F) :=
  if e.rval && !e.const && ty.movable then
    some { m with val := fun a => if a = dst then m.val e.addr else if a = e.addr then ty.mv (m.val e.addr) else m.val a }
  else if ty.copyable then
    some { val := fun a => if a = dst then m.val e.addr else m.val a, copies := m.copies + 1 }
  else none

/-- Addresses: the caller's object, the one captured by the lambda (or held by the `wrapper`), its copy in the record of the fiber, and
the local `fn` of the lambda. -/
def argA : Nat := 0
def capA : Nat := 1
def recA : Nat := 2
def fnA : Nat := 3

variable {F : Type} (ty : FnTy F)

/-- `wrapper( Fn1 && fn1, Fn2 && fn2) : fn2_( std::move( fn2) )` (wrap.hpp:36-39); `Fn2` is the argument of the class template, so
`fn2` refers to whatever `wrap` was given. -/
def wrapperCtor (m : Mem F) (fn2 : Param) : Option (Mem F) := construct ty m capA fn2.name.move

/-- `wrap( Fn1 && fn1, Fn2 && fn2)` (wrap.hpp:63-69); the wrapper is returned without a copy -/
def wrap (m : Mem F) (fn2 : Param) : Option (Mem F) := wrapperCtor ty m (bind fn2.forward)

/-- The lambda that is handed to the fiber: `[this,fn_=std::forward< Fn >( fn)]` (pull_control_block_cc.ipp:79, push_control_block_cc.ipp:80)
or, if `BOOST_NO_CXX14_GENERIC_LAMBDAS`, `wrap( lambda, std::forward< Fn >( fn) )` (pull_control_block_cc.ipp:50-77,
push_control_block_cc.ipp:49-77).  The same in the specializations for `T &` and `void`. -/
def capture (generic : Bool) (m : Mem F) (fn : Param) : Option (Mem F) :=
  if generic then construct ty m capA fn.forward else wrap ty m (bind fn.forward)

/-- `[ctx]`: the constructor of `fiber` moves the lambda (or wrapper), a temporary, and with it the function object, into its record. -/
def fiberCtor (m : Mem F) : Option (Mem F) := construct ty m recA (obj capA).move

/-- `control_block( palloc, salloc, Fn && fn)`, as far as the function object is concerned (pull_control_block_cc.ipp:44-115,
push_control_block_cc.ipp:43-112) -/
def controlBlock (generic : Bool) (m : Mem F) (fn : Param) : Option (Mem F) :=
  (capture ty generic m fn).bind (fiberCtor ty)

/-- `create_control_block( salloc, Fn && fn)` (create_control_block.ipp:30-52) -/
def createControlBlock (generic : Bool) (m : Mem F) (fn : Param) : Option (Mem F) := controlBlock ty generic m (bind fn.forward)

/-- `pull_coroutine( StackAllocator && salloc, Fn && fn)` (pull_coroutine.ipp:50-59), `push_coroutine( …)` (push_coroutine.ipp:44-48) -/
def coroutineAlloc (generic : Bool) (m : Mem F) (fn : Param) : Option (Mem F) := createControlBlock ty generic m (bind fn.forward)

/-- `pull_coroutine( Fn && fn)` (pull_coroutine.ipp:43-49), `push_coroutine( Fn && fn)` (push_coroutine.ipp:36-42) -/
def coroutine (generic : Bool) (m : Mem F) (fn : Param) : Option (Mem F) := coroutineAlloc ty generic m (bind fn.forward)

/-- `auto fn = std::move( fn_);` (pull_control_block_cc.ipp:57, 86, push_control_block_cc.ipp:57, 88): then `fn( synthesized)` is called -/
def enter (m : Mem F) : Option (Mem F) := construct ty m fnA (obj recA).move

end Verif.Callable
