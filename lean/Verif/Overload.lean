/-!
# Which constructor, which assignment and which `operator()` a call means

Overload resolution for the declarations of `pull_coroutine` and `push_coroutine` (pull_coroutine.hpp, push_coroutine.hpp), as far as C++
prescribes it for functions of one parameter ([over.match.best], [over.ics.rank]).  Separate from `Machine.lean`, in which the operation
is given as such.

Simplifications: no `volatile`; a class has at most one way of being converted to another one; access to base classes is not checked
(overload resolution does not look at it; the program is ill-formed afterwards).
-/
namespace Verif.Overload

/-- The types that matter: the coroutine classes for each value type, pointers to their control blocks, `std::nullptr_t`, and all other
types (classes, function types, lambdas, numbers …). -/
inductive Ty where
  | pull (t : Nat)
  | push (t : Nat)
  | pullBlock (t : Nat)
  | pushBlock (t : Nat)
  | null
  | other (n : Nat)
deriving DecidableEq

/-- What is known about the other types: their (direct or indirect) base classes, and to which types they are converted implicitly. -/
structure Env where
  base : Nat → Ty → Bool
  conv : Nat → Ty → Bool

/-- The argument of a call. -/
structure Arg where
  ty : Ty
  const : Bool
  rval : Bool

/-- The two class templates (pull_coroutine.hpp:27, 138, 249; push_coroutine.hpp:27, 112, 195); `t` stands for the template argument. -/
inductive Cls where
  | pull (t : Nat)
  | push (t : Nat)
deriving DecidableEq

/-- the class as a type -/
def Cls.ty : Cls → Ty
  | .pull t => .pull t
  | .push t => .push t
/-- `control_block *` (pull_coroutine.hpp:33, push_coroutine.hpp:33) -/
def Cls.block : Cls → Ty
  | .pull t => .pullBlock t
  | .push t => .pushBlock t

/-- `std::is_base_of< X, Y >`: for a class `X` (C++ [meta.rel]). -/
def isBaseOf (env : Env) (x : Ty) : Ty → Bool
  | .other n => x == .other n || env.base n x
  | y => x == y

/-! ## Overload resolution -/

/-- An implicit conversion sequence: its rank (0 exact match, 1 conversion, 2 user-defined), and for a reference parameter whether it is
an rvalue reference and whether it refers to a `const` type. -/
structure Ics where
  rank : Nat
  ref : Option (Bool × Bool)

/-- C++ [over.ics.rank]: the rank decides; among equals an rvalue reference bound to an rvalue is better than an lvalue reference; else
the reference to the less qualified type is better.  (All references compared here refer to the same class.) -/
def Ics.better (a b : Ics) : Bool :=
  decide (a.rank < b.rank) || (a.rank == b.rank && match a.ref, b.ref with
    | some (ra, ca), some (rb, cb) => (ra && !rb) || (ra == rb && !ca && cb)
    | _, _ => false)

/-- A candidate: `ics = none` if it is not viable. -/
structure Cand (α : Type) where
  tag : α
  tmpl : Bool
  ics : Option Ics

/-- C++ [over.match.best]: better conversion, or else a function rather than a template. -/
def beats {α : Type} (a b : α × Bool × Ics) : Bool :=
  a.2.2.better b.2.2 || (!b.2.2.better a.2.2 && !a.2.1 && b.2.1)

/-- The outcome: nothing is viable, there is no best function, or a function is chosen. -/
inductive Res (α : Type) where
  | none
  | ambiguous
  | chosen (a : α)
deriving DecidableEq

/-- the viable candidates -/
def viable {α : Type} (cs : List (Cand α)) : List (α × Bool × Ics) :=
  cs.filterMap fun c => c.ics.map fun i => (c.tag, c.tmpl, i)

/-- The best viable function. -/
def resolve {α : Type} [DecidableEq α] (cs : List (Cand α)) : Res α :=
  match viable cs with
  | [] => .none
  | vs => match vs.filter fun a => vs.all fun b => a.1 == b.1 || beats a b with
    | [a] => .chosen a.1
    | _ => .ambiguous

/-! ## References and conversions -/

/-- Binding an argument to a parameter `X const&` (C++ [dcl.init.ref], [over.best.ics]). -/
def toConstRef (env : Env) (x : Ty) (a : Arg) : Option Ics :=
  if a.ty = x then some ⟨0, some (false, true)⟩
  else match a.ty with
    | .other n =>
      if env.base n x then some ⟨1, some (false, true)⟩
      else if env.conv n x then some ⟨2, some (false, true)⟩ else none
    | _ => none

/-- Binding an argument to a parameter `X &&`: an lvalue, or a const rvalue, of the class is refused; the result of a conversion is an
rvalue. -/
def toRvalueRef (env : Env) (x : Ty) (a : Arg) : Option Ics :=
  if a.ty = x then (if a.rval && !a.const then some ⟨0, some (true, false)⟩ else none)
  else match a.ty with
    | .other n =>
      if env.base n x then (if a.rval && !a.const then some ⟨1, some (true, false)⟩ else none)
      else if env.conv n x then some ⟨2, some (true, false)⟩ else none
    | _ => none

/-- Binding an argument to a parameter `X &`. -/
def toLvalueRef (env : Env) (x : Ty) (a : Arg) : Option Ics :=
  if a.rval || a.const then none
  else if a.ty = x then some ⟨0, some (false, false)⟩
  else match a.ty with
    | .other n => if env.base n x then some ⟨1, some (false, false)⟩ else none
    | _ => none

/-! ## The constructors -/

/-- The constructors with one parameter. -/
inductive Ctor where
  /-- `explicit pull_coroutine( control_block *) noexcept` (pull_coroutine.hpp:37, 148, 259; push_coroutine.hpp:37, 122, 205; private) -/
  | block
  /-- `template< typename Fn, typename = detail::disable_overload< pull_coroutine, Fn > > explicit pull_coroutine( Fn &&)`
  (pull_coroutine.hpp:42-45, 153-156, 262-265; push_coroutine.hpp:40-43, 125-128, 208-211) -/
  | fn
  /-- `pull_coroutine( pull_coroutine const&) = delete` (pull_coroutine.hpp:52, 163, 272; push_coroutine.hpp:50, 135, 218) -/
  | copy
  /-- `pull_coroutine( pull_coroutine &&) noexcept` (pull_coroutine.hpp:55, 166, 275; push_coroutine.hpp:53, 138, 221) -/
  | move
deriving DecidableEq

/-- `detail::disable_overload< X, Fn >` (disable_overload.hpp:24-25) names `boost::context::detail::disable_overload`, which is defined if `X` is
not a base of the decayed type (`[ctx]`: `std::enable_if< ! std::is_base_of< X, std::decay_t< Fn > >::value >`). -/
def disableOverload (env : Env) (x : Cls) (a : Arg) : Bool := !isBaseOf env x.ty a.ty

/-- the conversion to `control_block *`: exact for such a pointer, a conversion for `nullptr` -/
def toBlock (env : Env) (x : Cls) (a : Arg) : Option Ics :=
  if a.ty = x.block then some ⟨0, none⟩
  else match a.ty with
    | .null => some ⟨1, none⟩
    | .other n => if env.conv n x.block then some ⟨2, none⟩ else none
    | _ => none

/-- The constructor template takes everything, exactly as it is, unless `guard` removes it; `Fn &&` becomes a reference of the argument's own kind. -/
def toFn (guard : Bool) (a : Arg) : Option Ics := if guard then some ⟨0, some (a.rval, a.const)⟩ else none

/-- candidates for `pull_coroutine< T > c( arg)` and `c{ arg}` -/
def direct (env : Env) (x : Cls) (guard : Bool) (a : Arg) : List (Cand Ctor) :=
  [⟨.block, false, toBlock env x a⟩, ⟨.fn, true, toFn guard a⟩, ⟨.copy, false, toConstRef env x.ty a⟩, ⟨.move, false, toRvalueRef env x.ty a⟩]

/-- candidates where a conversion to the class is needed (`c = arg` as an initialisation, passing to a parameter, `return`): constructors
declared `explicit` are not considered; neither are conversions of the argument when the parameter is the class itself
(C++ [over.best.ics]/4) -/
def implicit (env : Env) (x : Cls) (a : Arg) : List (Cand Ctor) :=
  [⟨.copy, false, toConstRef { env with conv := fun _ _ => false } x.ty a⟩, ⟨.move, false, toRvalueRef { env with conv := fun _ _ => false } x.ty a⟩]

/-- what becomes of the initialisation -/
inductive Init where
  | illFormed
  | made (c : Ctor)
deriving DecidableEq

/-- A deleted function, and a private one outside the class and its friends, must not be chosen (pull_coroutine.hpp:30-31,
push_coroutine.hpp:30-31: the two class templates are friends of each other). -/
def Res.init (inside : Bool) : Res Ctor → Init
  | .chosen .copy => .illFormed
  | .chosen .block => if inside then .made .block else .illFormed
  | .chosen c => .made c
  | _ => .illFormed

/-- `pull_coroutine< T > c( arg)`, from inside the library or from outside -/
def construct (env : Env) (x : Cls) (inside : Bool) (a : Arg) : Init := (resolve (direct env x (disableOverload env x a) a)).init inside
/-- `pull_coroutine< T > c = arg` -/
def convert (env : Env) (x : Cls) (a : Arg) : Init := (resolve (implicit env x a)).init false

/-! ## Assignment -/

/-- the assignment operators -/
inductive Assign where
  /-- `pull_coroutine & operator=( pull_coroutine const&) = delete` (pull_coroutine.hpp:53, 164, 273; push_coroutine.hpp:51, 136, 219) -/
  | copy
  /-- `pull_coroutine & operator=( pull_coroutine && other) noexcept` (pull_coroutine.hpp:57-60, 168-171, 277-280; push_coroutine.hpp:55-59, 140-144, 223-227) -/
  | move
deriving DecidableEq

/-- `c = arg`.  The argument may be converted by a function of its own class; the constructors with one parameter that take other types are
`explicit`. -/
def assigns (env : Env) (x : Cls) (a : Arg) : List (Cand Assign) :=
  [⟨.copy, false, toConstRef env x.ty a⟩, ⟨.move, false, toRvalueRef env x.ty a⟩]

/-- whether the assignment compiles -/
def assignable (env : Env) (x : Cls) (a : Arg) : Bool := resolve (assigns env x a) == .chosen .move

/-! ## operator() of push_coroutine -/

/-- the two overloads -/
inductive Call where
  /-- `push_coroutine & operator()( T const&)` (push_coroutine.hpp:61) -/
  | copy
  /-- `push_coroutine & operator()( T &&)` (push_coroutine.hpp:63) -/
  | move
deriving DecidableEq

/-- `c( arg)` for a `push_coroutine< T >` -/
def calls (env : Env) (t : Ty) (a : Arg) : List (Cand Call) :=
  [⟨.copy, false, toConstRef env t a⟩, ⟨.move, false, toRvalueRef env t a⟩]

/-- `c( arg)` for a `push_coroutine< T & >`: `push_coroutine & operator()( T &)` (push_coroutine.hpp:146), where `T` may be `const` -/
def callsRef (env : Env) (t : Ty) (tconst : Bool) (a : Arg) : Bool :=
  if tconst then (toConstRef env t a).isSome else (toLvalueRef env t a).isSome

end Verif.Overload
