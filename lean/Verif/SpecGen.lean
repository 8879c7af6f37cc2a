import Verif.SpecScope
import Verif.SpecValue

/-!
# A generator on its own

What the function of a pull coroutine does when there is nobody else: a sequential program with scopes, function calls and exceptions
that puts out values.  There is no other coroutine, no control transfer, no shared memory, nobody who takes the values.  Used to state
that what a generator yields is its own affair (C69).  Part of the specification; nothing here models library code.
-/
namespace Verif.Gen
variable {L G V E : Type}

/-- Where the function is (doc/asymmetric.qbk:10-24, 234-246). -/
inductive Pos (L E : Type)
  | at (l : L)              -- about to execute `l`
  | throws (e : E)          -- an exception propagates
  | returns                 -- a function returns

/-- The function on its own: where it is and what it has open (doc/asymmetric.qbk:10-24). -/
structure Cfg (L E : Type) where
  pos : Pos L E
  open_ : List (Open L E)

/-- The function starts at `l` (doc/asymmetric.qbk:15-21). -/
def start (l : L) : Cfg L E := ⟨.at l, []⟩

/-- One step of the function on its own, and what it puts out.  `h` is the argument through which the function puts out values, `va`
says whether the argument type is a value, a reference or `void`.  What the function does next must not depend on the contents of shared
memory, but it may write to it.  Putting out the value `v` goes on with what is left in the variable: `v`, or the moved-from value for an
rvalue (doc/asymmetric.qbk:10-24, 56-58). -/
inductive Step (P : Prog L G V E) (h : Nat) (va : Var) : Cfg L E → Option V → Cfg L E → Prop
  | work {l l' : L} {w : G → G} {t} (hc : ∀ g, P.code l g = .tau (w g) l') : Step P h va ⟨.at l, t⟩ none ⟨.at l', t⟩
  | local_ {l l' : L} {o t} (hc : ∀ g, P.code l g = .newObj o l') : Step P h va ⟨.at l, t⟩ none ⟨.at l', .obj o :: t⟩
  | leave {l l' : L} {o t} (hc : ∀ g, P.code l g = .leave l') : Step P h va ⟨.at l, .obj o :: t⟩ none ⟨.at l', t⟩
  | try_ {l l' : L} {sw f t} (hc : ∀ g, P.code l g = .try_ sw f l') : Step P h va ⟨.at l, t⟩ none ⟨.at l', .handler sw f :: t⟩
  | endTry {l l' : L} {sw f t} (hc : ∀ g, P.code l g = .endTry l') : Step P h va ⟨.at l, .handler sw f :: t⟩ none ⟨.at l', t⟩
  | call {l f l' : L} {t} (hc : ∀ g, P.code l g = .call f l') : Step P h va ⟨.at l, t⟩ none ⟨.at f, .call l' :: t⟩
  | ret {l : L} {t} (hc : ∀ g, P.code l g = .ret) : Step P h va ⟨.at l, t⟩ none ⟨.returns, t⟩
  | throw {l : L} {e t} (hc : ∀ g, P.code l g = .throw e) : Step P h va ⟨.at l, t⟩ none ⟨.throws e, t⟩
  | yield {l : L} {v k t} (hv : va ≠ .void) (hc : ∀ g, P.code l g = .api (.push h (.copy v)) k) :
      Step P h va ⟨.at l, t⟩ (some v) ⟨.at (k (.val v)), t⟩
  | yieldMove {l : L} {v k t} (hv : va = .val) (hc : ∀ g, P.code l g = .api (.push h (.move v)) k) :
      Step P h va ⟨.at l, t⟩ (some v) ⟨.at (k (.val (P.mv v))), t⟩
  | valid {l : L} {k t} (hc : ∀ g, P.code l g = .api (.valid h) k) : Step P h va ⟨.at l, t⟩ none ⟨.at (k (.bool true)), t⟩
  | objDies {o t x} (hx : ∀ l, x ≠ .at l) : Step P h va ⟨x, .obj o :: t⟩ none ⟨x, t⟩
  | caught {sw f t e} : Step P h va ⟨.throws e, .handler sw f :: t⟩ none ⟨.at (f e), t⟩
  | callThrows {l t e} : Step P h va ⟨.throws e, .call l :: t⟩ none ⟨.throws e, t⟩
  | tryReturns {sw f t} : Step P h va ⟨.returns, .handler sw f :: t⟩ none ⟨.returns, t⟩
  | callReturns {l t} : Step P h va ⟨.returns, .call l :: t⟩ none ⟨.at l, t⟩

/-- The function has come to its end: returned, or left by the exception `e` (doc/asymmetric.qbk:217-219, 234-246). -/
def Ended : Cfg L E → Option E → Prop
  | ⟨.returns, []⟩, x => x = none
  | ⟨.throws e, []⟩, x => x = some e
  | _, _ => False

/-- Zero or more steps, and the values put out on the way, the first one first (doc/asymmetric.qbk:10-24). -/
inductive Runs (P : Prog L G V E) (h : Nat) (va : Var) (c : Cfg L E) : List V → Cfg L E → Prop
  | here : Runs P h va c [] c
  | more {xs : List V} {d e : Cfg L E} {o : Option V} : Runs P h va c xs d → Step P h va d o e → Runs P h va c (xs ++ o.toList) e

/-- The function needs nobody else: as long as it has not ended, it can do its next step on its own (doc/asymmetric.qbk:10-24). -/
def SelfContained (P : Prog L G V E) (h : Nat) (va : Var) (c : Cfg L E) : Prop :=
  ∀ xs d, Runs P h va c xs d → (∃ x, Ended d x) ∨ ∃ o e, Step P h va d o e

end Verif.Gen
