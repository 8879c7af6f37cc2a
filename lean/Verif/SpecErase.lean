import Verif.SpecApi
import Verif.SpecCo

/-!
# A program without its values

The class templates exist three times: for values, for references and for `void` (coroutine.hpp:24-28, pull_coroutine.hpp:27-289,
push_coroutine.hpp:27-234).  To say that the third is the first without the values: the program that passes control as a given one
does, but transfers nothing.  Part of the specification.
-/
namespace Verif
variable {L G V E : Type}

/-- What `operator()( T)` leaves in the caller's variable (doc/asymmetric.qbk:66-73; push_coroutine.hpp:52-54). -/
def pushLeaves (P : Prog L G V E) : PushArg V E → Res V
  | .copy v => .val v
  | .move v => .val (P.mv v)
  | _ => .unit

/-- The same program with `coroutine<void>` for `coroutine<T>` and `coroutine<T&>`, and without the arguments of `operator()`
(doc/asymmetric.qbk:10-21; coroutine.hpp:24-28). -/
def dropValues (P : Prog L G V E) : Prog L G V E :=
  { P with code := fun l g =>
    match P.code l g with
    | .api (.mk kd _ f fn) k => .api (.mk kd .void f fn) k
    | .api (.push h .unit) k => .api (.push h .unit) k
    | .api (.push h x) k => .api (.push h .unit) (fun _ => k (pushLeaves P x))
    | a => a }

/-- Operations that `coroutine<void>` has (doc/asymmetric.qbk:386-640): not `get()`, no iterators. -/
def voidHas : Op L V E → Prop
  | .get _ | .itBegin _ | .itNext _ | .itDeref _ | .itPut _ _ => False
  | _ => True

/-- The program uses values only to pass them: it never reads one.  (Second clause: what is passed through an object of
`coroutine<void>` is nothing; anything else does not compile.) (doc/asymmetric.qbk:10-21) -/
def IgnoresValues (P : Prog L G V E) (l0 : L) (g0 : G) : Prop :=
  ∀ s op k, Reach P l0 g0 s → Calls P s op k → voidHas op ∧
    ∀ h x hd, op = .push h x → s.hs h = some hd → hd.va = .void → x = .unit

/-- An event other than that a value is transferred (doc/asymmetric.qbk:56-58). -/
def notPushed : Ev V E → Bool
  | .pushed _ _ => false
  | _ => true

end Verif
