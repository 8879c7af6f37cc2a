import Verif.Rules

/-!
# Vocabulary of the specification: objects and handles

Used to state the properties; nothing here models library code.
-/
namespace Verif
variable {L G V E : Type}

/-- The objects user code has constructed in context `c` and that have not been destroyed, most recently constructed first. -/
def liveObjs (c : Nat) : List (Ev V E) → List Nat
  | [] => []
  | .octor i o :: l => if i = c then o :: liveObjs c l else liveObjs c l
  | .odtor i _ :: l => if i = c then (liveObjs c l).tail else liveObjs c l
  | _ :: l => liveObjs c l

/-- In every context only the most recently constructed object that is still alive is ever destroyed. -/
def ObjsOk : List (Ev V E) → Prop
  | [] => True
  | .odtor i o :: l => (liveObjs i l).head? = some o ∧ ObjsOk l
  | _ :: l => ObjsOk l

/-- Memory after the destructors of the local objects `os` have run one after the other, the head of the list first. -/
def undone (P : Prog L G V E) (os : List Nat) (g : G) : G := os.foldl (fun g o => P.dtor o g) g

/-- the event is the destruction of a local object of context `c` -/
def odtorOf (c : Nat) : Ev V E → Option Nat
  | .odtor i o => if i = c then some o else none
  | _ => none

/-- The local objects of context `c` whose destructors run in `evs`, in the order in which they run. -/
def destroyedIn (c : Nat) (evs : List (Ev V E)) : List Nat := evs.reverse.filterMap (odtorOf c)

/-- the event is the destruction of a local object: the context and the object -/
def odtorAny : Ev V E → Option (Nat × Nat)
  | .odtor i o => some (i, o)
  | _ => none

/-- All local objects, of any context, whose destructors run in `evs`, in the order in which they run. -/
def dtorsIn (evs : List (Ev V E)) : List (Nat × Nat) := evs.reverse.filterMap odtorAny

/-- What the destructors of local objects that run in `evs` (newest first) do to memory `g`. -/
def effects (P : Prog L G V E) : List (Ev V E) → G → G
  | [], g => g
  | .odtor _ o :: l, g => P.dtor o (effects P l g)
  | _ :: l, g => effects P l g

/-- The step made in `s` is internal computation of user code. -/
def Computes (P : Prog L G V E) (s : St L G V E) : Prop := ∃ l g l', s.ctl = .eval l ∧ P.code l s.g = .tau g l'

/-- the event is the destruction of a local object of context `c` or of a transferred value of coroutine `c` -/
def isDestruction (c : Nat) : Ev V E → Bool
  | .odtor i _ => i == c
  | .tdtor k => k == c
  | _ => false

/-- These destructions in `evs`, in the order in which they happen. -/
def destructions (c : Nat) (evs : List (Ev V E)) : List (Ev V E) := evs.reverse.filter (isDestruction c)

/-- Only objects are destroyed, contexts unwound and stacks given back. -/
def OnlyCleanup (evs : List (Ev V E)) : Prop :=
  ∀ e ∈ evs, match e with | .odtor _ _ | .fnDtor _ | .dealloc _ | .tdtor _ | .unwind _ _ => True | _ => False

/-- In `s` the coroutine object `h` is destroyed: explicitly, by leaving its scope, because an exception passes, or by a return; `fs` and `x` say how the running context continues afterwards. -/
inductive Ends (P : Prog L G V E) (s : St L G V E) (h : Nat) : List (Frame L V E) → Ctl L V E → Prop
  | api {k} : Calls P s (.destroy h) k → Ends P s h s.fr (.eval (k .unit))
  | leave {l l' t} : s.ctl = .eval l → P.code l s.g = .leave l' → s.fr = .gCoro h :: t → Ends P s h t (.eval l')
  | raise {x t} : s.ctl = .raise x → s.fr = .gCoro h :: t → Ends P s h t (.raise x)
  | ret {t} : s.ctl = .retn → s.fr = .gCoro h :: t → Ends P s h t .retn


/-- The function of coroutine `c` owns coroutine `d`: `d` is suspended, and its object is a local of `c` (or has been moved into the
object the function of `c` was given), or is owned in the same way by a coroutine `c` owns. -/
inductive Nested (s : St L G V E) : Nat → Nat → Prop
  | param {c d h : Nat} {ty : Kind} : (s.base c).sink = some h → Refers s h ty (some ⟨d, .own⟩) →
      Suspended d s.log → Nested s c d
  | one {c d h : Nat} {ty : Kind} : h ∈ coLocals (s.frames c) → Refers s h ty (some ⟨d, .own⟩) →
      Suspended d s.log → Nested s c d
  | trans {c d e : Nat} : Nested s c d → Nested s d e → Nested s c e

/-- Something a function owns: a local object, or a coroutine object. -/
inductive Thing
  | obj (o : Nat)
  | co (h : Nat)

/-- What is owned by the scopes of a stack, the innermost (most recently entered) first. -/
def ownedIn : List (Frame L V E) → List Thing
  | [] => []
  | .gObj o :: t => .obj o :: ownedIn t
  | .gCoro h :: t => .co h :: ownedIn t
  | _ :: t => ownedIn t

/-- What the function of coroutine `c` owns, most recent first; last comes the object the function was given. -/
def owned (s : St L G V E) (c : Nat) : List Thing := ownedIn (s.frames c) ++ (s.base c).sink.toList.map .co

/-- `Teardown s c w os`: when the things `w` owned by the function of `c` are destroyed one after the other, the local objects
`os` are destroyed in this order.  The things owned by the function of a suspended coroutine are destroyed where its object is. -/
inductive Teardown (s : St L G V E) : Nat → List Thing → List (Nat × Nat) → Prop
  | nil {c} : Teardown s c [] []
  | obj {c o w os} : Teardown s c w os → Teardown s c (.obj o :: w) ((c, o) :: os)
  | inner {c h d ty w os1 os2} : Refers s h ty (some ⟨d, .own⟩) → Suspended d s.log → Teardown s d (owned s d) os1 →
      Teardown s c w os2 → Teardown s c (.co h :: w) (os1 ++ os2)
  | skip {c h w os} : (∀ d ty, Refers s h ty (some ⟨d, .own⟩) → ¬ Suspended d s.log) → Teardown s c w os →
      Teardown s c (.co h :: w) os

/-- The call made in `s0` has transferred control away from the calling context, and control has not come back yet. -/
inductive Away (P : Prog L G V E) (s0 : St L G V E) : St L G V E → Prop
  | first {s : St L G V E} : step P s0 = .next s → s.cur ≠ s0.cur → Away P s0 s
  | next {s s' : St L G V E} : Away P s0 s → step P s = .next s' → s'.cur ≠ s0.cur → Away P s0 s'

/-- The call made in `s0` has transferred control away, and in `s` control comes back to the calling context for the first time. -/
def ComesBack (P : Prog L G V E) (s0 s : St L G V E) : Prop := ∃ s1, Away P s0 s1 ∧ step P s1 = .next s ∧ s.cur = s0.cur

end Verif
