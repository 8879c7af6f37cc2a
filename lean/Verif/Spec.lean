import Verif.Machine

/-!
# Vocabulary of the specification

Small functions on histories (`St.log`, newest event first) in which the properties are stated.  They do not mention the
library's data structures; nothing here models library code.
-/
namespace Verif
variable {V E : Type}

namespace Ev

/-- `e` is the allocation of the stack of coroutine `k`. -/
def isAlloc (k : Nat) : Ev V E → Bool
  | .alloc j => j == k
  | _ => false
/-- `e` is the deallocation of the stack of coroutine `k`. -/
def isDealloc (k : Nat) : Ev V E → Bool
  | .dealloc j => j == k
  | _ => false
/-- `e` is the construction of the control block of coroutine `k`. -/
def isCreated (k : Nat) : Ev V E → Bool
  | .created j _ => j == k
  | _ => false
/-- `e` is a call of the function of coroutine `k`. -/
def isEnter (k : Nat) : Ev V E → Bool
  | .enter j => j == k
  | _ => false
/-- `e` is the end (normal or by exception) of the function of coroutine `k`. -/
def isFin (k : Nat) : Ev V E → Bool
  | .fin j _ => j == k
  | _ => false
/-- `e` is the destruction of the callable of coroutine `k`. -/
def isFnDtor (k : Nat) : Ev V E → Bool
  | .fnDtor j => j == k
  | _ => false
/-- `e` constructs a `T` in the transfer slot of coroutine `k`. -/
def isTctor (k : Nat) : Ev V E → Bool
  | .tctor j => j == k
  | _ => false
/-- `e` destroys a `T` in the transfer slot of coroutine `k`. -/
def isTdtor (k : Nat) : Ev V E → Bool
  | .tdtor j => j == k
  | _ => false
/-- `e` is a failed copy of a value pushed over coroutine `k`. -/
def isSetThrow (k : Nat) : Ev V E → Bool
  | .setThrow j => j == k
  | _ => false
/-- `e` rethrows the stored exception of coroutine `k`. -/
def isRethrow (k : Nat) : Ev V E → Bool
  | .rethrow j _ _ => j == k
  | _ => false
/-- `e` is a transfer of control over coroutine `k` by resumption or yield. -/
def isJump (k : Nat) : Ev V E → Bool
  | .jump r _ _ => r.co == k
  | _ => false

/-- The coroutine an event is about, if it is about one. -/
def about : Ev V E → Option Nat
  | .alloc k | .dealloc k | .created k _ | .enter k | .fin k _ | .fnDtor k | .pushed k _ | .got k _ | .peeked k _
  | .tctor k | .tdtor k | .setThrow k | .rethrow k _ _ => some k
  | .jump r _ _ => some r.co
  | .unwind _ _ | .octor _ _ | .odtor _ _ | .exc _ _ => none

end Ev

/-- How often the stack of `k` was allocated. -/
def nAlloc (k : Nat) (log : List (Ev V E)) : Nat := log.countP (Ev.isAlloc k)
/-- How often the stack of `k` was deallocated. -/
def nDealloc (k : Nat) (log : List (Ev V E)) : Nat := log.countP (Ev.isDealloc k)
/-- How often coroutine `k` was created. -/
def nCreated (k : Nat) (log : List (Ev V E)) : Nat := log.countP (Ev.isCreated k)
/-- How often the function of `k` was called. -/
def nEnter (k : Nat) (log : List (Ev V E)) : Nat := log.countP (Ev.isEnter k)
/-- How often the function of `k` ended. -/
def nFin (k : Nat) (log : List (Ev V E)) : Nat := log.countP (Ev.isFin k)
/-- How often the callable of `k` was destroyed. -/
def nFnDtor (k : Nat) (log : List (Ev V E)) : Nat := log.countP (Ev.isFnDtor k)
/-- How many `T`s the library constructed in the slot of `k`. -/
def nTctor (k : Nat) (log : List (Ev V E)) : Nat := log.countP (Ev.isTctor k)
/-- How many `T`s the library destroyed in the slot of `k`. -/
def nTdtor (k : Nat) (log : List (Ev V E)) : Nat := log.countP (Ev.isTdtor k)
/-- How often copying a value pushed over `k` threw. -/
def nSetThrow (k : Nat) (log : List (Ev V E)) : Nat := log.countP (Ev.isSetThrow k)
/-- How often the stored exception of `k` was rethrown. -/
def nRethrow (k : Nat) (log : List (Ev V E)) : Nat := log.countP (Ev.isRethrow k)

/-- The most recent transfer of control over coroutine `k`: (end used, from context, to context). -/
def lastJump (k : Nat) : List (Ev V E) → Option (CbRef × Nat × Nat)
  | [] => none
  | .jump r i j :: l => if r.co = k then some (r, i, j) else lastJump k l
  | _ :: l => lastJump k l

/-- Transfers of control over each coroutine: the first one is made through the coroutine object and goes into the
coroutine; after a transfer made through one end, the next one is made through the *other* end and goes back to the context
that made the previous one. -/
def JumpsOk : List (Ev V E) → Prop
  | [] => True
  | .jump r _ j :: l =>
    (match lastJump r.co l with
      | none => r.side = .own ∧ j = r.co
      | some (r', i', _) => r' = r.partner ∧ j = i') ∧ JumpsOk l
  | _ :: l => JumpsOk l

/-- The end of a coroutine through which values are pushed, given the class of the coroutine object. -/
def pushEnd : Kind → Side
  | .pull => .syn
  | .push => .own

/-- The coroutine a value has just been stored for, if that is the latest event. -/
def headPushed : List (Ev V E) → Option Nat
  | .pushed k _ :: _ => some k
  | _ => none

/-- The coroutine whose function has just ended, if that is the latest event. -/
def headFin : List (Ev V E) → Option Nat
  | .fin k _ :: _ => some k
  | _ => none

/-- Storing a value and the transfer of control to the consumer: a stored value is followed immediately by a transfer of
control through the pushing end; conversely such a transfer either follows a push, or is the creation, or is the end of the
function, or the coroutine is one of `void`. -/
def TransfersOk (kd : Nat → Kind) (va : Nat → Var) : List (Ev V E) → Prop
  | [] => True
  | e :: l =>
    TransfersOk kd va l ∧
    match e with
    | .jump r _ _ =>
      match headPushed l with
      | some k => r = ⟨k, pushEnd (kd k)⟩
      | none => r.side = pushEnd (kd r.co) →
          va r.co = .void ∨ lastJump r.co l = none ∨ (headFin l = some r.co ∧ kd r.co = .pull)
    | .pushed k _ => headPushed l = none ∧ va k ≠ .void ∧ (kd k = .pull → nFin k l = 0)
    | _ => headPushed l = none

/-- How often control was transferred over `k` through end `sd`. -/
def nJump (r : CbRef) (log : List (Ev V E)) : Nat :=
  log.countP fun | .jump r' _ _ => r' == r | _ => false

end Verif
