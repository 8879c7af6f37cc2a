import Verif.Machine

/-!
# Transfers of control as calls and returns

What C66 says about the history.  Part of the specification; nothing here models library code.
-/
namespace Verif
variable {V E : Type}

/-- The stack of functions that wait for each other, the running one on top, as the history of transfers (newest first) tells it:
* control enters a coroutine through the object that owns it (constructor, `operator()`, iterators; doc/asymmetric.qbk:217-219), or
  because the coroutine is destroyed and its stack unwound (260-274).  Then the one that ran waits, and the coroutine must not be
  waiting for somebody already;
* control leaves a coroutine through the object the function was given (267-272) or because the function has ended, or by the end of
  unwinding.  Then the one that waited last runs, and no other.

`none`: the transfers were not in such an order. -/
def callStack : List (Ev V E) → Option (List Nat)
  | [] => some [0]
  | .jump ⟨k, .own⟩ i j :: l =>
    match callStack l with
    | some (c :: t) => if c = i ∧ k = j ∧ j ∉ c :: t then some (j :: c :: t) else none
    | _ => none
  | .unwind i j :: l =>
    match callStack l with
    | some (c :: t) => if c = i ∧ j ∉ c :: t then some (j :: c :: t) else none
    | _ => none
  | .jump ⟨k, .syn⟩ i j :: l =>
    match callStack l with
    | some (c :: d :: t) => if c = i ∧ d = j ∧ k = i then some (d :: t) else none
    | _ => none
  | .dealloc k :: l =>
    match callStack l with
    | some (c :: d :: t) => if c = k then some (d :: t) else none
    | _ => none
  | _ :: l => callStack l

/-- Control enters a coroutine (doc/asymmetric.qbk:217-219, 260-274). -/
def Ev.isIn : Ev V E → Bool
  | .jump ⟨_, .own⟩ _ _ | .unwind _ _ => true
  | _ => false

/-- Control leaves a coroutine (doc/asymmetric.qbk:267-274). -/
def Ev.isOut : Ev V E → Bool
  | .jump ⟨_, .syn⟩ _ _ | .dealloc _ => true
  | _ => false

/-- How often control has entered a coroutine (doc/asymmetric.qbk:217-219, 260-274). -/
def nIn (log : List (Ev V E)) : Nat := log.countP Ev.isIn

/-- How often control has left a coroutine (doc/asymmetric.qbk:267-274). -/
def nOut (log : List (Ev V E)) : Nat := log.countP Ev.isOut

end Verif
