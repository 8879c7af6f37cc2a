import Verif.SpecMore

/-!
# Vocabulary of the specification: transferred values

Used to state the properties; nothing here models library code.
-/
namespace Verif
variable {L G V E : Type}

/-- The value most recently pushed over coroutine `k`. -/
def lastPushed (k : Nat) : List (Ev V E) → Option V
  | [] => none
  | .pushed j v :: l => if j = k then some v else lastPushed k l
  | _ :: l => lastPushed k l

/-- What the latest `get()` on coroutine `k` since the last push returned; `none` if there was none. -/
def gotSince (k : Nat) : List (Ev V E) → Option V
  | [] => none
  | .pushed j _ :: l => if j = k then none else gotSince k l
  | .got j v :: l => if j = k then some v else gotSince k l
  | _ :: l => gotSince k l

/-- The values pushed over coroutine `k`, in the order in which they were pushed. -/
def pushedList (k : Nat) : List (Ev V E) → List V
  | [] => []
  | .pushed j v :: l => if j = k then pushedList k l ++ [v] else pushedList k l
  | _ :: l => pushedList k l

/-- The values the calls of `get()` on coroutine `k` returned, in order. -/
def gotList (k : Nat) : List (Ev V E) → List V
  | [] => []
  | .got j v :: l => if j = k then gotList k l ++ [v] else gotList k l
  | _ :: l => gotList k l

/-- While coroutine `k` held a value, copying a further value into it threw: `set` (pull_control_block_cc.ipp:153-162) had already destroyed the
old value, and still believes that there is one. -/
def spoiled (k : Nat) : List (Ev V E) → Bool
  | [] => false
  | .setThrow j :: l => (decide (j = k) && (lastPushed k l).isSome) || spoiled k l
  | _ :: l => spoiled k l

/-- `s'` is `s` but for the result `v` delivered to user code. -/
def OnlyResult (s : St L G V E) (k : Res V → L) (v : Res V) (s' : St L G V E) : Prop :=
  s' = { s with ctl := .eval (k v) }

end Verif
