import Verif.SpecObj

/-!
# Asymmetric coroutines, as a specification

What the documentation says a program with asymmetric coroutines does, as a small machine of its own: no control blocks, no flags,
no fibers, no pointers between the two sides.  A coroutine is a function with a stack, a place for one value and possibly an
exception; the functions that are active form a stack, the running one on top.  Part of the specification; nothing here models
library code.  Only the syntax of user programs (`Prog`, `Act`, `Op`, `Res`), of coroutine objects (`Handle`) and of events (`Ev`)
is shared with the model of the library.
-/
namespace Verif.Coro
variable {L G V E : Type}

/-- What the running function is doing (doc/asymmetric.qbk:10-60). -/
inductive Ctl (L V E : Type)
  | eval (l : L)            -- user code runs
  | res (r : Res V)         -- an operation has the result `r`
  | raise (x : Exn E)       -- an exception propagates
  | ret                     -- a user function returns
  | back                    -- control has just been passed to this function

/-- What is on the stack of a function (doc/asymmetric.qbk:53-60, 260-274). -/
inductive Fr (L V E : Type)
  | obj (o : Nat)                        -- local object
  | co (h : Nat)                         -- local coroutine object
  | handler (sw : Bool) (f : E → L)      -- try block
  | caller (l : L)                       -- function call
  | use (k : Res V → L)                  -- an operation on a coroutine object; user code goes on with its result
  | iter (h : Nat)                       -- the result will be an iterator on `h`: end iterator if `h` is exhausted by then
  | give (v : V)                         -- the result will be the value `v`
  | andThen (c : Ctl L V E)              -- when the destruction of a coroutine object is over, go on with `c`
  | empty (va : Var)                     -- … the result is a new object that is not-a-coroutine
  | resumed (r : CbRef)                  -- control has been passed on through this end of a coroutine
  | creates (k : Nat)                    -- control has been passed to the new coroutine `k`

/-- How far a coroutine is; `h` is the object its function gets as argument (doc/asymmetric.qbk:15-21, 66-73, 260-274). -/
inductive Phase (L : Type)
  | gone                                 -- does not exist (any more)
  | fresh (fn : Nat → L)                 -- being created
  | idle (h : Nat) (fn : Nat → L)        -- push coroutine, function not entered
  | body (h : Nat)                       -- in the function
  | ended (h : Nat)                      -- the function has returned or thrown
  | leaving                              -- the argument object is being destroyed

/-- A coroutine (doc/asymmetric.qbk:10-21, 66-76, 234-241). -/
structure Co (L V E : Type) where
  kind : Kind := .pull
  va : Var := .void
  phase : Phase L := .gone
  val : Option V := none                 -- the value transferred last
  err : Option E := none                 -- the exception that left the function

/-- State of the machine (doc/asymmetric.qbk:50-60).  `active`: the running function first, then the one that resumed it, and so
on; main (0) last. -/
structure St (L G V E : Type) where
  active : List Nat
  ctl : Ctl L V E
  g : G
  stack : Nat → List (Fr L V E)
  co : Nat → Co L V E
  hs : Nat → Option Handle
  nh : Nat
  nk : Nat
  obs : List (Ev V E)

/-- Outcome of a step; `stuck`: not a meaningful program (doc/asymmetric.qbk:386-640, preconditions). -/
inductive Out (α : Type)
  | next (a : α)
  | done (a : α)
  | uncaught (a : α)
  | stuck

namespace St
/-- go on with `x` (doc/asymmetric.qbk:50-60) -/
def goto (a : St L G V E) (x : Ctl L V E) : St L G V E := { a with ctl := x }
/-- new stack of function `c` (doc/asymmetric.qbk:58-60) -/
def setStack (a : St L G V E) (c : Nat) (t : List (Fr L V E)) : St L G V E := { a with stack := upd a.stack c t }
/-- `f` on top of the stack of `c` (doc/asymmetric.qbk:58-60) -/
def push (a : St L G V E) (c : Nat) (f : Fr L V E) : St L G V E := a.setStack c (f :: a.stack c)
/-- coroutine `k` changes (doc/asymmetric.qbk:10-21) -/
def setCo (a : St L G V E) (k : Nat) (x : Co L V E) : St L G V E := { a with co := upd a.co k x }
/-- an observable event (doc/asymmetric.qbk:276-316) -/
def see (a : St L G V E) (e : Ev V E) : St L G V E := { a with obs := e :: a.obs }
/-- a new coroutine object (doc/asymmetric.qbk:386-640, constructors) -/
def newObj (a : St L G V E) (hd : Handle) : St L G V E := { a with hs := upd a.hs a.nh (some hd), nh := a.nh + 1 }
/-- the destructor of the local object `o` of function `c` runs (doc/asymmetric.qbk:260-262) -/
def endObj (a : St L G V E) (P : Prog L G V E) (c o : Nat) : St L G V E := { a with g := P.dtor o a.g }.see (.odtor c o)
end St

/-- Does this end of a coroutine take values out? (doc/asymmetric.qbk:10-11, 19-21, 69-73) -/
def takes (kd : Kind) : Side → Bool
  | .own => kd == .pull
  | .syn => kd == .push

/-- The function of the coroutine has returned or thrown (doc/asymmetric.qbk:217-219). -/
def Phase.isEnded : Phase L → Bool
  | .ended _ => true
  | _ => false

/-- `operator bool` of an end of a coroutine: the function has not ended, and there is a value for an end that takes values
(doc/asymmetric.qbk:217-219, 345-347). -/
def valid (a : St L G V E) (r : CbRef) : Bool :=
  !(r.side == .own && (a.co r.co).phase.isEnded) &&
    (!takes (a.co r.co).kind r.side || (a.co r.co).va == .void || (a.co r.co).val.isSome)

/-- `operator bool` of a coroutine object, asked by function `c`: false for not-a-coroutine.  The end a coroutine-function has got is
for that function only (doc/asymmetric.qbk:15-21, 66-73, 345-347). -/
def objValid (a : St L G V E) (c h : Nat) : Option Bool :=
  match a.hs h with
  | some ⟨_, _, some r⟩ => if r.side = .own ∨ r.co = c then some (valid a r) else none
  | some ⟨_, _, none⟩ => some false
  | none => none

/-- Coroutine `k` can be resumed: it is not active, its function has not ended (doc/asymmetric.qbk:217-219, 267-272). -/
def sleeps (a : St L G V E) (k : Nat) : Bool :=
  !(a.active.contains k) &&
    match (a.co k).phase with
    | .idle _ _ | .body _ => true
    | _ => false

/-- Function `c` passes control on through the end `r` of a coroutine, and waits.  Through the end its owner has: to the coroutine,
which becomes the running one.  Through the end the function itself has: to whoever resumed it
(doc/asymmetric.qbk:19-21, 23-24, 50-60). -/
def switch (a : St L G V E) (c : Nat) (below : List Nat) (r : CbRef) : Out (St L G V E) :=
  let a := (a.push c (.resumed r)).goto .back
  match r.side with
  | .own => if sleeps a r.co then .next { a with active := r.co :: c :: below } else .stuck
  | .syn => if r.co = c ∧ below ≠ [] then .next { a with active := below } else .stuck

/-- The argument `x` is transferred over coroutine `k`: the new state, and what is left in the caller's variable.  Arguments whose
copy throws and references to the value transferred last are not allowed (doc/asymmetric.qbk:56-58, 66-68). -/
def store (P : Prog L G V E) (a : St L G V E) (k : Nat) (x : PushArg V E) : Option (St L G V E × Option V) :=
  match (a.co k).va, x with
  | _, .faulty _ | _, .alias => none
  | .void, _ => some (a, none)
  | _, .copy v => some ((a.setCo k { a.co k with val := some v }).see (.pushed k v), some v)
  | .val, .move v => some ((a.setCo k { a.co k with val := some v }).see (.pushed k v), some (P.mv v))
  | _, _ => none

/-- Push `x` through the object `h` (doc/asymmetric.qbk:56-58, 66-73); `post`: what happens when control is back. -/
def pushTo (P : Prog L G V E) (a : St L G V E) (c : Nat) (below : List Nat) (h : Nat) (x : PushArg V E)
    (post : Option V → List (Fr L V E)) : Out (St L G V E) :=
  match a.hs h with
  | some ⟨.push, _, some r⟩ =>
    match store P a r.co x with
    | some (a, w) => switch (a.setStack c (post w ++ a.stack c)) c below r
    | none => .stuck
  | _ => .stuck

/-- Pull through the object `h` (doc/asymmetric.qbk:23-24). -/
def pullFrom (a : St L G V E) (c : Nat) (below : List Nat) (h : Nat) (post : List (Fr L V E)) : Out (St L G V E) :=
  match a.hs h with
  | some ⟨.pull, _, some r⟩ => switch (a.setStack c (post ++ a.stack c)) c below r
  | _ => .stuck

/-- The value function `c` gets from the object `h` (doc/asymmetric.qbk:213-219). -/
def value (a : St L G V E) (c h : Nat) : Option (Nat × V) :=
  match a.hs h with
  | some ⟨.pull, va, some r⟩ =>
    if va = .void ∨ objValid a c h ≠ some true then none else (a.co r.co).val.map (fun v => (r.co, v))
  | _ => none

/-- The coroutine `k`, which is not active, is destroyed: its stack is unwound, as if it were resumed by function `c` with an
exception nobody catches (doc/asymmetric.qbk:260-274). -/
def kill (a : St L G V E) (c : Nat) (below : List Nat) (k : Nat) : Out (St L G V E) :=
  if a.active.contains k then .stuck else .next { a with active := k :: c :: below, ctl := .raise .forced }

/-- The coroutine object `h` is destroyed by function `c`, and the coroutine with it if the object owns one; the end of a coroutine its
function has got is destroyed in that function (doc/asymmetric.qbk:260-274). -/
def destroyObj (a : St L G V E) (c : Nat) (below : List Nat) (h : Nat) : Out (St L G V E) :=
  match a.hs h with
  | none => .stuck
  | some hd =>
    let a := { a with hs := upd a.hs h none }
    match hd.cb with
    | some ⟨k, .own⟩ => kill a c below k
    | some ⟨k, .syn⟩ => if k = c then .next (a.goto (.res .unit)) else .stuck
    | none => .next (a.goto (.res .unit))

/-- Operations on coroutine objects (doc/asymmetric.qbk:386-640). -/
def call (P : Prog L G V E) (a : St L G V E) (c : Nat) (below : List Nat) : Op L V E → Out (St L G V E)
  | .mk _ _ (.alloc e) _ => .next (a.goto (.raise (.user e)))
  | .mk _ _ (.fnCopy e) _ => .next ({ a with nk := a.nk + 1 }.goto (.raise (.user e)))
  | .mk kd va .ok fn =>
    .next ({ ((a.setCo a.nk { kind := kd, va := va, phase := .fresh fn }).push c (.creates a.nk)) with
      active := a.nk :: c :: below, nk := a.nk + 1 }.goto .back)
  | .resume h => pullFrom a c below h []
  | .push h x => pushTo P a c below h x (fun w => w.toList.map .give)
  | .get h =>
    match value a c h with
    | some (k, v) =>
      .next (((if (a.co k).va = .val then a.setCo k { a.co k with val := some (P.mv v) } else a).see (.got k v)).goto (.res (.val v)))
    | none => .stuck
  | .valid h =>
    match objValid a c h with
    | some b => .next (a.goto (.res (.bool b)))
    | none => .stuck
  | .bang h =>
    match objValid a c h with
    | some b => .next (a.goto (.res (.bool (!b))))
    | none => .stuck
  | .moveCtor h =>
    match a.hs h with
    | some hd => .next (({ a with hs := upd a.hs h (some { hd with cb := none }) }.newObj hd).goto (.res (.handle a.nh)))
    | none => .stuck
  | .moveAssign d s =>
    match a.hs d, a.hs s with
    | some hd, some hc =>
      if hd.ty = hc.ty ∧ hd.va = hc.va then
        .next ({ a with hs := upd (upd a.hs d (some { hd with cb := hc.cb })) s (some { hc with cb := hd.cb }) }.goto (.res .unit))
      else .stuck
    | _, _ => .stuck
  | .destroy h => destroyObj a c below h
  | .itBegin h =>
    match a.hs h, objValid a c h with
    | some hd, some b =>
      if hd.va = .void then .stuck
      else .next (a.goto (.res (.it (if hd.ty = .push ∨ b then some h else none))))
    | _, _ => .stuck
  | .itNext (some h) => pullFrom a c below h [.iter h]
  | .itDeref (some h) =>
    match value a c h with
    | some (k, v) => .next ((a.see (.peeked k v)).goto (.res (.val v)))
    | none => .stuck
  | .itPut (some h) x => pushTo P a c below h x (fun _ => [.iter h])
  | .itNext none | .itDeref none | .itPut none _ => .stuck

/-- User code runs in function `c` (doc/asymmetric.qbk:50-60). -/
def evalStep (P : Prog L G V E) (a : St L G V E) (c : Nat) (below : List Nat) (l : L) : Out (St L G V E) :=
  match P.code l a.g, a.stack c with
  | .tau g l, _ => .next ({ a with g := g }.goto (.eval l))
  | .newObj o l, _ => .next (((a.push c (.obj o)).see (.octor c o)).goto (.eval l))
  | .guard h l, _ => .next ((a.push c (.co h)).goto (.eval l))
  | .leave l, .obj o :: t => .next (((a.setStack c t).endObj P c o).goto (.eval l))
  | .leave l, .co h :: t => destroyObj (a.setStack c (.andThen (.eval l) :: t)) c below h
  | .leave _, _ => .stuck
  | .try_ sw f l, _ => .next ((a.push c (.handler sw f)).goto (.eval l))
  | .endTry l, .handler _ _ :: t => .next ((a.setStack c t).goto (.eval l))
  | .endTry _, _ => .stuck
  | .call f l, _ => .next ((a.push c (.caller l)).goto (.eval f))
  | .ret, _ => .next (a.goto .ret)
  | .throw e, _ => .next (a.goto (.raise (.user e)))
  | .api op k, _ => call P (a.push c (.use k)) c below op

/-- An operation of function `c` has the result `r`; with an empty stack: the last thing `c` had to destroy has been destroyed, the
coroutine is gone and its destruction has been completed for whoever destroyed it (doc/asymmetric.qbk:260-274, 345-347). -/
def resStep (a : St L G V E) (c : Nat) (below : List Nat) (r : Res V) : Out (St L G V E) :=
  match a.stack c with
  | .use k :: t => .next ((a.setStack c t).goto (.eval (k r)))
  | .iter h :: t =>
    match objValid a c h with
    | some b => .next ((a.setStack c t).goto (.res (.it (if b then some h else none))))
    | none => .stuck
  | .give v :: t => .next ((a.setStack c t).goto (.res (.val v)))
  | .andThen x :: t => .next ((a.setStack c t).goto x)
  | .empty va :: t => .next (((a.setStack c t).newObj ⟨.pull, va, none⟩).goto (.res (.handle a.nh)))
  | [] =>
    match (a.co c).phase with
    | .leaving => .next { (a.setCo c { a.co c with phase := .gone }) with active := below, ctl := .res .unit }
    | _ => .stuck
  | _ => .stuck

/-- The function of coroutine `c` has returned or thrown: control goes to whoever resumed it (doc/asymmetric.qbk:217-219, 234-241). -/
def finish (a : St L G V E) (c : Nat) (below : List Nat) (x : Option E) : Out (St L G V E) :=
  match (a.co c).phase with
  | .body h => .next ({ (a.setCo c { a.co c with phase := .ended h, err := x }) with active := below, ctl := .back }.see (.fin c x))
  | _ => .stuck

/-- An exception propagates in function `c` (doc/asymmetric.qbk:234-246, 260-274). -/
def raiseStep (P : Prog L G V E) (a : St L G V E) (c : Nat) (below : List Nat) (x : Exn E) : Out (St L G V E) :=
  match a.stack c, x with
  | .obj o :: t, _ => .next ((a.setStack c t).endObj P c o)
  | .co h :: t, x => destroyObj (a.setStack c (.andThen (.raise x) :: t)) c below h
  | .handler _ f :: t, .user e => .next ((a.setStack c t).goto (.eval (f e)))
  | .handler sw _ :: t, .forced => if sw then .stuck else .next (a.setStack c t)
  | .use _ :: t, .user e => .next ((a.setStack c t).see (.exc c e))
  | .caller _ :: t, _ | .use _ :: t, _ | .iter _ :: t, _ | .give _ :: t, _ | .resumed _ :: t, _ => .next (a.setStack c t)
  | [], .user e => if c = 0 then .uncaught a else finish a c below (some e)
  | [], .forced =>
    match (a.co c).phase with
    | .idle h _ | .body h | .ended h => destroyObj (a.setCo c { a.co c with phase := .leaving }) c below h
    | _ => .stuck
  | _, _ => .stuck

/-- A user function returns (doc/asymmetric.qbk:217-219). -/
def retStep (P : Prog L G V E) (a : St L G V E) (c : Nat) (below : List Nat) : Out (St L G V E) :=
  match a.stack c with
  | .obj o :: t => .next ((a.setStack c t).endObj P c o)
  | .co h :: t => destroyObj (a.setStack c (.andThen .ret :: t)) c below h
  | .handler _ _ :: t => .next (a.setStack c t)
  | .caller l :: t => .next ((a.setStack c t).goto (.eval l))
  | [] => if c = 0 then .done a else finish a c below none
  | _ => .stuck

/-- Control has just been passed to function `c` (doc/asymmetric.qbk:15-21, 66-73, 234-241): the operation in which it passed control
away ends, with the exception of the coroutine if that is how its function ended; a constructor of a pull coroutine that was left
without a value gives not-a-coroutine; a function that has not been entered yet is entered. -/
def backStep (a : St L G V E) (c : Nat) (below : List Nat) : Out (St L G V E) :=
  match a.stack c with
  | .resumed r :: t =>
    match r.side, (a.co r.co).err with
    | .own, some e => .next ((a.setStack c t).goto (.raise (.user e)))
    | _, _ => .next ((a.setStack c t).goto (.res .unit))
  | .creates k :: t =>
    match (a.co k).err with
    | some e => kill (a.setStack c (.andThen (.raise (.user e)) :: t)) c below k
    | none =>
      if (a.co k).kind = .push ∨ valid a ⟨k, .own⟩ then
        .next (((a.setStack c t).newObj ⟨(a.co k).kind, (a.co k).va, some ⟨k, .own⟩⟩).goto (.res (.handle a.nh)))
      else kill (a.setStack c (.empty (a.co k).va :: t)) c below k
  | [] =>
    match (a.co c).phase with
    | .fresh fn =>
      let b := a.newObj ⟨(a.co c).kind.flip, (a.co c).va, some ⟨c, .syn⟩⟩
      match (a.co c).kind with
      | .pull => .next (((b.setCo c { a.co c with phase := .body a.nh }).see (.enter c)).goto (.eval (fn a.nh)))
      | .push => .next { (b.setCo c { a.co c with phase := .idle a.nh fn }) with active := below }
    | .idle h fn => .next (((a.setCo c { a.co c with phase := .body h }).see (.enter c)).goto (.eval (fn h)))
    | _ => .stuck
  | _ => .stuck

/-- One step (doc/asymmetric.qbk:10-76). -/
def step (P : Prog L G V E) (a : St L G V E) : Out (St L G V E) :=
  match a.active with
  | [] => .stuck
  | c :: below =>
    match a.ctl with
    | .eval l => evalStep P a c below l
    | .res r => resStep a c below r
    | .raise x => raiseStep P a c below x
    | .ret => retStep P a c below
    | .back => backStep a c below

/-- Program start: main runs at `l0` with memory `g0` (doc/asymmetric.qbk:50-60). -/
def init (l0 : L) (g0 : G) : St L G V E where
  active := [0]
  ctl := .eval l0
  g := g0
  stack := fun _ => []
  co := fun _ => {}
  hs := fun _ => none
  nh := 0
  nk := 1
  obs := []

/-- Run at most `n` steps (doc/asymmetric.qbk:50-60). -/
def run (P : Prog L G V E) : Nat → St L G V E → Out (St L G V E)
  | 0, a => .next a
  | n+1, a =>
    match step P a with
    | .next a' => run P n a'
    | o => o

/-- States a program can reach (doc/asymmetric.qbk:50-60). -/
inductive Reach (P : Prog L G V E) (l0 : L) (g0 : G) : St L G V E → Prop
  | init : Reach P l0 g0 (init l0 g0)
  | step {a a' : St L G V E} : Reach P l0 g0 a → step P a = .next a' → Reach P l0 g0 a'

/-- The program has a meaning: it never gets stuck (doc/asymmetric.qbk:386-640, preconditions). -/
def Meaningful (P : Prog L G V E) (l0 : L) (g0 : G) : Prop := ∀ a, Reach P l0 g0 a → step P a ≠ .stuck

/-- Events a program or its user can notice: functions entered and left, values passed and read, local objects constructed and
destroyed, exceptions that operations throw (doc/asymmetric.qbk:45-48, 117-120, 308-316). -/
def noticed : Ev V E → Bool
  | .enter _ | .fin _ _ | .pushed _ _ | .got _ _ | .peeked _ _ | .octor _ _ | .odtor _ _ | .exc _ _ => true
  | _ => false

end Verif.Coro
