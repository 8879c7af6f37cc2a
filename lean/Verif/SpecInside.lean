import Verif.SpecScope

/-!
# A program run inside a coroutine

A program, and the program whose `main` creates a coroutine that runs the first one:

    int main() { pull_coroutine<void> c( [](push_coroutine<void>&){ original_main(); }); }

Coroutines and coroutine objects are numbered in the order of their creation, so the numbers are one higher; the code of the original
program is translated to see its own numbers.  Part of the specification.
-/
namespace Verif.Inside
variable {L G V E : Type}

/-- Places of the code of `main`: the constructor, and behind it (doc/asymmetric.qbk:15-21). -/
inductive Outer | start | stop
  deriving DecidableEq

/-- Places of the code of the whole program (doc/asymmetric.qbk:50-60). -/
abbrev Lab (L : Type) := L ⊕ Outer

/-- A result as the original program sees it (doc/asymmetric.qbk:386-640, constructors and iterators). -/
def seen : Res V → Res V
  | .handle h => .handle (h - 1)
  | .it i => .it (i.map (· - 1))
  | r => r

/-- The code that goes on with a result (doc/asymmetric.qbk:50-60). -/
def cont (k : Res V → L) : Res V → Lab L := fun r => .inl (k (seen r))

/-- A coroutine-function; `h` is the object it gets (doc/asymmetric.qbk:15-21). -/
def func (fn : Nat → L) : Nat → Lab L := fun h => .inl (fn (h - 1))

/-- An operation (doc/asymmetric.qbk:386-640). -/
def oper : Op L V E → Op (Lab L) V E
  | .mk kd va f fn => .mk kd va f (func fn)
  | .resume h => .resume (h + 1)
  | .push h a => .push (h + 1) a
  | .get h => .get (h + 1)
  | .valid h => .valid (h + 1)
  | .bang h => .bang (h + 1)
  | .moveCtor h => .moveCtor (h + 1)
  | .moveAssign d s => .moveAssign (d + 1) (s + 1)
  | .destroy h => .destroy (h + 1)
  | .itBegin h => .itBegin (h + 1)
  | .itNext i => .itNext (i.map (· + 1))
  | .itDeref i => .itDeref (i.map (· + 1))
  | .itPut i a => .itPut (i.map (· + 1)) a

/-- An action (doc/asymmetric.qbk:50-60). -/
def act : Act L G V E → Act (Lab L) G V E
  | .tau g l => .tau g (.inl l)
  | .newObj o l => .newObj o (.inl l)
  | .guard h l => .guard (h + 1) (.inl l)
  | .leave l => .leave (.inl l)
  | .try_ sw f l => .try_ sw (fun e => .inl (f e)) (.inl l)
  | .endTry l => .endTry (.inl l)
  | .call f l => .call (.inl f) (.inl l)
  | .ret => .ret
  | .throw e => .throw e
  | .api op k => .api (oper op) (cont k)

/-- The program whose `main` creates a coroutine that runs `P` from `l0` (doc/asymmetric.qbk:15-21). -/
def prog (P : Prog L G V E) (l0 : L) : Prog (Lab L) G V E where
  code l g :=
    match l with
    | .inl l => act (P.code l g)
    | .inr .start => .api (.mk .pull .void .ok (fun _ => .inl l0)) (fun _ => .inr .stop)
    | .inr .stop => .ret
  mv := P.mv
  genericLambda := P.genericLambda
  dtor := P.dtor

/-- An event, one coroutine higher (doc/asymmetric.qbk:45-48). -/
def event : Ev V E → Ev V E
  | .enter k => .enter (k + 1)
  | .fin k x => .fin (k + 1) x
  | .pushed k v => .pushed (k + 1) v
  | .got k v => .got (k + 1) v
  | .peeked k v => .peeked (k + 1) v
  | .octor c o => .octor (c + 1) o
  | .odtor c o => .odtor (c + 1) o
  | .exc c e => .exc (c + 1) e
  | e => e

/-- A scope, seen from outside (doc/asymmetric.qbk:58-60). -/
def scope : Open L E → Open (Lab L) E
  | .obj o => .obj o
  | .co h => .co (h + 1)
  | .handler sw f => .handler sw (fun e => .inl (f e))
  | .call l => .call (.inl l)

end Verif.Inside
