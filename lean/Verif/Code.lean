import Verif.Machine

/-!
# Concrete programs as terms

`Code` is one convenient choice of `L`: user code written as a tree of actions (a program text in continuation-passing
form).  It is used for concrete runs (non-vacuity examples and refutation witnesses); it models no library code.
-/
namespace Verif

/-- User code as a tree. -/
inductive Code (G V E : Type)
  | node (a : G → Act (Code G V E) G V E)

namespace Code
variable {G V E : Type}

def act : Code G V E → G → Act (Code G V E) G V E
  | node a => a

/-- The interpreter. -/
def prog (mv : V → V) (generic : Bool := true) (dtor : Nat → G → G := fun _ g => g) : Prog (Code G V E) G V E where
  code := act
  mv := mv
  genericLambda := generic
  dtor := dtor

def ret : Code G V E := node fun _ => .ret
def throw (e : E) : Code G V E := node fun _ => .throw e
def obj (o : Nat) (l : Code G V E) : Code G V E := node fun _ => .newObj o l
def guard (h : Nat) (l : Code G V E) : Code G V E := node fun _ => .guard h l
def leave (l : Code G V E) : Code G V E := node fun _ => .leave l
def tryc (f : E → Code G V E) (l : Code G V E) : Code G V E := node fun _ => .try_ false f l
def endTry (l : Code G V E) : Code G V E := node fun _ => .endTry l
def call (c l : Code G V E) : Code G V E := node fun _ => .call c l
def read (f : G → Code G V E) : Code G V E := node fun g => .tau g (f g)
def write (f : G → G) (l : Code G V E) : Code G V E := node fun g => .tau (f g) l
def op (o : Op (Code G V E) V E) (k : Res V → Code G V E) : Code G V E := node fun _ => .api o k
def mk (kd : Kind) (va : Var) (fn : Nat → Code G V E) (k : Nat → Code G V E) : Code G V E :=
  op (.mk kd va .ok fn) fun | .handle h => k h | _ => ret
def push (h : Nat) (v : V) (l : Code G V E) : Code G V E := op (.push h (.copy v)) fun _ => l
def resume (h : Nat) (l : Code G V E) : Code G V E := op (.resume h) fun _ => l
def get (h : Nat) (k : V → Code G V E) : Code G V E := op (.get h) fun | .val v => k v | _ => ret
def ifv (h : Nat) (t e : Code G V E) : Code G V E := op (.valid h) fun | .bool true => t | _ => e
def pushAll (h : Nat) : List V → Code G V E → Code G V E
  | [], l => l
  | v :: vs, l => push h v (pushAll h vs l)

end Code

/-- The final outcome of a concrete run, without the state: for printing and comparing. -/
inductive Verdict | running | done | uncaught | ub (u : UB) | ill | imp
  deriving DecidableEq, Repr

variable {α : Type}

def Out.verdict : Out α → Verdict
  | .next _ => .running
  | .done _ => .done
  | .uncaught _ => .uncaught
  | .ub u _ => .ub u
  | .ill _ => .ill
  | .imp _ => .imp

def Out.state : Out α → α
  | .next s | .done s | .uncaught s | .ub _ s | .ill s | .imp s => s

end Verif
