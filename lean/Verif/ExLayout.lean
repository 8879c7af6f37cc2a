import Verif.SpecLayout
import Verif.Machine

/-!
# The example `layout.cpp`, as a program of the model

The words and the number of words per line are parameters (the example has 14 words and `num=5`, layout.cpp:24-29); `V` stands for
`std::string`.  The width (`std::setw`) is left out.  The local `FinalEOL eol` is the object `0` of the writer's context; its destructor
prints a line break (16-20).
-/
namespace Verif.Layout

/-- Program points of example/layout.cpp. -/
inductive Pt (V : Type)
  | lam (inn : Nat)                        -- the lambda is entered: `FinalEOL eol` (31-33)
  | outer (inn : Nat)                      -- `for (;;)` (35), `int i=0` (36)
  | inner (inn i : Nat)                    -- `i<num` (36)
  | check (inn i : Nat)                    -- `if(!in) return` (38)
  | read (inn i : Nat)                     -- `in.get()` (39)
  | print (inn i : Nat) (v : V)            -- `cout << …` (39)
  | ask (inn i : Nat)                      -- `in()` (41)
  | eol (inn : Nat)                        -- `cout << endl` (44)
  | leave                                  -- the lambda returns (38)
  | main (ws : List V)                     -- `writer` is constructed (30)
  | scope (h : Nat) (ws : List V)          -- `writer` is a local from here on
  | start (h : Nat) (ws : List V)          -- `begin(writer)` (47)
  | copy (it : Option Nat) (ws : List V)   -- std::copy: `first != last`, `*result = *first` (47)
  | finish                                 -- `cout << "\nDone"` (48)
  | stop                                   -- `return EXIT_SUCCESS` (49): `writer` is destroyed

variable {V : Type}

/-- A constructor gives an object (push.ipp:44-51). -/
def onHandle (k : Nat → Pt V) : Res V → Pt V
  | .handle h => k h
  | _ => .leave
/-- `begin()` and the assignment through a push iterator give an iterator (push_coroutine.hpp:69-109). -/
def onIt (k : Option Nat → Pt V) : Res V → Pt V
  | .it i => k i
  | _ => .leave
/-- `get()` gives a value (pull.ipp:92-96). -/
def onVal (k : V → Pt V) : Res V → Pt V
  | .val v => k v
  | _ => .leave
/-- `operator!` gives a truth value (pull.ipp:86-90). -/
def onBool (k : Bool → Pt V) : Res V → Pt V
  | .bool b => k b
  | _ => .leave

/-- The code (layout.cpp:30-49); `std::copy` as [alg.copy] specifies it: `*result = *first` for every word, the increments of the output
iterator do nothing (push_coroutine.hpp:106-108).  Memory: the output. -/
def code {E : Type} (num : Nat) : Pt V → List (Tok V) → Act (Pt V) (List (Tok V)) V E
  | .lam h, _ => .newObj 0 (.outer h)
  | .outer h, g => .tau g (.inner h 0)
  | .inner h i, g => if i < num then .tau g (.check h i) else .tau g (.eol h)
  | .check h i, _ => .api (.bang h) <| onBool fun b => if b then .leave else .read h i
  | .read h i, _ => .api (.get h) <| onVal fun v => .print h i v
  | .print h i v, out => .tau (out ++ [.word v]) (.ask h i)
  | .ask h i, _ => .api (.resume h) fun _ => .inner h (i + 1)
  | .eol h, out => .tau (out ++ [.eol]) (.outer h)
  | .leave, _ => .ret
  | .main ws, _ => .api (.mk .push .val .ok fun h => .lam h) <| onHandle fun h => .scope h ws
  | .scope h ws, _ => .guard h (.start h ws)
  | .start h ws, _ => .api (.itBegin h) <| onIt fun i => .copy i ws
  | .copy _ [], g => .tau g .finish
  | .copy it (w :: ws), _ => .api (.itPut it (.copy w)) <| onIt fun i => .copy i ws
  | .finish, out => .tau (out ++ [.done]) .stop
  | .stop, _ => .ret

/-- The program (example/layout.cpp). -/
def prog {E : Type} (num : Nat) (mv : V → V) (gl : Bool) : Prog (Pt V) (List (Tok V)) V E where
  code := code num
  dtor := fun _ out => out ++ [.eol]
  mv := mv
  genericLambda := gl

end Verif.Layout
