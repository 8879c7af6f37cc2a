import Verif.SpecGen

/-!
# A consumer on its own

What the function of a push coroutine does when the values it is going to get are simply given: a sequential program with scopes, calls
and exceptions that reads the current value and asks for the next one.  Used to state that what such a function does depends on the
values pushed to it and on nothing else (C70).  Part of the specification; nothing here models library code.
-/
namespace Verif.Sink
variable {L G V E : Type}

/-- The function on its own: where it is, what it has open, the value it can read (doc/asymmetric.qbk:66-76). -/
structure Cfg (L V E : Type) where
  pos : Gen.Pos L E
  open_ : List (Open L E)
  now : V

/-- The function starts at `l` with the first value `v` (doc/asymmetric.qbk:66-73). -/
def start (l : L) (v : V) : Cfg L V E := ⟨.at l, [], v⟩

/-- One step of the function on its own; `some v`: the step takes the next value `v`.  `h` is the argument through which the function
gets values.  Steps that have nothing to do with values are those of a generator (SpecGen.lean).  `get` moves out of the value (of a
reference type: does not), an iterator reads it in place; the argument always has a value, the begin iterator and the iterator after an
increment are never end iterators (doc/asymmetric.qbk:66-76, 213-219, 276-316). -/
inductive Step (P : Prog L G V E) (h : Nat) (va : Var) : Cfg L V E → Option V → Cfg L V E → Prop
  | inner {x y : Gen.Pos L E} {t u v} (s : Gen.Step P h va ⟨x, t⟩ none ⟨y, u⟩) : Step P h va ⟨x, t, v⟩ none ⟨y, u, v⟩
  | get {l : L} {k t v} (hv : va = .val) (hc : ∀ g, P.code l g = .api (.get h) k) : Step P h va ⟨.at l, t, v⟩ none ⟨.at (k (.val v)), t, P.mv v⟩
  | getRef {l : L} {k t v} (hv : va = .ref) (hc : ∀ g, P.code l g = .api (.get h) k) : Step P h va ⟨.at l, t, v⟩ none ⟨.at (k (.val v)), t, v⟩
  | look {l : L} {k t v} (hv : va ≠ .void) (hc : ∀ g, P.code l g = .api (.itDeref (some h)) k) :
      Step P h va ⟨.at l, t, v⟩ none ⟨.at (k (.val v)), t, v⟩
  | begin_ {l : L} {k t v} (hv : va ≠ .void) (hc : ∀ g, P.code l g = .api (.itBegin h) k) :
      Step P h va ⟨.at l, t, v⟩ none ⟨.at (k (.it (some h))), t, v⟩
  | next {l : L} {k t v w} (hc : ∀ g, P.code l g = .api (.resume h) k) : Step P h va ⟨.at l, t, v⟩ (some w) ⟨.at (k .unit), t, w⟩
  | nextIt {l : L} {k t v w} (hc : ∀ g, P.code l g = .api (.itNext (some h)) k) :
      Step P h va ⟨.at l, t, v⟩ (some w) ⟨.at (k (.it (some h))), t, w⟩

/-- Zero or more steps, and the values taken on the way, the first one first (doc/asymmetric.qbk:66-76). -/
inductive Runs (P : Prog L G V E) (h : Nat) (va : Var) (c : Cfg L V E) : List V → Cfg L V E → Prop
  | here : Runs P h va c [] c
  | more {xs : List V} {d e : Cfg L V E} {o : Option V} : Runs P h va c xs d → Step P h va d o e → Runs P h va c (xs ++ o.toList) e

/-- The function has come to its end (doc/asymmetric.qbk:217-219, 234-246). -/
def Ended (c : Cfg L V E) (x : Option E) : Prop := Gen.Ended ⟨c.pos, c.open_⟩ x

/-- The function needs nobody else: whatever values it gets, as long as it has not ended it can do its next step on its own, or with the
next value (doc/asymmetric.qbk:66-76). -/
def SelfContained (P : Prog L G V E) (h : Nat) (va : Var) (c : Cfg L V E) : Prop :=
  ∀ xs d, Runs P h va c xs d → (∃ x, Ended d x) ∨ ∃ o e, Step P h va d o e

end Verif.Sink
