import Verif.SpecApi

/-!
# The documented rules for using coroutine objects

`Rules P s`: what user code is about to do in state `s` is within the rules of the documentation
(doc/asymmetric.qbk, doc/coroutine.qbk; assertions in pull.ipp:76, push.ipp:65, pull_coroutine.hpp:75, 83, 123).
Part of the specification; nothing here models library code.
-/
namespace Verif
variable {L G V E : Type}

/-- Coroutine `k` is suspended at a yield (or has ended, or has not been entered): the last transfer of control over `k` was
made by `k` itself, outwards. -/
def Suspended (k : Nat) (log : List (Ev V E)) : Prop := ∃ j, lastJump k log = some (⟨k, .syn⟩, k, j)

/-- `operator()` may be called on this object: it owns a coroutine whose function has not ended and which is suspended; or it is
the object passed to the running coroutine-function. -/
def MayResume (s : St L G V E) (hd : Handle) : Prop :=
  (∃ k, hd.cb = some ⟨k, .own⟩ ∧ nFin k s.log = 0 ∧ Suspended k s.log) ∨ hd.cb = some ⟨s.cur, .syn⟩

/-- `get()` may be called on this object: it owns a coroutine whose function has not ended; or it is the object passed to the
running coroutine-function. -/
def MayGet (s : St L G V E) (hd : Handle) : Prop :=
  (∃ k, hd.cb = some ⟨k, .own⟩ ∧ nFin k s.log = 0) ∨ hd.cb = some ⟨s.cur, .syn⟩

/-- `operator bool`/`operator!` may be called: always, except that the object passed to a coroutine-function is only used inside
that function. -/
def MayAsk (s : St L G V E) (hd : Handle) : Prop := ∀ k, hd.cb = some ⟨k, .syn⟩ → k = s.cur

/-- The object may be destroyed: its coroutine, if any, is not running; the object passed to a coroutine-function (or an object it
was moved into) dies inside that function's context. -/
def MayDestroy (s : St L G V E) (hd : Handle) : Prop :=
  (∀ k, hd.cb = some ⟨k, .own⟩ → Suspended k s.log) ∧ (∀ k, hd.cb = some ⟨k, .syn⟩ → k = s.cur)

/-- The next step of `s` destroys the coroutine object `h`: explicitly, by leaving its scope (normally, by return, by an exception),
or because the function it was passed to is left by unwinding. -/
inductive Destroys (P : Prog L G V E) (s : St L G V E) (h : Nat) : Prop
  | api {k} : Calls P s (.destroy h) k → Destroys P s h
  | leave {l l' t} : s.ctl = .eval l → P.code l s.g = .leave l' → s.fr = .gCoro h :: t → Destroys P s h
  | raise {x t} : s.ctl = .raise x → s.fr = .gCoro h :: t → Destroys P s h
  | ret {t} : s.ctl = .retn → s.fr = .gCoro h :: t → Destroys P s h
  | arg : s.ctl = .raise .forced → s.fr = [] →
      (s.base s.cur = .inFn h ∨ s.base s.cur = .final h ∨ ∃ fn, s.base s.cur = .pushEntry h fn) → Destroys P s h

/-- A pushed argument whose copy does not throw and which is not (a reference to) the object stored at the other end. -/
def GoodArg : PushArg V E → Prop
  | .faulty _ | .alias => False
  | _ => True

/-- The rules. -/
structure Rules (P : Prog L G V E) (s : St L G V E) : Prop where
  /-- `operator()()` -/
  resume : ∀ h k, Calls P s (.resume h) k → ∃ hd, s.hs h = some hd ∧ MayResume s hd
  /-- `++it` -/
  next : ∀ i k, Calls P s (.itNext i) k → ∃ h hd, i = some h ∧ s.hs h = some hd ∧ MayResume s hd
  /-- `operator()(x)` -/
  push : ∀ h a k, Calls P s (.push h a) k → (∃ hd, s.hs h = some hd ∧ MayResume s hd) ∧ GoodArg a
  /-- `*it = x` -/
  put : ∀ i a k, Calls P s (.itPut i a) k → (∃ h hd, i = some h ∧ s.hs h = some hd ∧ MayResume s hd) ∧ GoodArg a
  /-- `get()` -/
  get : ∀ h k, Calls P s (.get h) k → ∃ hd, s.hs h = some hd ∧ MayGet s hd
  /-- `*it` -/
  deref : ∀ i k, Calls P s (.itDeref i) k → ∃ h hd, i = some h ∧ s.hs h = some hd ∧ MayGet s hd
  /-- `operator bool`, `operator!`, `begin()` -/
  ask : ∀ h k, (Calls P s (.valid h) k ∨ Calls P s (.bang h) k ∨ Calls P s (.itBegin h) k) → ∃ hd, s.hs h = some hd ∧ MayAsk s hd
  /-- moving -/
  mvc : ∀ h k, Calls P s (.moveCtor h) k → s.hs h ≠ none
  mva : ∀ d c k, Calls P s (.moveAssign d c) k → s.hs d ≠ none ∧ s.hs c ≠ none
  /-- every object that is destroyed exists and may be destroyed -/
  destroy : ∀ h, Destroys P s h → ∃ hd, s.hs h = some hd ∧ MayDestroy s hd
  /-- the object an iterator refers to still exists when `++`/assignment returns -/
  iter : ∀ r h t, s.ctl = .deliver r → (s.fr = .fetch h :: t ∨ s.fr = .pfetch h :: t) → ∃ hd, s.hs h = some hd ∧ MayAsk s hd
  /-- no handler swallows `forced_unwind` -/
  rethrow : ∀ f t, s.ctl = .raise .forced → s.fr ≠ .hdl true f :: t

/-- `s` is reached by an execution in which the rules have been obeyed so far. -/
inductive ReachOk (P : Prog L G V E) (l0 : L) (g0 : G) : St L G V E → Prop
  | init : ReachOk P l0 g0 (init l0 g0)
  | step {s s' : St L G V E} : ReachOk P l0 g0 s → Rules P s → step P s = .next s' → ReachOk P l0 g0 s'

/-- The rules are obeyed by the API call user code makes in `s`, and by everything it brings about before user code runs again. -/
def CallOk (P : Prog L G V E) (s : St L G V E) : Prop :=
  Rules P s ∧ ∀ s', CallRuns P s s' → ¬ UserRuns s' → Rules P s'

/-- The program obeys the rules in all its executions. -/
def Obeys (P : Prog L G V E) (l0 : L) (g0 : G) : Prop := ∀ s, Reach P l0 g0 s → Rules P s

theorem ReachOk.reach {P : Prog L G V E} {l0 : L} {g0 : G} {s : St L G V E} (h : ReachOk P l0 g0 s) : Reach P l0 g0 s := by
  induction h with
  | init => exact .init
  | step _ _ hs ih => exact ih.step hs

theorem Obeys.reachOk {P : Prog L G V E} {l0 : L} {g0 : G} (ho : Obeys P l0 g0) {s : St L G V E} (h : Reach P l0 g0 s) :
    ReachOk P l0 g0 s := by
  induction h with
  | init => exact .init
  | step hr hs ih => exact ih.step (ho _ hr) hs

theorem Obeys.callOk {P : Prog L G V E} {l0 : L} {g0 : G} (ho : Obeys P l0 g0) {s : St L G V E} (h : Reach P l0 g0 s) :
    CallOk P s :=
  ⟨ho s h, fun _ ⟨_, e, hn⟩ _ => ho _ (hn.later.reach (h.step e))⟩

end Verif
