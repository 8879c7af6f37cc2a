import Verif.Shape

/-!
# The structural invariant

Auxiliary (proof) definitions: an invariant of *every* reachable state of *every* program.
-/
namespace Verif
variable {L G V E : Type}

def Base.isFresh : Base L → Bool
  | .fresh _ => true
  | _ => false

/-- `synthesized_cb` is within its lifetime -/
def Base.synAlive : Base L → Bool
  | .pushEntry _ _ | .inFn _ | .final _ | .lamA => true
  | _ => false

/-- after the coroutine-function -/
def Base.past : Base L → Bool
  | .final _ | .lamA | .lamB => true
  | _ => false

def Base.isFinal : Base L → Bool
  | .final _ => true
  | _ => false

/-- class of the coroutine object belonging to an end -/
def endKind (kd : Kind) : Side → Kind
  | .own => kd
  | .syn => kd.flip

/-- Contexts and the fibers that hold them. -/
structure SchedOk (cur : Nat) (frames : Nat → List (Frame L V E)) (base : Nat → Base L)
    (fib : FLoc → Option Nat) (nk : Nat) : Prop where
  main_iff : ∀ i, base i = .main ↔ i = 0
  lt_nk : ∀ i, base i ≠ .none → i < nk
  cur_live : base cur ≠ .none
  dead_frames : ∀ i, base i = .none → frames i = []
  fresh_cur : ∀ i, (base i).isFresh = true → i = cur
  sus : ∀ i, i ≠ cur → base i ≠ .none → okSw (base i) (frames i) = true
  inj : ∀ l l' t, fib l = some t → fib l' = some t → l = l'
  fib_ok : ∀ l t, fib l = some t → t ≠ cur ∧ base t ≠ .none
  held : ∀ t, t ≠ cur → base t ≠ .none → ∃ l, fib l = some t
  chan : ∀ r t, fib (.cb r) = some t → hole (base t) t (frames t) = some r.partner
  one : ∀ r t, fib (.cb r) = some t → fib (.cb r.partner) = none
  back_shape : ∀ k b, fib (.back k) = some b →
    waitTop (frames b) = true ∨ (hole (base b) b (frames b) = some ⟨k, .own⟩ ∧ (base k).isLam = true)
  back_unw : ∀ i, i ≠ cur → (fib (.back i) ≠ none ↔ unwB (base i) (frames i) = true)

/-- Control blocks: lifetime and flags. -/
structure CbOk (base : Nat → Base L) (cbs : CbRef → CB V E) (fib : FLoc → Option Nat) (nk : Nat) : Prop where
  unborn : ∀ k sd, (k = 0 ∨ nk ≤ k) → (cbs ⟨k, sd⟩).life = .unborn
  own_life : ∀ k, k ≠ 0 → base k ≠ .none → (cbs ⟨k, .own⟩).life = .alive ∨ (cbs ⟨k, .own⟩).life = .dead
  none_life : ∀ k sd, base k = .none → (cbs ⟨k, sd⟩).life ≠ .alive ∧ (cbs ⟨k, sd⟩).life ≠ .dead
  fresh_syn : ∀ k, (base k).isFresh = true → (cbs ⟨k, .syn⟩).life = .unborn
  syn_life : ∀ k, (cbs ⟨k, .syn⟩).life = .alive ↔ (base k).synAlive = true
  full_alive : ∀ r t, fib (.cb r) = some t → (cbs r).life = .alive
  own_other : ∀ k, (cbs ⟨k, .own⟩).life = .alive →
    (cbs ⟨k, .own⟩).other = if (base k).isFresh then none else some ⟨k, .syn⟩
  syn_other : ∀ k, (cbs ⟨k, .syn⟩).life = .alive → (cbs ⟨k, .syn⟩).other = some ⟨k, .own⟩
  own_state : ∀ k, (cbs ⟨k, .own⟩).life = .alive →
    ((cbs ⟨k, .own⟩).state = StateT.unwind ∧ (base k).isFinal = false ∧ (cbs ⟨k, .own⟩).except = none) ∨
    ((cbs ⟨k, .own⟩).state = StateT.or StateT.unwind StateT.complete ∧ (base k).past = true)
  syn_state : ∀ k, (cbs ⟨k, .syn⟩).life = .alive →
    (cbs ⟨k, .syn⟩).state = StateT.none ∧ (cbs ⟨k, .syn⟩).except = none

/-- Coroutine objects. -/
structure HOk (hs : Nat → Option Handle) (nh nk : Nat) (cbs : CbRef → CB V E)
    (frames : Nat → List (Frame L V E)) (kind : Nat → Kind) (va : Nat → Var) : Prop where
  lt : ∀ h, hs h ≠ none → h < nh
  uniq : ∀ h h' hd hd' r, hs h = some hd → hs h' = some hd' → hd.cb = some r → hd'.cb = some r → h = h'
  own : ∀ h hd k, hs h = some hd → hd.cb = some ⟨k, .own⟩ →
    (cbs ⟨k, .own⟩).life = .alive ∧ ∀ i, ctorOf (frames i) ≠ some k
  born : ∀ h hd r, hs h = some hd → hd.cb = some r →
    (cbs r).life ≠ .unborn ∧ hd.ty = endKind (kind r.co) r.side ∧ hd.va = va r.co
  ctor : ∀ i k, ctorOf (frames i) = some k → (cbs ⟨k, .own⟩).life = .alive
  ctor_uniq : ∀ i j k, ctorOf (frames i) = some k → ctorOf (frames j) = some k → i = j
  ctor_kind : ∀ i k, ctorOf (frames i) = some k → (frames i).head? = some (ctorFrame (kind k) k)

/-- What the control state of the running context says about its stack. -/
def CtlOk (ctl : Ctl L V E) (cur : Nat) (frames : Nat → List (Frame L V E)) (base : Nat → Base L)
    (fib : FLoc → Option Nat) (cbs : CbRef → CB V E) : Prop :=
  match ctl with
  | .eval _ | .retn =>
    okU (frames cur) = true ∧ (base cur).isBody = true ∧ fib .air = none ∧ fib (.back cur) = none
  | .deliver _ =>
    okRet (base cur) (frames cur) = true ∧ fib .air = none ∧
      (fib (.back cur) ≠ none ↔ unwB (base cur) (frames cur) = true)
  | .raise (.user _) =>
    okRaiseU (base cur) (frames cur) = true ∧ fib .air = none ∧ fib (.back cur) = none
  | .raise .forced =>
    okRaiseF (base cur) (frames cur) = true ∧ fib .air = none ∧ fib (.back cur) ≠ none
  | .recv =>
    okSw (base cur) (frames cur) = true ∧
    (∀ u, fib .air = some u → ∃ r, hole (base u) u (frames u) = some r ∧
      hole (base cur) cur (frames cur) = some r.partner ∧
      fib (.cb r) = none ∧ fib (.cb r.partner) = none) ∧
    (fib .air = none → waitTop (frames cur) = true ∨
      ∃ k, hole (base cur) cur (frames cur) = some ⟨k, .own⟩ ∧ (cbs ⟨k, .own⟩).life ≠ .alive) ∧
    (fib (.back cur) ≠ none ↔ unwB (base cur) (frames cur) = true)

/-- The whole invariant. -/
structure Inv (s : St L G V E) : Prop where
  sched : SchedOk s.cur s.frames s.base s.fib s.nk
  cb : CbOk s.base s.cbs s.fib s.nk
  hok : HOk s.hs s.nh s.nk s.cbs s.frames s.kind s.va
  ctl : CtlOk s.ctl s.cur s.frames s.base s.fib s.cbs

theorem inv_init (l0 : L) (g0 : G) : Inv (init l0 g0 : St L G V E) := by
  refine ⟨⟨?_, ?_, ?_, ?_, ?_, ?_, ?_, ?_, ?_, ?_, ?_, ?_, ?_⟩, ⟨?_, ?_, ?_, ?_, ?_, ?_, ?_, ?_, ?_, ?_⟩, ⟨?_, ?_, ?_, ?_, ?_, ?_, ?_⟩, ?_⟩ <;>
    simp [init, CtlOk, okU, Base.isBody, ctorOf]
  all_goals grind [unwB, Base.isLam, Base.synAlive, Base.isFresh]

end Verif
