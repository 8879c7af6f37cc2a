import Verif.Preserve5

/-!
# The steps of the machine, as a relation

Proof material only: `step_rel` shows that every `next` step of the executable machine from an invariant state is one of the
forms listed here, each with an explicit successor state.  Nothing here is a second model: the forms are *derived*.
-/
namespace Verif
variable {L G V E : Type}

/-- Steps that only touch the running context's own stack (and user memory). New memory, stack, control, events. -/
inductive Local (P : Prog L G V E) (s : St L G V E) :
    G → List (Frame L V E) → Ctl L V E → List (Ev V E) → Prop
  | tau {l l' g} : s.ctl = .eval l → P.code l s.g = .tau g l' → Local P s g s.fr (.eval l') []
  | newObj {l l' o} : s.ctl = .eval l → P.code l s.g = .newObj o l' →
      Local P s s.g (.gObj o :: s.fr) (.eval l') [.octor s.cur o]
  | guard {l l' h} : s.ctl = .eval l → P.code l s.g = .guard h l' → Local P s s.g (.gCoro h :: s.fr) (.eval l') []
  | leaveObj {l l' o t} : s.ctl = .eval l → P.code l s.g = .leave l' → s.fr = .gObj o :: t →
      Local P s (P.dtor o s.g) t (.eval l') [.odtor s.cur o]
  | try_ {l l' sw f} : s.ctl = .eval l → P.code l s.g = .try_ sw f l' → Local P s s.g (.hdl sw f :: s.fr) (.eval l') []
  | endTry {l l' sw f t} : s.ctl = .eval l → P.code l s.g = .endTry l' → s.fr = .hdl sw f :: t →
      Local P s s.g t (.eval l') []
  | call {l c l'} : s.ctl = .eval l → P.code l s.g = .call c l' → Local P s s.g (.fnRet l' :: s.fr) (.eval c) []
  | ret {l} : s.ctl = .eval l → P.code l s.g = .ret → Local P s s.g s.fr .retn []
  | throw {l e} : s.ctl = .eval l → P.code l s.g = .throw e → Local P s s.g s.fr (.raise (.user e)) []
  | mkAlloc {l kd va e fn k} : s.ctl = .eval l → P.code l s.g = .api (.mk kd va (.alloc e) fn) k →
      Local P s s.g (.usr k :: s.fr) (.raise (.user e)) []
  | valid {l h k b} : s.ctl = .eval l → P.code l s.g = .api (.valid h) k → handleBool s h = .ok b →
      Local P s s.g (.usr k :: s.fr) (.deliver (.bool b)) []
  | bang {l h k b} : s.ctl = .eval l → P.code l s.g = .api (.bang h) k → handleBang s h = .ok b →
      Local P s s.g (.usr k :: s.fr) (.deliver (.bool b)) []
  | asgSelf {l h k hd} : s.ctl = .eval l → P.code l s.g = .api (.moveAssign h h) k → s.hs h = some hd → hd.ty = .push →
      Local P s s.g (.usr k :: s.fr) (.deliver .unit) []
  | itBeginPush {l h k hd} : s.ctl = .eval l → P.code l s.g = .api (.itBegin h) k → s.hs h = some hd → hd.ty = .push →
      hd.va ≠ .void → Local P s s.g (.usr k :: s.fr) (.deliver (.it (some h))) []
  | itBeginPull {l h k hd b} : s.ctl = .eval l → P.code l s.g = .api (.itBegin h) k → s.hs h = some hd → hd.ty = .pull →
      hd.va ≠ .void → handleBool s h = .ok b →
      Local P s s.g (.usr k :: s.fr) (.deliver (.it (if b then some h else none))) []
  | itDeref {l h k r v} : s.ctl = .eval l → P.code l s.g = .api (.itDeref (some h)) k → readSlot s h = .ok (r, v) →
      Local P s s.g (.usr k :: s.fr) (.deliver (.val v)) [.peeked r.co v]
  | dUsr {r k t} : s.ctl = .deliver r → s.fr = .usr k :: t → Local P s s.g t (.eval (k r)) []
  | dFetch {r h t b} : s.ctl = .deliver r → s.fr = .fetch h :: t → handleBang s h = .ok b →
      Local P s s.g t (.deliver (.it (if b then none else some h))) []
  | dPfetch {r h t b} : s.ctl = .deliver r → s.fr = .pfetch h :: t → handleBang s h = .ok b →
      Local P s s.g t (.deliver (.it (if b then none else some h))) []
  | dResid {r v t} : s.ctl = .deliver r → s.fr = .resid v :: t → Local P s s.g t (.deliver (.val v)) []
  | dCtorFail {r e t} : s.ctl = .deliver r → s.fr = .ctorFail e :: t → Local P s s.g t (.raise (.user e)) []
  | dCRaise {r x t} : s.ctl = .deliver r → s.fr = .cRaise x :: t → Local P s s.g t (.raise x) []
  | dCRet {r t} : s.ctl = .deliver r → s.fr = .cRet :: t → Local P s s.g t .retn []
  | dCLeave {r l t} : s.ctl = .deliver r → s.fr = .cLeave l :: t → Local P s s.g t (.eval l) []
  | rObj {x o t} : s.ctl = .raise x → s.fr = .gObj o :: t → Local P s (P.dtor o s.g) t (.raise x) [.odtor s.cur o]
  | rCatch {e sw f t} : s.ctl = .raise (.user e) → s.fr = .hdl sw f :: t → Local P s s.g t (.eval (f e)) []
  | rSkip {f t} : s.ctl = .raise .forced → s.fr = .hdl false f :: t → Local P s s.g t (.raise .forced) []
  | rFnRet {x l t} : s.ctl = .raise x → s.fr = .fnRet l :: t → Local P s s.g t (.raise x) []
  | rUsrU {e k t} : s.ctl = .raise (.user e) → s.fr = .usr k :: t → Local P s s.g t (.raise (.user e)) [.exc s.cur e]
  | rUsrF {k t} : s.ctl = .raise .forced → s.fr = .usr k :: t → Local P s s.g t (.raise .forced) []
  | rFetch {x h t} : s.ctl = .raise x → s.fr = .fetch h :: t → Local P s s.g t (.raise x) []
  | rPfetch {x h t} : s.ctl = .raise x → s.fr = .pfetch h :: t → Local P s s.g t (.raise x) []
  | rResid {x v t} : s.ctl = .raise x → s.fr = .resid v :: t → Local P s s.g t (.raise x) []
  | rAsg {x r t} : s.ctl = .raise x → s.fr = .asg r :: t → Local P s s.g t (.raise x) []
  | tObj {o t} : s.ctl = .retn → s.fr = .gObj o :: t → Local P s (P.dtor o s.g) t .retn [.odtor s.cur o]
  | tHdl {sw f t} : s.ctl = .retn → s.fr = .hdl sw f :: t → Local P s s.g t .retn []
  | tFnRet {l t} : s.ctl = .retn → s.fr = .fnRet l :: t → Local P s s.g t (.eval l) []

/-- The two ways to push: `operator()(x)`, and assignment through a push iterator. -/
inductive PushCall : Op L V E → Nat → PushArg V E → (Option V → List (Frame L V E)) → Prop
  | op {h a} : PushCall (.push h a) h a (fun v => match v with | some v => [.resid v] | none => [])
  | it {h a} : a ≠ .alias → PushCall (.itPut (some h) a) h a (fun _ => [.pfetch h])

/-- The two ways to pull: `operator()()`, and `++` on a pull iterator. -/
inductive PullCall : Op L V E → Nat → List (Frame L V E) → Prop
  | op {h} : PullCall (.resume h) h []
  | it {h} : PullCall (.itNext (some h)) h [.fetch h]

/-- Successful `set`: new block, events, value left in the argument. -/
inductive SetOk (mv : V → V) (va : Var) (b : CB V E) (k : Nat) (a : PushArg V E) :
    CB V E → List (Ev V E) → Option V → Prop
  | void : va = .void → SetOk mv va b k a b [] none
  | ref {v} : va = .ref → a = .copy v → SetOk mv va b k a { b with slot := .live v, bvalid := true } [.pushed k v] (some v)
  | copy0 {v} : va = .val → a = .copy v → b.bvalid = false →
      SetOk mv va b k a { b with slot := .live v, bvalid := true } [.pushed k v, .tctor k] (some v)
  | copy1 {v w} : va = .val → a = .copy v → b.bvalid = true → b.slot = .live w →
      SetOk mv va b k a { b with slot := .live v, bvalid := true } [.pushed k v, .tctor k, .tdtor k] (some v)
  | move0 {v} : va = .val → a = .move v → b.bvalid = false →
      SetOk mv va b k a { b with slot := .live v, bvalid := true } [.pushed k v, .tctor k] (some (mv v))
  | move1 {v w} : va = .val → a = .move v → b.bvalid = true → b.slot = .live w →
      SetOk mv va b k a { b with slot := .live v, bvalid := true } [.pushed k v, .tctor k, .tdtor k] (some (mv v))
  | alias {v} : va = .val → a = .alias → b.bvalid = false → b.slot = .live v →
      SetOk mv va b k a { b with slot := .live v, bvalid := true } [.pushed k v, .tctor k] none

/-- `set` left by an exception of the copy constructor. -/
inductive SetThrows (va : Var) (b : CB V E) (k : Nat) : CB V E → List (Ev V E) → Prop
  | first : va = .val → b.bvalid = false → SetThrows va b k b [.setThrow k]
  | again {w} : va = .val → b.bvalid = true → b.slot = .live w →
      SetThrows va b k { b with slot := .dead } [.setThrow k, .tdtor k]

/-- `~control_block()` body. -/
inductive Dtor (kd : Kind) (va : Var) (b : CB V E) (r : CbRef) : Slot V → List (Ev V E) → Prop
  | val {v} : isPullSide kd r.side = true → va = .val → b.bvalid = true → b.slot = .live v →
      Dtor kd va b r .dead [.tdtor r.co]
  | skip : ¬ (isPullSide kd r.side = true ∧ va = .val ∧ b.bvalid = true) → Dtor kd va b r b.slot []

/-- A coroutine object `h` is about to be destroyed in state `s1`. -/
inductive Scope (P : Prog L G V E) (s : St L G V E) : Nat → St L G V E → Prop
  | leave {l l' h t} : s.ctl = .eval l → P.code l s.g = .leave l' → s.fr = .gCoro h :: t →
      Scope P s h { s with frames := upd s.frames s.cur (.cLeave l' :: t) }
  | api {l h k} : s.ctl = .eval l → P.code l s.g = .api (.destroy h) k →
      Scope P s h { s with frames := upd s.frames s.cur (.usr k :: s.fr) }
  | raise {x h t} : s.ctl = .raise x → s.fr = .gCoro h :: t →
      Scope P s h { s with frames := upd s.frames s.cur (.cRaise x :: t) }
  | ret {h t} : s.ctl = .retn → s.fr = .gCoro h :: t →
      Scope P s h { s with frames := upd s.frames s.cur (.cRet :: t) }
  | unwFn {h} : s.ctl = .raise .forced → s.fr = [] → s.base s.cur = .inFn h →
      Scope P s h { s with base := upd s.base s.cur .lamA, fnObj := upd s.fnObj s.cur .gone,
                           log := .fnDtor s.cur :: s.log }
  | unwEntry {h fn} : s.ctl = .raise .forced → s.fr = [] → s.base s.cur = .pushEntry h fn →
      Scope P s h { s with base := upd s.base s.cur .lamA }
  | unwFinal {h} : s.ctl = .raise .forced → s.fr = [] → s.base s.cur = .final h →
      Scope P s h { s with base := upd s.base s.cur .lamA }
  | final {h u} : s.ctl = .recv → s.fr = [] → s.base s.cur = .final h → s.fib .air = some u →
      Scope P s h { s with base := upd s.base s.cur .lamA,
                           fib := upd (upd s.fib (.back s.cur) (some u)) .air none }

/-- A control block has just died and its fiber `f` is about to be destroyed in state `s0`. -/
inductive Dying (P : Prog L G V E) (s : St L G V E) : Option Nat → St L G V E → Prop
  | handle {h s1 hd k sl evs} : Scope P s h s1 → s1.hs h = some hd → hd.cb = some ⟨k, .own⟩ →
      (s1.cbs ⟨k, .own⟩).life = .alive → Dtor (s1.kind k) (s1.va k) (s1.cbs ⟨k, .own⟩) ⟨k, .own⟩ sl evs →
      Dying P s (s1.fib (.cb ⟨k, .own⟩)) { s1 with
        hs := upd s1.hs h none
        fib := upd s1.fib (.cb ⟨k, .own⟩) none
        cbs := upd s1.cbs ⟨k, .own⟩ { s1.cbs ⟨k, .own⟩ with
          life := .dead, state := StateT.orAssign (s1.cbs ⟨k, .own⟩).state StateT.destroy, slot := sl }
        log := evs ++ s1.log }
  | ctorInvalid {k t sl evs u} : s.ctl = .recv → s.fr = .pullCtor k :: t → s.kind k = .pull →
      (s.cbs ⟨k, .own⟩).life = .alive →
      s.fib (.cb ⟨k, .own⟩) = none → s.fib .air = some u → (s.cbs ⟨k, .own⟩).except = none → cbValid s ⟨k, .own⟩ = false →
      Dtor (s.kind k) (s.va k) (s.cbs ⟨k, .own⟩) ⟨k, .own⟩ sl evs →
      Dying P s (some u) { s with
        frames := upd s.frames s.cur (.ctorDrop (s.va k) :: t)
        fib := upd s.fib .air none
        cbs := upd s.cbs ⟨k, .own⟩ { s.cbs ⟨k, .own⟩ with
          life := .dead, state := StateT.orAssign (s.cbs ⟨k, .own⟩).state StateT.destroy, slot := sl }
        log := evs ++ s.log }
  | ctorThrow {k t e u} : s.ctl = .recv → s.fr = .pullCtor k :: t → s.kind k = .pull → (s.cbs ⟨k, .own⟩).life = .alive →
      s.fib (.cb ⟨k, .own⟩) = none → s.fib .air = some u → (s.cbs ⟨k, .own⟩).except = some e →
      Dying P s (some u) { s with
        frames := upd s.frames s.cur (.ctorFail e :: t)
        fib := upd s.fib .air none
        cbs := upd s.cbs ⟨k, .own⟩ { s.cbs ⟨k, .own⟩ with life := .dead }
        log := .rethrow k s.cur e :: s.log }
  | ctorUnw {x f k t} : s.ctl = .raise x → s.fr = f :: t → (f = .pullCtor k ∨ f = .pushCtor k) →
      Dying P s (s.fib (.cb ⟨k, .own⟩)) { s with
        frames := upd s.frames s.cur (.cRaise x :: t)
        fib := upd s.fib (.cb ⟨k, .own⟩) none
        cbs := upd s.cbs ⟨k, .own⟩ { s.cbs ⟨k, .own⟩ with life := .dead } }
  | syn {r sl evs} : s.ctl = .deliver r → s.fr = [] → s.base s.cur = .lamA →
      Dtor (s.kind s.cur) (s.va s.cur) (s.cbs ⟨s.cur, .syn⟩) ⟨s.cur, .syn⟩ sl evs →
      Dying P s (s.fib (.cb ⟨s.cur, .syn⟩)) { s with
        base := upd s.base s.cur .lamB
        fib := upd s.fib (.cb ⟨s.cur, .syn⟩) none
        cbs := upd s.cbs ⟨s.cur, .syn⟩ { s.cbs ⟨s.cur, .syn⟩ with life := .dead, slot := sl }
        log := evs ++ s.log }

/-- Every step. -/
inductive Step (P : Prog L G V E) (s : St L G V E) : St L G V E → Prop
  | loc {g fs c evs} : Local P s g fs c evs →
      Step P s { s with g := g, frames := upd s.frames s.cur fs, ctl := c, log := evs ++ s.log }
  | get {l h k r v} : s.ctl = .eval l → P.code l s.g = .api (.get h) k → readSlot s h = .ok (r, v) →
      Step P s { s with
        frames := upd s.frames s.cur (.usr k :: s.fr), ctl := .deliver (.val v),
        log := .got r.co v :: s.log,
        cbs := upd s.cbs r { s.cbs r with slot := if s.va r.co = .val then .live (P.mv v) else (s.cbs r).slot } }
  | moveCtor {l h k hd} : s.ctl = .eval l → P.code l s.g = .api (.moveCtor h) k → s.hs h = some hd →
      Step P s { s with
        frames := upd s.frames s.cur (.usr k :: s.fr), ctl := .deliver (.handle s.nh),
        hs := upd (upd s.hs h (some { hd with cb := none })) s.nh (some hd), nh := s.nh + 1 }
  | moveAssign {l d c k hd hc} : s.ctl = .eval l → P.code l s.g = .api (.moveAssign d c) k → s.hs d = some hd →
      s.hs c = some hc → hd.ty = hc.ty ∧ hd.va = hc.va →
      Step P s { s with
        frames := upd s.frames s.cur (.usr k :: s.fr), ctl := .deliver .unit,
        hs := upd (upd s.hs d (some { hd with cb := hc.cb })) c (some { hc with cb := hd.cb }) }
  | ctorDrop {r va t} : s.ctl = .deliver r → s.fr = .ctorDrop va :: t →
      Step P s { s with
        frames := upd s.frames s.cur t, ctl := .deliver (.handle s.nh),
        hs := upd s.hs s.nh (some { ty := .pull, va := va, cb := none }), nh := s.nh + 1 }
  | mkFn {l kd va e fn k} : s.ctl = .eval l → P.code l s.g = .api (.mk kd va (.fnCopy e) fn) k →
      Step P s { s with
        frames := upd s.frames s.cur (.usr k :: s.fr), ctl := .raise (.user e), nk := s.nk + 1,
        stk := upd s.stk s.nk .allocated, log := .alloc s.nk :: s.log }
  | mk {l kd va fn k} : s.ctl = .eval l → P.code l s.g = .api (.mk kd va .ok fn) k →
      Step P s { s with
        frames := upd s.frames s.cur (ctorFrame kd s.nk :: .usr k :: s.fr), ctl := .recv, cur := s.nk, nk := s.nk + 1,
        stk := upd s.stk s.nk .allocated, kind := upd s.kind s.nk kd, va := upd s.va s.nk va,
        fnObj := upd s.fnObj s.nk .record, base := upd s.base s.nk (.fresh fn),
        cbs := upd s.cbs ⟨s.nk, .own⟩
          { life := .alive, other := none, state := StateT.unwind, except := none, bvalid := false, slot := .raw },
        fib := upd s.fib .air (some s.cur),
        log := .jump ⟨s.nk, .own⟩ s.cur s.nk :: .created s.nk kd :: .alloc s.nk :: s.log }
  | pushThrow {l op k h a post hd r b evs e} : s.ctl = .eval l → P.code l s.g = .api op k → PushCall op h a post →
      s.hs h = some hd → hd.ty = .push → hd.cb = some r → (s.cbs r).life = .alive →
      (s.cbs r).other = some r.partner → (s.cbs r.partner).life = .alive → a = .faulty e →
      SetThrows (s.va r.co) (s.cbs r.partner) r.co b evs →
      Step P s { s with
        frames := upd s.frames s.cur (.usr k :: s.fr), ctl := .raise (.user e),
        cbs := upd s.cbs r.partner b, log := evs ++ s.log }
  | push {l op k h a post hd r b evs w t} : s.ctl = .eval l → P.code l s.g = .api op k → PushCall op h a post →
      s.hs h = some hd → hd.ty = .push → hd.cb = some r → (s.cbs r).life = .alive →
      (s.cbs r).other = some r.partner → (s.cbs r.partner).life = .alive →
      SetOk P.mv (s.va r.co) (s.cbs r.partner) r.co a b evs w → s.fib (.cb r) = some t →
      Step P s { s with
        frames := upd s.frames s.cur (.asg r :: (post w ++ .usr k :: s.fr)), ctl := .recv, cur := t,
        cbs := upd s.cbs r.partner b, fib := upd (upd s.fib (.cb r) none) .air (some s.cur),
        log := .jump r s.cur t :: (evs ++ s.log) }
  | pull {l op k h post hd r t} : s.ctl = .eval l → P.code l s.g = .api op k → PullCall op h post →
      s.hs h = some hd → hd.ty = .pull → hd.cb = some r → (s.cbs r).life = .alive → s.fib (.cb r) = some t →
      Step P s { s with
        frames := upd s.frames s.cur (.asg r :: (post ++ .usr k :: s.fr)), ctl := .recv, cur := t,
        fib := upd (upd s.fib (.cb r) none) .air (some s.cur), log := .jump r s.cur t :: s.log }
  | enterPull {fn u} : s.ctl = .recv → s.fr = [] → s.base s.cur = .fresh fn → s.kind s.cur = .pull →
      (s.cbs ⟨s.cur, .own⟩).life = .alive → s.fib .air = some u →
      Step P s { s with
        fib := upd (upd s.fib (.cb ⟨s.cur, .syn⟩) (some u)) .air none
        cbs := upd (upd s.cbs ⟨s.cur, .syn⟩ (synCb s.cur)) ⟨s.cur, .own⟩
          { s.cbs ⟨s.cur, .own⟩ with other := some ⟨s.cur, .syn⟩ }
        hs := upd s.hs s.nh (some { ty := .push, va := s.va s.cur, cb := some ⟨s.cur, .syn⟩ })
        nh := s.nh + 1
        base := upd s.base s.cur (.inFn s.nh)
        fnObj := upd s.fnObj s.cur .«local»
        ctl := .eval (fn s.nh)
        log := .enter s.cur :: s.log }
  | enterPush {fn u} : s.ctl = .recv → s.fr = [] → s.base s.cur = .fresh fn → s.kind s.cur = .push →
      (s.cbs ⟨s.cur, .own⟩).life = .alive → s.fib .air = some u →
      Step P s { s with
        fib := upd (upd s.fib (.cb ⟨s.cur, .syn⟩) none) .air (some s.cur)
        cbs := upd (upd s.cbs ⟨s.cur, .syn⟩ (synCb s.cur)) ⟨s.cur, .own⟩
          { s.cbs ⟨s.cur, .own⟩ with other := some ⟨s.cur, .syn⟩ }
        hs := upd s.hs s.nh (some { ty := .pull, va := s.va s.cur, cb := some ⟨s.cur, .syn⟩ })
        nh := s.nh + 1
        base := upd s.base s.cur (.pushEntry s.nh fn)
        cur := u
        ctl := .recv
        log := .jump ⟨s.cur, .syn⟩ s.cur u :: s.log }
  | startPush {h fn u} : s.ctl = .recv → s.fr = [] → s.base s.cur = .pushEntry h fn →
      (s.cbs ⟨s.cur, .own⟩).life = .alive → s.fib .air = some u → s.fib (.cb ⟨s.cur, .syn⟩) = none →
      Step P s { s with
        fib := upd (upd s.fib (.cb ⟨s.cur, .syn⟩) (some u)) .air none
        base := upd s.base s.cur (.inFn h)
        fnObj := upd s.fnObj s.cur .«local»
        ctl := .eval (fn h)
        log := .enter s.cur :: s.log }
  | wait {t} : s.ctl = .recv → s.fr = .wait :: t → s.fib .air = none →
      Step P s { s with
        frames := upd s.frames s.cur t, ctl := .deliver .unit }
  | asg {r t u} : s.ctl = .recv → s.fr = .asg r :: t → (s.cbs r).life = .alive → s.fib (.cb r) = none →
      s.fib .air = some u → (s.cbs r).except = none →
      Step P s { s with
        frames := upd s.frames s.cur t, ctl := .deliver .unit,
        fib := upd (upd s.fib (.cb r) (some u)) .air none }
  | asgThrow {r t u e} : s.ctl = .recv → s.fr = .asg r :: t → (s.cbs r).life = .alive → s.fib (.cb r) = none →
      s.fib .air = some u → (s.cbs r).except = some e →
      Step P s { s with
        frames := upd s.frames s.cur t, ctl := .raise (.user e),
        fib := upd (upd s.fib (.cb r) (some u)) .air none, log := .rethrow r.co s.cur e :: s.log }
  | pullCtor {k t u} : s.ctl = .recv → s.fr = .pullCtor k :: t → s.kind k = .pull → (s.cbs ⟨k, .own⟩).life = .alive →
      s.fib (.cb ⟨k, .own⟩) = none → s.fib .air = some u → (s.cbs ⟨k, .own⟩).except = none → cbValid s ⟨k, .own⟩ = true →
      Step P s { s with
        frames := upd s.frames s.cur t, ctl := .deliver (.handle s.nh),
        fib := upd (upd s.fib (.cb ⟨k, .own⟩) (some u)) .air none,
        hs := upd s.hs s.nh (some { ty := .pull, va := s.va k, cb := some ⟨k, .own⟩ }), nh := s.nh + 1 }
  | pushCtor {k t u} : s.ctl = .recv → s.fr = .pushCtor k :: t → s.kind k = .push → (s.cbs ⟨k, .own⟩).life = .alive →
      s.fib (.cb ⟨k, .own⟩) = none → s.fib .air = some u →
      Step P s { s with
        frames := upd s.frames s.cur t, ctl := .deliver (.handle s.nh),
        fib := upd (upd s.fib (.cb ⟨k, .own⟩) (some u)) .air none,
        hs := upd s.hs s.nh (some { ty := .push, va := s.va k, cb := some ⟨k, .own⟩ }), nh := s.nh + 1 }
  | fin {h t x} : ((s.ctl = .retn ∧ x = none) ∨ (∃ e, s.ctl = .raise (.user e) ∧ x = some e)) → s.fr = [] →
      s.base s.cur = .inFn h → (s.cbs ⟨s.cur, .own⟩).life = .alive → s.fib (.cb ⟨s.cur, .syn⟩) = some t →
      Step P s { s with
        fnObj := upd s.fnObj s.cur .gone
        cbs := upd s.cbs ⟨s.cur, .own⟩ { s.cbs ⟨s.cur, .own⟩ with
          state := StateT.or StateT.unwind StateT.complete, except := x }
        base := upd s.base s.cur (.final h)
        fib := upd (upd s.fib (.cb ⟨s.cur, .syn⟩) none) .air (some s.cur)
        cur := t
        ctl := .recv
        log := .jump ⟨s.cur, .syn⟩ s.cur t :: .fin s.cur x :: .fnDtor s.cur :: s.log }
  | nop {h s1 hd} : Scope P s h s1 → s1.hs h = some hd →
      (hd.cb = none ∨ ∃ k, hd.cb = some ⟨k, .syn⟩ ∧ (s1.cbs ⟨k, .syn⟩).life = .alive) →
      Step P s { s1 with hs := upd s1.hs h none, ctl := .deliver .unit }
  | dropNone {s0} : Dying P s none s0 → Step P s { s0 with ctl := .deliver .unit }
  | dropSome {s0 t} : Dying P s (some t) s0 →
      Step P s { s0 with
        frames := upd s0.frames s0.cur (.wait :: s0.fr), fib := upd s0.fib (.back t) (some s0.cur), cur := t,
        ctl := .raise .forced, log := .unwind s0.cur t :: s0.log }
  | exit {r b} : s.ctl = .deliver r → s.fr = [] → s.base s.cur = .lamB → s.fib (.back s.cur) = some b →
      (s.cbs ⟨s.cur, .own⟩).life = .dead →
      Step P s { s with
        fnObj := if s.fnObj s.cur = .record then upd s.fnObj s.cur .gone else s.fnObj
        fib := upd s.fib (.back s.cur) none
        base := upd s.base s.cur .none
        cbs := freeCbs s.cbs s.cur
        frames := upd s.frames s.cur []
        stk := upd s.stk s.cur .freed
        cur := b
        ctl := .recv
        log := .dealloc s.cur :: (if s.fnObj s.cur = .record then [.fnDtor s.cur] else []) ++ s.log }

/-- Equality of machine states, componentwise. -/
theorem St.ext' {s t : St L G V E} (h1 : s.cur = t.cur) (h2 : s.ctl = t.ctl) (h3 : s.g = t.g)
    (h4 : s.frames = t.frames) (h5 : s.base = t.base) (h6 : s.cbs = t.cbs) (h7 : s.fib = t.fib) (h8 : s.hs = t.hs)
    (h9 : s.nh = t.nh) (h10 : s.nk = t.nk) (h11 : s.kind = t.kind) (h12 : s.va = t.va) (h13 : s.fnObj = t.fnObj)
    (h14 : s.stk = t.stk) (h15 : s.log = t.log) : s = t := by
  cases s; cases t; simp_all

theorem Step.cast {P : Prog L G V E} {s a b : St L G V E} (h : Step P s a) (e : b = a) : Step P s b := e ▸ h

end Verif
