import Verif.Flags

/-!
# The abstract machine

A small-step model of boost.coroutine2.  Paths are relative to
`/repo/include/boost/coroutine2/detail/`.  Abbreviations in the citations:

* `pull_cb`  = `pull_control_block_cc.ipp`, `push_cb` = `push_control_block_cc.ipp`
* `pull.ipp` = `pull_coroutine.ipp`, `push.ipp` = `push_coroutine.ipp`, `.hpp` likewise.

`[ctx]` marks behaviour of Boost.Context (`boost::context::fiber`), which is *not* in `/repo` and is
part of the trusted base.
-/
namespace Verif

/-- Point update of a function; used for all memory-like components. Auxiliary, models nothing. -/
def upd {α β : Type} [DecidableEq α] (f : α → β) (a : α) (b : β) : α → β :=
  fun x => if x = a then b else f x

/-- Which of the two class templates a coroutine object is an instance of
(coroutine.hpp (outer) 24-28: `pull_type`, `push_type`). -/
inductive Kind | pull | push
  deriving DecidableEq, Repr

/-- The type of the counterpart synthesized for the coroutine-function (pull_cb:81-82, push_cb:82-83). -/
def Kind.flip : Kind → Kind
  | .pull => .push
  | .push => .pull

/-- Primary template `T`, partial specialisation `T &`, full specialisation `void`
(pull_coroutine.hpp:27, 138, 249). -/
inductive Var | val | ref | void
  deriving DecidableEq, Repr

/-- A coroutine has two control blocks: the one created on top of the coroutine's stack by
`create_control_block` (`own`), and the local `synthesized_cb` of the entry lambda (`syn`)
(create_control_block.ipp:50, pull_cb:81, push_cb:82). -/
inductive Side | own | syn
  deriving DecidableEq, Repr

def Side.flip : Side → Side
  | .own => .syn
  | .syn => .own

/-- A `control_block *`: the coroutine it belongs to and which of its two blocks. -/
structure CbRef where
  co : Nat
  side : Side
  deriving DecidableEq, Repr

/-- The block at the other end of the same coroutine. -/
def CbRef.partner (r : CbRef) : CbRef := ⟨r.co, r.side.flip⟩

/-- Places that can hold a `boost::context::fiber` (an owned, one-shot continuation `[ctx]`):
member `c` of a control block; `back i`: the continuation stored in the `forced_unwind` exception that
context `i` is currently being unwound with (or the fiber returned by its entry lambda), to which
the entry function of `i` jumps on exit; `air`: the fiber being handed over by the switch in progress. -/
inductive FLoc
  | cb (r : CbRef)
  | back (i : Nat)
  | air
  deriving DecidableEq, Repr

/-- Lifetime of a control block object: not yet constructed, within its lifetime, destructor has run but
the memory is still there, memory (the coroutine's stack) deallocated. -/
inductive Life | unborn | alive | dead | freed
  deriving DecidableEq, Repr

/-- `alignas(T) unsigned char storage[sizeof(T)]` (pull_cb.hpp:33): raw bytes, a live `T`, or bytes of a
`T` whose destructor has been run. -/
inductive Slot (V : Type)
  | raw
  | live (v : V)
  | dead

/-- `struct control_block` (pull_control_block_cc.hpp:27-57, push_control_block_cc.hpp:26-49) without its member `c`,
which lives in `St.fib (.cb r)`.  Push-type blocks have no `bvalid`/`storage`; those fields are then unused. -/
structure CB (V E : Type) where
  life : Life := .unborn
  other : Option CbRef := none
  state : StateT := StateT.none
  except : Option E := none
  bvalid : Bool := false
  slot : Slot V := .raw

/-- A coroutine object `pull_coroutine<T>` / `push_coroutine<T>`: its class and its only member `cb_`
(pull_coroutine.hpp:35, push_coroutine.hpp:35). -/
structure Handle where
  ty : Kind
  va : Var
  cb : Option CbRef
  deriving DecidableEq, Repr

/-- Exceptions in flight: the user's, or Boost.Context's `forced_unwind` `[ctx]`. -/
inductive Exn (E : Type)
  | user (e : E)
  | forced

/-- Result of an API call. -/
inductive Res (V : Type)
  | unit
  | bool (b : Bool)
  | val (v : V)
  | handle (h : Nat)
  | it (i : Option Nat)

/-- Argument of a push: `T const&` (copied), `T &&` (moved), an argument whose copy/move constructor throws `e`,
a reference to the very object currently stored in the destination slot, or nothing (`void`). -/
inductive PushArg (V E : Type)
  | copy (v : V)
  | move (v : V)
  | faulty (e : E)
  | alias
  | unit

/-- Failures that may happen inside `create_control_block` before the function is entered:
`salloc.allocate()` throws (create_control_block.ipp:32), or copying/moving the callable into the
lambda capture throws (pull_cb:79 / :76). -/
inductive Fault (E : Type)
  | ok
  | alloc (e : E)
  | fnCopy (e : E)

/-- The public API. A handle id `Nat` is the address of a coroutine object. -/
inductive Op (L V E : Type)
  | mk (kd : Kind) (va : Var) (ft : Fault E) (fn : Nat → L)
  | resume (h : Nat)
  | push (h : Nat) (a : PushArg V E)
  | get (h : Nat)
  | valid (h : Nat)
  | bang (h : Nat)
  | moveCtor (h : Nat)
  | moveAssign (dst src : Nat)
  | destroy (h : Nat)
  | itBegin (h : Nat)
  | itNext (i : Option Nat)
  | itDeref (i : Option Nat)
  | itPut (i : Option Nat) (a : PushArg V E)

/-- What a piece of user code does next.  User code is arbitrary: `Prog.code` maps any local state (and the shared
memory) to an action. -/
inductive Act (L G V E : Type)
  | tau (g : G) (l : L)                       -- internal computation, may write shared memory
  | newObj (o : Nat) (l : L)                  -- construct a local object with a destructor
  | guard (h : Nat) (l : L)                   -- coroutine object `h` becomes a local of the current scope
  | leave (l : L)                             -- leave the scope of the innermost local
  | try_ (swallow : Bool) (f : E → L) (l : L) -- enter a try block; `swallow`: its handler absorbs forced_unwind
  | endTry (l : L)
  | call (callee : L) (l : L)                 -- ordinary (possibly recursive) function call
  | ret
  | throw (e : E)
  | api (op : Op L V E) (k : Res V → L)

/-- Frames on the stack of an execution context. -/
inductive Frame (L V E : Type)
  -- user frames
  | gObj (o : Nat)
  | gCoro (h : Nat)
  | hdl (swallow : Bool) (f : E → L)
  | fnRet (l : L)
  | usr (k : Res V → L)            -- user code waiting for an API call
  -- library frames below a switch
  | fetch (h : Nat)                -- pull iterator increment_: `fetch_()` still to run (pull_coroutine.hpp:82-87)
  | pfetch (h : Nat)               -- push iterator operator=: `if(!(*c_)(t)) c_=nullptr` (push_coroutine.hpp:86-92)
  | resid (v : V)                  -- push: the value left in the caller's argument
  | ctorFail (e : E)               -- control_block ctor leaving by exception (pull_cb:112-114)
  | ctorDrop (va : Var)            -- pull_coroutine ctor: `cb_->deallocate(); cb_ = nullptr;` (pull.ipp:54-57)
  | cRaise (x : Exn E)             -- destructor of a local coroutine object, then continue unwinding
  | cRet                           -- … then continue returning
  | cLeave (l : L)                 -- … then continue after the scope
  -- frames in which the context is switched out
  | asg (r : CbRef)                -- `c = std::move( c).resume();` in control_block::resume (pull_cb:147, push_cb:137)
  | pullCtor (k : Nat)             -- same, in the pull control_block constructor (pull_cb:111)
  | pushCtor (k : Nat)             -- same, in the push control_block constructor (push_cb:111)
  | wait                           -- inside `~fiber()` `[ctx]`, reached from control_block::destroy (pull_cb:42)

/-- The bottom of a context's stack: main, or the entry lambda of a coroutine and how far it has got.
`h` is the address of the local object `synthesized`, `fn` the captured callable. -/
inductive Base (L : Type)
  | none                           -- no such context (not created, or stack deallocated)
  | main
  | fresh (fn : Nat → L)           -- fiber created, lambda not entered
  | pushEntry (h : Nat) (fn : Nat → L)  -- switched out in push_cb:85
  | inFn (h : Nat)                 -- inside the try block, `fn( synthesized)` (pull_cb:88, push_cb:90)
  | final (h : Nat)                -- switched out in the final jump (pull_cb:103, push_cb:105)
  | lamA                           -- lambda exit: `~synthesized` done or in progress
  | lamB                           -- lambda exit: `~synthesized_cb` done or in progress

/-- Where the callable's payload is: in the fiber record, in the local `fn`, destroyed. -/
inductive FnObj | none | record | «local» | gone
  deriving DecidableEq, Repr

/-- Status of the stack obtained from the allocator. -/
inductive Stk | none | allocated | freed
  deriving DecidableEq, Repr

/-- Observable events (ghost history, newest first). `k` is a coroutine, `i` a context. -/
inductive Ev (V E : Type)
  | alloc (k : Nat)                -- StackAllocator::allocate
  | dealloc (k : Nat)              -- StackAllocator::deallocate
  | created (k : Nat) (kd : Kind)  -- control block of coroutine k of this kind constructed
  | enter (k : Nat)                -- coroutine-function called
  | fin (k : Nat) (x : Option E)   -- coroutine-function returned (none) / threw
  | fnDtor (k : Nat)               -- callable's payload destroyed
  | jump (r : CbRef) (i j : Nat)   -- control passes from context i to j by an operation on end r
  | unwind (i j : Nat)             -- context i starts unwinding context j
  | pushed (k : Nat) (v : V)       -- a value is stored for transfer over k
  | got (k : Nat) (v : V)          -- get() returned v
  | peeked (k : Nat) (v : V)       -- *iterator returned a reference to an object with value v
  | octor (i : Nat) (o : Nat)      -- local object constructed / destroyed in context i
  | odtor (i : Nat) (o : Nat)
  | tctor (k : Nat)                -- library constructs / destroys a T in the slot of k
  | tdtor (k : Nat)
  | setThrow (k : Nat)             -- the copy/move constructor of T throws while storing a value for k
  | rethrow (k i : Nat) (e : E)    -- constructor/operator() running in context i rethrows the stored exception of k
  | exc (i : Nat) (e : E)          -- an API call made in context i throws e
  deriving DecidableEq

/-- Control of the running context. -/
inductive Ctl (L V E : Type)
  | eval (l : L)                   -- user code runs
  | deliver (r : Res V)            -- a library function returns r to the top frame
  | raise (x : Exn E)              -- an exception propagates
  | retn                           -- a user function returns
  | recv                           -- jump_fcontext has just returned here; the fiber is in `air` `[ctx]`

/-- Undefined behaviour. -/
inductive UB
  | noObject          -- operation on a coroutine object that does not exist (any more)
  | nullCb            -- operator()/get on not-a-coroutine: null `cb_` dereferenced
  | nullOther         -- null `other` dereferenced
  | nullIter          -- end iterator incremented, dereferenced or assigned through
  | dangling          -- access to a control block outside its lifetime
  | emptyFiber        -- `resume()` on an empty fiber `[ctx]`
  | getUninit         -- get() although no value was ever stored
  | readDead          -- T read after its destructor ran
  | doubleDestroy     -- T destructor run on raw or dead storage
  | freedUnderOwner   -- a coroutine's stack is deallocated while its control block is in use
  | absorbedUnwind    -- user handler absorbs forced_unwind (doc/asymmetric.qbk "exceptions")
  deriving DecidableEq, Repr

/-- Machine state. -/
structure St (L G V E : Type) where
  cur : Nat                               -- running context (0 = main)
  ctl : Ctl L V E
  g : G                                   -- shared memory of the user program
  frames : Nat → List (Frame L V E)
  base : Nat → Base L
  cbs : CbRef → CB V E
  fib : FLoc → Option Nat
  hs : Nat → Option Handle
  nh : Nat                                -- next fresh coroutine-object address
  nk : Nat                                -- next fresh coroutine / context id
  kind : Nat → Kind
  va : Nat → Var
  fnObj : Nat → FnObj
  stk : Nat → Stk
  log : List (Ev V E)

/-- Outcome of a step. `ill`: the "program" is not a C++ program (ill-typed or ill-scoped);
`imp`: a situation the model does not elaborate further because it is shown unreachable (`no_imp`). -/
inductive Out (α : Type)
  | next (s : α)
  | done (s : α)
  | uncaught (s : α)
  | ub (u : UB) (s : α)
  | ill (s : α)
  | imp (s : α)

/-- A user program: code, the value a `T` is left with after having been moved from, and whether the
compiler has C++14 generic lambdas (config macro `BOOST_NO_CXX14_GENERIC_LAMBDAS`, pull_cb:48, push_cb:47).
`dtor o` is what the destructor of the local object `o` does to memory (doc/asymmetric.qbk:260-262, "release allocated resources");
destructors end, do not throw and call no library function. -/
structure Prog (L G V E : Type) where
  code : L → G → Act L G V E
  mv : V → V
  genericLambda : Bool := true
  dtor : Nat → G → G := fun _ g => g

variable {L G V E : Type}

namespace St

/-- frames of the running context -/
def fr (s : St L G V E) : List (Frame L V E) := s.frames s.cur
def setFr (s : St L G V E) (fs : List (Frame L V E)) : St L G V E :=
  { s with frames := upd s.frames s.cur fs }
def pushFr (s : St L G V E) (f : Frame L V E) : St L G V E := s.setFr (f :: s.fr)
def emit (s : St L G V E) (e : Ev V E) : St L G V E := { s with log := e :: s.log }
def withCtl (s : St L G V E) (c : Ctl L V E) : St L G V E := { s with ctl := c }
def setCb (s : St L G V E) (r : CbRef) (b : CB V E) : St L G V E := { s with cbs := upd s.cbs r b }
def setFib (s : St L G V E) (l : FLoc) (f : Option Nat) : St L G V E := { s with fib := upd s.fib l f }
def setBase (s : St L G V E) (i : Nat) (b : Base L) : St L G V E := { s with base := upd s.base i b }
/-- The destructor of the local object `o` runs (doc/asymmetric.qbk:260-262). -/
def endObj (s : St L G V E) (P : Prog L G V E) (o : Nat) : St L G V E := { s with g := P.dtor o s.g }.emit (.odtor s.cur o)

end St

/-- Is block `r` a pull-type control block (one with `storage`)?  The owner's block has the kind of the
coroutine, the synthesized one the opposite kind (pull_cb:81, push_cb:82). -/
def isPullSide (kd : Kind) (sd : Side) : Bool :=
  match kd, sd with
  | .pull, .own => true
  | .push, .syn => true
  | _, _ => false

/-- `[ctx]` `std::move( c).resume()` on the fiber at location `l` (`exchange( fctx_, nullptr)` then jump);
the current context must already have pushed the frame in which it waits. `r` is logged. -/
def fiberResume (s : St L G V E) (l : FLoc) (r : CbRef) : Out (St L G V E) :=
  match s.fib l with
  | none => .ub .emptyFiber s
  | some t =>
    .next ({ ((s.setFib l none).setFib .air (some s.cur)) with cur := t, ctl := .recv }.emit (.jump r s.cur t))

/-- `[ctx]` `fiber::~fiber()` of a fiber value: no-op if empty, otherwise `forced_unwind` is thrown on top of
the suspended context, carrying the continuation of the current one. -/
def fiberDrop (s : St L G V E) (f : Option Nat) : Out (St L G V E) :=
  match f with
  | none => .next (s.withCtl (.deliver .unit))
  | some t =>
    .next ({ ((s.pushFr .wait).setFib (.back t) (some s.cur)) with
              cur := t, ctl := .raise .forced }.emit (.unwind s.cur t))

/-- Body of `~control_block()` of a pull-type block: `if ( bvalid) storage->~T()` (pull_cb:128-134; only the primary
template has it).  `none`: the `T` destructor would run on a non-object. -/
def dtorSlot (s : St L G V E) (r : CbRef) : Option (St L G V E) :=
  if isPullSide (s.kind r.co) r.side && (s.va r.co == .val) && (s.cbs r).bvalid then
    match (s.cbs r).slot with
    | .live _ => some ((s.setCb r { s.cbs r with slot := .dead }).emit (.tdtor r.co))
    | _ => none
  else some s

/-- `control_block::destroy( cb)` (pull_cb:34-42, push_cb:33-41; same for `T&`, `void`): take the fiber, run the
destructor, set the `destroy` flag (a write to an object whose lifetime has ended: see DESIGN.md), and let the
local fiber `c` go out of scope. -/
def destroyCb (s : St L G V E) (r : CbRef) : Out (St L G V E) :=
  let f := s.fib (.cb r)
  let s := s.setFib (.cb r) none
  match dtorSlot s r with
  | none => .ub .doubleDestroy s
  | some s =>
    let s := s.setCb r { s.cbs r with
      life := .dead, state := StateT.orAssign (s.cbs r).state StateT.destroy }
    fiberDrop s f

/-- `control_block::deallocate()` (pull_cb:136-142, push_cb:123-129) -/
def deallocate (s : St L G V E) (r : CbRef) : Out (St L G V E) :=
  match (s.cbs r).life with
  | .alive =>
    if StateT.has (s.cbs r).state StateT.unwind then destroyCb s r
    else .next (s.withCtl (.deliver .unit))
  | _ => .ub .dangling s

/-- `~pull_coroutine()` / `~push_coroutine()` (pull.ipp:61-66, push.ipp:50-55): end of the object at address `h`. -/
def destroyHandle (s : St L G V E) (h : Nat) : Out (St L G V E) :=
  match s.hs h with
  | none => .ub .noObject s
  | some hd =>
    let s := { s with hs := upd s.hs h none }
    match hd.cb with
    | none => .next (s.withCtl (.deliver .unit))
    | some r => deallocate s r

/-- `control_block::valid()`: pull (pull_cb:181-185, 314-318), `pull<void>` (pull_cb:429-433),
push (push_cb:155-159, 275-279, 390-394). -/
def cbValid (s : St L G V E) (r : CbRef) : Bool :=
  if isPullSide (s.kind r.co) r.side then
    (s.cbs r).other.isSome && !StateT.has (s.cbs r).state StateT.complete &&
      (s.va r.co == .void || (s.cbs r).bvalid)
  else !StateT.has (s.cbs r).state StateT.complete

/-- `operator bool` of the object at `h`: `nullptr != cb_ && cb_->valid()` (pull.ipp:81-84, push.ipp:77-80). -/
def handleBool (s : St L G V E) (h : Nat) : Except UB Bool :=
  match s.hs h with
  | none => .error .noObject
  | some hd =>
    match hd.cb with
    | none => .ok false
    | some r => if (s.cbs r).life = .alive then .ok (cbValid s r) else .error .dangling

/-- `operator!`: `nullptr == cb_ || ! cb_->valid()` (pull.ipp:86-90, push.ipp:82-86). -/
def handleBang (s : St L G V E) (h : Nat) : Except UB Bool :=
  match s.hs h with
  | none => .error .noObject
  | some hd =>
    match hd.cb with
    | none => .ok true
    | some r => if (s.cbs r).life = .alive then .ok (!cbValid s r) else .error .dangling

/-- Address of a new coroutine object. -/
def newHandle (s : St L G V E) (hd : Handle) : St L G V E :=
  { s with hs := upd s.hs s.nh (some hd), nh := s.nh + 1 }

/-- `control_block::resume()` of a block `r` inside its lifetime (pull_cb:144-151; second half of push_cb:131-153). -/
def cbResume (s : St L G V E) (r : CbRef) : Out (St L G V E) :=
  match (s.cbs r).life with
  | .alive => fiberResume (s.pushFr (.asg r)) (.cb r) r
  | _ => .ub .dangling s

/-- Outcome of `control_block::set`. -/
inductive SetRes (α V E : Type)
  | ok (s : α) (resid : Option V)
  | throws (s : α) (e : E)
  | ub (u : UB) (s : α)
  | ill (s : α)

/-- First half of `set`: "destroy data if set" (pull_cb:156-159, 167-170). -/
def setDestroyOld (s : St L G V E) (q : CbRef) : Option (St L G V E) :=
  if (s.cbs q).bvalid then
    match (s.cbs q).slot with
    | .live _ => some ((s.setCb q { s.cbs q with slot := .dead }).emit (.tdtor q.co))
    | _ => none
  else some s

/-- Second half of `set`: placement new and `bvalid = true` (pull_cb:160-161, 171-172). -/
def setNew (s : St L G V E) (q : CbRef) (v : V) : St L G V E :=
  ((s.setCb q { s.cbs q with slot := .live v, bvalid := true }).emit (.tctor q.co)).emit (.pushed q.co v)

/-- `control_block::set` of the pull-type block `q`: `T const&` (pull_cb:153-162), `T &&` (pull_cb:164-173),
`T &` (pull_cb:301-306); `void` has none (push_cb:381-388). -/
def cbSet (P : Prog L G V E) (s : St L G V E) (q : CbRef) (a : PushArg V E) :
    SetRes (St L G V E) V E :=
  match s.va q.co with
  | .void => .ok s none
  | .ref =>
    match a with
    | .copy v => .ok ((s.setCb q { s.cbs q with slot := .live v, bvalid := true }).emit (.pushed q.co v)) (some v)
    | .move _ | .faulty _ | .alias | .unit => .ill s
  | .val =>
    match a with
    | .unit => .ill s
    | a =>
      match setDestroyOld s q with
      | none => .ub .doubleDestroy s
      | some s' =>
        match a with
        | .copy v => .ok (setNew s' q v) (some v)
        | .move v => .ok (setNew s' q v) (some (P.mv v))
        | .faulty e => .throws (s'.emit (.setThrow q.co)) e
        | .alias =>
          -- the source is the object stored in the slot: already destroyed if `bvalid` was set
          match (s'.cbs q).slot with
          | .live v => .ok (setNew s' q v) none
          | _ => .ub .readDead s'
        | .unit => .ill s

/-- `push_coroutine::operator()( x)` on the object at `h` (push.ipp:63-75, 123-128, 174-179) and
`push control_block::resume( x)` (push_cb:131-153, 263-273, 381-388): `other->set( x)`, then switch.
`post` is what remains to be done by the caller after the switch. -/
def pushOp (P : Prog L G V E) (s : St L G V E) (h : Nat) (a : PushArg V E)
    (post : Option V → List (Frame L V E)) : Out (St L G V E) :=
  match s.hs h with
  | none => .ub .noObject s
  | some hd =>
    if hd.ty = .push then
      match hd.cb with
      | none => .ub .nullCb s
      | some r =>
        match (s.cbs r).life with
        | .alive =>
          match (s.cbs r).other with
          | none => .ub .nullOther s
          | some q =>
            match (s.cbs q).life with
            | .alive =>
              match cbSet P s q a with
              | .ub u s' => .ub u s'
              | .ill s' => .ill s'
              | .throws s' e => .next (s'.withCtl (.raise (.user e)))
              | .ok s' v => cbResume (s'.setFr (post v ++ s'.fr)) r
            | _ => .ub .dangling s
        | _ => .ub .dangling s
    else .ill s

/-- `pull_coroutine::operator()()` (pull.ipp:74-79, 143-148, 204-209). -/
def pullOp (s : St L G V E) (h : Nat) (post : List (Frame L V E)) : Out (St L G V E) :=
  match s.hs h with
  | none => .ub .noObject s
  | some hd =>
    if hd.ty = .pull then
      match hd.cb with
      | none => .ub .nullCb s
      | some r => cbResume (s.setFr (post ++ s.fr)) r
    else .ill s

/-- Read the slot for `get()` / `operator*`: `* reinterpret_cast< T * >( storage)` (pull_cb:175-179, 308-312). -/
def readSlot (s : St L G V E) (h : Nat) : Except (Out (St L G V E)) (CbRef × V) :=
  match s.hs h with
  | none => .error (.ub .noObject s)
  | some hd =>
    if hd.ty = .pull ∧ hd.va ≠ .void then
      match hd.cb with
      | none => .error (.ub .nullCb s)
      | some r =>
        match (s.cbs r).life with
        | .alive =>
          match (s.cbs r).slot with
          | .live v => .ok (r, v)
          | .raw => .error (.ub .getUninit s)
          | .dead => .error (.ub .readDead s)
        | _ => .error (.ub .dangling s)
    else .error (.ill s)

/-- The control block constructor waiting in its first `c = std::move( c).resume()` (pull_cb:111, push_cb:111). -/
def ctorFrame (kd : Kind) (k : Nat) : Frame L V E :=
  match kd with
  | .pull => .pullCtor k
  | .push => .pushCtor k

/-- `create_control_block` (create_control_block.ipp:30-52) followed by the control block constructor up to its
first `c = std::move( c).resume()` (pull_cb:44-111, push_cb:43-111).  Placement arithmetic is in `Verif.Alloc`. -/
def mkOp (s : St L G V E) (kd : Kind) (va : Var) (ft : Fault E) (fn : Nat → L) : Out (St L G V E) :=
  match ft with
  | .alloc e => .next (s.withCtl (.raise (.user e)))
  | .fnCopy e =>
    -- the stack has been allocated; there is no handler that returns it (create_control_block.ipp:32, 50)
    .next (({ s with nk := s.nk + 1, stk := upd s.stk s.nk .allocated }.emit (.alloc s.nk)).withCtl (.raise (.user e)))
  | .ok =>
    let k := s.nk
    let s := ({ s with
      nk := k + 1
      stk := upd s.stk k .allocated
      kind := upd s.kind k kd
      va := upd s.va k va
      fnObj := upd s.fnObj k .record
      base := upd s.base k (.fresh fn)
      cbs := upd s.cbs ⟨k, .own⟩
        { life := .alive, other := none, state := StateT.unwind, except := none, bvalid := false, slot := .raw }
      fib := upd s.fib (.cb ⟨k, .own⟩) (some k) }.emit (.alloc k)).emit (.created k kd)
    let s := s.pushFr (ctorFrame kd k)
    fiberResume s (.cb ⟨k, .own⟩) ⟨k, .own⟩

/-- Execute an API call; the caller's continuation `usr k` is already on the stack. -/
def apiStep (P : Prog L G V E) (s : St L G V E) (op : Op L V E) : Out (St L G V E) :=
  match op with
  | .mk kd va ft fn => mkOp s kd va ft fn
  | .resume h => pullOp s h []
  | .push h a => pushOp P s h a (fun v => match v with | some v => [.resid v] | none => [])
  | .get h =>
    -- `T get()`: `return std::move( cb_->get() )` (pull.ipp:92-96); `T & get()` (pull.ipp:161-165)
    match readSlot s h with
    | .error o => o
    | .ok (r, v) =>
      let s := if s.va r.co = .val then s.setCb r { s.cbs r with slot := .live (P.mv v) } else s
      .next ((s.emit (.got r.co v)).withCtl (.deliver (.val v)))
  | .valid h =>
    match handleBool s h with
    | .ok b => .next (s.withCtl (.deliver (.bool b)))
    | .error u => .ub u s
  | .bang h =>
    match handleBang s h with
    | .ok b => .next (s.withCtl (.deliver (.bool b)))
    | .error u => .ub u s
  | .moveCtor h =>
    -- `cb_{ nullptr } { std::swap( cb_, other.cb_); }` (pull.ipp:68-72, push.ipp:57-61)
    match s.hs h with
    | none => .ub .noObject s
    | some hd =>
      let s := { s with hs := upd s.hs h (some { hd with cb := none }) }
      .next ((newHandle s hd).withCtl (.deliver (.handle s.nh)))
  | .moveAssign d c =>
    -- `std::swap( cb_, other.cb_)` (pull_coroutine.hpp:57-60, push_coroutine.hpp:55-59)
    match s.hs d, s.hs c with
    | some hd, some hc =>
      if hd.ty = hc.ty ∧ hd.va = hc.va then
        if hd.ty = .push ∧ d = c then .next (s.withCtl (.deliver .unit))
        else
          .next ({ s with hs := upd (upd s.hs d (some { hd with cb := hc.cb })) c (some { hc with cb := hd.cb }) }.withCtl
            (.deliver .unit))
      else .ill s
    | _, _ => .ub .noObject s
  | .destroy h => destroyHandle s h
  | .itBegin h =>
    -- `begin()`: pull iterator ctor runs `fetch_()` (pull_coroutine.hpp:74-80, 101-104, 134);
    -- the push iterator ctor does not (push_coroutine.hpp:82-84)
    match s.hs h with
    | none => .ub .noObject s
    | some hd =>
      if hd.va = .void then .ill s
      else
        match hd.ty with
        | .push => .next (s.withCtl (.deliver (.it (some h))))
        | .pull =>
          match handleBool s h with
          | .ok b => .next (s.withCtl (.deliver (.it (if b then some h else none))))
          | .error u => .ub u s
  | .itNext i =>
    -- `increment_()` (pull_coroutine.hpp:82-87); the assertions are off (NDEBUG)
    match i with
    | none => .ub .nullIter s
    | some h => pullOp s h [.fetch h]
  | .itDeref i =>
    -- `return c_->cb_->get()` by reference (pull_coroutine.hpp:123-125)
    match i with
    | none => .ub .nullIter s
    | some h =>
      match readSlot s h with
      | .error o => o
      | .ok (r, v) => .next ((s.emit (.peeked r.co v)).withCtl (.deliver (.val v)))
  | .itPut i a =>
    -- push iterator `operator=( T t)` (push_coroutine.hpp:86-92)
    match i with
    | none => .ub .nullIter s
    | some h =>
      match a with
      | .alias => .ill s   -- the parameter `t` is a by-value copy: it never is the stored object itself
      | a => pushOp P s h a (fun _ => [.pfetch h])

/-- User code runs. -/
def evalStep (P : Prog L G V E) (s : St L G V E) (l : L) : Out (St L G V E) :=
  match P.code l s.g with
  | .tau g l => .next ({ s with g := g }.withCtl (.eval l))
  | .newObj o l => .next (((s.pushFr (.gObj o)).emit (.octor s.cur o)).withCtl (.eval l))
  | .guard h l => .next ((s.pushFr (.gCoro h)).withCtl (.eval l))
  | .leave l =>
    match s.fr with
    | .gObj o :: t => .next (((s.setFr t).endObj P o).withCtl (.eval l))
    | .gCoro h :: t => destroyHandle (s.setFr (.cLeave l :: t)) h
    | _ => .ill s
  | .try_ sw f l => .next ((s.pushFr (.hdl sw f)).withCtl (.eval l))
  | .endTry l =>
    match s.fr with
    | .hdl _ _ :: t => .next ((s.setFr t).withCtl (.eval l))
    | _ => .ill s
  | .call c l => .next ((s.pushFr (.fnRet l)).withCtl (.eval c))
  | .ret => .next (s.withCtl .retn)
  | .throw e => .next (s.withCtl (.raise (.user e)))
  | .api op k => apiStep P (s.pushFr (.usr k)) op

/-- The payload of the callable in the local `fn` is destroyed at the end of the try block
(`auto fn = std::move( fn_)`, pull_cb:86, push_cb:88). -/
def dropFn (s : St L G V E) (k : Nat) : St L G V E :=
  { s with fnObj := upd s.fnObj k .gone }.emit (.fnDtor k)

/-- After the try block: `state |= state_t::complete` and the final jump `std::move( other->c).resume()`
(pull_cb:100-103, push_cb:102-105). -/
def finish (s : St L G V E) (h : Nat) : Out (St L G V E) :=
  let k := s.cur
  match (s.cbs ⟨k, .own⟩).life with
  | .alive =>
    let s := s.setCb ⟨k, .own⟩ { s.cbs ⟨k, .own⟩ with
      state := StateT.orAssign (s.cbs ⟨k, .own⟩).state StateT.complete }
    match (s.cbs ⟨k, .own⟩).other with
    | none => .ub .nullOther s
    | some q =>
      match (s.cbs q).life with
      | .alive => fiberResume (s.setBase k (.final h)) (.cb q) q
      | _ => .ub .dangling s
  | _ => .ub .dangling s

/-- `catch (...) { except = std::current_exception(); }` (pull_cb:95-98, push_cb:97-100). -/
def storeExcept (s : St L G V E) (k : Nat) (e : E) : St L G V E :=
  s.setCb ⟨k, .own⟩ { s.cbs ⟨k, .own⟩ with except := some e }

/-- `if ( state_t::none == ( state & state_t::destroy) ) { … fn( synthesized); … }` (pull_cb:84-88, push_cb:86-90). -/
def startFn (s : St L G V E) (h : Nat) (fn : Nat → L) : Out (St L G V E) :=
  let k := s.cur
  match (s.cbs ⟨k, .own⟩).life with
  | .alive =>
    if StateT.has (s.cbs ⟨k, .own⟩).state StateT.destroy then finish s h
    else
      .next (({ (s.setBase k (.inFn h)) with fnObj := upd s.fnObj k .local }.emit (.enter k)).withCtl (.eval (fn h)))
  | _ => .ub .dangling s

/-- A synthesized control block right after its constructor (pull_cb:117-126, push_cb:114-121). -/
def synCb (k : Nat) : CB V E :=
  { life := .alive, other := some ⟨k, .own⟩, state := StateT.none, except := none, bvalid := false, slot := .raw }

/-- First lines of the entry lambda of the running context (pull_cb:81-83, push_cb:82-84): `synthesized_cb{ this, c }`
takes the fiber just received, `synthesized{ & synthesized_cb }`, `other = & synthesized_cb`. -/
def synthesize (s : St L G V E) : St L G V E :=
  { s with
    fib := upd (upd s.fib (.cb ⟨s.cur, .syn⟩) (s.fib .air)) .air none
    cbs := upd (upd s.cbs ⟨s.cur, .syn⟩ (synCb s.cur)) ⟨s.cur, .own⟩
      { s.cbs ⟨s.cur, .own⟩ with other := some ⟨s.cur, .syn⟩ }
    hs := upd s.hs s.nh (some { ty := (s.kind s.cur).flip, va := s.va s.cur, cb := some ⟨s.cur, .syn⟩ })
    nh := s.nh + 1 }

/-- The entry lambda starts (pull_cb:79-84, push_cb:80-86); a push coroutine switches back at once (push_cb:85). -/
def enterLambda (s : St L G V E) (fn : Nat → L) : Out (St L G V E) :=
  match (s.cbs ⟨s.cur, .own⟩).life with
  | .alive =>
    match s.kind s.cur with
    | .pull => startFn (synthesize s) s.nh fn
    | .push =>
      fiberResume ((synthesize s).setBase s.cur (.pushEntry s.nh fn)) (.cb ⟨s.cur, .syn⟩) ⟨s.cur, .syn⟩
  | _ => .ub .dangling s

/-- The lambda is left (by return or by `forced_unwind`): first `~synthesized` (pull_cb:82, push_cb:83). -/
def leaveLambda (s : St L G V E) (h : Nat) : Out (St L G V E) :=
  destroyHandle (s.setBase s.cur .lamA) h

/-- … then `~synthesized_cb` (pull_cb:81, push_cb:82): destructor body, then member `c`. -/
def leaveLambdaCb (s : St L G V E) : Out (St L G V E) :=
  let r : CbRef := ⟨s.cur, .syn⟩
  match dtorSlot s r with
  | none => .ub .doubleDestroy s
  | some s =>
    let f := s.fib (.cb r)
    let s := (s.setFib (.cb r) none).setCb r { s.cbs r with life := .dead }
    fiberDrop (s.setBase s.cur .lamB) f

/-- Both control blocks of coroutine `k` live on its stack: after deallocation neither exists. -/
def freeCbs (cbs : CbRef → CB V E) (k : Nat) : CbRef → CB V E :=
  upd (upd cbs ⟨k, .own⟩ { cbs ⟨k, .own⟩ with life := .freed }) ⟨k, .syn⟩ { cbs ⟨k, .syn⟩ with life := .freed }

/-- `[ctx]` end of the context's entry function: destroy the fiber record (and the callable's payload if it is still
there), return the stack to its allocator, jump to the continuation; that side sees an empty fiber.
The control block lives on this stack: deallocating it while it is still within its lifetime makes the pending
`c = …` of whoever resumed it a write to freed memory; the model reports that UB here. -/
def exitCtx (s : St L G V E) : Out (St L G V E) :=
  let k := s.cur
  match s.fib (.back k) with
  | none => .imp s
  | some b =>
    if (s.cbs ⟨k, .own⟩).life = .alive then .ub .freedUnderOwner s
    else
      let s := if s.fnObj k = .record then dropFn s k else s
      .next ({ (((s.setFib (.back k) none).setBase k .none).setFib .air none) with
          cbs := freeCbs s.cbs k
          frames := upd s.frames k []
          stk := upd s.stk k .freed
          cur := b, ctl := .recv }.emit (.dealloc k))

/-- Does the final jump use the two-step form `other->c = std::move( other->c).resume(); return std::move( other->c);`?
(push_cb:74-75, 236-237, 354-355; the generic-lambda `push_coroutine<T>` and all pull lambdas use one step,
push_cb:105, pull_cb:103.) -/
def twoStep (generic : Bool) (kd : Kind) (va : Var) : Bool :=
  match kd, va with
  | .pull, _ => false
  | .push, .val => !generic
  | .push, _ => true

/-- `jump_fcontext` returned in the running context with the fiber in `air`. -/
def recvStep (P : Prog L G V E) (s : St L G V E) : Out (St L G V E) :=
  match s.fr with
  | .asg r :: t =>
    -- `c = …; if ( except) std::rethrow_exception( except);` (pull_cb:147-150, push_cb:137-140)
    match (s.cbs r).life with
    | .alive =>
      match s.fib (.cb r) with
      | some _ => .imp s
      | none =>
        let s := ((s.setFib (.cb r) (s.fib .air)).setFib .air none).setFr t
        match (s.cbs r).except with
        | some e => .next ((s.emit (.rethrow r.co s.cur e)).withCtl (.raise (.user e)))
        | none => .next (s.withCtl (.deliver .unit))
    | _ => .ub .dangling s
  | .pullCtor k :: t =>
    let r : CbRef := ⟨k, .own⟩
    match (s.cbs r).life with
    | .alive =>
      match s.fib (.cb r) with
      | some _ => .imp s
      | none =>
        let s := ((s.setFib (.cb r) (s.fib .air)).setFib .air none).setFr t
        match (s.cbs r).except with
        | some e =>
          -- the constructor is left by an exception: members are destroyed, `c` last (pull_cb:111-114)
          let f := s.fib (.cb r)
          let s := ((s.setFib (.cb r) none).setCb r { s.cbs r with life := .dead }).emit (.rethrow k s.cur e)
          fiberDrop (s.pushFr (.ctorFail e)) f
        | none =>
          -- `pull_coroutine` ctor: `if ( ! cb_->valid() ) { cb_->deallocate(); cb_ = nullptr; }` (pull.ipp:52-58)
          if cbValid s r then
            .next ((newHandle s { ty := .pull, va := s.va k, cb := some r }).withCtl (.deliver (.handle s.nh)))
          else deallocate (s.pushFr (.ctorDrop (s.va k))) r
    | _ => .ub .dangling s
  | .pushCtor k :: t =>
    let r : CbRef := ⟨k, .own⟩
    match (s.cbs r).life with
    | .alive =>
      match s.fib (.cb r) with
      | some _ => .imp s
      | none =>
        -- push_cb:111, push.ipp:44-48
        let s := ((s.setFib (.cb r) (s.fib .air)).setFib .air none).setFr t
        .next ((newHandle s { ty := .push, va := s.va k, cb := some r }).withCtl (.deliver (.handle s.nh)))
    | _ => .ub .dangling s
  | .wait :: t =>
    -- `ontop_fcontext` returned inside `~fiber()`; its result is discarded `[ctx]`
    .next ((s.setFib .air none).setFr t |>.withCtl (.deliver .unit))
  | [] =>
    match s.base s.cur with
    | .fresh fn => enterLambda s fn
    | .pushEntry h fn =>
      -- `other->c = …` (push_cb:85)
      match (s.cbs ⟨s.cur, .own⟩).life, s.fib (.cb ⟨s.cur, .syn⟩) with
      | .alive, none => startFn ((s.setFib (.cb ⟨s.cur, .syn⟩) (s.fib .air)).setFib .air none) h fn
      | .alive, some _ => .imp s
      | _, _ => .ub .dangling s
    | .final h =>
      -- the lambda returns the fiber it was resumed by (pull_cb:103, push_cb:105; two-step: push_cb:236-237)
      if twoStep P.genericLambda (s.kind s.cur) (s.va s.cur) then
        match (s.cbs ⟨s.cur, .own⟩).life with
        | .alive =>
          let s := (s.setFib (.cb ⟨s.cur, .syn⟩) (s.fib .air)).setFib .air none
          let f := s.fib (.cb ⟨s.cur, .syn⟩)
          leaveLambda ((s.setFib (.cb ⟨s.cur, .syn⟩) none).setFib (.back s.cur) f) h
        | _ => .ub .dangling s
      else leaveLambda ((s.setFib (.back s.cur) (s.fib .air)).setFib .air none) h
    | _ => .imp s
  | _ => .imp s

/-- A library function (or a destructor run by the library) returns to the frame below. -/
def deliverStep (s : St L G V E) (r : Res V) : Out (St L G V E) :=
  match s.fr with
  | .usr k :: t => .next ((s.setFr t).withCtl (.eval (k r)))
  | .fetch h :: t =>
    -- `fetch_()`: `if ( ! ( * c_) ) c_ = nullptr` (pull_coroutine.hpp:74-80)
    match handleBang s h with
    | .ok b => .next ((s.setFr t).withCtl (.deliver (.it (if b then none else some h))))
    | .error u => .ub u s
  | .pfetch h :: t =>
    -- `if ( ! ( * c_)( t) ) c_ = nullptr` (push_coroutine.hpp:88-90)
    match handleBang s h with
    | .ok b => .next ((s.setFr t).withCtl (.deliver (.it (if b then none else some h))))
    | .error u => .ub u s
  | .resid v :: t => .next ((s.setFr t).withCtl (.deliver (.val v)))
  | .ctorFail e :: t => .next ((s.setFr t).withCtl (.raise (.user e)))
  | .ctorDrop va :: t =>
    .next ((newHandle (s.setFr t) { ty := .pull, va := va, cb := none }).withCtl (.deliver (.handle s.nh)))
  | .cRaise x :: t => .next ((s.setFr t).withCtl (.raise x))
  | .cRet :: t => .next ((s.setFr t).withCtl .retn)
  | .cLeave l :: t => .next ((s.setFr t).withCtl (.eval l))
  | [] =>
    match s.base s.cur with
    | .lamA => leaveLambdaCb s
    | .lamB => exitCtx s
    | _ => .imp s
  | _ => .imp s

/-- Stack unwinding, one frame at a time. -/
def raiseStep (P : Prog L G V E) (s : St L G V E) (x : Exn E) : Out (St L G V E) :=
  match s.fr with
  | .gObj o :: t => .next ((s.setFr t).endObj P o)
  | .gCoro h :: t => destroyHandle (s.setFr (.cRaise x :: t)) h
  | .hdl sw f :: t =>
    match x with
    | .user e => .next ((s.setFr t).withCtl (.eval (f e)))
    | .forced => if sw then .ub .absorbedUnwind s else .next (s.setFr t)
  | .fnRet _ :: t => .next (s.setFr t)
  | .usr _ :: t =>
    match x with
    | .user e => .next ((s.setFr t).emit (.exc s.cur e))
    | .forced => .next (s.setFr t)
  | .fetch _ :: t | .pfetch _ :: t | .resid _ :: t | .asg _ :: t => .next (s.setFr t)
  | .pullCtor k :: t | .pushCtor k :: t =>
    -- the control block constructor is left by the exception: its member `c` is destroyed
    let f := s.fib (.cb ⟨k, .own⟩)
    let s := (s.setFib (.cb ⟨k, .own⟩) none).setCb ⟨k, .own⟩ { s.cbs ⟨k, .own⟩ with life := .dead }
    fiberDrop (s.setFr (.cRaise x :: t)) f
  | [] =>
    match s.base s.cur, x with
    | .main, _ => .uncaught s   -- `std::terminate`
    | .inFn h, .user e =>
      -- caught by the library's `catch (...)` (pull_cb:95-98)
      match (s.cbs ⟨s.cur, .own⟩).life with
      | .alive =>
        finish (storeExcept ((dropFn s s.cur).emit (.fin s.cur (some e))) s.cur e) h
      | _ => .ub .dangling s
    | .inFn h, .forced => leaveLambda (dropFn s s.cur) h   -- `catch ( forced_unwind const&) { throw; }` (pull_cb:89-90)
    | .pushEntry h _, .forced => leaveLambda s h
    | .final h, .forced => leaveLambda s h
    | .fresh _, .forced => exitCtx s   -- `[ctx]`: thrown before the lambda was entered
    | _, _ => .imp s
  | _ => .imp s

/-- A user function returns: its locals are destroyed, then control goes to its caller. -/
def retStep (P : Prog L G V E) (s : St L G V E) : Out (St L G V E) :=
  match s.fr with
  | .gObj o :: t => .next ((s.setFr t).endObj P o)
  | .gCoro h :: t => destroyHandle (s.setFr (.cRet :: t)) h
  | .hdl _ _ :: t => .next (s.setFr t)
  | .fnRet l :: t => .next ((s.setFr t).withCtl (.eval l))
  | [] =>
    match s.base s.cur with
    | .main => .done s
    | .inFn h =>
      match (s.cbs ⟨s.cur, .own⟩).life with
      | .alive => finish ((dropFn s s.cur).emit (.fin s.cur none)) h
      | _ => .ub .dangling s
    | _ => .imp s
  | _ => .imp s

/-- One step of the machine. -/
def step (P : Prog L G V E) (s : St L G V E) : Out (St L G V E) :=
  match s.ctl with
  | .eval l => evalStep P s l
  | .deliver r => deliverStep s r
  | .raise x => raiseStep P s x
  | .retn => retStep P s
  | .recv => recvStep P s

/-- Program start: main context, user code at `l0`, shared memory `g0`. -/
def init (l0 : L) (g0 : G) : St L G V E where
  cur := 0
  ctl := .eval l0
  g := g0
  frames := fun _ => []
  base := fun i => if i = 0 then .main else .none
  cbs := fun _ => {}
  fib := fun _ => none
  hs := fun _ => none
  nh := 0
  nk := 1
  kind := fun _ => .pull
  va := fun _ => .void
  fnObj := fun _ => .none
  stk := fun _ => .none
  log := []

/-- Run at most `n` steps. -/
def run (P : Prog L G V E) : Nat → St L G V E → Out (St L G V E)
  | 0, s => .next s
  | n+1, s =>
    match step P s with
    | .next s' => run P n s'
    | o => o

/-- Reachable states of a program. -/
inductive Reach (P : Prog L G V E) (l0 : L) (g0 : G) : St L G V E → Prop
  | init : Reach P l0 g0 (init l0 g0)
  | step {s s' : St L G V E} : Reach P l0 g0 s → step P s = .next s' → Reach P l0 g0 s'

end Verif
