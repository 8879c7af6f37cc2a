import Verif.SimTop

/-! # Runs of the specification machine, step by step.  Proof material. -/
namespace Verif.Coro
variable {L G V E : Type}

/-- `b` is reached from `a` in zero or more steps (doc/asymmetric.qbk:50-60). -/
def Goes (P : Prog L G V E) (a b : St L G V E) : Prop := ∃ n, run P n a = .next b

variable {P : Prog L G V E} {a b c : St L G V E}

theorem Goes.refl : Goes P a a := ⟨0, rfl⟩

theorem run_add {n m : Nat} {x a : St L G V E} (h : run P n x = .next a) : run P (n + m) x = run P m a := by
  induction n generalizing x with
  | zero => simp only [run, Out.next.injEq] at h; subst h; rw [Nat.zero_add]
  | succ n ih =>
    rw [show n + 1 + m = (n + m) + 1 by omega]
    simp only [run] at h ⊢
    cases ht : step P x with
    | next t => simp only [ht] at h ⊢; exact ih h
    | _ => simp [ht] at h

theorem Goes.trans (h : Goes P a b) (h' : Goes P b c) : Goes P a c := by
  obtain ⟨n, h⟩ := h
  obtain ⟨m, h'⟩ := h'
  exact ⟨n + m, by rw [run_add h, h']⟩

theorem Goes.step (h : step P a = .next b) (h' : Goes P b c) : Goes P a c :=
  Goes.trans ⟨1, by simp only [run, h]⟩ h'

theorem Goes.done {t : St L G V E} (h : Goes P a b) (h' : Coro.step P b = .done t) : ∃ n, run P n a = .done t := by
  obtain ⟨n, h⟩ := h
  exact ⟨n + 1, by rw [run_add h]; simp only [run, h']⟩

theorem Goes.uncaught {t : St L G V E} (h : Goes P a b) (h' : Coro.step P b = .uncaught t) : ∃ n, run P n a = .uncaught t := by
  obtain ⟨n, h⟩ := h
  exact ⟨n + 1, by rw [run_add h]; simp only [run, h']⟩

/-! ## single steps -/

local macro "go" : tactic => `(tactic| (
  simp_all [Coro.step, Coro.evalStep, Coro.resStep, Coro.backStep, Coro.raiseStep, Coro.retStep, Coro.finish, Coro.call, Coro.St.push,
    Coro.St.setStack, Coro.Phase.isEnded, Coro.pullFrom, Coro.pushTo, Coro.switch, Coro.sleeps, Coro.store, Coro.St.goto,
    Coro.St.see, Coro.St.setCo, Coro.St.newObj, Coro.destroyObj, Coro.kill, upd_upd, upd_same]))

section
variable {k h d n : Nat} {below : List Nat} {l l' : L} {g' : G} {K : Res V → L} {v : V} {va : Var} {r : Res V} {t : List (Fr L V E)} {e : E}
  {x : Coro.Ctl L V E} {q : CbRef}

theorem step_tau (ha : a.active = n :: below) (hc : a.ctl = .eval l) (hl : P.code l a.g = .tau g' l') :
    step P a = .next { a with g := g', ctl := .eval l' } := by go

theorem step_guard (ha : a.active = n :: below) (hc : a.ctl = .eval l) (hl : P.code l a.g = .guard h l') :
    step P a = .next { a with stack := upd a.stack n (.co h :: a.stack n), ctl := .eval l' } := by go

theorem step_ret (ha : a.active = n :: below) (hc : a.ctl = .eval l) (hl : P.code l a.g = .ret) :
    step P a = .next { a with ctl := .ret } := by go

theorem step_throw (ha : a.active = n :: below) (hc : a.ctl = .eval l) (hl : P.code l a.g = .throw e) :
    step P a = .next { a with ctl := .raise (.user e) } := by go

theorem step_push_syn (ha : a.active = n :: d :: below) (hc : a.ctl = .eval l) (hl : P.code l a.g = .api (.push h (.copy v)) K)
    (hh : a.hs h = some ⟨.push, va, some ⟨n, .syn⟩⟩) (hv : (a.co n).va = .val) :
    step P a = .next { a with
      active := d :: below, ctl := .back, co := upd a.co n { a.co n with val := some v },
      stack := upd a.stack n (.resumed ⟨n, .syn⟩ :: .give v :: .use K :: a.stack n), obs := .pushed n v :: a.obs } := by go

theorem step_itNext_own (ha : a.active = n :: below) (hc : a.ctl = .eval l) (hl : P.code l a.g = .api (.itNext (some h)) K)
    (hh : a.hs h = some ⟨.pull, va, some ⟨k, .own⟩⟩) (hk : k ∉ n :: below) (hp : (a.co k).phase = .body d) :
    step P a = .next { a with
      active := k :: n :: below, ctl := .back, stack := upd a.stack n (.resumed ⟨k, .own⟩ :: .iter h :: .use K :: a.stack n) } := by go

theorem step_itBegin_own (ha : a.active = n :: below) (hc : a.ctl = .eval l) (hl : P.code l a.g = .api (.itBegin h) K)
    (hh : a.hs h = some ⟨.pull, va, some ⟨k, .own⟩⟩) (hv : va ≠ .void) :
    step P a = .next { a with
      ctl := .res (.it (if valid a ⟨k, .own⟩ then some h else none)), stack := upd a.stack n (.use K :: a.stack n) } := by
  simp [Coro.step, ha, hc, Coro.evalStep, hl, Coro.call, hh, hv, objValid, St.push, St.setStack, St.goto, valid]

theorem step_itBegin_none (ha : a.active = n :: below) (hc : a.ctl = .eval l) (hl : P.code l a.g = .api (.itBegin h) K)
    (hh : a.hs h = some ⟨.pull, va, none⟩) (hv : va ≠ .void) :
    step P a = .next { a with ctl := .res (.it none), stack := upd a.stack n (.use K :: a.stack n) } := by
  simp [Coro.step, ha, hc, Coro.evalStep, hl, Coro.call, hh, hv, objValid, St.push, St.setStack, St.goto]

theorem step_itDeref_own (ha : a.active = n :: below) (hc : a.ctl = .eval l) (hl : P.code l a.g = .api (.itDeref (some h)) K)
    (hh : a.hs h = some ⟨.pull, va, some ⟨k, .own⟩⟩) (hv : va ≠ .void) (hb : valid a ⟨k, .own⟩ = true) (hy : (a.co k).val = some v) :
    step P a = .next { a with
      ctl := .res (.val v), stack := upd a.stack n (.use K :: a.stack n), obs := .peeked k v :: a.obs } := by
  unfold valid at hb
  simp [Coro.step, ha, hc, Coro.evalStep, hl, Coro.call, value, hh, hv, objValid, St.push, St.setStack, St.goto, valid, St.see] at hb ⊢
  simp [hb, hy]

theorem step_mk_pull (ha : a.active = n :: below) (hc : a.ctl = .eval l) {fn : Nat → L} (hl : P.code l a.g = .api (.mk .pull va .ok fn) K) :
    step P a = .next { a with
      active := a.nk :: n :: below, ctl := .back, nk := a.nk + 1, co := upd a.co a.nk { kind := .pull, va := va, phase := .fresh fn },
      stack := upd a.stack n (.creates a.nk :: .use K :: a.stack n) } := by go

theorem step_use (ha : a.active = n :: below) (hc : a.ctl = .res r) (hs : a.stack n = .use K :: t) :
    step P a = .next { a with stack := upd a.stack n t, ctl := .eval (K r) } := by go

theorem step_give (ha : a.active = n :: below) (hc : a.ctl = .res r) (hs : a.stack n = .give v :: t) :
    step P a = .next { a with stack := upd a.stack n t, ctl := .res (.val v) } := by go

theorem step_iter_own (ha : a.active = n :: below) (hc : a.ctl = .res r) (hs : a.stack n = .iter h :: t)
    (hh : a.hs h = some ⟨.pull, va, some ⟨k, .own⟩⟩) :
    step P a = .next { a with stack := upd a.stack n t, ctl := .res (.it (if valid a ⟨k, .own⟩ then some h else none)) } := by
  simp [Coro.step, ha, hc, Coro.resStep, hs, objValid, hh, St.setStack, St.goto]

theorem step_iter_some (ha : a.active = n :: below) (hc : a.ctl = .res r) (hs : a.stack n = .iter h :: t)
    (hh : a.hs h = some ⟨.pull, va, some ⟨k, .own⟩⟩) (hb : valid a ⟨k, .own⟩ = true) :
    step P a = .next { a with stack := upd a.stack n t, ctl := .res (.it (some h)) } := by rw [step_iter_own ha hc hs hh, hb]; rfl

theorem step_iter_none (ha : a.active = n :: below) (hc : a.ctl = .res r) (hs : a.stack n = .iter h :: t)
    (hh : a.hs h = some ⟨.pull, va, some ⟨k, .own⟩⟩) (hb : valid a ⟨k, .own⟩ = false) :
    step P a = .next { a with stack := upd a.stack n t, ctl := .res (.it none) } := by rw [step_iter_own ha hc hs hh, hb]; rfl

theorem step_begin_some (ha : a.active = n :: below) (hc : a.ctl = .eval l) (hl : P.code l a.g = .api (.itBegin h) K)
    (hh : a.hs h = some ⟨.pull, va, some ⟨k, .own⟩⟩) (hv : va ≠ .void) (hb : valid a ⟨k, .own⟩ = true) :
    step P a = .next { a with ctl := .res (.it (some h)), stack := upd a.stack n (.use K :: a.stack n) } := by
  rw [step_itBegin_own ha hc hl hh hv, hb]; rfl

theorem step_begin_none (ha : a.active = n :: below) (hc : a.ctl = .eval l) (hl : P.code l a.g = .api (.itBegin h) K)
    (hh : a.hs h = some ⟨.pull, va, some ⟨k, .own⟩⟩) (hv : va ≠ .void) (hb : valid a ⟨k, .own⟩ = false) :
    step P a = .next { a with ctl := .res (.it none), stack := upd a.stack n (.use K :: a.stack n) } := by
  rw [step_itBegin_own ha hc hl hh hv, hb]; rfl

theorem step_andThen (ha : a.active = n :: below) (hc : a.ctl = .res r) (hs : a.stack n = .andThen x :: t) :
    step P a = .next { a with stack := upd a.stack n t, ctl := x } := by go

theorem step_empty (ha : a.active = n :: below) (hc : a.ctl = .res r) (hs : a.stack n = .empty va :: t) :
    step P a = .next { a with
      stack := upd a.stack n t, hs := upd a.hs a.nh (some ⟨.pull, va, none⟩), nh := a.nh + 1, ctl := .res (.handle a.nh) } := by go

theorem step_left (ha : a.active = n :: below) (hc : a.ctl = .res r) (hs : a.stack n = []) (hp : (a.co n).phase = .leaving) :
    step P a = .next { a with co := upd a.co n { a.co n with phase := .gone }, active := below, ctl := .res .unit } := by go

theorem step_resumed_syn (ha : a.active = n :: below) (hc : a.ctl = .back) (hs : a.stack n = .resumed ⟨k, .syn⟩ :: t) :
    step P a = .next { a with stack := upd a.stack n t, ctl := .res .unit } := by
  simp [Coro.step, ha, hc, Coro.backStep, hs, St.setStack, St.goto]

theorem step_resumed_own (ha : a.active = n :: below) (hc : a.ctl = .back) (hs : a.stack n = .resumed ⟨k, .own⟩ :: t)
    (he : (a.co k).err = none) : step P a = .next { a with stack := upd a.stack n t, ctl := .res .unit } := by
  simp [Coro.step, ha, hc, Coro.backStep, hs, St.setStack, St.goto, he]

theorem step_resumed_err (ha : a.active = n :: below) (hc : a.ctl = .back) (hs : a.stack n = .resumed ⟨k, .own⟩ :: t)
    (he : (a.co k).err = some e) : step P a = .next { a with stack := upd a.stack n t, ctl := .raise (.user e) } := by
  simp [Coro.step, ha, hc, Coro.backStep, hs, St.setStack, St.goto, he]

theorem step_enter_pull (ha : a.active = n :: below) (hc : a.ctl = .back) (hs : a.stack n = []) {fn : Nat → L}
    (hp : (a.co n).phase = .fresh fn) (hk : (a.co n).kind = .pull) :
    step P a = .next { a with
      hs := upd a.hs a.nh (some ⟨.push, (a.co n).va, some ⟨n, .syn⟩⟩), nh := a.nh + 1,
      co := upd a.co n { a.co n with phase := .body a.nh }, obs := .enter n :: a.obs, ctl := .eval (fn a.nh) } := by
  simp [Coro.step, ha, hc, Coro.backStep, hs, hp, hk, St.setCo, St.goto, St.see, St.newObj, Kind.flip]

theorem step_created (ha : a.active = n :: below) (hc : a.ctl = .back) (hs : a.stack n = .creates k :: t) (he : (a.co k).err = none)
    (hk : (a.co k).kind = .pull) (hb : valid a ⟨k, .own⟩ = true) :
    step P a = .next { a with
      stack := upd a.stack n t, hs := upd a.hs a.nh (some ⟨.pull, (a.co k).va, some ⟨k, .own⟩⟩), nh := a.nh + 1, ctl := .res (.handle a.nh) } := by
  simp [Coro.step, ha, hc, Coro.backStep, hs, he, hk, hb, St.setStack, St.goto, St.newObj]

theorem step_created_empty (ha : a.active = n :: below) (hc : a.ctl = .back) (hs : a.stack n = .creates k :: t) (he : (a.co k).err = none)
    (hk : (a.co k).kind = .pull) (hb : valid a ⟨k, .own⟩ = false) (hn : k ∉ n :: below) :
    step P a = .next { a with
      stack := upd a.stack n (.empty (a.co k).va :: t), active := k :: n :: below, ctl := .raise .forced } := by
  simp [Coro.step, ha, hc, Coro.backStep, hs, he, hk, hb, St.setStack, kill] at hn ⊢
  simp [hn]

theorem step_created_err (ha : a.active = n :: below) (hc : a.ctl = .back) (hs : a.stack n = .creates k :: t) (he : (a.co k).err = some e)
    (hn : k ∉ n :: below) :
    step P a = .next { a with
      stack := upd a.stack n (.andThen (.raise (.user e)) :: t), active := k :: n :: below, ctl := .raise .forced } := by
  simp [Coro.step, ha, hc, Coro.backStep, hs, he, St.setStack, kill] at hn ⊢
  simp [hn]

theorem step_returned (ha : a.active = n :: below) (hc : a.ctl = .ret) (hs : a.stack n = []) (hn : n ≠ 0) (hp : (a.co n).phase = .body h) :
    step P a = .next { a with
      co := upd a.co n { a.co n with phase := .ended h, err := none }, active := below, ctl := .back, obs := .fin n none :: a.obs } := by go

theorem step_threw (ha : a.active = n :: below) (hc : a.ctl = .raise (.user e)) (hs : a.stack n = []) (hn : n ≠ 0)
    (hp : (a.co n).phase = .body h) :
    step P a = .next { a with
      co := upd a.co n { a.co n with phase := .ended h, err := some e }, active := below, ctl := .back, obs := .fin n (some e) :: a.obs } := by go

theorem step_raise_iter (ha : a.active = n :: below) (hc : a.ctl = .raise (.user e)) (hs : a.stack n = .iter h :: t) :
    step P a = .next { a with stack := upd a.stack n t } := by go

theorem step_raise_use (ha : a.active = n :: below) (hc : a.ctl = .raise (.user e)) (hs : a.stack n = .use K :: t) :
    step P a = .next { a with stack := upd a.stack n t, obs := .exc n e :: a.obs } := by go

theorem step_unwind_pop {f : Fr L V E} (ha : a.active = n :: below) (hc : a.ctl = .raise .forced) (hs : a.stack n = f :: t)
    (hf : (∃ K, f = .use K) ∨ (∃ v, f = .give v) ∨ (∃ q, f = .resumed q) ∨ (∃ h, f = .iter h)) :
    step P a = .next { a with stack := upd a.stack n t } := by
  rcases hf with ⟨_, rfl⟩ | ⟨_, rfl⟩ | ⟨_, rfl⟩ | ⟨_, rfl⟩ <;> simp [Coro.step, ha, hc, Coro.raiseStep, hs, St.setStack]

theorem step_unwound (ha : a.active = n :: below) (hc : a.ctl = .raise .forced) (hs : a.stack n = [])
    (hp : (a.co n).phase = .body h ∨ (a.co n).phase = .ended h) {ty : Kind} (hh : a.hs h = some ⟨ty, va, some ⟨n, .syn⟩⟩) :
    step P a = .next { a with
      co := upd a.co n { a.co n with phase := .leaving }, hs := upd a.hs h none, ctl := .res .unit } := by
  rcases hp with hp | hp <;> simp [Coro.step, ha, hc, Coro.raiseStep, hs, hp, destroyObj, St.setCo, hh, St.goto]

theorem step_drop_ret (ha : a.active = n :: below) (hc : a.ctl = .ret) (hs : a.stack n = .co h :: t)
    {ty : Kind} (hh : a.hs h = some ⟨ty, va, some ⟨k, .own⟩⟩) (hn : k ∉ n :: below) :
    step P a = .next { a with
      stack := upd a.stack n (.andThen .ret :: t), hs := upd a.hs h none, active := k :: n :: below, ctl := .raise .forced } := by
  simp [Coro.step, ha, hc, Coro.retStep, hs, St.setStack, destroyObj, hh, kill] at hn ⊢
  simp [hn]

theorem step_drop_raise {y : Exn E} (ha : a.active = n :: below) (hc : a.ctl = .raise y) (hs : a.stack n = .co h :: t)
    {ty : Kind} (hh : a.hs h = some ⟨ty, va, some ⟨k, .own⟩⟩) (hn : k ∉ n :: below) :
    step P a = .next { a with
      stack := upd a.stack n (.andThen (.raise y) :: t), hs := upd a.hs h none, active := k :: n :: below, ctl := .raise .forced } := by
  simp [Coro.step, ha, hc, Coro.raiseStep, hs, St.setStack, destroyObj, hh, kill] at hn ⊢
  simp [hn]

theorem step_dropNone_ret (ha : a.active = n :: below) (hc : a.ctl = .ret) (hs : a.stack n = .co h :: t)
    (hh : a.hs h = some ⟨.pull, va, none⟩) :
    step P a = .next { a with stack := upd a.stack n (.andThen .ret :: t), hs := upd a.hs h none, ctl := .res .unit } := by
  simp [Coro.step, ha, hc, Coro.retStep, hs, St.setStack, destroyObj, hh, St.goto]

theorem step_dropNone_raise {y : Exn E} (ha : a.active = n :: below) (hc : a.ctl = .raise y) (hs : a.stack n = .co h :: t)
    (hh : a.hs h = some ⟨.pull, va, none⟩) :
    step P a = .next { a with stack := upd a.stack n (.andThen (.raise y) :: t), hs := upd a.hs h none, ctl := .res .unit } := by
  simp [Coro.step, ha, hc, Coro.raiseStep, hs, St.setStack, destroyObj, hh, St.goto]

/-! ## push coroutines -/

theorem step_mk_push (ha : a.active = n :: below) (hc : a.ctl = .eval l) {fn : Nat → L} (hl : P.code l a.g = .api (.mk .push va .ok fn) K) :
    step P a = .next { a with
      active := a.nk :: n :: below, ctl := .back, nk := a.nk + 1, co := upd a.co a.nk { kind := .push, va := va, phase := .fresh fn },
      stack := upd a.stack n (.creates a.nk :: .use K :: a.stack n) } := by go

theorem step_fresh_push (ha : a.active = n :: below) (hc : a.ctl = .back) (hs : a.stack n = []) {fn : Nat → L}
    (hp : (a.co n).phase = .fresh fn) (hk : (a.co n).kind = .push) :
    step P a = .next { a with
      hs := upd a.hs a.nh (some ⟨.pull, (a.co n).va, some ⟨n, .syn⟩⟩), nh := a.nh + 1,
      co := upd a.co n { a.co n with phase := .idle a.nh fn }, active := below } := by
  simp [Coro.step, ha, hc, Coro.backStep, hs, hp, hk, St.setCo, St.newObj, Kind.flip]

theorem step_created_push (ha : a.active = n :: below) (hc : a.ctl = .back) (hs : a.stack n = .creates k :: t) (he : (a.co k).err = none)
    (hk : (a.co k).kind = .push) :
    step P a = .next { a with
      stack := upd a.stack n t, hs := upd a.hs a.nh (some ⟨.push, (a.co k).va, some ⟨k, .own⟩⟩), nh := a.nh + 1, ctl := .res (.handle a.nh) } := by
  simp [Coro.step, ha, hc, Coro.backStep, hs, he, hk, St.setStack, St.goto, St.newObj]

theorem step_push_own (ha : a.active = n :: below) (hc : a.ctl = .eval l) (hl : P.code l a.g = .api (.push h (.copy v)) K)
    (hh : a.hs h = some ⟨.push, va, some ⟨k, .own⟩⟩) (hv : (a.co k).va = .val) (hk : k ∉ n :: below)
    (hp : (∃ d, (a.co k).phase = .body d) ∨ ∃ d fn, (a.co k).phase = .idle d fn) :
    step P a = .next { a with
      active := k :: n :: below, ctl := .back, co := upd a.co k { a.co k with val := some v },
      stack := upd a.stack n (.resumed ⟨k, .own⟩ :: .give v :: .use K :: a.stack n), obs := .pushed k v :: a.obs } := by
  rcases hp with ⟨d, hp⟩ | ⟨d, fn, hp⟩ <;> go

theorem step_enter_idle (ha : a.active = n :: below) (hc : a.ctl = .back) (hs : a.stack n = []) {fn : Nat → L}
    (hp : (a.co n).phase = .idle h fn) :
    step P a = .next { a with co := upd a.co n { a.co n with phase := .body h }, obs := .enter n :: a.obs, ctl := .eval (fn h) } := by
  simp [Coro.step, ha, hc, Coro.backStep, hs, hp, St.setCo, St.goto, St.see]

theorem valid_syn (hk : (a.co n).kind = .push) (hv : (a.co n).val = some v) : valid a ⟨n, .syn⟩ = true := by
  simp [valid, hk, hv, takes]

theorem step_begin_syn (ha : a.active = n :: below) (hc : a.ctl = .eval l) (hl : P.code l a.g = .api (.itBegin h) K)
    (hh : a.hs h = some ⟨.pull, va, some ⟨n, .syn⟩⟩) (hv : va ≠ .void) (hb : valid a ⟨n, .syn⟩ = true) :
    step P a = .next { a with ctl := .res (.it (some h)), stack := upd a.stack n (.use K :: a.stack n) } := by
  unfold valid at hb
  simp [Coro.step, ha, hc, Coro.evalStep, hl, Coro.call, hh, hv, objValid, St.push, St.setStack, St.goto, valid] at hb ⊢
  intro h1 h2
  rcases hb with (hb | hb) | hb <;> simp_all
  intro h3; simp [h3] at hb

theorem step_deref_syn (ha : a.active = n :: below) (hc : a.ctl = .eval l) (hl : P.code l a.g = .api (.itDeref (some h)) K)
    (hh : a.hs h = some ⟨.pull, va, some ⟨n, .syn⟩⟩) (hv : va ≠ .void) (hb : valid a ⟨n, .syn⟩ = true) (hy : (a.co n).val = some v) :
    step P a = .next { a with
      ctl := .res (.val v), stack := upd a.stack n (.use K :: a.stack n), obs := .peeked n v :: a.obs } := by
  unfold valid at hb
  simp [Coro.step, ha, hc, Coro.evalStep, hl, Coro.call, value, hh, hv, objValid, St.push, St.setStack, St.goto, valid, St.see] at hb ⊢
  simp [hb, hy]

theorem step_bang_syn (ha : a.active = n :: below) (hc : a.ctl = .eval l) (hl : P.code l a.g = .api (.bang h) K)
    (hh : a.hs h = some ⟨.pull, va, some ⟨n, .syn⟩⟩) (hb : valid a ⟨n, .syn⟩ = true) :
    step P a = .next { a with ctl := .res (.bool false), stack := upd a.stack n (.use K :: a.stack n) } := by
  unfold valid at hb
  simp [Coro.step, ha, hc, Coro.evalStep, hl, Coro.call, hh, objValid, St.push, St.setStack, St.goto, valid] at hb ⊢
  intro h1 h2
  rcases hb with (hb | hb) | hb <;> simp_all

theorem step_get_syn (ha : a.active = n :: below) (hc : a.ctl = .eval l) (hl : P.code l a.g = .api (.get h) K)
    (hh : a.hs h = some ⟨.pull, .val, some ⟨n, .syn⟩⟩) (hb : valid a ⟨n, .syn⟩ = true) (hy : (a.co n).val = some v)
    (hva : (a.co n).va = .val) :
    step P a = .next { a with
      ctl := .res (.val v), stack := upd a.stack n (.use K :: a.stack n), co := upd a.co n { a.co n with val := some (P.mv v) },
      obs := .got n v :: a.obs } := by
  unfold valid at hb
  simp [Coro.step, ha, hc, Coro.evalStep, hl, Coro.call, value, hh, objValid, St.push, St.setStack, St.goto, valid, St.see] at hb ⊢
  simp [hb, hy, hva, St.setCo]

theorem step_itNext_syn (ha : a.active = n :: d :: below) (hc : a.ctl = .eval l) (hl : P.code l a.g = .api (.itNext (some h)) K)
    (hh : a.hs h = some ⟨.pull, va, some ⟨n, .syn⟩⟩) :
    step P a = .next { a with
      active := d :: below, ctl := .back, stack := upd a.stack n (.resumed ⟨n, .syn⟩ :: .iter h :: .use K :: a.stack n) } := by go

theorem step_resume_syn (ha : a.active = n :: d :: below) (hc : a.ctl = .eval l) (hl : P.code l a.g = .api (.resume h) K)
    (hh : a.hs h = some ⟨.pull, va, some ⟨n, .syn⟩⟩) :
    step P a = .next { a with
      active := d :: below, ctl := .back, stack := upd a.stack n (.resumed ⟨n, .syn⟩ :: .use K :: a.stack n) } := by go

theorem step_iter_syn (ha : a.active = n :: below) (hc : a.ctl = .res r) (hs : a.stack n = .iter h :: t)
    (hh : a.hs h = some ⟨.pull, va, some ⟨n, .syn⟩⟩) (hb : valid a ⟨n, .syn⟩ = true) :
    step P a = .next { a with stack := upd a.stack n t, ctl := .res (.it (some h)) } := by
  simp [Coro.step, ha, hc, Coro.resStep, hs, objValid, hh, St.setStack, St.goto, hb]

theorem step_newObj {o : Nat} (ha : a.active = n :: below) (hc : a.ctl = .eval l) (hl : P.code l a.g = .newObj o l') :
    step P a = .next { a with stack := upd a.stack n (.obj o :: a.stack n), ctl := .eval l', obs := .octor n o :: a.obs } := by go

theorem step_raise_obj {o : Nat} {y : Exn E} (ha : a.active = n :: below) (hc : a.ctl = .raise y) (hs : a.stack n = .obj o :: t) :
    step P a = .next { a with stack := upd a.stack n t, g := P.dtor o a.g, obs := .odtor n o :: a.obs } := by
  simp [Coro.step, ha, hc, Coro.raiseStep, hs, St.setStack, St.endObj, St.see]

theorem step_raise_give (ha : a.active = n :: below) (hc : a.ctl = .raise (.user e)) (hs : a.stack n = .give v :: t) :
    step P a = .next { a with stack := upd a.stack n t } := by go

theorem step_unwound_idle (ha : a.active = n :: below) (hc : a.ctl = .raise .forced) (hs : a.stack n = []) {fn : Nat → L}
    (hp : (a.co n).phase = .idle h fn) {ty : Kind} (hh : a.hs h = some ⟨ty, va, some ⟨n, .syn⟩⟩) :
    step P a = .next { a with
      co := upd a.co n { a.co n with phase := .leaving }, hs := upd a.hs h none, ctl := .res .unit } := by
  simp [Coro.step, ha, hc, Coro.raiseStep, hs, hp, destroyObj, St.setCo, hh, St.goto]

end
end Verif.Coro

namespace Verif.Coro
variable {L G V E : Type} {P : Prog L G V E} {a b : St L G V E} {Q R : St L G V E → Prop}

/-- From `a` a state is reached for which `Q` holds (doc/asymmetric.qbk:50-60). -/
def Leads (P : Prog L G V E) (a : St L G V E) (Q : St L G V E → Prop) : Prop := ∃ b, Goes P a b ∧ Q b

theorem Leads.now (h : Q a) : Leads P a Q := ⟨a, .refl, h⟩
theorem Leads.step (h : Coro.step P a = .next b) (h' : Leads P b Q) : Leads P a Q := by
  obtain ⟨c, h1, h2⟩ := h'
  exact ⟨c, .step h h1, h2⟩
theorem Leads.bind (h : Leads P a Q) (h' : ∀ b, Q b → Leads P b R) : Leads P a R := by
  obtain ⟨b, h1, h2⟩ := h
  obtain ⟨c, h3, h4⟩ := h' b h2
  exact ⟨c, h1.trans h3, h4⟩

end Verif.Coro
