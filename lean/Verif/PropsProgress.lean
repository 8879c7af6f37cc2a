import Verif.PropsIter
import Verif.PropsValue
import Verif.PropsLife
import Verif.PropsAlloc

/-!
# Properties: what the calls that transfer control, allocate and store really do

The theorems of this file were added after seeded errors showed what the first versions left open: that a resuming call does
transfer control (C22, C23), that the stack, the callable and the stored value really are in the state the history says (C15-C18),
and that the alternatives "undefined" and "not well-typed" of C26 and C34 do not occur for an owning object.
-/
namespace Verif
variable {L G V E : Type} {P : Prog L G V E} {l0 : L} {g0 : G} {s s0 s' : St L G V E} {h c : Nat} {k : Res V → L} {v : V} {ty : Kind}

/-! ## C15, C16, C18, C17: the state agrees with the history -/

/-- C15: the stack of coroutine `c` is allocated exactly from its allocation to its deallocation, and freed exactly from then on. -/
theorem C15_status (hr : Reach P l0 g0 s) (c : Nat) :
    (s.stk c = .none ↔ nAlloc c s.log = 0) ∧ (s.stk c = .allocated ↔ nAlloc c s.log = 1 ∧ nDealloc c s.log = 0) ∧
      (s.stk c = .freed ↔ nDealloc c s.log = 1) := by
  have hl := life_reach hr c
  unfold LifeOk at hl
  cases hb : s.base c <;> rw [hb] at hl <;> simp only at hl
  case none =>
    split at hl
    · rcases hl with ⟨h1, -, h2⟩ | ⟨h1, -, n, m, -, -, h2⟩ <;> simp [h1, h2.al, h2.de]
    · obtain ⟨h1, -, h2⟩ := hl; simp [h1, h2.al, h2.de]
  case main => obtain ⟨h1, h2⟩ := hl; simp [h1, h2.al, h2.de]
  case lamA => obtain ⟨h1, ⟨-, h2⟩ | ⟨-, m, -, h2⟩⟩ := hl <;> simp [h1, h2.al, h2.de]
  case lamB => obtain ⟨h1, ⟨-, h2⟩ | ⟨-, m, -, h2⟩⟩ := hl <;> simp [h1, h2.al, h2.de]
  all_goals obtain ⟨h1, -, h2⟩ := hl; simp [h1, h2.al, h2.de]

/-- C18: the callable of coroutine `c` exists from the creation of the coroutine (first in the fiber's record, then, while the function
runs, as a local of the entry function) until its destructor runs. -/
theorem C18_status (hr : Reach P l0 g0 s) (hc : c ≠ 0) :
    (s.fnObj c = .none ↔ nCreated c s.log = 0) ∧
    (s.fnObj c = .record ↔ nCreated c s.log = 1 ∧ nEnter c s.log = 0 ∧ nFnDtor c s.log = 0) ∧
    (s.fnObj c = .local ↔ nEnter c s.log = 1 ∧ nFnDtor c s.log = 0) ∧
    (s.fnObj c = .gone ↔ nFnDtor c s.log = 1) := by
  have hl := life_reach hr c
  have hm := (inv_reach hr).sched.main_iff c
  unfold LifeOk at hl
  cases hb : s.base c <;> rw [hb] at hl hm <;> simp only at hl
  case none =>
    split at hl
    · rcases hl with ⟨-, h1, h2⟩ | ⟨-, h1, n, m, -, -, h2⟩ <;> simp [h1, h2.cr, h2.en, h2.fd]
    · obtain ⟨-, h1, h2⟩ := hl; simp [h1, h2.cr, h2.en, h2.fd]
  case main => exact absurd (hm.1 rfl) hc
  case lamA => obtain ⟨-, ⟨h1, h2⟩ | ⟨h1, m, -, h2⟩⟩ := hl <;> simp [h1, h2.cr, h2.en, h2.fd]
  case lamB => obtain ⟨-, ⟨h1, h2⟩ | ⟨h1, m, -, h2⟩⟩ := hl <;> simp [h1, h2.cr, h2.en, h2.fd]
  all_goals obtain ⟨-, h1, h2⟩ := hl; simp [h1, h2.cr, h2.en, h2.fd]

/-- C17: the transfer slot of a coroutine of values holds a live `T` exactly if one more has been constructed than destroyed; only the
block of the consuming end ever holds one; and none is left in a control block that has been destroyed. -/
theorem C17_slot (hr : Reach P l0 g0 s) (hva : s.va c = .val) :
    ((∃ sd v, (s.cbs ⟨c, sd⟩).slot = .live v) ↔ nTctor c s.log = nTdtor c s.log + 1) ∧
    (∀ v, (s.cbs ⟨c, pushEnd (s.kind c)⟩).slot ≠ .live v) ∧
    (∀ sd v, (s.cbs ⟨c, sd⟩).slot = .live v → (s.cbs ⟨c, sd⟩).life = .alive) := by
  have hs := slot_reach hr c
  rw [hva] at hs
  have hq : (s.cbs ⟨c, (pullSide (s.kind c)).flip⟩).slot = .raw := hs.qraw.2
  have hlive : ∀ sl : Slot V, sl.isLive = true ↔ ∃ v, sl = .live v := by
    intro sl; cases sl <;> simp [Slot.isLive]
  have hside : ∀ sd v, (s.cbs ⟨c, sd⟩).slot = .live v → sd = pullSide (s.kind c) := by
    intro sd v hv
    rcases side_cases (s.kind c) sd with h | ⟨-, h⟩
    · exact h
    · rw [h, hq] at hv; cases hv
  refine ⟨?_, ?_, ?_⟩
  · have hb := hs.bal
    constructor
    · rintro ⟨sd, v, hv⟩
      have := hside sd v hv
      subst this
      rw [hb, if_pos ⟨rfl, (hlive _).2 ⟨v, hv⟩⟩]
    · intro h1
      by_cases hl : (s.cbs ⟨c, pullSide (s.kind c)⟩).slot.isLive = true
      · obtain ⟨v, hv⟩ := (hlive _).1 hl
        exact ⟨_, v, hv⟩
      · rw [hb, if_neg (fun h => hl h.2)] at h1
        omega
  · intro v hv
    rw [pushEnd_eq, hq] at hv; cases hv
  · intro sd v hv
    have := hside sd v hv
    subst this
    have hd := hs.dead rfl
    cases hlf : (s.cbs ⟨c, pullSide (s.kind c)⟩).life with
    | alive => rfl
    | unborn => rw [hs.nb (hs.unb hlf)] at hv; cases hv
    | dead => rw [(hlive _).2 ⟨v, hv⟩] at hd; cases hd (.inl hlf)
    | freed => rw [(hlive _).2 ⟨v, hv⟩] at hd; cases hd (.inr hlf)

/-! ## C23: a resuming call does transfer control -/

theorem PullsFrom.code (hp : PullsFrom P s h k) : ∃ l op post, s.ctl = .eval l ∧ P.code l s.g = .api op k ∧ PullCall op h post := by
  rcases hp with ⟨l, h1, h2⟩ | ⟨l, h1, h2⟩
  · exact ⟨l, _, _, h1, h2, .op⟩
  · exact ⟨l, _, _, h1, h2, .it⟩

/-- C23: `h()` and `++it` on an end that did not make the last transfer of control over its coroutine do transfer control, in one step, to
the context that made that last transfer - for the object that owns the coroutine, and for the counterpart in its function. -/
theorem C23_pull_transfers (hr : Reach P l0 g0 s) (hp : PullsFrom P s h k) {r : CbRef} (hh : Refers s h .pull (some r))
    (hu : r.side = .own ∨ r.co = s.cur) {i j : Nat} (hl : lastJump r.co s.log = some (r.partner, i, j)) :
    ∃ s', step P s = .next s' ∧ s'.cur = i ∧ i ≠ s.cur ∧ s'.ctl = .recv ∧ s'.log = .jump r s.cur i :: s.log := by
  have hi := inv_reach hr
  obtain ⟨l, op, post, h1, h2, hpc⟩ := hp.code
  have hctl := hi.ctl
  rw [h1] at hctl
  have hus : Usable s r := by
    obtain ⟨co, sd⟩ := r
    cases sd with
    | own => exact ⟨own_alive hr hh, nofun⟩
    | syn =>
      rcases hu with hu | hu
      · cases hu
      · refine ⟨syn_alive hr ⟨l, h1⟩ hu.symm (refers_ne0 hr hh), fun _ => ?_⟩
        have := hctl.2.1
        rw [← hu] at this
        simp only
        cases hb : s.base co <;> simp only at hu <;> simp_all [Base.isBody, Base.isLam]
  rcases held_reach hr r i j hl hus with hf | ⟨hx, -⟩
  · obtain ⟨hd, a1, a2, a3⟩ := hh
    exact ⟨_, reach_step hr (.pull h1 h2 hpc a1 a2 a3 hus.1 hf), rfl, (hi.sched.fib_ok _ _ hf).1, rfl, rfl⟩
  · rw [h1] at hx; cases hx

/-- C23, within the rules: every `h()`, `h(a)`, `++it`, `*it = a` (with an ordinary argument) transfers control, in one step, to the context
that made the last transfer of control over the coroutine, through its other end. -/
theorem C23_transfers (hk : ReachOk P l0 g0 s) (hru : Rules P s) {r : CbRef} (hh : Refers s h ty (some r))
    (hsw : (PullsFrom P s h k ∧ ty = .pull) ∨ ∃ a, PushesTo P s h a k ∧ ty = .push ∧ Fits (s.va r.co) a) :
    ∃ s' i j evs, step P s = .next s' ∧ lastJump r.co s.log = some (r.partner, i, j) ∧ s'.cur = i ∧ i ≠ s.cur ∧ s'.ctl = .recv ∧
      s'.log = .jump r s.cur i :: (evs ++ s.log) ∧ ∀ e ∈ evs, sideOf r.co e = none := by
  have hr := hk.reach
  have hi := inv_reach hr
  obtain ⟨rest, cx⟩ := ctx_reach hk hru
  obtain ⟨hd, a1, a2, a3⟩ := hh
  have key : ∀ l, s.ctl = .eval l → MayResume s hd → (s.cbs r).life = .alive ∧ (s.cbs r).other = some r.partner ∧
      (s.cbs r.partner).life = .alive ∧ ∃ i j, s.fib (.cb r) = some i ∧ lastJump r.co s.log = some (r.partner, i, j) ∧ i ≠ s.cur := by
    intro l hl hm
    obtain ⟨r', b1, b2, b3, b4, b5⟩ := cx.resumable hl a1 hm
    rw [a3] at b1; cases b1
    obtain ⟨i, hf⟩ := Option.ne_none_iff_exists'.1 b5
    obtain ⟨j, hj⟩ := (jinv_reach hr).held _ _ hf
    exact ⟨b2, b3, b4, i, j, hf, hj, (hi.sched.fib_ok _ _ hf).1⟩
  rcases hsw with ⟨hp, rfl⟩ | ⟨a, hp, rfl, hfit⟩
  · obtain ⟨l, op, post, h1, h2, hpc⟩ := hp.code
    have hm : MayResume s hd := by
      rcases hp with hp | hp
      · obtain ⟨hd', b1, b2⟩ := hru.resume h k hp; rw [a1] at b1; cases b1; exact b2
      · obtain ⟨h', hd', b0, b1, b2⟩ := hru.next _ k hp; cases b0; rw [a1] at b1; cases b1; exact b2
    obtain ⟨c1, -, -, i, j, c4, c5, c6⟩ := key l h1 hm
    exact ⟨_, i, j, [], reach_step hr (.pull h1 h2 hpc a1 a2 a3 c1 c4), c5, rfl, c6, rfl, rfl, nofun⟩
  · obtain ⟨l, op, post, h1, h2, hpc, he⟩ := hp.step
    have hm : MayResume s hd := by
      rcases hp with hp | ⟨hp, -⟩
      · obtain ⟨⟨hd', b1, b2⟩, -⟩ := hru.push h a k hp; rw [a1] at b1; cases b1; exact b2
      · obtain ⟨⟨h', hd', b0, b1, b2⟩, -⟩ := hru.put _ a k hp; cases b0; rw [a1] at b1; cases b1; exact b2
    obtain ⟨c1, c2, c3, i, j, c4, c5, c6⟩ := key l h1 hm
    rcases set_or_ub (P := P) (s := s.pushFr (.usr k)) (q := r.partner) (a := a) hfit with ⟨b, evs, w, hse⟩ | ⟨u, s', hub⟩
    · refine ⟨_, i, j, evs, reach_step hr (.push h1 h2 hpc a1 a2 a3 c1 c2 c3 hse c4), c5, rfl, c6, rfl, rfl, ?_⟩
      intro e he
      cases hse <;> simp at he <;> rcases he with rfl | rfl | rfl <;> rfl
    · refine absurd ?_ (C32_no_undefined_behaviour hk hru u s')
      rw [he]
      have h1' : (s.pushFr (.usr k)).hs h = some hd := a1
      have c1' : ((s.pushFr (.usr k)).cbs r).life = .alive := c1
      have c2' : ((s.pushFr (.usr k)).cbs r).other = some r.partner := c2
      have c3' : ((s.pushFr (.usr k)).cbs r.partner).life = .alive := c3
      unfold pushOp; simp only [h1', a2, a3, if_true, c1', c2', c3', hub]

/-! ## Versions for programs that follow the rules -/

/-- C22, for programs that follow the rules: a call that transferred control, when control comes back, returns to its caller or throws, and
the caller's stack is exactly as it was at the call; it is not unwound and does not crash - unless the calling coroutine is being
destroyed. -/
theorem C22_resumed_rules (ho : Obeys P l0 g0) (hr : Reach P l0 g0 s0) (hsw : Switches P s0 h k) (hb : ComesBack P s0 s)
    (hctl : s.ctl = .recv) :
    (∃ s' v, CallRuns P s s' ∧ Returned s0 k v s') ∨ (∃ s' e, CallRuns P s s' ∧ Threw s0 e s') := by
  have hrs := hb.later.reach hr
  rcases C22_resumed hr hsw hb hctl with h | h | h
  · exact .inl h
  · exact .inr h
  · exact absurd h (C32_calls_do_not_crash (ho.reachOk hrs) (ho.callOk hrs))

/-- C37, for programs that follow the rules. -/
theorem C37_source_rules (ho : Obeys P l0 g0) (hr : Reach P l0 g0 s0) {a : PushArg V E} {w : V}
    (ha : (a = .copy v ∧ w = v) ∨ (a = .move v ∧ w = P.mv v)) (hp : Calls P s0 (.push h a) k) {r : CbRef}
    (hh : Refers s0 h .push (some r)) (hv : s0.va r.co ≠ .void) (hb : ComesBack P s0 s) (hctl : s.ctl = .recv) :
    (∃ s', CallRuns P s s' ∧ Returned s0 k (.val w) s') ∨ (∃ s' e, CallRuns P s s' ∧ Threw s0 e s') := by
  have hrs := hb.later.reach hr
  rcases C37_source hr ha hp hh hv hb hctl with h | h | h
  · exact .inl h
  · exact .inr h
  · exact absurd h (C32_calls_do_not_crash (ho.reachOk hrs) (ho.callOk hrs))

/-- C27, the part that holds for push coroutines, for programs that follow the rules. -/
theorem C27_put_rules_partial (ho : Obeys P l0 g0) (hr : Reach P l0 g0 s0) {a : PushArg V E} (hc : Calls P s0 (.itPut (some h) a) k)
    (ha : a ≠ .alias) {r : CbRef} (hh : Refers s0 h .push (some r)) (hb : ComesBack P s0 s) (hctl : s.ctl = .recv) :
    (∃ s' i b, CallRuns P s s' ∧ Returned s0 k (.it i) s' ∧ BoolIs s' h b ∧ (i = none ↔ b = false) ∧ (i = none ∨ i = some h)) ∨
    (∃ s' e, CallRuns P s s' ∧ Threw s0 e s') := by
  have hrs := hb.later.reach hr
  rcases C27_partial hr hc ha hh hb hctl with h | h | h
  · exact .inl h
  · exact .inr h
  · exact absurd h (C32_calls_do_not_crash (ho.reachOk hrs) (ho.callOk hrs))

/-! ## C26, C34 for owning objects -/

/-- C26: `begin()` of an object that owns a coroutine of values or references equals `end()` exactly if the function has ended; otherwise it
points to the object.  It changes nothing. -/
theorem C26_begin_owner (hr : Reach P l0 g0 s) (hc : Calls P s (.itBegin h) k) (hh : Refers s h .pull (some ⟨c, .own⟩))
    (hv : s.va c ≠ .void) :
    ∃ s' i, CallRuns P s s' ∧ OnlyResult s k (.it i) s' ∧ (i = none ↔ nFin c s.log ≠ 0) ∧ (i = none ∨ i = some h) := by
  have hi := inv_reach hr
  have hal := own_alive hr hh
  have hvo := valid_own hr hc.user hh
  obtain ⟨hd, a1, a2, a3⟩ := hh
  have hva : hd.va = s.va c := (hi.hok.born h hd _ a1 a3).2.2
  have hb : handleBool s h = .ok (decide (nFin c s.log = 0)) := by
    unfold handleBool; simp only [a1, a3, hal, if_true, hvo]
  obtain ⟨l, h1, h2⟩ := hc
  have e1 := reach_step hr (.loc (.itBeginPull h1 h2 a1 a2 (by rw [hva]; exact hv) hb))
  have e2 := reach_step (hr.step e1) (.loc (.dUsr rfl (upd_at ..)))
  have hrun : CallRuns P s _ := ⟨_, e1, .step (by rintro ⟨_, h⟩; cases h) e2 .refl⟩
  refine ⟨_, (if decide (nFin c s.log = 0) then some h else none), hrun, ?_, ?_, ?_⟩
  · simp only [OnlyResult, upd_upd, List.nil_append, upd_self' s.frames s.cur (b := s.fr) rfl]
  · by_cases hf : nFin c s.log = 0 <;> simp [hf]
  · by_cases hf : nFin c s.log = 0 <;> simp [hf]

/-- C26: `begin()` of an empty object of values or references is `end()`. -/
theorem C26_begin_empty (hr : Reach P l0 g0 s) (hc : Calls P s (.itBegin h) k) {hd : Handle} (hh : s.hs h = some hd) (ht : hd.ty = .pull)
    (hn : hd.cb = none) (hv : hd.va ≠ .void) : ∃ s', CallRuns P s s' ∧ OnlyResult s k (.it none) s' := by
  have hb : handleBool s h = .ok false := by unfold handleBool; simp only [hh, hn]
  obtain ⟨l, h1, h2⟩ := hc
  have e1 := reach_step hr (.loc (.itBeginPull h1 h2 hh ht hv hb))
  have e2 := reach_step (hr.step e1) (.loc (.dUsr rfl (upd_at ..)))
  have hrun : CallRuns P s _ := ⟨_, e1, .step (by rintro ⟨_, h⟩; cases h) e2 .refl⟩
  refine ⟨_, hrun, ?_⟩
  simp only [OnlyResult, upd_upd, List.nil_append, upd_self' s.frames s.cur (b := s.fr) rfl]
  rfl

/-- C34: `get()` on an object that owns a coroutine of values or references, no copy of a pushed value having thrown while an earlier one was held, returns a value to its
caller; it transfers control to nobody, throws nothing, and leaves every coroutine object, stack, continuation and the answer of
`operator bool` of every object as they were. -/
theorem C34_no_switch_owner (hr : Reach P l0 g0 s) (hc : Calls P s (.get h) k) (hh : Refers s h .pull (some ⟨c, .own⟩))
    (hv : s.va c ≠ .void) (ht : spoiled c s.log = false) :
    ∃ s' v, CallRuns P s s' ∧ Returned s k (.val v) s' ∧ s'.log = .got c v :: s.log ∧ s'.hs = s.hs ∧ s'.frames = s.frames ∧
      s'.fib = s.fib ∧ ∀ h', handleBool s' h' = handleBool s h' := by
  have hal := own_alive hr hh
  obtain ⟨⟨w, hw⟩, -⟩ := C08_true_has_value hr hh hv ht
  obtain ⟨v, hsl, -⟩ := slot_of_pushed hr hal hh hw ht
  obtain ⟨s', a1, a2, a3, a4⟩ := get_returns hr hc hh hal hsl
  refine ⟨s', v, a1, a2, a3, ?_⟩
  subst a4
  refine ⟨rfl, rfl, rfl, fun h' => ?_⟩
  refine Aux.handleBool_congr ?_ ?_ ?_ (fun r' => ?_) h' <;> (try rfl)
  dsimp only
  split
  · by_cases hrr : r' = ⟨c, .own⟩
    · subst hrr; simp
    · simp [upd, hrr]
  · simp

/-! ## C31: the flags by name, and in the machine -/

/-- C31: setting one of the three named flags sets it and leaves the other two as they are, in every flag word; the fresh word has none of
them. -/
theorem C31_table (w : StateT) :
    (StateT.has (StateT.orAssign w StateT.complete) StateT.complete = true ∧
      StateT.has (StateT.orAssign w StateT.complete) StateT.unwind = StateT.has w StateT.unwind ∧
      StateT.has (StateT.orAssign w StateT.complete) StateT.destroy = StateT.has w StateT.destroy) ∧
    (StateT.has (StateT.orAssign w StateT.destroy) StateT.destroy = true ∧
      StateT.has (StateT.orAssign w StateT.destroy) StateT.unwind = StateT.has w StateT.unwind ∧
      StateT.has (StateT.orAssign w StateT.destroy) StateT.complete = StateT.has w StateT.complete) ∧
    (StateT.has StateT.none StateT.complete = false ∧ StateT.has StateT.none StateT.unwind = false ∧
      StateT.has StateT.none StateT.destroy = false) ∧
    (StateT.complete ≠ StateT.unwind ∧ StateT.complete ≠ StateT.destroy ∧ StateT.unwind ≠ StateT.destroy) := by
  have hc : IsFlag StateT.complete := .inl rfl
  have hu : IsFlag StateT.unwind := .inr (.inl rfl)
  have hd : IsFlag StateT.destroy := .inr (.inr rfl)
  refine ⟨⟨?_, ?_, ?_⟩, ⟨?_, ?_, ?_⟩, ⟨by decide, by decide, by decide⟩, by decide, by decide, by decide⟩
  · rw [C31_set_flag hc hc]; simp
  · rw [C31_set_flag hc hu]; simp [show ¬ StateT.complete = StateT.unwind by decide]
  · rw [C31_set_flag hc hd]; simp [show ¬ StateT.complete = StateT.destroy by decide]
  · rw [C31_set_flag hd hd]; simp
  · rw [C31_set_flag hd hu]; simp [show ¬ StateT.destroy = StateT.unwind by decide]
  · rw [C31_set_flag hd hc]; simp [show ¬ StateT.destroy = StateT.complete by decide]

/-- C31: what the flags of a control block say in every reachable state.  In the owner's block `complete` is set exactly if the function has
ended, `unwind` is set and `destroy` is not; in the block of the counterpart none is set. -/
theorem C31_machine (hr : Reach P l0 g0 s) (c : Nat) :
    ((s.cbs ⟨c, .own⟩).life = .alive →
      StateT.has (s.cbs ⟨c, .own⟩).state StateT.complete = decide (nFin c s.log ≠ 0) ∧
      StateT.has (s.cbs ⟨c, .own⟩).state StateT.unwind = true ∧ StateT.has (s.cbs ⟨c, .own⟩).state StateT.destroy = false) ∧
    ((s.cbs ⟨c, .syn⟩).life = .alive →
      StateT.has (s.cbs ⟨c, .syn⟩).state StateT.complete = false ∧
      StateT.has (s.cbs ⟨c, .syn⟩).state StateT.unwind = false ∧ StateT.has (s.cbs ⟨c, .syn⟩).state StateT.destroy = false) := by
  constructor
  · intro hal
    rcases (jinv_reach hr).own c hal with ⟨a, -, b⟩ | ⟨a, -, b⟩
    · rw [a, b]; decide
    · rw [a, b]; decide
  · intro hal
    rw [((inv_reach hr).cb.syn_state c hal).1]; decide

/-! ## Concrete cases -/

open Demo Code

/-- C15, C16, C17, C18: `pullMain` while the generator is suspended in its second push, holding a value; and after it has been destroyed. -/
example : Reach Demo.P pullMain [] (stateAt pullMain 14) ∧ (stateAt pullMain 14).stk 1 = .allocated ∧ (stateAt pullMain 14).fnObj 1 = .local ∧
    (stateAt pullMain 14).va 1 = .val ∧ ((stateAt pullMain 14).cbs ⟨1, .own⟩).slot = .live 2 ∧ nTctor 1 (stateAt pullMain 14).log = 2 ∧
    Reach Demo.P pullMain [] (stateAt pullMain 30) ∧ (stateAt pullMain 30).stk 1 = .freed ∧ (stateAt pullMain 30).fnObj 1 = .gone ∧
    nTctor 1 (stateAt pullMain 30).log = 2 ∧ nTdtor 1 (stateAt pullMain 30).log = 2 :=
  ⟨reach _ _ rfl, rfl, rfl, rfl, rfl, rfl, reach _ _ rfl, rfl, rfl, rfl, rfl⟩

/-- C15, C18: a consumer that has been created and not yet resumed: its callable is in the fiber's record. -/
example : Reach Demo.P lazyMain [] (stateAt lazyMain 2) ∧ (stateAt lazyMain 2).stk 1 = .allocated ∧ (stateAt lazyMain 2).fnObj 1 = .record ∧
    (stateAt lazyMain 0).stk 1 = .none ∧ (stateAt lazyMain 0).fnObj 1 = .none := ⟨reach _ _ rfl, rfl, rfl, rfl, rfl⟩

/-- C23: the resumption of coroutine 1, created by main, by the function of coroutine 2. -/
example : Reach Demo.P crossMain [] (stateAt crossMain 8) ∧ (∃ k, PullsFrom Demo.P (stateAt crossMain 8) 1 k) ∧
    Refers (stateAt crossMain 8) 1 .pull (some ⟨1, .own⟩) ∧ lastJump 1 (stateAt crossMain 8).log = some (⟨1, .syn⟩, 1, 0) ∧
    (stateAt crossMain 9).cur = 1 :=
  ⟨reach _ _ rfl, ⟨_, .inl ⟨_, rfl, rfl⟩⟩, ⟨_, rfl, rfl, rfl⟩, rfl, rfl⟩

/-- C23: the push made in step 3 of `pullMain`, and the resumption made in step 9 of `iterMain` by `++it`. -/
example : ReachOk Demo.P pullMain [] (stateAt pullMain 3) ∧ Rules Demo.P (stateAt pullMain 3) ∧
    Refers (stateAt pullMain 3) 0 .push (some ⟨1, .syn⟩) ∧ (∃ k, PushesTo Demo.P (stateAt pullMain 3) 0 (.copy 1) k) ∧
    Fits ((stateAt pullMain 3).va 1) (.copy 1 : PushArg Nat Nat) ∧
    ReachOk Demo.P iterMain [] (stateAt iterMain 9) ∧ Rules Demo.P (stateAt iterMain 9) ∧
    Refers (stateAt iterMain 9) 1 .pull (some ⟨1, .own⟩) ∧ (∃ k, PullsFrom Demo.P (stateAt iterMain 9) 1 k) :=
  ⟨reachOk _ _ rfl, rulesB_ok rfl, ⟨_, rfl, rfl, rfl⟩, ⟨_, .inl ⟨_, rfl, rfl⟩⟩, trivial, reachOk _ _ rfl, rulesB_ok rfl, ⟨_, rfl, rfl, rfl⟩,
    ⟨_, .inr ⟨_, rfl, rfl⟩⟩⟩

/-- C22: the push made in step 3 of `pullMain`, resumed in step 9. -/
example : Obeys Demo.P pullMain [] ∧ Reach Demo.P pullMain [] (stateAt pullMain 3) ∧ (∃ k, Switches Demo.P (stateAt pullMain 3) 0 k) ∧
    ComesBack Demo.P (stateAt pullMain 3) (stateAt pullMain 9) ∧ (stateAt pullMain 9).ctl = .recv :=
  ⟨obeys _ 40 rfl, reach _ _ rfl, ⟨_, .inr ⟨_, .inl ⟨_, rfl, rfl⟩⟩⟩, back _ 3 4 rfl, rfl⟩

/-- C37: the push of an rvalue in step 4 of `moveMain`. -/
example : Obeys Demo.P moveMain [] ∧ Reach Demo.P moveMain [] (stateAt moveMain 4) ∧
    (∃ k, Calls Demo.P (stateAt moveMain 4) (.push 1 (.move 5)) k) ∧ Refers (stateAt moveMain 4) 1 .push (some ⟨1, .own⟩) ∧
    (stateAt moveMain 4).va 1 ≠ .void ∧ ComesBack Demo.P (stateAt moveMain 4) (stateAt moveMain 9) ∧ (stateAt moveMain 9).ctl = .recv :=
  ⟨obeys _ 60 rfl, reach _ _ rfl, ⟨_, _, rfl, rfl⟩, ⟨_, rfl, rfl, rfl⟩, by decide, back _ 4 3 rfl, rfl⟩

/-- C27: the first `*it = 5` of `putMain`. -/
example : Obeys Demo.P putMain [] ∧ Reach Demo.P putMain [] (stateAt putMain 6) ∧
    (∃ k, Calls Demo.P (stateAt putMain 6) (.itPut (some 1) (.copy 5)) k) ∧ Refers (stateAt putMain 6) 1 .push (some ⟨1, .own⟩) ∧
    ComesBack Demo.P (stateAt putMain 6) (stateAt putMain 11) ∧ (stateAt putMain 11).ctl = .recv :=
  ⟨obeys _ 60 rfl, reach _ _ rfl, ⟨_, _, rfl, rfl⟩, ⟨_, rfl, rfl, rfl⟩, back _ 6 3 rfl, rfl⟩

/-- C26: `begin()` in step 5 of `iterMain`; C34: `get()` in step 5 of `pullMain`. -/
example : Reach Demo.P iterMain [] (stateAt iterMain 5) ∧ (∃ k, Calls Demo.P (stateAt iterMain 5) (.itBegin 1) k) ∧
    Refers (stateAt iterMain 5) 1 .pull (some ⟨1, .own⟩) ∧ (stateAt iterMain 5).va 1 ≠ .void ∧ nFin 1 (stateAt iterMain 5).log = 0 ∧
    Reach Demo.P pullMain [] (stateAt pullMain 6) ∧ (∃ k, Calls Demo.P (stateAt pullMain 6) (.get 1) k) ∧
    Refers (stateAt pullMain 6) 1 .pull (some ⟨1, .own⟩) ∧ (stateAt pullMain 6).va 1 ≠ .void ∧ spoiled 1 (stateAt pullMain 6).log = false :=
  ⟨reach _ _ rfl, ⟨_, _, rfl, rfl⟩, ⟨_, rfl, rfl, rfl⟩, by decide, rfl, reach _ _ rfl, ⟨_, _, rfl, rfl⟩, ⟨_, rfl, rfl, rfl⟩, by decide, rfl⟩

/-- C26: `begin()` of a moved-from object. -/
example : let c := mk .pull .val (fun h => push h 1 ret) fun h => op (.moveCtor h) fun _ => op (.itBegin h) fun _ => ret
    ∃ n, n < 12 ∧ Reach Demo.P c [] (stateAt c n) ∧ (∃ k, Calls Demo.P (stateAt c n) (.itBegin 1) k) ∧
    Refers (stateAt c n) 1 .pull none :=
  ⟨7, by decide, reach _ _ rfl, ⟨_, _, rfl, rfl⟩, ⟨_, rfl, rfl, rfl⟩⟩

/-- C31: the flags of the two blocks of the generator in `fullMain`, when it has ended and main asks. -/
example : Reach Demo.P fullMain [] (stateAt fullMain 32) ∧ ((stateAt fullMain 32).cbs ⟨1, .own⟩).life = .alive ∧
    ((stateAt fullMain 32).cbs ⟨1, .syn⟩).life = .alive ∧ nFin 1 (stateAt fullMain 32).log = 1 :=
  ⟨reach _ _ rfl, rfl, rfl, rfl⟩

end Verif
