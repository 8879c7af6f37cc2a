import Verif.Back
import Verif.PropsRules
import Verif.PropsUnwind

/-!
# Properties C01, C12, C46: constructing a `pull_type`

`Calls P s0 (.mk .pull va .ok fn) k`: in `s0` user code constructs a `pull_type` with function `fn`; the coroutine gets the number
`s0.nk`.
-/
namespace Verif
variable {L G V E : Type} {P : Prog L G V E} {l0 : L} {g0 : G} {s0 s s' : St L G V E}
variable {va : Var} {fn : Nat → L} {k : Res V → L} {e : E}

namespace Aux

/-- control comes back to a constructor call -/
theorem back_mk (hr : Reach P l0 g0 s0) (hc : Calls P s0 (.mk .pull va .ok fn) k) (hb : ComesBack P s0 s) :
    Reach P l0 g0 s ∧ s.cur = s0.cur ∧ s.fr = .pullCtor s0.nk :: .usr k :: s0.fr ∧ s.kind s0.nk = .pull ∧
      (s.cbs ⟨s0.nk, .own⟩).life = .alive := by
  have hrs := hb.later.reach hr
  obtain ⟨s1, e1, -, -, -, hf, -⟩ := mk_step hr hc
  have hfr : s.fr = .pullCtor s0.nk :: .usr k :: s0.fr := by rw [hb.frames hr e1, hf]; rfl
  have hi := inv_reach hrs
  have hco : ctorOf (s.frames s.cur) = some s0.nk := by
    rw [show s.frames s.cur = s.fr from rfl, hfr]; rfl
  have hk := hi.hok.ctor_kind s.cur _ hco
  rw [show s.frames s.cur = s.fr from rfl, hfr] at hk
  refine ⟨hrs, ?_, hfr, ?_, hi.hok.ctor _ _ hco⟩
  · obtain ⟨_, _, _, h⟩ := hb; exact h
  · cases hkk : s.kind s0.nk with
    | pull => rfl
    | push => rw [hkk] at hk; cases hk

theorem nDealloc_alive (hr : Reach P l0 g0 s) {c : Nat} (h : (s.cbs ⟨c, .own⟩).life = .alive) : nDealloc c s.log = 0 := by
  cases hn : nDealloc c s.log with
  | zero => rfl
  | succ n => exact absurd h ((C15_not_used_afterwards hr c (by omega)).2.2.2.2 .own)

end Aux
open Aux

/-! ## C01 -/

/-- C01: constructing a `pull_type` enters the function: from the construction on, the first user code that runs is the body of the
function, in a context of its own, with an object of the other class as argument. -/
theorem C01_enters_function (hr : Reach P l0 g0 s0) (hc : Calls P s0 (.mk .pull va .ok fn) k) :
    ∃ s h, CallRuns P s0 s ∧ s.cur = s0.nk ∧ s.cur ≠ s0.cur ∧ s.ctl = .eval (fn h) ∧ s.fr = [] ∧
      Refers s h .push (some ⟨s0.nk, .syn⟩) ∧ nEnter s0.nk s.log = 1 ∧ nEnter s0.nk s0.log = 0 := by
  obtain ⟨s1, e1, h1, h2, h3, h4, h5, h6, h7, h8, h9, h10, h11, h12, -, h13, h14⟩ := mk_step hr hc
  have hr1 := hr.step e1
  have hz := nEnter_fresh hr (Nat.le_refl s0.nk)
  have e2 := reach_step hr1 (.enterPull h1 h3 (by rw [h2]; exact h5) (by rw [h2]; exact h6) (by rw [h2]; exact h8) h10)
  refine ⟨_, s1.nh, ⟨s1, e1, .step (noUser_of_recv h1) e2 .refl⟩, h2, ?_, rfl, h3, ?_, ?_, hz⟩
  · rw [show _ = s0.nk from h2]; exact h13.symm
  · exact ⟨_, upd_at .., rfl, by rw [h2]⟩
  · show nEnter s0.nk (.enter s1.cur :: s1.log) = 1
    rw [h2, h14]
    unfold nEnter at hz ⊢
    simp [Ev.isEnter, hz]

/-- C01: while the constructor has not returned control is elsewhere; when it comes back, the last thing that happened to the
coroutine is that it transferred control out: its function has yielded, or has ended.  (The only other way control can come back is
that the constructing context is itself being destroyed; that cannot happen within the rules.) -/
theorem C01_waits_for_function (hr : Reach P l0 g0 s0) (hc : Calls P s0 (.mk .pull va .ok fn) k) (hb : ComesBack P s0 s) :
    (s.ctl = .raise .forced ∧ ¬ ReachOk P l0 g0 s) ∨
    (s.ctl = .recv ∧ ∃ u, lastJump s0.nk s.log = some (⟨s0.nk, .syn⟩, u, s0.cur)) := by
  obtain ⟨hrs, hcur, hfr, -⟩ := back_mk hr hc hb
  rcases hb.switch hr with h | h
  · obtain ⟨u, -, -, -, hj, -⟩ := back_ctor hrs h (k := s0.nk) (by rw [hfr]; rfl)
    exact .inr ⟨h, u, hcur ▸ hj⟩
  · refine .inl ⟨h, fun hk => ?_⟩
    obtain ⟨rest, d⟩ := disc_reach hk
    have := d.forced h
    rw [hfr] at this; cases this

/-- C01: there are three cases: the function has not ended (it yielded), it has returned, or it has thrown. -/
theorem C01_cases (hr : Reach P l0 g0 s0) (hc : Calls P s0 (.mk .pull va .ok fn) k) (hb : ComesBack P s0 s) :
    nFin s0.nk s.log = 0 ∨ Ev.fin s0.nk none ∈ s.log ∨ ∃ e, Ev.fin s0.nk (some e) ∈ s.log := by
  obtain ⟨hrs, hcur, hfr, -, hal⟩ := back_mk hr hc hb
  rcases (jinv_reach hrs).own _ hal with ⟨_, _, h⟩ | ⟨_, h, _⟩
  · exact .inl h
  · cases hx : (s.cbs ⟨s0.nk, .own⟩).except with
    | none => rw [hx] at h; exact .inr (.inl h)
    | some e => rw [hx] at h; exact .inr (.inr ⟨e, h⟩)

/-- C01: if it yielded, the constructor returns an object that owns the coroutine and is valid. -/
theorem C01_yielded (hr : Reach P l0 g0 s0) (hc : Calls P s0 (.mk .pull va .ok fn) k) (hb : ComesBack P s0 s)
    (hctl : s.ctl = .recv) (hf : nFin s0.nk s.log = 0) :
    ∃ s' h, CallRuns P s s' ∧ Returned s0 k (.handle h) s' ∧ Refers s' h .pull (some ⟨s0.nk, .own⟩) ∧
      handleBool s' h = .ok true ∧ s.hs h = none := by
  obtain ⟨hrs, hcur, hfr, hkd, hal⟩ := back_mk hr hc hb
  obtain ⟨u, ha, hfib, -, hj, hot⟩ := back_ctor hrs hctl (k := s0.nk) (by rw [hfr]; rfl)
  have hst : (s.cbs ⟨s0.nk, .own⟩).state = StateT.unwind ∧ (s.cbs ⟨s0.nk, .own⟩).except = none := by
    rcases (jinv_reach hrs).own _ hal with ⟨a, b, _⟩ | ⟨_, _, h⟩
    · exact ⟨a, b⟩
    · rw [hf] at h; cases h
  have hbv : s.va s0.nk = .void ∨ (s.cbs ⟨s0.nk, .own⟩).bvalid = true := by
    by_cases hv : s.va s0.nk = .void
    · exact .inl hv
    · right
      have := (tinv_reach hrs).yd s0.nk
      rw [hkd] at this
      exact this hal hf ⟨_, _, hj⟩ hv
  have hval : cbValid s ⟨s0.nk, .own⟩ = true := by
    unfold cbValid
    rw [hkd, hot, hst.1]
    have hn : StateT.has StateT.unwind StateT.complete = false := by rfl
    rcases hbv with h | h <;> simp [isPullSide, hn, h]
  have e1 := reach_step hrs (.pullCtor hctl hfr hkd hal hfib ha hst.2 hval)
  have r1 := hrs.step e1
  have e2 := reach_step r1 (.loc (.dUsr rfl (upd_at ..)))
  have hrun : CallRuns P s _ := ⟨_, e1, .step (by rintro ⟨_, h⟩; cases h) e2 .refl⟩
  refine ⟨_, s.nh, hrun, ?_, ⟨_, upd_at .., rfl, rfl⟩, ?_, ?_⟩
  · exact ⟨hcur, by simp [hcur, St.fr], rfl⟩
  · simp only [handleBool, upd_at, hal]
    have : cbValid s ⟨s0.nk, .own⟩ = true := hval
    unfold cbValid at this ⊢
    simpa using this
  · cases hh : s.hs s.nh with
    | none => rfl
    | some x => have := (inv_reach hrs).hok.lt s.nh (by rw [hh]; simp); omega

namespace Aux

theorem ended_air (hr : Reach P l0 g0 s0) (hc : Calls P s0 (.mk .pull va .ok fn) k) (hb : ComesBack P s0 s)
    (hctl : s.ctl = .recv) (hf : nFin s0.nk s.log ≠ 0) : s.fib .air = some s0.nk := by
  obtain ⟨hrs, hcur, hfr, hkd, hal⟩ := back_mk hr hc hb
  obtain ⟨u, ha, hfib, -, hj, hot⟩ := back_ctor hrs hctl (k := s0.nk) (by rw [hfr]; rfl)
  rcases (jinv_reach hrs).finJ _ hf with ⟨j, h⟩ | ⟨i, h⟩
  · rw [h] at hj; cases hj; exact ha
  · rw [h] at hj; cases hj

theorem nFin_of_mem {c : Nat} {x : Option E} {log : List (Ev V E)} (h : Ev.fin c x ∈ log) : nFin c log ≠ 0 := by
  unfold nFin
  intro h0
  have := List.countP_eq_zero.1 h0 _ h
  simp [Ev.isFin] at this

theorem nFin_unique : ∀ {c : Nat} {x y : Option E} {log : List (Ev V E)}, Ev.fin c x ∈ log → Ev.fin c y ∈ log → nFin c log = 1 →
    x = y
  | c, x, y, [], h, _, _ => by cases h
  | c, x, y, ev :: log, h1, h2, h3 => by
    unfold nFin at h3
    rw [List.countP_cons] at h3
    rcases List.mem_cons.1 h1 with h1' | h1' <;> rcases List.mem_cons.1 h2 with h2' | h2'
    · rw [← h1'] at h2'; cases h2'; rfl
    · subst h1'
      have := nFin_of_mem h2'
      rw [if_pos (by simp [Ev.isFin])] at h3
      unfold nFin at this
      omega
    · subst h2'
      have := nFin_of_mem h1'
      rw [if_pos (by simp [Ev.isFin])] at h3
      unfold nFin at this
      omega
    · have := nFin_of_mem h1'
      refine nFin_unique h1' h2' ?_
      unfold nFin at this ⊢
      split at h3 <;> omega

theorem except_of_fin (hr : Reach P l0 g0 s) {c : Nat} {x : Option E} (hal : (s.cbs ⟨c, .own⟩).life = .alive)
    (hf : Ev.fin c x ∈ s.log) :
    (s.cbs ⟨c, .own⟩).except = x ∧ (s.cbs ⟨c, .own⟩).state = StateT.or StateT.unwind StateT.complete := by
  rcases (jinv_reach hr).own _ hal with ⟨_, _, h⟩ | ⟨a, b, h⟩
  · exact absurd h (nFin_of_mem hf)
  · exact ⟨nFin_unique b hf h, a⟩

end Aux

/-- C01: if it returned, the constructor returns an object that is not-a-coroutine (so `operator bool` is false); the stack of the
coroutine has been given back exactly once.  (The second alternative, a crash, does not occur within the rules, see
`C01_returned_rules`.) -/
theorem C01_returned (hr : Reach P l0 g0 s0) (hc : Calls P s0 (.mk .pull va .ok fn) k) (hb : ComesBack P s0 s)
    (hctl : s.ctl = .recv) (hf : Ev.fin s0.nk none ∈ s.log) :
    (∃ s' h, CallRuns P s s' ∧ Returned s0 k (.handle h) s' ∧ Refers s' h .pull none ∧ handleBool s' h = .ok false ∧
      s.hs h = none ∧ nDealloc s0.nk s.log = 0 ∧ nDealloc s0.nk s'.log = 1) ∨ CallCrashes P s := by
  obtain ⟨hrs, hcur, hfr, hkd, hal⟩ := back_mk hr hc hb
  have ha := ended_air hr hc hb hctl (nFin_of_mem hf)
  obtain ⟨u, -, hfib, -, hj, hot⟩ := back_ctor hrs hctl (k := s0.nk) (by rw [hfr]; rfl)
  obtain ⟨hex, hst⟩ := except_of_fin hrs hal hf
  have hval : cbValid s ⟨s0.nk, .own⟩ = false := by
    unfold cbValid
    rw [hkd, hot, hst]
    have hn : StateT.has (StateT.or StateT.unwind StateT.complete) StateT.complete = true := by rfl
    simp [isPullSide, hn]
  have hdt : (∃ sl evs, Dtor (s.kind s0.nk) (s.va s0.nk) (s.cbs ⟨s0.nk, .own⟩) ⟨s0.nk, .own⟩ sl evs) ∨ CallCrashes P s := by
    by_cases hx : isPullSide (s.kind s0.nk) .own = true ∧ s.va s0.nk = .val ∧ (s.cbs ⟨s0.nk, .own⟩).bvalid = true
    · cases hsl : (s.cbs ⟨s0.nk, .own⟩).slot with
      | live v => exact .inl ⟨_, _, .val hx.1 hx.2.1 hx.2.2 hsl⟩
      | _ =>
        right; left
        have hu : StateT.has (s.cbs ⟨s0.nk, .own⟩).state StateT.unwind = true := by rw [hst]; rfl
        have hv' : cbValid (((s.setFib (.cb ⟨s0.nk, .own⟩) (s.fib .air)).setFib .air none).setFr (.usr k :: s0.fr)) ⟨s0.nk, .own⟩ = false :=
          hval
        unfold step
        rw [hctl]
        simp only [recvStep, hfr, hal, hfib]
        simp only [St.setFib, St.setFr] at hv' ⊢
        simp only [hex, hv', Bool.false_eq_true, if_false, deallocate, St.pushFr, hal, St.setFr, hu, if_true, destroyCb, dtorSlot,
          St.setFib, hx.1, hx.2.1, hx.2.2, hsl, beq_self_eq_true, Bool.and_self]
        exact ⟨_, _, rfl⟩
    · exact .inl ⟨_, _, .skip hx⟩
  rcases hdt with ⟨sl, evs, hdt⟩ | h
  · have hdy := Dying.ctorInvalid (P := P) hctl hfr hkd hal hfib ha hex hval hdt
    rcases drop_done hrs hdy with ⟨s1, evs1, hrun, hd⟩ | h
    · left
      have hr1 := (callRuns_reach hrs hrun).2
      have hl1 := (callRuns_reach hrs hrun).1
      have hc1 : s1.cur = s.cur := hd.cur
      have hf1 : s1.fr = .ctorDrop (s.va s0.nk) :: .usr k :: s0.fr := by
        show s1.frames s1.cur = _
        rw [hc1]
        have : s1.frames s.cur = _ := hd.same.1
        rw [this]; simp
      have e2 := reach_step hr1 (.ctorDrop hd.ctl hf1)
      have r2 := hr1.step e2
      have e3 := reach_step r2 (.loc (.dUsr rfl (upd_at ..)))
      have hrun' := (hrun.one (by rintro ⟨_, h⟩; rw [hd.ctl] at h; cases h) e2).one (by rintro ⟨_, h⟩; cases h) e3
      refine ⟨_, s1.nh, hrun', ⟨hc1.trans hcur, by simp [hc1.trans hcur, St.fr], rfl⟩, ⟨_, upd_at .., rfl, rfl⟩, ?_, ?_, ?_, ?_⟩
      · simp only [handleBool, upd_at]
      · have : s1.nh = s.nh := hd.shr.nh
        rw [this]
        cases hh : s.hs s.nh with
        | none => rfl
        | some x => have := (inv_reach hrs).hok.lt s.nh (by rw [hh]; simp); omega
      · exact nDealloc_alive hrs hal
      · exact gone_returned hrs hl1 hal hd.gone.1
    · exact .inr h
  · exact .inr h

/-- C01 for programs that obey the rules: the constructor returns not-a-coroutine. -/
theorem C01_returned_rules (hk : ReachOk P l0 g0 s) (ho : CallOk P s) (hr : Reach P l0 g0 s0)
    (hc : Calls P s0 (.mk .pull va .ok fn) k) (hb : ComesBack P s0 s) (hf : Ev.fin s0.nk none ∈ s.log) :
    ∃ s' h, CallRuns P s s' ∧ Returned s0 k (.handle h) s' ∧ Refers s' h .pull none ∧ handleBool s' h = .ok false ∧
      s.hs h = none ∧ nDealloc s0.nk s.log = 0 ∧ nDealloc s0.nk s'.log = 1 := by
  rcases C01_waits_for_function hr hc hb with ⟨-, h⟩ | ⟨hctl, -⟩
  · exact absurd hk h
  · rcases C01_returned hr hc hb hctl hf with h | h
    · exact h
    · exact absurd h (C32_calls_do_not_crash hk ho)

/-! ## C12 -/

/-- C12: if the function threw `e` before its first yield, the constructor throws `e`; no object refers to the coroutine, its stack
is empty and has been given back exactly once before the exception reaches the caller. -/
theorem C12_constructor_throws (hr : Reach P l0 g0 s0) (hc : Calls P s0 (.mk .pull va .ok fn) k) (hb : ComesBack P s0 s)
    (hctl : s.ctl = .recv) (hf : Ev.fin s0.nk (some e) ∈ s.log) :
    (∃ s', CallRuns P s s' ∧ Threw s0 e s' ∧ nDealloc s0.nk s.log = 0 ∧ nDealloc s0.nk s'.log = 1 ∧ s'.frames s0.nk = [] ∧
      s'.nh = s.nh ∧ (∀ h ty, ¬ Refers s' h ty (some ⟨s0.nk, .own⟩)) ∧ (∀ h ty, s.hs h = none → ¬ Refers s' h ty none)) ∨
    CallCrashes P s := by
  obtain ⟨hrs, hcur, hfr, hkd, hal⟩ := back_mk hr hc hb
  have ha := ended_air hr hc hb hctl (nFin_of_mem hf)
  obtain ⟨u, -, hfib, -, hj, hot⟩ := back_ctor hrs hctl (k := s0.nk) (by rw [hfr]; rfl)
  obtain ⟨hex, hst⟩ := except_of_fin hrs hal hf
  have hdy := Dying.ctorThrow (P := P) hctl hfr hkd hal hfib ha hex
  rcases drop_done hrs hdy with ⟨s1, evs1, hrun, hd⟩ | h
  · left
    have hr1 := (callRuns_reach hrs hrun).2
    have hl1 := (callRuns_reach hrs hrun).1
    have hc1 : s1.cur = s.cur := hd.cur
    have hf1 : s1.fr = .ctorFail e :: .usr k :: s0.fr := by
      show s1.frames s1.cur = _
      rw [hc1]
      have : s1.frames s.cur = _ := hd.same.1
      rw [this]; simp
    have e2 := reach_step hr1 (.loc (.dCtorFail hd.ctl hf1))
    have r2 := hr1.step e2
    have e3 := reach_step r2 (.loc (.rUsrU rfl (upd_at ..)))
    have r3 := r2.step e3
    have hrun' := (hrun.one (by rintro ⟨_, h⟩; rw [hd.ctl] at h; cases h) e2).one (by rintro ⟨_, h⟩; cases h) e3
    have hne : s0.nk ≠ s.cur := hd.ne
    have hdl : nDealloc s0.nk s1.log = 1 := gone_returned hrs hl1 hal hd.gone.1
    refine ⟨_, hrun', ⟨hc1.trans hcur, by simp [hc1.trans hcur, St.fr], rfl⟩, nDealloc_alive hrs hal, ?_, ?_, ?_, ?_, ?_⟩
    · show nDealloc s0.nk ([_] ++ ([] ++ s1.log)) = 1
      rw [← hdl]; simp [nDealloc, Ev.isDealloc]
    · have := hd.gone.2.1
      simp only [upd, hc1, if_neg hne]; exact this
    · exact hd.shr.nh
    · rintro h ty ⟨hdl, h1, h2, h3⟩
      have := ((inv_reach r3).hok.own h hdl s0.nk h1 h3).1
      exact (inv_reach r3).cb.none_life s0.nk .own hd.gone.1 |>.1 this
    · rintro h ty h0 ⟨hdl, h1, -⟩
      have h1 : s1.hs h = some hdl := h1
      rcases hd.shr.hs h with h2 | h2
      · rw [h2] at h1
        have h1 : s.hs h = some hdl := h1
        rw [h0] at h1; cases h1
      · rw [h2] at h1; cases h1
  · exact .inr h

/-- C12 for programs that obey the rules. -/
theorem C12_constructor_throws_rules (hk : ReachOk P l0 g0 s) (ho : CallOk P s) (hr : Reach P l0 g0 s0)
    (hc : Calls P s0 (.mk .pull va .ok fn) k) (hb : ComesBack P s0 s) (hf : Ev.fin s0.nk (some e) ∈ s.log) :
    ∃ s', CallRuns P s s' ∧ Threw s0 e s' ∧ nDealloc s0.nk s.log = 0 ∧ nDealloc s0.nk s'.log = 1 ∧ s'.frames s0.nk = [] ∧
      s'.nh = s.nh ∧ (∀ h ty, ¬ Refers s' h ty (some ⟨s0.nk, .own⟩)) ∧ (∀ h ty, s.hs h = none → ¬ Refers s' h ty none) := by
  rcases C01_waits_for_function hr hc hb with ⟨-, h⟩ | ⟨hctl, -⟩
  · exact absurd hk h
  · rcases C12_constructor_throws hr hc hb hctl hf with h | h
    · exact h
    · exact absurd h (C32_calls_do_not_crash hk ho)

/-! ## C46 -/

namespace Aux

theorem Step.unborn {c : Nat} (hi : Inv s) (hs : Step P s s') (hb : s.base c = .none) (hc : c < s.nk) :
    s'.base c = .none ∧ s'.stk c = s.stk c ∧ s.nk ≤ s'.nk := by
  have hcc : c ≠ s.cur := fun h => hi.sched.cur_live (h ▸ hb)
  have hcn : c ≠ s.nk := by omega
  have hsc : ∀ {h s1}, Scope P s h s1 → s1.base c = .none ∧ s1.stk c = s.stk c ∧ s.nk ≤ s1.nk := by
    intro h s1 hsc
    cases hsc <;> simp [upd, hcc, hb]
  have hdy : ∀ {f s1}, Dying P s f s1 → s1.base c = .none ∧ s1.stk c = s.stk c ∧ s.nk ≤ s1.nk := by
    intro f s1 hd
    cases hd
    case handle h _ _ _ _ => exact (hsc h :)
    all_goals simp [upd, hcc, hb]
  cases hs
  case nop h _ _ => exact (hsc h :)
  case dropNone h => exact (hdy h :)
  case dropSome h => exact (hdy h :)
  all_goals simp [upd, hcc, hcn, hb]

theorem leaked {c : Nat} (hr : Reach P l0 g0 s) (hb : s.base c = .none) (hst : s.stk c = .allocated) (hl : Later P s s') :
    nAlloc c s'.log = 1 ∧ nDealloc c s'.log = 0 := by
  have hlt : c < s.nk := by
    have := life_reach hr c
    rw [hb] at this
    simp only [LifeOk] at this
    split at this
    · assumption
    · rw [hst] at this; cases this.1
  have key : s'.base c = .none ∧ s'.stk c = .allocated ∧ c < s'.nk := by
    induction hl with
    | refl => exact ⟨hb, hst, hlt⟩
    | step h1 h2 ih =>
      have hi := inv_reach (h1.reach hr)
      obtain ⟨a, b, c'⟩ := Aux.Step.unborn hi (step_rel hi h2) ih.1 ih.2.2
      exact ⟨a, b.trans ih.2.1, by omega⟩
  have := life_reach (hl.reach hr) c
  rw [key.1, key.2.1] at this
  simp only [LifeOk, key.2.2, if_true] at this
  rcases this with ⟨_, _, h⟩ | ⟨h, _⟩
  · exact ⟨h.al, h.de⟩
  · cases h

end Aux

/-- Full statement of C46 (false, see `C46_refuted`): when construction fails (allocating the stack fails, or copying the callable), the
exception reaches the caller and no stack that was not allocated before is allocated. -/
def C46_statement (P : Prog L G V E) (l0 : L) (g0 : G) : Prop :=
  ∀ s kd va fn k e, ReachOk P l0 g0 s → (Calls P s (.mk kd va (.alloc e) fn) k ∨ Calls P s (.mk kd va (.fnCopy e) fn) k) →
    ∃ s', CallRuns P s s' ∧ Threw s e s' ∧
      ∀ c, nDealloc c s'.log < nAlloc c s'.log → nDealloc c s.log < nAlloc c s.log

/-- C46, stack allocation fails: the constructor throws what the allocator threw, nothing is allocated, no object or coroutine comes
into being.  (The case that the function itself fails is `C12_constructor_throws`.  Missing for the full statement: the callable's
copy constructor throws.) -/
theorem C46_partial {kd : Kind} (hr : Reach P l0 g0 s) (hc : Calls P s (.mk kd va (.alloc e) fn) k) :
    ∃ s', CallRuns P s s' ∧ Threw s e s' ∧ s'.hs = s.hs ∧ s'.cbs = s.cbs ∧ s'.base = s.base ∧ s'.stk = s.stk ∧ s'.g = s.g ∧
      s'.log = .exc s.cur e :: s.log := by
  obtain ⟨l, h1, h2⟩ := hc
  have e1 := reach_step hr (.loc (.mkAlloc h1 h2))
  have r1 := hr.step e1
  have e2 := reach_step r1 (.loc (.rUsrU rfl (upd_at ..)))
  exact ⟨_, ⟨_, e1, .step (by rintro ⟨_, h⟩; cases h) e2 .refl⟩, ⟨rfl, by simp [St.fr], rfl⟩, rfl, rfl, rfl, rfl, rfl, rfl⟩

/-- C46, the callable's copy constructor throws: the constructor throws, but the stack it has allocated is not returned, and never will
be, whatever the program does. -/
theorem C46_copy_fails_leaks {kd : Kind} (hr : Reach P l0 g0 s) (hc : Calls P s (.mk kd va (.fnCopy e) fn) k) :
    ∃ s', CallRuns P s s' ∧ Threw s e s' ∧ s'.hs = s.hs ∧ nAlloc s.nk s.log = 0 ∧
      ∀ s'', Later P s' s'' → nAlloc s.nk s''.log = 1 ∧ nDealloc s.nk s''.log = 0 := by
  obtain ⟨l, h1, h2⟩ := hc
  have hi := inv_reach hr
  have hnb : s.base s.nk = .none := by
    cases hb : s.base s.nk with
    | none => rfl
    | _ => have := hi.sched.lt_nk s.nk (by rw [hb]; simp); omega
  have hz := life_reach hr s.nk
  rw [hnb] at hz
  simp only [LifeOk, Nat.lt_irrefl, if_false] at hz
  have e1 := reach_step hr (.mkFn h1 h2)
  have r1 := hr.step e1
  have e2 := reach_step r1 (.loc (.rUsrU rfl (upd_at ..)))
  have r2 := r1.step e2
  refine ⟨_, ⟨_, e1, .step (by rintro ⟨_, h⟩; cases h) e2 .refl⟩, ⟨rfl, by simp [St.fr], rfl⟩, rfl, hz.2.2.al, ?_⟩
  intro s'' hl
  exact leaked r2 hnb (by simp) hl

open Demo in
/-- C46 is false: the program constructs a coroutine with a callable whose copy throws, and catches the exception. -/
theorem C46_refuted : Obeys Demo.P copyFailMain [] ∧ ¬ C46_statement Demo.P copyFailMain [] := by
  refine ⟨obeys _ 40 rfl, ?_⟩
  intro h
  have hc : Calls Demo.P (stateAt copyFailMain 1) (.mk .pull .val (.fnCopy 3) gen) (fun _ => Code.endTry Code.ret) := ⟨_, rfl, rfl⟩
  obtain ⟨s1, ⟨s2, e1, hn⟩, ht, hx⟩ := h (stateAt copyFailMain 1) .pull .val gen _ 3 (reachOk _ _ rfl) (.inr hc)
  have hl : Later Demo.P (stateAt copyFailMain 1) s1 := (Later.step .refl e1).trans hn.later
  have e2 : step Demo.P (stateAt copyFailMain 1) = .next (stateAt copyFailMain 2) := rfl
  have hs2 : s2 = stateAt copyFailMain 2 := by rw [e2] at e1; exact (Out.next.inj e1).symm
  subst hs2
  have := leaked (reach copyFailMain 2 rfl) (c := 1) rfl rfl hn.later
  have h1 := hx 1 (by omega)
  exact absurd h1 (by decide)

/-! ## Non-trivial cases -/

namespace Demo
open Code

/-- The function returns without a value. -/
def silentMain : C := mk .pull .val (fun _ => obj 3 (leave ret)) fun h => op (.valid h) fun _ => ret

/-- The allocator throws 4. -/
def allocFailMain : C :=
  tryc (fun _ => ret) (op (.mk .pull .val (.alloc 4) gen) fun _ => endTry ret)

end Demo

open Demo in
/-- C01, yielded: a generator with a local object yields 1. -/
example : Reach Demo.P pullMain [] (stateAt pullMain 0) ∧ ComesBack Demo.P (stateAt pullMain 0) (stateAt pullMain 4) ∧
    (stateAt pullMain 4).ctl = .recv ∧ nFin 1 (stateAt pullMain 4).log = 0 ∧
    ∃ k, Calls Demo.P (stateAt pullMain 0) (.mk .pull .val .ok gen) k :=
  ⟨reach _ _ rfl, ⟨stateAt pullMain 3, .next (.next (.first rfl (by decide)) rfl (by decide)) rfl (by decide), rfl, rfl⟩, rfl, rfl,
    ⟨_, _, rfl, rfl⟩⟩

open Demo in
/-- C01, returned: the function of `silentMain` returns without yielding. -/
example : Reach Demo.P silentMain [] (stateAt silentMain 0) ∧ ComesBack Demo.P (stateAt silentMain 0) (stateAt silentMain 6) ∧
    ReachOk Demo.P silentMain [] (stateAt silentMain 6) ∧ CallOk Demo.P (stateAt silentMain 6) ∧
    Ev.fin 1 none ∈ (stateAt silentMain 6).log ∧
    ∃ k, Calls Demo.P (stateAt silentMain 0) (.mk .pull .val .ok (fun _ => Code.obj 3 (Code.leave Code.ret))) k :=
  ⟨reach _ _ rfl, ⟨stateAt silentMain 5, .next (.next (.next (.next (.first rfl (by decide)) rfl (by decide)) rfl (by decide)) rfl
    (by decide)) rfl (by decide), rfl, rfl⟩, reachOk _ _ rfl, (obeys _ 40 rfl).callOk (reach _ _ rfl), List.mem_of_getElem? (i := 1) rfl,
    ⟨_, _, rfl, rfl⟩⟩

open Demo in
/-- C12: the function of `earlyMain` throws 9 while it has a local object, in a `try` block of main. -/
example : Reach Demo.P earlyMain [] (stateAt earlyMain 1) ∧ ComesBack Demo.P (stateAt earlyMain 1) (stateAt earlyMain 7) ∧
    ReachOk Demo.P earlyMain [] (stateAt earlyMain 7) ∧ CallOk Demo.P (stateAt earlyMain 7) ∧
    Ev.fin 1 (some 9) ∈ (stateAt earlyMain 7).log ∧
    ∃ k, Calls Demo.P (stateAt earlyMain 1) (.mk .pull .val .ok (fun _ => Code.obj 3 (Code.throw 9))) k :=
  ⟨reach _ _ rfl, ⟨stateAt earlyMain 6, .next (.next (.next (.next (.first rfl (by decide)) rfl (by decide)) rfl (by decide)) rfl
    (by decide)) rfl (by decide), rfl, rfl⟩, reachOk _ _ rfl, (obeys _ 40 rfl).callOk (reach _ _ rfl), List.mem_of_getElem? (i := 1) rfl,
    ⟨_, _, rfl, rfl⟩⟩

open Demo in
/-- C46: the allocator throws, and the copy constructor throws. -/
example : Reach Demo.P allocFailMain [] (stateAt allocFailMain 1) ∧
    Calls Demo.P (stateAt allocFailMain 1) (.mk .pull .val (.alloc 4) gen) (fun _ => Code.endTry Code.ret) ∧
    Calls Demo.P (stateAt copyFailMain 1) (.mk .pull .val (.fnCopy 3) gen) (fun _ => Code.endTry Code.ret) :=
  ⟨reach _ _ rfl, ⟨_, rfl, rfl⟩, ⟨_, rfl, rfl⟩⟩

end Verif
