import Verif.Back
import Verif.HeldInv
import Verif.SpecMore

/-! # Transfers of control: what a switching step does.  Proof material. -/
namespace Verif
variable {L G V E : Type}
variable {P : Prog L G V E} {l0 : L} {g0 : G} {s s' : St L G V E}

theorem Scope.nj {s1 : St L G V E} {h : Nat} (hs : Scope P s h s1) : s1.cur = s.cur ∧ ∃ evs, s1.log = evs ++ s.log ∧ ∀ e ∈ evs, nj e = true := by
  obtain ⟨evs, h1, h2⟩ := hs.jq
  exact ⟨hs.eqs.1, evs, h1, nj_of_jq h2⟩

theorem Dying.nj {s0 : St L G V E} {f : Option Nat} (hs : Dying P s f s0) :
    s0.cur = s.cur ∧ ∃ evs, s0.log = evs ++ s.log ∧ ∀ e ∈ evs, nj e = true := by
  cases hs
  case handle evs' hsc _ _ _ hd =>
    obtain ⟨h0, evs, h1, h2⟩ := hsc.nj
    refine ⟨h0, evs' ++ evs, by simp only [h1, List.append_assoc], ?_⟩
    intro e he
    rcases List.mem_append.1 he with he | he
    · exact nj_of_jq hd.jq e he
    · exact h2 e he
  case ctorInvalid hd => exact ⟨rfl, _, rfl, nj_of_jq hd.jq⟩
  case ctorThrow => exact ⟨rfl, [_], rfl, by simp [Verif.nj]⟩
  case ctorUnw => exact ⟨rfl, [], rfl, by simp⟩
  case syn hd => exact ⟨rfl, _, rfl, nj_of_jq hd.jq⟩

/-- a step that changes the running context -/
theorem Step.switch (hs : Step P s s') (hne : s'.cur ≠ s.cur) :
    ∃ evs, (∀ e ∈ evs, Verif.nj e = true) ∧
      ((s'.ctl = .recv ∧ ∃ r, s'.log = .jump r s.cur s'.cur :: (evs ++ s.log)) ∨
       (s'.ctl = .raise .forced ∧ s'.log = .unwind s.cur s'.cur :: (evs ++ s.log)) ∨
       (s'.ctl = .recv ∧ s'.log = .dealloc s.cur :: (evs ++ s.log))) := by
  cases hs
  case nop h _ _ => exact absurd h.nj.1 hne
  case dropNone h => exact absurd h.nj.1 hne
  case dropSome h =>
    obtain ⟨h0, evs, h1, h2⟩ := h.nj
    exact ⟨evs, h2, .inr (.inl ⟨rfl, by simp [h0, h1]⟩)⟩
  case mk => exact ⟨[_, _], by simp [nj], .inl ⟨rfl, _, rfl⟩⟩
  case push hse _ => exact ⟨_, nj_of_jq hse.jq, .inl ⟨rfl, _, rfl⟩⟩
  case pull => exact ⟨[], by simp, .inl ⟨rfl, _, rfl⟩⟩
  case enterPush => exact ⟨[], by simp, .inl ⟨rfl, _, rfl⟩⟩
  case fin => exact ⟨[_, _], by simp [nj], .inl ⟨rfl, _, rfl⟩⟩
  case exit =>
    refine ⟨if s.fnObj s.cur = .record then [.fnDtor s.cur] else [], ?_, .inr (.inr ⟨rfl, rfl⟩)⟩
    split <;> simp [nj]
  all_goals exact absurd rfl hne

/-! ## exceptions are rethrown where control came back -/

/-- every rethrow happens in the context the function's end returned to -/
def ReOk : List (Ev V E) → Prop
  | [] => True
  | .rethrow k i e :: l => lastJump k l = some (⟨k, .syn⟩, k, i) ∧ Ev.fin k (some e) ∈ l ∧ ReOk l
  | _ :: l => ReOk l

theorem ReOk.app {evs l : List (Ev V E)} (h : ReOk l) (hq : ∀ e ∈ evs, jq e = true) : ReOk (evs ++ l) := by
  induction evs with
  | nil => exact h
  | cons e t ih =>
    have h1 := ih (fun e he => hq e (by simp [he]))
    have h2 := hq e (by simp)
    cases e <;> first | exact h1 | simp [jq] at h2

theorem ReOk.at {k i : Nat} {e : E} {b : List (Ev V E)} : ∀ {a}, ReOk (a ++ .rethrow k i e :: b) →
    lastJump k b = some (⟨k, .syn⟩, k, i) ∧ Ev.fin k (some e) ∈ b
  | [], h => ⟨h.1, h.2.1⟩
  | x :: a, h => by
    have : ReOk (a ++ .rethrow k i e :: b) := by cases x <;> first | exact h.2.2 | exact h
    exact ReOk.at this

/-- the exception of a live owner block with a pending arrival -/
theorem pending_re (hr : Reach P l0 g0 s) (hc : s.ctl = .recv) {k u : Nat} {e : E} (ha : s.fib .air = some u)
    (hh : hole (s.base s.cur) s.cur s.fr = some ⟨k, .own⟩) (hal : (s.cbs ⟨k, .own⟩).life = .alive)
    (hx : (s.cbs ⟨k, .own⟩).except = some e) :
    lastJump k s.log = some (⟨k, .syn⟩, k, s.cur) ∧ Ev.fin k (some e) ∈ s.log := by
  have hj := jinv_reach hr
  have h1 := (hj.pendingOwn (inv_reach hr) hc ha hh).1
  rcases hj.own k hal with ⟨_, h, _⟩ | ⟨_, h, hn⟩
  · rw [hx] at h; cases h
  · rw [hx] at h
    refine ⟨?_, h⟩
    rcases hj.finJ k (by omega) with ⟨j, h2⟩ | ⟨i, h2⟩
    · rw [h1] at h2; cases h2; exact h1
    · rw [h1] at h2; cases h2

theorem synExcept (hr : Reach P l0 g0 s) {k : Nat} (hal : (s.cbs ⟨k, .syn⟩).life = .alive) : (s.cbs ⟨k, .syn⟩).except = none := by
  exact ((inv_reach hr).cb.syn_state k hal).2

theorem reOk_reach (hr : Reach P l0 g0 s) : ReOk s.log := by
  induction hr with
  | init => trivial
  | @step s s' hr e ih =>
    have hs := step_rel (inv_reach hr) e
    have hsc : ∀ {h s1}, Scope P s h s1 → ReOk s1.log := by
      intro h s1 hs
      obtain ⟨evs, h1, h2⟩ := hs.jq
      rw [h1]; exact ih.app h2
    have hdy : ∀ {f s0}, Dying P s f s0 → ReOk s0.log := by
      intro f s0 hd
      cases hd
      case handle h _ _ _ hd => exact (hsc h).app hd.jq
      case ctorInvalid hd => exact ih.app hd.jq
      case ctorThrow h1 h2 h3 h4 h5 h6 h7 =>
        obtain ⟨a, b⟩ := pending_re hr h1 h6 (by rw [h2]; rfl) h4 h7
        exact ⟨a, b, ih⟩
      case ctorUnw => exact ih
      case syn hd => exact ih.app hd.jq
    cases hs
    case loc h => exact ih.app h.jq.1
    case pushThrow h => exact ih.app h.jq
    case push h _ => exact ih.app h.jq
    case nop h _ _ => exact (hsc h :)
    case dropNone h => exact (hdy h :)
    case dropSome h => exact (hdy h :)
    case asgThrow r t u e' h1 h2 h3 h4 h5 h6 =>
      obtain ⟨k, sd⟩ := r
      cases sd with
      | own =>
        obtain ⟨a, b⟩ := pending_re hr h1 h5 (by rw [h2]; rfl) h3 h6
        exact ⟨a, b, ih⟩
      | syn => rw [synExcept hr h3] at h6; cases h6
    case exit =>
      show ReOk ((if s.fnObj s.cur = .record then [.fnDtor s.cur] else []) ++ s.log)
      split <;> exact ih
    all_goals exact ih

/-! ## live contexts -/

theorem liveCtx_iff (hr : Reach P l0 g0 s) (i : Nat) : LiveCtx i s.log ↔ s.base i ≠ .none := by
  have h := life_reach hr i
  have hm := (inv_reach hr).sched.main_iff i
  generalize hb : s.base i = b at h hm
  unfold LiveCtx
  cases b <;> simp only [LifeOk] at h
  case none =>
    have h0 : i ≠ 0 := fun h => by simpa using hm.2 h
    simp only [h0, false_or, ne_eq, not_true, iff_false]
    rintro ⟨h1, h2⟩
    split at h
    · rcases h with ⟨-, -, h⟩ | ⟨-, -, n, m, -, -, h⟩
      · have := h.cr; omega
      · have := h.de; omega
    · have := h.2.2.cr; omega
  case main => simp [hm.1 rfl]
  case lamA | lamB =>
    have : nCreated i s.log = 1 ∧ nDealloc i s.log = 0 := by
      rcases h with ⟨-, ⟨-, h⟩ | ⟨-, m, -, h⟩⟩ <;> exact ⟨h.cr, h.de⟩
    simp [this]
  all_goals simp [h.2.2.cr, h.2.2.de]

/-! ## who is unwound -/

theorem drop_target (hk : ReachOk P l0 g0 s) {t : Nat} {f : Option Nat} {s0 : St L G V E} (hd : Dying P s f s0) (hf : f = some t) :
    ∃ k, hole (s.base t) t (s.frames t) = some ⟨k, .syn⟩ := by
  have hr := hk.reach
  have hi := inv_reach hr
  obtain ⟨rest, d⟩ := disc_reach hk
  have air : ∀ {k u}, s.ctl = .recv → s.fr.head? = some (.pullCtor k) → s.fib .air = some u →
      ∃ k, hole (s.base u) u (s.frames u) = some ⟨k, .syn⟩ := by
    intro k u hc hfr ha
    have hctl := hi.ctl
    rw [hc] at hctl
    obtain ⟨r, h1, h2, -⟩ := hctl.2.1 u ha
    cases hfr' : s.fr with
    | nil => rw [hfr'] at hfr; cases hfr
    | cons f t =>
      rw [hfr'] at hfr; cases hfr
      have h2' : hole (s.base s.cur) s.cur s.fr = some r.partner := h2
      rw [hfr'] at h2'
      have : r = ⟨k, .syn⟩ := by apply partner_inj; exact (Option.some.inj h2').symm
      exact ⟨k, this ▸ h1⟩
  cases hd
  case handle hsc _ _ _ _ =>
    rw [hsc.fibs.1] at hf
    exact ⟨_, hi.sched.chan _ _ hf⟩
  case ctorInvalid h1 h2 _ _ _ h3 _ _ _ => cases hf; exact air h1 (by rw [h2]; rfl) h3
  case ctorThrow h1 h2 _ _ _ h3 _ => cases hf; exact air h1 (by rw [h2]; rfl) h3
  case ctorUnw => exact ⟨_, hi.sched.chan _ _ hf⟩
  case syn hc hfr hbb hdt =>
    exfalso
    have hctl := hi.ctl
    rw [hc] at hctl
    have hbk := hctl.2.2.2 (by rw [hbb]; simp [unwB, Base.isLam])
    cases hb : s.fib (.back s.cur) with
    | none => exact hbk hb
    | some b =>
      obtain ⟨r1, h1⟩ := d.succ hi (.inr rfl) hb
      obtain ⟨r2, h2⟩ := d.synCur hi hf
      rw [h1] at h2; cases h2
      have := hi.sched.inj _ _ _ hb hf
      cases this

/-- in a program that obeys the rules a context waiting in a resumption of a coroutine it owns is not unwound -/
theorem back_recv (ho : Obeys P l0 g0) {s0 : St L G V E} {c : Nat} {t : List (Frame L V E)} (hr : Reach P l0 g0 s0)
    (hb : ComesBack P s0 s) (hf : s.fr = .asg ⟨c, .own⟩ :: t) : s.ctl = .recv := by
  rcases hb.switch hr with h | h
  · exact h
  · exfalso
    obtain ⟨s2, ha, e, hc⟩ := hb
    have hne : s2.cur ≠ s.cur := by
      rw [hc]
      cases ha with
      | first _ h => exact h
      | next _ _ h => exact h
    have hr2 := ha.later.reach hr
    have hst := step_rel (inv_reach hr2) e
    have hfo : s.frames s.cur = s2.frames s.cur := hst.framesOther (Ne.symm hne)
    cases hst
    case dropSome s0 t' hd =>
      obtain ⟨k, hk⟩ := drop_target (ho.reachOk hr2) hd rfl
      rw [show s2.frames t' = .asg ⟨c, .own⟩ :: t by rw [← hf]; exact hfo.symm] at hk
      simp [hole] at hk
    case nop hd _ _ => exact hne hd.nj.1.symm
    case dropNone hd => exact hne hd.nj.1.symm
    case loc => exact hne rfl
    all_goals first | exact hne rfl | cases h

/-! ## the end of a function -/

theorem nFin_jq {c : Nat} {evs log : List (Ev V E)} (h : ∀ e ∈ evs, jq e = true) : nFin c (evs ++ log) = nFin c log :=
  (count_jq (k := c) h).1

/-- the step in which the function of `c` ends -/
theorem Step.finInv {c : Nat} (hs : Step P s s') (h : nFin c s'.log ≠ nFin c s.log) :
    c = s.cur ∧ s'.ctl = .recv ∧ s.fib (.cb ⟨c, .syn⟩) = some s'.cur ∧
      ∃ x, s'.log = .jump ⟨c, .syn⟩ c s'.cur :: .fin c x :: .fnDtor c :: s.log ∧ (s'.cbs ⟨c, .own⟩).except = x ∧
        (s'.cbs ⟨c, .own⟩).life = .alive ∧
        ((s.ctl = .retn ∧ x = none) ∨ ∃ e, s.ctl = .raise (.user e) ∧ x = some e) := by
  have hsc : ∀ {h s1}, Scope P s h s1 → nFin c s1.log = nFin c s.log := by
    intro h s1 hs
    obtain ⟨evs, h1, h2⟩ := hs.jq
    rw [h1, nFin_jq h2]
  have hdy : ∀ {f s0}, Dying P s f s0 → nFin c s0.log = nFin c s.log := by
    intro f s0 hd
    cases hd
    case handle h _ _ _ hd => exact (nFin_jq hd.jq).trans (hsc h)
    case ctorInvalid hd => exact nFin_jq hd.jq
    case syn hd => exact nFin_jq hd.jq
    case ctorThrow => simp [nFin, Ev.isFin]
    case ctorUnw => rfl
  cases hs
  case loc hl => exact absurd (nFin_jq hl.jq.1) h
  case pushThrow hl => exact absurd (nFin_jq hl.jq) h
  case push hl _ => 
    refine absurd ?_ h
    rw [← nFin_jq (log := s.log) hl.jq]
    simp [nFin, Ev.isFin]
  case nop hl _ _ => exact absurd (hsc hl :) h
  case dropNone hl => exact absurd (hdy hl :) h
  case dropSome hl => 
    refine absurd ?_ h
    rw [← hdy hl]
    simp [nFin, Ev.isFin]
  case exit =>
    refine absurd ?_ h
    simp only [nFin]
    split <;> simp [Ev.isFin]
  case fin h1 h2 h3 h4 h5 =>
    have : c = s.cur := by
      apply Classical.byContradiction
      intro hc
      exact h (by simp [nFin, Ev.isFin, Ne.symm hc])
    subst this
    exact ⟨rfl, rfl, h5, _, rfl, by simp, by simp [h4], h1⟩
  all_goals exact absurd (by simp [nFin, Ev.isFin]) h

theorem Away.step1 {s0 : St L G V E} (h : Away P s0 s) : ∃ s1, Verif.step P s0 = .next s1 := by
  induction h with
  | first e _ => exact ⟨_, e⟩
  | next _ _ _ ih => exact ih

/-- the first transfer of control over a coroutine is made by its constructor -/
theorem firstJump (hr : Reach P l0 g0 s) (hs : Step P s s') (hne : s'.cur ≠ s.cur) {c i j : Nat} {evs : List (Ev V E)}
    (hl : s'.log = .jump ⟨c, .own⟩ i j :: (evs ++ s.log)) (hn : lastJump c s.log = none) :
    nCreated c s.log = 0 ∧ nCreated c s'.log = nCreated c s.log + 1 := by
  have hj := jinv_reach hr
  cases hs
  case nop h _ _ => exact absurd h.nj.1 hne
  case dropNone h => exact absurd h.nj.1 hne
  case dropSome => cases hl
  case mk =>
    simp only [List.cons.injEq, Ev.jump.injEq, CbRef.mk.injEq] at hl
    obtain ⟨⟨⟨rfl, -⟩, -, -⟩, -⟩ := hl
    refine ⟨?_, by simp [nCreated, Ev.isCreated]⟩
    have hb : s.base s.nk = .none := by
      apply Classical.byContradiction
      intro h
      exact absurd ((inv_reach hr).sched.lt_nk _ h) (by omega)
    have := life_reach hr s.nk
    rw [hb] at this
    simp only [LifeOk, Nat.lt_irrefl, if_false] at this
    exact this.2.2.cr
  case push hfi =>
    simp only [List.cons.injEq, Ev.jump.injEq] at hl
    obtain ⟨⟨rfl, -, -⟩, -⟩ := hl
    obtain ⟨j, h⟩ := hj.held _ _ hfi
    rw [hn] at h; cases h
  case pull hfi =>
    simp only [List.cons.injEq, Ev.jump.injEq] at hl
    obtain ⟨⟨rfl, -, -⟩, -⟩ := hl
    obtain ⟨j, h⟩ := hj.held _ _ hfi
    rw [hn] at h; cases h
  case enterPush => simp at hl
  case fin => simp at hl
  case exit => cases hl
  all_goals exact absurd rfl hne

/-- a waiting call that is unwound -/
theorem asg_forced {s0 : St L G V E} {h : Nat} {k : Res V → L} {r : CbRef} {post : List (Frame L V E)} (hr : Reach P l0 g0 s)
    (hc : s.ctl = .raise .forced) (hcur : s.cur = s0.cur) (hf : s.fr = .asg r :: (post ++ .usr k :: s0.fr)) (hp : Post h post) :
    ∃ s', CallRuns P s s' ∧ s'.ctl = .raise .forced ∧ s'.cur = s0.cur ∧ s'.frames s0.cur = s0.frames s0.cur ∧ s'.log = s.log := by
  have e1 := reach_step hr (.loc (.rAsg hc hf))
  have r1 := hr.step e1
  cases hp with
  | nil =>
    have e2 := reach_step r1 (.loc (.rUsrF rfl (upd_at ..)))
    have hrun : CallRuns P s _ := ⟨_, e1, .step (by rintro ⟨_, h⟩; cases h) e2 .refl⟩
    exact ⟨_, hrun, rfl, hcur, by simp [hcur, St.fr], rfl⟩
  | resid =>
    have e2 := reach_step r1 (.loc (.rResid rfl (upd_at ..)))
    have r2 := r1.step e2
    have e3 := reach_step r2 (.loc (.rUsrF rfl (upd_at ..)))
    have hrun : CallRuns P s _ := ⟨_, e1, .step (by rintro ⟨_, h⟩; cases h) e2 (.step (by rintro ⟨_, h⟩; cases h) e3 .refl)⟩
    exact ⟨_, hrun, rfl, hcur, by simp [hcur, St.fr], rfl⟩
  | fetch =>
    have e2 := reach_step r1 (.loc (.rFetch rfl (upd_at ..)))
    have r2 := r1.step e2
    have e3 := reach_step r2 (.loc (.rUsrF rfl (upd_at ..)))
    have hrun : CallRuns P s _ := ⟨_, e1, .step (by rintro ⟨_, h⟩; cases h) e2 (.step (by rintro ⟨_, h⟩; cases h) e3 .refl)⟩
    exact ⟨_, hrun, rfl, hcur, by simp [hcur, St.fr], rfl⟩
  | pfetch =>
    have e2 := reach_step r1 (.loc (.rPfetch rfl (upd_at ..)))
    have r2 := r1.step e2
    have e3 := reach_step r2 (.loc (.rUsrF rfl (upd_at ..)))
    have hrun : CallRuns P s _ := ⟨_, e1, .step (by rintro ⟨_, h⟩; cases h) e2 (.step (by rintro ⟨_, h⟩; cases h) e3 .refl)⟩
    exact ⟨_, hrun, rfl, hcur, by simp [hcur, St.fr], rfl⟩

end Verif
