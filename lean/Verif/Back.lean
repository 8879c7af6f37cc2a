import Verif.Destroy
import Verif.PropsLife

/-! # Control comes back to a calling context.  Proof material. -/
namespace Verif
variable {L G V E : Type}
variable {P : Prog L G V E} {l0 : L} {g0 : G} {s s' : St L G V E}

/-- a step only changes the stack of the running context -/
theorem Scope.framesOther {s1 : St L G V E} {h i : Nat} (hs : Scope P s h s1) (hi : i ≠ s.cur) : s1.frames i = s.frames i := by
  cases hs <;> simp [upd, hi]

theorem Dying.framesOther {s0 : St L G V E} {f : Option Nat} {i : Nat} (hs : Dying P s f s0) (hi : i ≠ s.cur) :
    s0.frames i = s.frames i ∧ s0.cur = s.cur := by
  cases hs
  case handle hsc _ _ _ _ => exact ⟨hsc.framesOther hi, hsc.eqs.1⟩
  all_goals exact ⟨by simp [upd, hi], rfl⟩

theorem Step.framesOther {i : Nat} (hs : Step P s s') (hi : i ≠ s.cur) : s'.frames i = s.frames i := by
  cases hs
  case nop hsc _ _ => exact hsc.framesOther hi
  case dropNone hd => exact (hd.framesOther hi).1
  case dropSome hd =>
    obtain ⟨h1, h2⟩ := hd.framesOther hi
    simp [upd, h2, hi, h1]
  all_goals simp [upd, hi]

theorem Away.later {s0 : St L G V E} (h : Away P s0 s) : Later P s0 s := by
  induction h with
  | first e _ => exact .step .refl e
  | next _ e _ ih => exact .step ih e

theorem ComesBack.later {s0 : St L G V E} (h : ComesBack P s0 s) : Later P s0 s := by
  obtain ⟨s1, ha, e, _⟩ := h
  exact .step ha.later e

theorem Away.frames {s0 s1 : St L G V E} (hr : Reach P l0 g0 s0) (h1 : step P s0 = .next s1) (h : Away P s0 s) :
    s.frames s0.cur = s1.frames s0.cur := by
  induction h with
  | first e _ => rw [h1] at e; cases e; rfl
  | next ha e hne ih =>
    rw [← ih]
    have hr1 := ha.later.reach hr
    refine (step_rel (inv_reach hr1) e).framesOther ?_
    cases ha with
    | first _ h => exact h.symm
    | next _ _ h => exact h.symm

theorem ComesBack.frames {s0 s1 : St L G V E} (hr : Reach P l0 g0 s0) (h1 : step P s0 = .next s1) (h : ComesBack P s0 s) :
    s.fr = s1.frames s0.cur := by
  obtain ⟨s2, ha, e, hc⟩ := h
  show s.frames s.cur = _
  rw [hc, ← ha.frames hr h1]
  refine (step_rel (inv_reach (ha.later.reach hr)) e).framesOther ?_
  cases ha with
  | first _ h => exact h.symm
  | next _ _ h => exact h.symm

/-- the step by which control comes back -/
theorem ComesBack.switch {s0 : St L G V E} (hr : Reach P l0 g0 s0) (h : ComesBack P s0 s) : s.ctl = .recv ∨ s.ctl = .raise .forced := by
  obtain ⟨s2, ha, e, hc⟩ := h
  have hne : s2.cur ≠ s.cur := by
    rw [hc]
    cases ha with
    | first _ h => exact h
    | next _ _ h => exact h
  have := step_rel (inv_reach (ha.later.reach hr)) e
  cases this
  case nop hsc _ _ => exact absurd hsc.eqs.1.symm hne
  case dropNone hd => exact absurd (hd.framesOther (i := s2.cur + 1) (by omega)).2.symm hne
  case dropSome => exact .inr rfl
  all_goals first | exact .inl rfl | exact absurd rfl hne

theorem noUser_of_recv (h : s.ctl = .recv) : ¬ UserRuns s := by
  rintro ⟨_, h'⟩; rw [h] at h'; cases h'

theorem CallRuns.noUser (h : CallRuns P s s') (hu : ¬ UserRuns s) : NoUser P s s' := by
  obtain ⟨s1, e, hn⟩ := h
  exact .step hu e hn

theorem CallCrashes.crashes (h : CallCrashes P s) (hu : ¬ UserRuns s) : Crashes P s := by
  rcases h with ⟨u, t, h⟩ | ⟨s1, e, s2, s3, hn, h1, h2⟩
  · exact ⟨s, t, .refl, hu, .inl ⟨u, h⟩⟩
  · exact ⟨s2, s3, .step hu e hn, h1, h2⟩

/-- control is back in a constructor -/
theorem back_ctor (hr : Reach P l0 g0 s) (hc : s.ctl = .recv) {k : Nat} (hco : ctorOf s.fr = some k) :
    ∃ u, s.fib .air = some u ∧ s.fib (.cb ⟨k, .own⟩) = none ∧ (s.cbs ⟨k, .own⟩).life = .alive ∧
      lastJump k s.log = some (⟨k, .syn⟩, u, s.cur) ∧ (s.cbs ⟨k, .own⟩).other = some ⟨k, .syn⟩ := by
  have hi := inv_reach hr
  have hctl := hi.ctl
  have hfc : s.frames s.cur = s.fr := rfl
  rw [hc] at hctl
  have hal := hi.hok.ctor s.cur k hco
  have hho : hole (s.base s.cur) s.cur s.fr = some ⟨k, .own⟩ ∧ waitTop s.fr = false := by
    cases hf : s.fr with
    | nil => rw [hf] at hco; cases hco
    | cons f t => rw [hf] at hco; cases f <;> simp_all [ctorOf, hole, waitTop]
  have hnf : (s.base k).isFresh ≠ true := by
    intro hf
    have hk := hi.sched.fresh_cur k hf
    subst hk
    have h1 := hctl.1
    rw [hfc] at h1
    cases hf' : s.fr with
    | nil => rw [hf'] at hco; cases hco
    | cons f t =>
      rw [hf'] at hco h1
      cases hb : s.base s.cur <;> rw [hb] at hf h1 <;> cases f <;> simp_all [ctorOf, okSw, Base.isFresh, Base.isBody]
  have hot := hi.cb.own_other k hal
  rw [if_neg hnf] at hot
  cases ha : s.fib .air with
  | none =>
    exfalso
    rcases hctl.2.2.1 ha with h | ⟨k', h1, h2⟩
    · rw [hfc, hho.2] at h; cases h
    · rw [hfc, hho.1] at h1; cases h1; exact h2 hal
  | some u =>
    obtain ⟨r, h1, h2, h3, h4⟩ := hctl.2.1 u ha
    rw [hfc, hho.1] at h2
    have hr' : r.partner = ⟨k, .own⟩ := (Option.some.inj h2).symm
    have hrr : r = ⟨k, .syn⟩ := by apply partner_inj; rw [hr']; rfl
    subst hrr
    exact ⟨u, rfl, h4, hal, ((jinv_reach hr).air hc u _ ha h1).1, hot⟩

theorem Step.pullInv {l : L} {op : Op L V E} {k : Res V → L} {h : Nat} {post : List (Frame L V E)} (hs : Step P s s')
    (hc : s.ctl = .eval l) (hop : P.code l s.g = .api op k) (hp : PullCall op h post) :
    ∃ hd r t, s.hs h = some hd ∧ hd.ty = .pull ∧ hd.cb = some r ∧ (s.cbs r).life = .alive ∧ s.fib (.cb r) = some t ∧
      s' = { s with
        frames := upd s.frames s.cur (.asg r :: (post ++ .usr k :: s.fr)), ctl := .recv, cur := t,
        fib := upd (upd s.fib (.cb r) none) .air (some s.cur), log := .jump r s.cur t :: s.log } := by
  have hcl : ∀ {l'}, s.ctl = .eval l' → l' = l := by intro l' h; rw [hc] at h; cases h; rfl
  have hdy : ∀ {f s0}, Dying P s f s0 → False := by
    intro f s0 hd
    cases hd
    case handle hl _ _ _ _ => cases hl <;> (first | (have := hcl ‹_›; subst this) | skip) <;> cases hp <;> simp_all
    all_goals (cases hp <;> simp_all)
  cases hs
  case pull h1 h2 h3 h4 h5 h6 h7 h8 =>
    have := hcl h1; subst this
    rw [hop] at h2; cases h2
    cases hp <;> cases h3 <;> exact ⟨_, _, _, h4, h5, h6, h7, h8, rfl⟩
  case loc hl => cases hl <;> (first | (have := hcl ‹_›; subst this) | skip) <;> cases hp <;> simp_all
  case nop hl _ _ => cases hl <;> (first | (have := hcl ‹_›; subst this) | skip) <;> cases hp <;> simp_all
  case dropNone hd => exact (hdy hd).elim
  case dropSome hd => exact (hdy hd).elim
  case push h1 h2 h3 _ _ _ _ _ _ _ _ =>
    have := hcl h1; subst this
    rw [hop] at h2; cases h2
    cases hp <;> cases h3
  case pushThrow h1 h2 h3 _ _ _ _ _ _ _ _ =>
    have := hcl h1; subst this
    rw [hop] at h2; cases h2
    cases hp <;> cases h3
  all_goals (cases hp <;> simp_all)

theorem Step.pushInv {l : L} {op : Op L V E} {k : Res V → L} {h : Nat} {a : PushArg V E} {post : Option V → List (Frame L V E)}
    (hs : Step P s s') (hc : s.ctl = .eval l) (hop : P.code l s.g = .api op k) (hp : PushCall op h a post) :
    ∃ hd r, s.hs h = some hd ∧ hd.ty = .push ∧ hd.cb = some r ∧ (s.cbs r).life = .alive ∧
      (s.cbs r).other = some r.partner ∧ (s.cbs r.partner).life = .alive ∧
      ((∃ b evs w t, SetOk P.mv (s.va r.co) (s.cbs r.partner) r.co a b evs w ∧ s.fib (.cb r) = some t ∧
        s' = { s with
          frames := upd s.frames s.cur (.asg r :: (post w ++ .usr k :: s.fr)), ctl := .recv, cur := t,
          cbs := upd s.cbs r.partner b, fib := upd (upd s.fib (.cb r) none) .air (some s.cur),
          log := .jump r s.cur t :: (evs ++ s.log) }) ∨
       ∃ b evs e, a = .faulty e ∧ SetThrows (s.va r.co) (s.cbs r.partner) r.co b evs ∧
        s' = { s with
          frames := upd s.frames s.cur (.usr k :: s.fr), ctl := .raise (.user e),
          cbs := upd s.cbs r.partner b, log := evs ++ s.log }) := by
  have hcl : ∀ {l'}, s.ctl = .eval l' → l' = l := by intro l' h; rw [hc] at h; cases h; rfl
  have hdy : ∀ {f s0}, Dying P s f s0 → False := by
    intro f s0 hd
    cases hd
    case handle hl _ _ _ _ => cases hl <;> (first | (have := hcl ‹_›; subst this) | skip) <;> cases hp <;> simp_all
    all_goals (cases hp <;> simp_all)
  cases hs
  case push h1 h2 h3 h4 h5 h6 h7 h8 h9 h10 h11 =>
    have := hcl h1; subst this
    rw [hop] at h2; cases h2
    cases hp <;> cases h3 <;> exact ⟨_, _, h4, h5, h6, h7, h8, h9, .inl ⟨_, _, _, _, h10, h11, rfl⟩⟩
  case pushThrow h1 h2 h3 h4 h5 h6 h7 h8 h9 h10 h11 =>
    have := hcl h1; subst this
    rw [hop] at h2; cases h2
    cases hp <;> cases h3 <;> exact ⟨_, _, h4, h5, h6, h7, h8, h9, .inr ⟨_, _, _, h10, h11, rfl⟩⟩
  case loc hl => cases hl <;> (first | (have := hcl ‹_›; subst this) | skip) <;> cases hp <;> simp_all
  case nop hl _ _ => cases hl <;> (first | (have := hcl ‹_›; subst this) | skip) <;> cases hp <;> simp_all
  case dropNone hd => exact (hdy hd).elim
  case dropSome hd => exact (hdy hd).elim
  case pull h1 h2 h3 _ _ _ _ _ =>
    have := hcl h1; subst this
    rw [hop] at h2; cases h2
    cases hp <;> cases h3
  all_goals (cases hp <;> simp_all)

/-- what `operator()`/iterator operations still do after control has come back -/
inductive Post (h : Nat) : List (Frame L V E) → Prop
  | nil : Post h []
  | resid {v} : Post h [.resid v]
  | fetch : Post h [.fetch h]
  | pfetch : Post h [.pfetch h]

theorem PullCall.post {op : Op L V E} {h : Nat} {post : List (Frame L V E)} (hp : PullCall op h post) : Post h post := by
  cases hp <;> constructor

theorem PushCall.post {op : Op L V E} {h : Nat} {a : PushArg V E} {post : Option V → List (Frame L V E)} (hp : PushCall op h a post)
    (w : Option V) : Post h (post w) := by
  cases hp
  · cases w <;> constructor
  · constructor

/-- the first step of a call that transfers control -/
theorem Switches.step {h : Nat} {k : Res V → L} {s1 : St L G V E} (hr : Reach P l0 g0 s) (hsw : Switches P s h k)
    (e1 : step P s = .next s1) :
    ∃ hd r, s.hs h = some hd ∧ hd.cb = some r ∧ (s.cbs r).life = .alive ∧
      ((∃ t post evs, s.fib (.cb r) = some t ∧ s1.cur = t ∧ t ≠ s.cur ∧ s1.ctl = .recv ∧
          s1.frames s.cur = .asg r :: (post ++ .usr k :: s.fr) ∧ Post h post ∧ s1.fib .air = some s.cur ∧
          s1.log = .jump r s.cur t :: (evs ++ s.log) ∧ ∀ e ∈ evs, jq e = true) ∨
       ∃ e, PushesTo P s h (.faulty e) k ∧ s1.ctl = .raise (.user e) ∧ s1.cur = s.cur) := by
  have hi := inv_reach hr
  have hst := step_rel hi e1
  rcases hsw with (⟨l, h1, h2⟩ | ⟨l, h1, h2⟩) | ⟨a, hp⟩
  · obtain ⟨hd, r, t, a1, a2, a3, a4, a5, rfl⟩ := hst.pullInv h1 h2 .op
    refine ⟨hd, r, a1, a3, a4, .inl ⟨t, _, [], a5, rfl, (hi.sched.fib_ok _ _ a5).1, rfl, upd_at .., PullCall.post .op, ?_, rfl, by simp⟩⟩
    simp
  · obtain ⟨hd, r, t, a1, a2, a3, a4, a5, rfl⟩ := hst.pullInv h1 h2 .it
    refine ⟨hd, r, a1, a3, a4, .inl ⟨t, _, [], a5, rfl, (hi.sched.fib_ok _ _ a5).1, rfl, upd_at .., PullCall.post .it, ?_, rfl, by simp⟩⟩
    simp
  · obtain ⟨l, op, post, h1, h2, h3⟩ := hp.call
    obtain ⟨hd, r, a1, a2, a3, a4, a5, a6, ⟨b, evs, w, t, b1, b2, rfl⟩ | ⟨b, evs, e, b1, b2, rfl⟩⟩ := hst.pushInv h1 h2 h3
    · refine ⟨hd, r, a1, a3, a4, .inl ⟨t, _, evs, b2, rfl, (hi.sched.fib_ok _ _ b2).1, rfl, upd_at .., h3.post w, ?_, rfl, b1.jq⟩⟩
      simp
    · subst b1
      exact ⟨hd, r, a1, a3, a4, .inr ⟨e, hp, rfl, rfl⟩⟩


theorem CallRuns.reach {s1 : St L G V E} (hr : Reach P l0 g0 s) (h : CallRuns P s s1) : Reach P l0 g0 s1 := by
  obtain ⟨s2, e, hn⟩ := h
  exact hn.later.reach (hr.step e)

/-- control comes back to a call that transferred control -/
theorem Switches.back {s0 : St L G V E} {h : Nat} {k : Res V → L} {hd : Handle} {r : CbRef} (hr : Reach P l0 g0 s0)
    (hsw : Switches P s0 h k) (hh : s0.hs h = some hd) (hcb : hd.cb = some r) (hb : ComesBack P s0 s) :
    Reach P l0 g0 s ∧ s.cur = s0.cur ∧ ∃ post, s.fr = .asg r :: (post ++ .usr k :: s0.fr) ∧ Post h post := by
  have hrs := hb.later.reach hr
  obtain ⟨s1, e1, hne⟩ : ∃ s1, Verif.step P s0 = .next s1 ∧ s1.cur ≠ s0.cur := by
    obtain ⟨s2, ha, -⟩ := hb
    clear hrs
    induction ha with
    | first e h => exact ⟨_, e, h⟩
    | next _ _ _ ih => exact ih
  obtain ⟨hd', r', h1, h2, -, ⟨t, post, evs, -, -, -, -, h3, h4, -⟩ | ⟨e, -, -, h3⟩⟩ := hsw.step hr e1
  · rw [hh] at h1; cases h1
    rw [hcb] at h2; cases h2
    refine ⟨hrs, ?_, post, by rw [hb.frames hr e1, h3], h4⟩
    obtain ⟨_, _, _, h⟩ := hb; exact h
  · exact absurd h3 hne

/-- control is back inside `c = std::move( c).resume()` -/
theorem back_asg (hr : Reach P l0 g0 s) (hc : s.ctl = .recv) {r : CbRef} {t : List (Frame L V E)} (hf : s.fr = .asg r :: t) :
    ((s.cbs r).life = .alive ∧ ∃ u, s.fib .air = some u ∧ s.fib (.cb r) = none ∧ lastJump r.co s.log = some (r.partner, u, s.cur)) ∨
    ((s.cbs r).life ≠ .alive ∧ ∃ u t, step P s = .ub u t) := by
  have hi := inv_reach hr
  have hctl := hi.ctl
  have hfc : s.frames s.cur = s.fr := rfl
  rw [hc] at hctl
  have hho : hole (s.base s.cur) s.cur s.fr = some r ∧ waitTop s.fr = false := by rw [hf]; exact ⟨rfl, rfl⟩
  by_cases hal : (s.cbs r).life = .alive
  · left
    refine ⟨hal, ?_⟩
    cases ha : s.fib .air with
    | none =>
      exfalso
      rcases hctl.2.2.1 ha with h | ⟨k', h1, h2⟩
      · rw [hfc, hho.2] at h; cases h
      · rw [hfc, hho.1] at h1; cases h1; exact h2 hal
    | some u =>
      obtain ⟨q, h1, h2, h3, h4⟩ := hctl.2.1 u ha
      rw [hfc, hho.1] at h2
      have hq : q.partner = r := (Option.some.inj h2).symm
      have hj := ((jinv_reach hr).air hc u q ha h1).1
      subst hq
      exact ⟨u, rfl, h4, by simpa using hj⟩
  · right
    refine ⟨hal, ?_⟩
    unfold step
    rw [hc]
    simp only [recvStep, hf]
    exact ⟨_, _, rfl⟩

/-- what an operation delivers to its caller once control is back -/
inductive Answer (s : St L G V E) (h : Nat) : List (Frame L V E) → Res V → Prop
  | nil : Answer s h [] .unit
  | resid {v} : Answer s h [.resid v] (.val v)
  | fetch {b} : handleBang s h = .ok b → Answer s h [.fetch h] (.it (if b then none else some h))
  | pfetch {b} : handleBang s h = .ok b → Answer s h [.pfetch h] (.it (if b then none else some h))

theorem fetch_ub {h : Nat} {u : UB} {r : Res V} {t : List (Frame L V E)} (hc : s.ctl = .deliver r)
    (hf : s.fr = .fetch h :: t ∨ s.fr = .pfetch h :: t) (hb : handleBang s h = .error u) : step P s = .ub u s := by
  unfold step
  rw [hc]
  rcases hf with hf | hf <;> simp only [deliverStep, hf, hb]

theorem asg_done {s0 : St L G V E} {h : Nat} {k : Res V → L} {r : CbRef} {post : List (Frame L V E)} (hr : Reach P l0 g0 s)
    (hc : s.ctl = .recv) (hcur : s.cur = s0.cur) (hf : s.fr = .asg r :: (post ++ .usr k :: s0.fr)) (hp : Post h post) :
    (∃ s' v, CallRuns P s s' ∧ Returned s0 k v s' ∧ (s.cbs r).except = none ∧ (s.cbs r).life = .alive ∧ s'.log = s.log ∧
      s'.hs = s.hs ∧ s'.cbs = s.cbs ∧ s'.kind = s.kind ∧ s'.va = s.va ∧ s'.g = s.g ∧ Answer s' h post v) ∨
    (∃ s' e, CallRuns P s s' ∧ Threw s0 e s' ∧ (s.cbs r).except = some e ∧ (s.cbs r).life = .alive ∧
      s'.log = .exc s.cur e :: .rethrow r.co s.cur e :: s.log ∧ s'.hs = s.hs ∧ s'.cbs = s.cbs ∧ s'.kind = s.kind ∧ s'.va = s.va) ∨
    CallCrashes P s := by
  rcases back_asg hr hc hf with ⟨hal, u, ha, hfi, hj⟩ | ⟨-, hub⟩
  · cases hx : (s.cbs r).except with
    | none =>
      have e1 := reach_step hr (.asg hc hf hal hfi ha hx)
      have r1 := hr.step e1
      cases hp with
      | nil =>
        have e2 := reach_step r1 (.loc (.dUsr rfl (upd_at ..)))
        have hrun : CallRuns P s _ := ⟨_, e1, .step (by rintro ⟨_, h⟩; cases h) e2 .refl⟩
        exact .inl ⟨_, .unit, hrun, ⟨hcur, by simp [hcur, St.fr], rfl⟩, rfl, hal, rfl, rfl, rfl, rfl, rfl, rfl, .nil⟩
      | @resid v =>
        have e2 := reach_step r1 (.loc (.dResid rfl (upd_at ..)))
        have r2 := r1.step e2
        have e3 := reach_step r2 (.loc (.dUsr rfl (upd_at ..)))
        have hrun : CallRuns P s _ := ⟨_, e1, .step (by rintro ⟨_, h⟩; cases h) e2 (.step (by rintro ⟨_, h⟩; cases h) e3 .refl)⟩
        exact .inl ⟨_, .val v, hrun, ⟨hcur, by simp [hcur, St.fr], rfl⟩, rfl, hal, rfl, rfl, rfl, rfl, rfl, rfl, .resid⟩
      | fetch =>
        cases hb : handleBang s h with
        | error ub =>
          have e2 := fetch_ub (P := P) (s := { s with
            frames := upd s.frames s.cur ([.fetch h] ++ .usr k :: s0.fr), ctl := .deliver .unit,
            fib := upd (upd s.fib (.cb r) (some u)) .air none }) rfl (.inl (upd_at ..)) hb
          exact .inr (.inr (.inr ⟨_, e1, _, _, .refl, (by rintro ⟨_, h⟩; cases h), .inl ⟨ub, e2⟩⟩))
        | ok b =>
          have e2 := reach_step r1 (.loc (.dFetch (b := b) rfl (upd_at ..) hb))
          have r2 := r1.step e2
          have e3 := reach_step r2 (.loc (.dUsr rfl (upd_at ..)))
          have hrun : CallRuns P s _ := ⟨_, e1, .step (by rintro ⟨_, h⟩; cases h) e2 (.step (by rintro ⟨_, h⟩; cases h) e3 .refl)⟩
          exact .inl ⟨_, _, hrun, ⟨hcur, by simp [hcur, St.fr], rfl⟩, rfl, hal, rfl, rfl, rfl, rfl, rfl, rfl, .fetch hb⟩
      | pfetch =>
        cases hb : handleBang s h with
        | error ub =>
          have e2 := fetch_ub (P := P) (s := { s with
            frames := upd s.frames s.cur ([.pfetch h] ++ .usr k :: s0.fr), ctl := .deliver .unit,
            fib := upd (upd s.fib (.cb r) (some u)) .air none }) rfl (.inr (upd_at ..)) hb
          exact .inr (.inr (.inr ⟨_, e1, _, _, .refl, (by rintro ⟨_, h⟩; cases h), .inl ⟨ub, e2⟩⟩))
        | ok b =>
          have e2 := reach_step r1 (.loc (.dPfetch (b := b) rfl (upd_at ..) hb))
          have r2 := r1.step e2
          have e3 := reach_step r2 (.loc (.dUsr rfl (upd_at ..)))
          have hrun : CallRuns P s _ := ⟨_, e1, .step (by rintro ⟨_, h⟩; cases h) e2 (.step (by rintro ⟨_, h⟩; cases h) e3 .refl)⟩
          exact .inl ⟨_, _, hrun, ⟨hcur, by simp [hcur, St.fr], rfl⟩, rfl, hal, rfl, rfl, rfl, rfl, rfl, rfl, .pfetch hb⟩
    | some e =>
      have e1 := reach_step hr (.asgThrow hc hf hal hfi ha hx)
      have r1 := hr.step e1
      refine .inr (.inl ?_)
      have fin : ∀ {s1 : St L G V E}, Reach P l0 g0 s1 → CallRuns P s s1 → s1.ctl = .raise (.user e) →
          s1.fr = .usr k :: s0.fr → s1.cur = s.cur → s1.log = .rethrow r.co s.cur e :: s.log → s1.hs = s.hs → s1.cbs = s.cbs →
          s1.kind = s.kind → s1.va = s.va →
          ∃ s' e', CallRuns P s s' ∧ Threw s0 e' s' ∧ some e = some e' ∧ (s.cbs r).life = .alive ∧
            s'.log = .exc s.cur e' :: .rethrow r.co s.cur e' :: s.log ∧ s'.hs = s.hs ∧ s'.cbs = s.cbs ∧ s'.kind = s.kind ∧ s'.va = s.va := by
        intro s1 hr1 hrun h1 h2 h3 h4 h5 h6 h7 h8
        have e3 := reach_step hr1 (.loc (.rUsrU h1 h2))
        have hrun' := hrun.one (by rintro ⟨_, h⟩; rw [h1] at h; cases h) e3
        refine ⟨_, e, hrun', ⟨h3.trans hcur, by simp [h3.trans hcur, St.fr], rfl⟩, rfl, hal, ?_, h5, h6, h7, h8⟩
        show [_] ++ s1.log = _
        rw [h4, h3]; rfl
      have hrun1 : CallRuns P s _ := ⟨_, e1, .refl⟩
      cases hp with
      | nil => exact fin r1 hrun1 rfl (upd_at ..) rfl rfl rfl rfl rfl rfl
      | resid =>
        have e2 := reach_step r1 (.loc (.rResid rfl (upd_at ..)))
        exact fin (r1.step e2) (hrun1.one (by rintro ⟨_, h⟩; cases h) e2) rfl (upd_at ..) rfl rfl rfl rfl rfl rfl
      | fetch =>
        have e2 := reach_step r1 (.loc (.rFetch rfl (upd_at ..)))
        exact fin (r1.step e2) (hrun1.one (by rintro ⟨_, h⟩; cases h) e2) rfl (upd_at ..) rfl rfl rfl rfl rfl rfl
      | pfetch =>
        have e2 := reach_step r1 (.loc (.rPfetch rfl (upd_at ..)))
        exact fin (r1.step e2) (hrun1.one (by rintro ⟨_, h⟩; cases h) e2) rfl (upd_at ..) rfl rfl rfl rfl rfl rfl
  · exact .inr (.inr (.inl hub))

end Verif
