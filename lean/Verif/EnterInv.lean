import Verif.TransferInv

/-!
# Arrival of control; push coroutines start lazily

Proof material.
-/
namespace Verif
variable {L G V E : Type}

theorem nJump_cons {r : CbRef} {e : Ev V E} {l : List (Ev V E)} :
    nJump r (e :: l) = nJump r l + match e with | .jump r' _ _ => if r' = r then 1 else 0 | _ => 0 := by
  cases e <;> simp [nJump, List.countP_cons]

theorem nJump_jq {r : CbRef} {evs log : List (Ev V E)} (h : ∀ e ∈ evs, jq e = true) : nJump r (evs ++ log) = nJump r log := by
  unfold nJump
  rw [List.countP_append, List.countP_eq_zero.2, Nat.zero_add]
  intro e he hp; have := h e he; cases e <;> simp_all [jq]

/-- how control arrived in the running context -/
def Arrived (s : St L G V E) : Prop :=
  s.ctl = .recv →
    (∃ r i l, s.log = .jump r i s.cur :: l ∧ s.fib .air = some i ∧ hole (s.base i) i (s.frames i) = some r ∧
      hole (s.base s.cur) s.cur s.fr = some r.partner) ∨
    (∃ k l, s.log = .dealloc k :: l ∧ s.fib .air = none)

theorem Step.arrived {P : Prog L G V E} {s s' : St L G V E} (hs : Step P s s') (hi : Inv s) (hi' : Inv s') : Arrived s' := by
  have hfc : s.frames s.cur = s.fr := rfl
  have key : ∀ r i, s'.ctl = .recv → s'.fib .air = some i → hole (s'.base i) i (s'.frames i) = some r →
      hole (s'.base s'.cur) s'.cur s'.fr = some r.partner := by
    intro r i h1 h2 h3
    have hctl := hi'.ctl
    rw [h1] at hctl
    obtain ⟨r', a, b, _⟩ := hctl.2.1 i h2
    rw [h3] at a; cases a
    exact b
  intro hc
  cases hs
  case loc hl => exact absurd hc hl.jq.2
  case mk l kd va fn k0 _ _ =>
    have hnk : s.cur ≠ s.nk := by have := hi.sched.lt_nk _ hi.sched.cur_live; omega
    have h3 : hole (upd s.base s.nk (Base.fresh fn) s.cur) s.cur (upd s.frames s.cur (ctorFrame kd s.nk :: .usr k0 :: s.fr) s.cur)
        = some ⟨s.nk, .own⟩ := by
      simp [upd, hnk]; cases kd <;> rfl
    exact .inl ⟨_, s.cur, _, rfl, by simp [upd], h3, key ⟨s.nk, .own⟩ s.cur rfl (by simp [upd]) h3⟩
  case push l op k0 h0 a post hd r b evs w t _ _ hpc hh hty hcb hal _ _ hse hf =>
    have h3 : hole (s.base s.cur) s.cur (upd s.frames s.cur (.asg r :: (post w ++ .usr k0 :: s.fr)) s.cur) = some r := by
      simp [upd, hole]
    exact .inl ⟨r, s.cur, _, rfl, by simp [upd], h3, key r s.cur rfl (by simp [upd]) h3⟩
  case pull l op k0 h0 post hd r t _ _ hpc hh hty hcb hal hf =>
    have h3 : hole (s.base s.cur) s.cur (upd s.frames s.cur (.asg r :: (post ++ .usr k0 :: s.fr)) s.cur) = some r := by
      simp [upd, hole]
    exact .inl ⟨r, s.cur, _, rfl, by simp [upd], h3, key r s.cur rfl (by simp [upd]) h3⟩
  case enterPush fn u hr hfr hb hk hal hair =>
    have h3 : hole (upd s.base s.cur (.pushEntry s.nh fn) s.cur) s.cur (s.frames s.cur) = some ⟨s.cur, .syn⟩ := by
      simp [hfc, hfr, hole]
    exact .inl ⟨_, s.cur, _, rfl, by simp [upd], h3, key _ s.cur rfl (by simp [upd]) h3⟩
  case fin h0 t x hx hfr hb hal hf =>
    have h3 : hole (upd s.base s.cur (.final h0) s.cur) s.cur (s.frames s.cur) = some ⟨s.cur, .syn⟩ := by
      simp [hfc, hfr, hole]
    exact .inl ⟨_, s.cur, _, rfl, by simp [upd], h3, key _ s.cur rfl (by simp [upd]) h3⟩
  case exit r b hc' hfr hb hback hdead =>
    have hctl := hi.ctl
    rw [hc'] at hctl
    exact .inr ⟨s.cur, _, rfl, by simp [upd, hctl.2.1]⟩
  all_goals cases hc

theorem arrived_reach {P : Prog L G V E} {l0 : L} {g0 : G} {s : St L G V E} (h : Reach P l0 g0 s) : Arrived s := by
  cases h with
  | init => intro h; cases h
  | step hr hs => exact (step_rel (inv_reach hr) hs).arrived (inv_reach hr) (inv_reach (hr.step hs))

/-- push coroutines: number of transfers into them before their function is entered -/
structure LazyOk (kd : Kind) (k : Nat) (b : Base L) (log : List (Ev V E)) : Prop where
  fresh : kd = .push → b.isFresh = true → nJump ⟨k, .own⟩ log = 1
  entry : kd = .push → (∃ h fn, b = .pushEntry h fn) →
    ((∃ i j, lastJump k log = some (⟨k, .syn⟩, i, j)) ∧ nJump ⟨k, .own⟩ log = 1) ∨ 2 ≤ nJump ⟨k, .own⟩ log
  entered : kd = .push → nEnter k log ≠ 0 → 2 ≤ nJump ⟨k, .own⟩ log

def LazyInv (s : St L G V E) : Prop := ∀ k, LazyOk (s.kind k) k (s.base k) s.log

theorem LazyOk.quiet {kd : Kind} {k : Nat} {b b' : Base L} {log evs : List (Ev V E)} (h : LazyOk kd k b log)
    (hb : b' = b ∨ (b'.isFresh = false ∧ ∀ h fn, b' ≠ .pushEntry h fn)) (hq : ∀ e ∈ evs, jq e = true)
    (he : nEnter k (evs ++ log) = nEnter k log) : LazyOk kd k b' (evs ++ log) := by
  constructor
  · intro h1 h2; rw [nJump_jq hq]
    rcases hb with rfl | ⟨hb, _⟩
    · exact h.fresh h1 h2
    · rw [hb] at h2; cases h2
  · intro h1 h2; rw [nJump_jq hq, lastJump_jq hq]
    rcases hb with rfl | ⟨_, hb⟩
    · exact h.entry h1 h2
    · obtain ⟨x, y, h2⟩ := h2; exact absurd h2 (hb x y)
  · intro h1 h2; rw [nJump_jq hq]; rw [he] at h2; exact h.entered h1 h2

theorem LazyInv.keep {s s' : St L G V E} {evs : List (Ev V E)} (h : LazyInv s) (hk : s'.kind = s.kind)
    (hb : ∀ k, s'.base k = s.base k ∨ ((s'.base k).isFresh = false ∧ ∀ h fn, s'.base k ≠ .pushEntry h fn))
    (hl : s'.log = evs ++ s.log) (hq : ∀ e ∈ evs, jq e = true) (he : ∀ k, ∀ e ∈ evs, Ev.isEnter k e = false) : LazyInv s' := by
  intro k
  rw [hk, hl]
  refine (h k).quiet (hb k) hq ?_
  unfold nEnter
  rw [List.countP_append, List.countP_eq_zero.2, Nat.zero_add]
  intro e h'; simp [he k e h']

/-- a transfer through end `r`, not from a fresh or waiting lambda -/
theorem LazyOk.jump {kd : Kind} {k : Nat} {b : Base L} {log evs : List (Ev V E)} {r : CbRef} {i j : Nat} (h : LazyOk kd k b log)
    (hq : ∀ e ∈ evs, jq e = true) (he : nEnter k (evs ++ log) = nEnter k log) (hf : b.isFresh = false)
    (hs : kd = .push → (∃ h fn, b = .pushEntry h fn) → r.co = k → r.side = .own) :
    LazyOk kd k b (.jump r i j :: (evs ++ log)) := by
  have he' : nEnter k (.jump r i j :: (evs ++ log)) = nEnter k log := by
    rw [← he]; simp [nEnter, List.countP_cons, Ev.isEnter]
  constructor
  · intro _ h2; rw [hf] at h2; cases h2
  · intro h1 h2
    rw [nJump_cons, nJump_jq hq, lastJump_jump, lastJump_jq hq]
    by_cases hr : r.co = k
    · have hs' := hs h1 h2 hr
      have : r = ⟨k, .own⟩ := by rcases r with ⟨a, b⟩; simp_all
      subst this
      rcases h.entry h1 h2 with h3 | h3
      · right; simp [h3.2]
      · right; simp; omega
    · have : r ≠ ⟨k, .own⟩ := by rintro rfl; exact hr rfl
      simp [hr, this]; exact h.entry h1 h2
  · intro h1 h2
    rw [he'] at h2
    have := h.entered h1 h2
    rw [nJump_cons, nJump_jq hq]; omega

theorem isEnter_of {k : Nat} {evs log : List (Ev V E)} (h : ∀ e ∈ evs, quiet k e = true) : nEnter k (evs ++ log) = nEnter k log := by
  unfold nEnter
  rw [List.countP_append, List.countP_eq_zero.2, Nat.zero_add]
  intro e h' h2
  have := h e h'
  simp [quiet, h2] at this

theorem notEnter_of {k : Nat} {evs : List (Ev V E)} (h : ∀ e ∈ evs, quiet k e = true) : ∀ e ∈ evs, Ev.isEnter k e = false := by
  intro e he
  have := h e he
  cases h2 : Ev.isEnter k e
  · rfl
  · simp [quiet, h2] at this

theorem Scope.bases {P : Prog L G V E} {s s1 : St L G V E} {h : Nat} (hs : Scope P s h s1) (k : Nat) :
    s1.base k = s.base k ∨ ((s1.base k).isFresh = false ∧ ∀ h fn, s1.base k ≠ .pushEntry h fn) := by
  cases hs <;> first | exact .inl rfl | skip
  all_goals
    by_cases hk : k = s.cur
    · subst hk; right; simp [Base.isFresh]
    · left; simp [upd, hk]

theorem Dying.bases {P : Prog L G V E} {s s0 : St L G V E} {f : Option Nat} (hs : Dying P s f s0) (k : Nat) :
    s0.base k = s.base k ∨ ((s0.base k).isFresh = false ∧ ∀ h fn, s0.base k ≠ .pushEntry h fn) := by
  cases hs
  case handle hsc _ _ _ _ => exact hsc.bases k
  case syn =>
    by_cases hk : k = s.cur
    · subst hk; right; simp [Base.isFresh]
    · left; simp [upd, hk]
  all_goals exact .inl rfl

theorem Scope.evs {P : Prog L G V E} {s s1 : St L G V E} {h : Nat} (hs : Scope P s h s1) :
    ∃ evs, s1.log = evs ++ s.log ∧ (∀ e ∈ evs, Verif.jq e = true) ∧ ∀ k, ∀ e ∈ evs, Ev.isEnter k e = false := by
  rcases hs.log with h | h
  · exact ⟨[], h, by simp, by simp⟩
  · exact ⟨[_], h, by simp [Verif.jq], by simp [Ev.isEnter]⟩

theorem Dying.lazyInv {P : Prog L G V E} {s s0 : St L G V E} {f : Option Nat} (hs : Dying P s f s0) (h : LazyInv s) :
    LazyInv s0 := by
  intro k
  rw [hs.eqs.2.1]
  have hb := hs.bases k
  cases hs
  case handle hsc _ _ _ hdt =>
    obtain ⟨ev, hl, hq, he⟩ := hsc.evs
    have := (h.keep hsc.eqs.2.2.1 hsc.bases hl hq he) k
    rw [hsc.eqs.2.2.1] at this
    exact this.quiet (.inl rfl) hdt.jq (isEnter_of (hdt.quiet k))
  case ctorInvalid hdt => exact (h k).quiet hb hdt.jq (isEnter_of (hdt.quiet k))
  case ctorThrow =>
    have h1 := h k
    refine ⟨?_, ?_, ?_⟩
    · intro a b; rw [nJump_cons]; exact h1.fresh a b
    · intro a b; rw [nJump_cons]; exact h1.entry a b
    · intro a b; rw [nJump_cons]
      refine h1.entered a ?_
      simpa [nEnter, List.countP_cons, Ev.isEnter] using b
  case ctorUnw => exact h k
  case syn hdt => exact (h k).quiet hb hdt.jq (isEnter_of (hdt.quiet k))

theorem Step.lazyInv {P : Prog L G V E} {s s' : St L G V E} (hs : Step P s s') (hi : Inv s) (hlf : LifeInv s)
    (hlg : LogFresh s) (hj : JInv s) (h : LazyInv s) : LazyInv s' := by
  have hfc : s.frames s.cur = s.fr := rfl
  have notFresh : s.ctl ≠ .recv → ∀ k, (s.base k).isFresh = false := by
    intro hr k
    cases hf : (s.base k).isFresh
    · rfl
    · have := hi.sched.fresh_cur k hf
      subst this
      have hctl := hi.ctl
      cases hb : s.base s.cur <;> rw [hb] at hf <;> simp [Base.isFresh] at hf
      cases hc : s.ctl with
      | recv => exact absurd hc hr
      | eval l => rw [hc] at hctl; simp [CtlOk, hb, Base.isBody] at hctl
      | retn => rw [hc] at hctl; simp [CtlOk, hb, Base.isBody] at hctl
      | deliver r =>
        rw [hc] at hctl
        have := hctl.1
        rw [hb] at this
        cases hfr : s.frames s.cur with
        | nil => rw [hfr] at this; simp [okRet, Base.isLam] at this
        | cons f t => rw [hfr] at this; cases f <;> simp [okRet, Base.isBody] at this
      | raise x =>
        rw [hc] at hctl
        cases x with
        | user e => simp [CtlOk, hb, okRaiseU, Base.isBody] at hctl
        | forced =>
          have := hctl.1
          rw [hb] at this
          cases hfr : s.frames s.cur with
          | nil => rw [hfr] at this; simp [okRaiseF] at this
          | cons f t => rw [hfr] at this; cases f <;> simp [okRaiseF, okRaiseU, Base.isBody] at this
  cases hs
  case loc hl => exact h.keep rfl (fun _ => .inl rfl) rfl hl.jq.1 (fun k => notEnter_of (hl.quiet k))
  case get => exact h.keep (evs := [_]) rfl (fun _ => .inl rfl) rfl (by simp [jq]) (by simp [Ev.isEnter])
  case moveCtor => exact h.keep (evs := []) rfl (fun _ => .inl rfl) rfl (by simp) (by simp)
  case moveAssign => exact h.keep (evs := []) rfl (fun _ => .inl rfl) rfl (by simp) (by simp)
  case ctorDrop => exact h.keep (evs := []) rfl (fun _ => .inl rfl) rfl (by simp) (by simp)
  case mkFn => exact h.keep (evs := [_]) rfl (fun _ => .inl rfl) rfl (by simp [jq]) (by simp [Ev.isEnter])
  case wait => exact h.keep (evs := []) rfl (fun _ => .inl rfl) rfl (by simp) (by simp)
  case pushThrow hse => exact h.keep rfl (fun _ => .inl rfl) rfl hse.jq (fun k => notEnter_of (hse.quiet k))
  case asg => exact h.keep (evs := []) rfl (fun _ => .inl rfl) rfl (by simp) (by simp)
  case asgThrow r t u e hr hfr hal hf hair hex =>
    intro k
    have h1 := h k
    refine ⟨?_, ?_, ?_⟩
    · intro a b; rw [nJump_cons]; exact h1.fresh a b
    · intro a b; rw [nJump_cons]; exact h1.entry a b
    · intro a b; rw [nJump_cons]
      refine h1.entered a ?_
      simpa [nEnter, List.countP_cons, Ev.isEnter] using b
  case pullCtor => exact h.keep (evs := []) rfl (fun _ => .inl rfl) rfl (by simp) (by simp)
  case pushCtor => exact h.keep (evs := []) rfl (fun _ => .inl rfl) rfl (by simp) (by simp)
  case mk l kd va fn k0 _ _ =>
    have hz : ∀ r : CbRef, r.co = s.nk → nJump r s.log = 0 := by
      intro r hr
      unfold nJump
      rw [List.countP_eq_zero]
      intro e he hp
      have := hlg e he s.nk
      cases e <;> simp at hp
      subst hp
      have := this (by rw [← hr]; rfl)
      omega
    have hze : nEnter s.nk s.log = 0 := by
      have := hlf s.nk
      have hnb : s.base s.nk = .none := by
        cases hb : s.base s.nk with
        | none => rfl
        | _ => exact absurd (hi.sched.lt_nk s.nk (by rw [hb]; simp)) (by omega)
      rw [hnb] at this
      simp [LifeOk] at this
      exact this.2.2.en
    intro k
    dsimp only
    by_cases hk : k = s.nk
    · subst hk
      simp only [upd_same]
      constructor
      · intro _ _; simp [nJump_cons, hz]
      · rintro _ ⟨h, fn, h1⟩; cases h1
      · intro _ h1
        simp [nEnter, List.countP_cons, Ev.isEnter] at h1
        unfold nEnter at hze
        rw [List.countP_eq_zero] at hze
        obtain ⟨e, he, h1⟩ := h1
        exact absurd h1 (hze e he)
    · have hk' : s.nk ≠ k := Ne.symm hk
      simp only [upd, hk, if_false]
      have h1 := h k
      constructor
      · intro a b; simp [nJump_cons, hk']; exact h1.fresh a b
      · intro a b; simp [nJump_cons, hk', lastJump]; exact h1.entry a b
      · intro a b; simp [nJump_cons, hk']
        refine h1.entered a ?_
        simpa [nEnter, List.countP_cons, Ev.isEnter] using b
  case push l op k0 h0 a post hd r b evs w t hc _ hpc hh hty hcb hal _ _ hse hf =>
    intro k
    refine (h k).jump hse.jq (isEnter_of (hse.quiet k)) (notFresh (by rw [hc]; simp) k) ?_
    rintro hkp ⟨x, y, hb⟩ rfl
    have hborn := (hi.hok.born _ _ _ hh hcb).2.1
    rw [hty, hkp] at hborn
    cases hrs : r.side
    · rfl
    · rw [hrs] at hborn; simp [endKind, Kind.flip] at hborn
  case pull l op k0 h0 post hd r t hc _ hpc hh hty hcb hal hf =>
    intro k
    refine (h k).jump (evs := []) (by simp) rfl (notFresh (by rw [hc]; simp) k) ?_
    rintro hkp ⟨x, y, hb⟩ rfl
    -- a pull end of a push coroutine still waiting for its first call holds no fiber
    exfalso
    have hrs : r = ⟨r.co, .syn⟩ := by
      have hborn := (hi.hok.born _ _ _ hh hcb).2.1
      rw [hty, hkp] at hborn
      rcases r with ⟨a, _ | _⟩
      · simp [endKind] at hborn
      · rfl
    rw [hrs] at hf
    have hone := hi.sched.one _ _ hf
    have hbne : s.base r.co ≠ .none := by rw [hb]; simp
    have hcur : r.co ≠ s.cur := by
      intro he
      have hctl := hi.ctl
      rw [hc] at hctl
      have := hctl.2.1
      rw [← he, hb] at this; cases this
    obtain ⟨lc, hlc⟩ := hi.sched.held r.co hcur hbne
    have hsw := hi.sched.sus r.co hcur hbne
    have hfrr : s.frames r.co = [] := by
      cases hfx : s.frames r.co with
      | nil => rfl
      | cons f t =>
        rw [hfx, hb] at hsw
        cases f <;> simp [okSw, Base.isBody] at hsw
        cases t with
        | nil => simp [okRet, Base.isLam] at hsw
        | cons f' t' => cases f' <;> simp [okRet, Base.isBody] at hsw
    have hhole : hole (s.base r.co) r.co (s.frames r.co) = some ⟨r.co, .syn⟩ := by rw [hfrr, hb]; rfl
    cases lc with
    | air =>
      have hctl := hi.ctl
      rw [hc] at hctl
      rw [hctl.2.2.1] at hlc; cases hlc
    | cb q =>
      have := hi.sched.chan q r.co hlc
      rw [hhole] at this
      have hq : q = ⟨r.co, .own⟩ := by
        apply partner_inj
        rw [← Option.some.inj this]; rfl
      subst hq
      simp at hone
      rw [hone] at hlc; cases hlc
    | back m =>
      rcases hi.sched.back_shape m r.co hlc with h1 | h1
      · rw [hfrr] at h1; cases h1
      · rw [hhole] at h1; simp at h1
  case enterPull fn u hr hfr hb hk hal hair =>
    intro k
    dsimp only
    by_cases hkc : k = s.cur
    · subst hkc
      constructor <;> intro h1 <;> rw [hk] at h1 <;> cases h1
    · simp only [upd, hkc, if_false]
      refine (h k).quiet (evs := [_]) (.inl rfl) (by simp [jq]) ?_
      simp [nEnter, List.countP_cons, Ev.isEnter, Ne.symm hkc]
  case enterPush fn u hr hfr hb hk hal hair =>
    intro k
    dsimp only
    by_cases hkc : k = s.cur
    · subst hkc
      have h1 := (h s.cur).fresh hk (by rw [hb]; rfl)
      simp only [upd_same]
      constructor
      · intro _ h2; cases h2
      · intro _ _; left; simp [lastJump, nJump_cons, h1]
      · intro a b
        have hen := hlf s.cur
        rw [hb] at hen
        have := hen.2.2.en
        unfold nEnter at this b
        simp [List.countP_cons, Ev.isEnter] at b
        rw [List.countP_eq_zero] at this
        obtain ⟨e, he, h1⟩ := b
        exact absurd h1 (this e he)
    · have hkc' : s.cur ≠ k := Ne.symm hkc
      simp only [upd, hkc, if_false]
      have h1 := h k
      constructor
      · intro a b; simp [nJump_cons]; exact h1.fresh a b
      · intro a b; simp [nJump_cons, hkc', lastJump]; exact h1.entry a b
      · intro a b; simp [nJump_cons]
        refine h1.entered a ?_
        simpa [nEnter, List.countP_cons, Ev.isEnter] using b
  case startPush h0 fn u hr hfr hb hal hair hf =>
    intro k
    dsimp only
    by_cases hkc : k = s.cur
    · subst hkc
      have hlj : s.kind s.cur = .push → 2 ≤ nJump ⟨s.cur, .own⟩ s.log := by
        intro hk
        rcases (h s.cur).entry hk ⟨_, _, hb⟩ with ⟨⟨i, j, h1⟩, _⟩ | h1
        · exfalso
          have hctl := hi.ctl
          rw [hr] at hctl
          obtain ⟨r, hr1, hr2, hr3, hr4⟩ := hctl.2.1 u hair
          have hrr : r = ⟨s.cur, .own⟩ := by
            rw [hfc, hfr, hb] at hr2
            simp [hole] at hr2
            apply partner_inj; rw [← hr2]; rfl
          subst hrr
          have := (hj.air hr u _ hair hr1).1
          rw [h1] at this
          simp at this
        · exact h1
      simp only [upd_same]
      constructor
      · intro _ h2; cases h2
      · rintro _ ⟨x, y, h2⟩; cases h2
      · intro a _; simp [nJump_cons]; exact hlj a
    · simp only [upd, hkc, if_false]
      refine (h k).quiet (evs := [_]) (.inl rfl) (by simp [jq]) ?_
      simp [nEnter, List.countP_cons, Ev.isEnter, Ne.symm hkc]
  case fin h0 t x hx hfr hb hal hf =>
    intro k
    dsimp only
    by_cases hkc : k = s.cur
    · subst hkc
      simp only [upd_same]
      constructor
      · intro _ h2; cases h2
      · rintro _ ⟨x, y, h2⟩; cases h2
      · intro a b; simp [nJump_cons]
        refine (h s.cur).entered a ?_
        simpa [nEnter, List.countP_cons, Ev.isEnter] using b
    · have hkc' : s.cur ≠ k := Ne.symm hkc
      simp only [upd, hkc, if_false]
      have h1 := h k
      constructor
      · intro a b; simp [nJump_cons]; exact h1.fresh a b
      · intro a b; simp [nJump_cons, hkc', lastJump]; exact h1.entry a b
      · intro a b; simp [nJump_cons]
        refine h1.entered a ?_
        simpa [nEnter, List.countP_cons, Ev.isEnter] using b
  case nop hsc _ _ =>
    obtain ⟨ev, hl, hq, he⟩ := hsc.evs
    exact h.keep hsc.eqs.2.2.1 hsc.bases hl hq he
  case dropNone s0 hd =>
    exact (Dying.lazyInv hd h).keep (evs := []) rfl (fun _ => .inl rfl) rfl (by simp) (by simp)
  case dropSome s0 t hd =>
    exact (Dying.lazyInv hd h).keep (evs := [_]) rfl (fun _ => .inl rfl) rfl (by simp [jq]) (by simp [Ev.isEnter])
  case exit r b hc hfr hb hback hdead =>
    refine h.keep (evs := .dealloc s.cur :: (if s.fnObj s.cur = .record then [.fnDtor s.cur] else [])) rfl ?_ rfl ?_ ?_
    · intro k
      by_cases hk : k = s.cur
      · subst hk; right; simp [Base.isFresh]
      · left; simp [upd, hk]
    · split <;> simp [jq]
    · intro k; split <;> simp [Ev.isEnter]

theorem lazyInv_init (l0 : L) (g0 : G) : LazyInv (init l0 g0 : St L G V E) := by
  intro k; constructor <;> simp [init]

theorem lazy_reach {P : Prog L G V E} {l0 : L} {g0 : G} {s : St L G V E} (h : Reach P l0 g0 s) : LazyInv s := by
  induction h with
  | init => exact lazyInv_init l0 g0
  | step hr hs ih =>
    exact (step_rel (inv_reach hr) hs).lazyInv (inv_reach hr) (life_reach hr) (logFresh_reach hr) (jinv_reach hr) ih

end Verif
