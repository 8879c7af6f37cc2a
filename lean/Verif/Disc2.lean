import Verif.Disc

/-! # The discipline invariant is preserved.  Proof material. -/
namespace Verif
variable {L G V E : Type}

theorem nst_app {k : Nat} {evs log : List (Ev V E)} (h : ∀ e ∈ evs, Ev.isSetThrow k e = false) :
    nSetThrow k (evs ++ log) = nSetThrow k log := by
  unfold nSetThrow
  rw [List.countP_append]
  have : evs.countP (Ev.isSetThrow k) = 0 := by
    rw [List.countP_eq_zero]; intro e he; simp [h e he]
  omega

theorem nst_cons {k : Nat} {e : Ev V E} {log : List (Ev V E)} (h : Ev.isSetThrow k e = false) :
    nSetThrow k (e :: log) = nSetThrow k log := nst_app (evs := [e]) (by simpa using h)

theorem Local.nst {P : Prog L G V E} {s : St L G V E} {g : G} {fs : List (Frame L V E)} {c : Ctl L V E} {evs : List (Ev V E)}
    (h : Local P s g fs c evs) (k : Nat) : (∀ e ∈ evs, Ev.isSetThrow k e = false) := by
  cases h <;> simp [Ev.isSetThrow]
theorem Local.pre {P : Prog L G V E} {s : St L G V E} {g : G} {fs : List (Frame L V E)} {c : Ctl L V E} {evs : List (Ev V E)}
    (h : Local P s g fs c evs) : s.ctl ≠ .recv := by
  cases h <;> simp_all
theorem Dtor.nst {kd : Kind} {va : Var} {b : CB V E} {r : CbRef} {sl : Slot V} {evs : List (Ev V E)}
    (h : Dtor kd va b r sl evs) (k : Nat) : ∀ e ∈ evs, Ev.isSetThrow k e = false := by
  cases h <;> simp [Ev.isSetThrow]
theorem SetOk.nst {mv : V → V} {va : Var} {b b' : CB V E} {j : Nat} {a : PushArg V E} {evs : List (Ev V E)} {w : Option V}
    (h : SetOk mv va b j a b' evs w) (k : Nat) : ∀ e ∈ evs, Ev.isSetThrow k e = false := by
  cases h <;> simp [Ev.isSetThrow]
theorem Scope.nst {P : Prog L G V E} {s s1 : St L G V E} {h : Nat} (hs : Scope P s h s1) (k : Nat) :
    nSetThrow k s1.log = nSetThrow k s.log := by
  rcases hs.log with h | h
  · rw [h]
  · rw [h, nst_cons rfl]

theorem Inv.airNone {s : St L G V E} (hi : Inv s) (h : s.ctl ≠ .recv) : s.fib .air = none := by
  have := hi.ctl
  unfold CtlOk at this
  split at this
  · exact this.2.2.1
  · exact this.2.2.1
  · exact this.2.1
  · exact this.2.1
  · exact this.2.1
  · rename_i h'; exact absurd h' h

/-- a coroutine whose function has not ended is not in its final jump -/
theorem notFinal {s : St L G V E} (hi : Inv s) (hj : JInv s) {k : Nat} (hal : (s.cbs ⟨k, .own⟩).life = .alive)
    (hf : nFin k s.log = 0) : (s.base k).isFinal = false := by
  rcases hi.cb.own_state k hal with ⟨_, h, _⟩ | ⟨h, _⟩
  · exact h
  · rcases hj.own k hal with ⟨h', _⟩ | ⟨_, _, h'⟩
    · rw [h] at h'; exact absurd h' (by decide)
    · omega

/-- the object that a step destroys -/
theorem Scope.destroys {P : Prog L G V E} {s s1 : St L G V E} {h : Nat} (hs : Scope P s h s1) :
    Destroys P s h ∨ (s.ctl = .recv ∧ s.fr = [] ∧ (s.base s.cur).isFinal = true) := by
  cases hs
  case leave h1 h2 h3 => exact .inl (.leave h1 h2 h3)
  case api h1 h2 => exact .inl (.api ⟨_, h1, h2⟩)
  case raise h1 h2 => exact .inl (.raise h1 h2)
  case ret h1 h2 => exact .inl (.ret h1 h2)
  case unwFn hc hfr hb => exact .inl (.arg hc hfr (.inl hb))
  case unwEntry fn hc hfr hb => exact .inl (.arg hc hfr (.inr (.inr ⟨fn, hb⟩)))
  case unwFinal hc hfr hb => exact .inl (.arg hc hfr (.inr (.inl hb)))
  case final hc hfr hair hb => exact .inr ⟨hc, hfr, by rw [hb]; rfl⟩

theorem Disc.noFinal {s : St L G V E} {rest : List Nat} (d : Disc s rest) (hi : Inv s) (hr : s.ctl = .recv)
    (hf : (s.base s.cur).isFinal = true) (hfr : s.fr = []) : False := by
  have h0 : s.cur ≠ 0 := by
    intro h; rw [(hi.sched.main_iff s.cur).2 h] at hf; cases hf
  have hctl := hi.ctl
  rw [hr] at hctl
  have hb : s.fib (.back s.cur) = none := by
    cases hbk : s.fib (.back s.cur) with
    | none => rfl
    | some b =>
      have := hctl.2.2.2.1 (by rw [hbk]; simp)
      have hfr' : s.frames s.cur = [] := hfr
      rw [hfr'] at this
      cases hbb : s.base s.cur <;> rw [hbb] at this hf <;> simp_all [unwB, Base.isLam, Base.isFinal]
  have := (d.ownUp s.cur (by simp) h0 hb).2
  rw [hf] at this; cases this

theorem Disc.scope {P : Prog L G V E} {s s1 : St L G V E} {h : Nat} {rest : List Nat} (d : Disc s rest) (hi : Inv s)
    (hs : Scope P s h s1) : s.ctl ≠ .recv ∧ Destroys P s h ∧ s1.fib = s.fib ∧
      ((s1.base s.cur).isFinal = true → (s.base s.cur).isFinal = true) ∧ s1.base s.cur ≠ .none := by
  have hd := hs.destroys
  have hlive := hi.sched.cur_live
  rcases hd with hd | ⟨h1, h2, h3⟩
  · cases hs <;> simp_all [Base.isFinal] 
    case final hr hfr hair hb => exact d.noFinal hi hr (by rw [hb]; rfl) hfr
  · exact absurd (d.noFinal hi h1 h3 h2) id

theorem disc_init (l0 : L) (g0 : G) : Disc (init l0 g0 : St L G V E) [] := by
  refine ⟨rfl, by simp, trivial, by simp, ?_, ?_, ?_, ?_, ?_, ?_, ?_⟩
  · intro i hi hn
    exfalso
    simp [init] at hi hn
    exact hn hi
  · intro x hx h0; simp [init] at hx; exact absurd hx h0
  · intro x hx; simp [init] at hx
  · intro h; simp [init] at h
  · intro h; simp [init] at h
  · intro k; rfl
  · intro i hi hn
    exfalso
    simp [init] at hi hn
    exact hn hi

theorem holeAsg {b : Base L} {t : Nat} {fs tl : List (Frame L V E)} {r : CbRef} (h : fs = .asg r :: tl) : hole b t fs = some r := by
  rw [h]; rfl

/-- how the stack of active contexts changes in a step: not at all, one more on top, the top one leaves it -/
def Moved (c : Nat) (rest : List Nat) (c' : Nat) (rest' : List Nat) : Prop :=
  (c' = c ∧ rest' = rest) ∨ (c' ∉ c :: rest ∧ rest' = c :: rest) ∨ rest = c' :: rest'

theorem Disc.step {P : Prog L G V E} {s s' : St L G V E} {rest : List Nat} (d : Disc s rest) (hi : Inv s) (hi' : Inv s') (hj : JInv s)
    (ru : Rules P s) (h : Step P s s') : ∃ rest', Disc s' rest' ∧ Moved s.cur rest s'.cur rest' := by
  have hfc : s.frames s.cur = s.fr := rfl
  have hmem : ∀ x ∈ s.cur :: rest, s.base x ≠ .none := by
    intro x hx
    rcases List.mem_cons.1 hx with rfl | hx
    · exact hi.sched.cur_live
    · exact d.live x hx
  cases h
  case loc g fs c evs hl =>
    exact ⟨rest, d.quiet rfl rfl (hi.airNone hl.pre) (fun i hi => by simp [upd, hi]) (fun _ _ => rfl) id (fun _ => Iff.rfl) hl.jq.2
      (fun _ => by have := (hl.calm hi hi').2; simpa [St.fr] using this) (fun k => nst_app (hl.nst k)), .inl ⟨by first | rfl | assumption, rfl⟩⟩
  case get l h0 k r v h1 _ _ =>
    refine ⟨rest, d.quiet rfl rfl (hi.airNone (by rw [h1]; simp)) (fun i hi => by simp [upd, hi]) (fun _ _ => rfl) id ?_ (by simp)
      (by simp) (fun k => nst_cons rfl), .inl ⟨by first | rfl | assumption, rfl⟩⟩
    intro x
    show (upd s.cbs r _ ⟨x, .own⟩).life = _ ↔ _
    by_cases hx : (⟨x, .own⟩ : CbRef) = r
    · subst hx; simp
    · simp [upd, hx]
  case moveCtor l h0 k hd h1 _ _ =>
    exact ⟨rest, d.quiet rfl rfl (hi.airNone (by rw [h1]; simp)) (fun i hi => by simp [upd, hi]) (fun _ _ => rfl) id
      (fun _ => Iff.rfl) (by simp) (by simp) (fun k => rfl), .inl ⟨by first | rfl | assumption, rfl⟩⟩
  case moveAssign l _ _ k _ _ h1 _ _ _ _ =>
    exact ⟨rest, d.quiet rfl rfl (hi.airNone (by rw [h1]; simp)) (fun i hi => by simp [upd, hi]) (fun _ _ => rfl) id
      (fun _ => Iff.rfl) (by simp) (by simp) (fun k => rfl), .inl ⟨by first | rfl | assumption, rfl⟩⟩
  case ctorDrop r va t h1 _ =>
    exact ⟨rest, d.quiet rfl rfl (hi.airNone (by rw [h1]; simp)) (fun i hi => by simp [upd, hi]) (fun _ _ => rfl) id
      (fun _ => Iff.rfl) (by simp) (by simp) (fun k => rfl), .inl ⟨by first | rfl | assumption, rfl⟩⟩
  case mkFn h1 _ =>
    exact ⟨rest, d.quiet rfl rfl (hi.airNone (by rw [h1]; simp)) (fun i hi => by simp [upd, hi]) (fun _ _ => rfl) id
      (fun _ => Iff.rfl) (by simp) (by simp) (fun k => nst_cons rfl), .inl ⟨by first | rfl | assumption, rfl⟩⟩
  case mk l kd va fn k0 h1 _ =>
    have hair := hi.airNone (s := s) (by rw [h1]; simp)
    have hnk : s.base s.nk = .none := by
      cases hb : s.base s.nk with
      | none => rfl
      | _ => have := hi.sched.lt_nk s.nk (by rw [hb]; simp); omega
    have hnm : s.nk ∉ s.cur :: rest := fun hm => hmem _ hm hnk
    have hbk : s.fib (.back s.nk) = none := by
      cases hb : s.fib (.back s.nk) with
      | none => rfl
      | some b => exact absurd (d.backHolds hi hb).2.1 hnm
    have hcn : s.cur ≠ s.nk := fun e => hnm (by simp [← e])
    have hcn' : s.nk ≠ s.cur := fun e => hcn e.symm
    refine ⟨s.cur :: rest, d.down hnm rfl ?_ (fun h => by rw [h1] at h; cases h) (fun x hx => by simp [upd]) (fun x hx => by simp [upd])
      (fun x hx => by simp [upd]) (fun i hi => by simp [upd, hi]) ?_ ?_ ?_ ?_ ?_ ?_ (by simp) ?_ ?_, .inr (.inl ⟨by assumption, rfl⟩)⟩
    · right; right
      refine ⟨rfl, rfl, by simp, ?_⟩
      simp [upd, hcn', hi.sched.dead_frames _ hnk, hole]
    · intro i hik; simp [upd, hik]
    · intro i him
      have : i ≠ s.nk := fun e => hnm (e ▸ him)
      simpa [upd, this] using hmem i him
    · intro x hx _ _
      have : x ≠ s.nk := fun e => hnm (e ▸ hx)
      simp [upd, this]
    · intro x hx; simp [upd, hx]
    · intro _; simp [upd, Base.isFinal]
    · intro hb; simp [upd, hbk] at hb
    · intro _; simp [upd]
    · intro k
      exact (nst_cons (by rfl)).trans ((nst_cons (by rfl)).trans (nst_cons (by rfl)))
  case pushThrow l op k0 h0 a post hd r b evs e h1 h2 hpc _ _ _ _ _ _ ha _ =>
    exfalso
    subst ha
    cases hpc with
    | op => exact (ru.push _ _ _ ⟨l, h1, h2⟩).2
    | it h => exact (ru.put _ _ _ ⟨l, h1, h2⟩).2
  case push l op k0 h0 a post hd r b evs w t h1 h2 hpc hh hty hcb hal _ _ hse hf =>
    have hair := hi.airNone (s := s) (by rw [h1]; simp)
    have hctl := hi.ctl
    rw [h1] at hctl
    have hmr : MayResume s hd := by
      cases hpc with
      | op =>
        obtain ⟨⟨hd', e1, e2⟩, _⟩ := ru.push _ _ _ ⟨l, h1, h2⟩
        rw [hh] at e1; cases e1; exact e2
      | it =>
        obtain ⟨⟨h', hd', e0, e1, e2⟩, _⟩ := ru.put _ _ _ ⟨l, h1, h2⟩
        cases e0
        rw [hh] at e1; cases e1; exact e2
    have hlife : ∀ x, (upd s.cbs r.partner b ⟨x, .own⟩).life = .alive ↔ (s.cbs ⟨x, .own⟩).life = .alive := by
      intro x
      by_cases hx : (⟨x, .own⟩ : CbRef) = r.partner
      · rw [hx]; simp [hse.except.2.1]
      · simp [upd, hx]
    rcases hmr with ⟨k, hk, hnf, hsus⟩ | hk
    · rw [hk] at hcb; cases hcb
      obtain ⟨rfl, hkn⟩ := d.ownHolds hi hf
      have htc : t ≠ s.cur := fun e => hkn (by simp [e])
      refine ⟨s.cur :: rest, d.down hkn rfl ?_ (fun h => by rw [h1] at h; cases h) (fun x hx => by simp [upd]) (fun x hx => by simp [upd])
        (fun x hx => by simp [upd, hx]) (fun i hi => by simp [upd, hi]) (fun _ _ h => h) hmem (fun _ _ _ _ h => h)
        (fun x _ => hlife x) (fun _ => ⟨(hlife t).2 hal, notFinal hi hj hal hnf⟩) ?_ (by simp) ?_ ?_, .inr (.inl ⟨by assumption, rfl⟩)⟩
      · right; right
        refine ⟨rfl, rfl, by simp, ?_⟩
        have := hi.sched.chan _ _ hf
        simpa [upd, htc] using this
      · intro hb
        exfalso
        cases hb2 : s.fib (.back t) with
        | none => exact hb (by simpa [upd] using hb2)
        | some b => exact hkn (d.backHolds hi hb2).2.1
      · intro _; simp [upd]
      · intro k; exact (nst_cons (by rfl)).trans (nst_app (hse.nst k))
    · rw [hk] at hcb; cases hcb
      obtain ⟨r', rfl⟩ := d.synCur hi hf
      have htc : t ≠ s.cur := (hi.sched.fib_ok _ _ hf).1
      refine ⟨r', d.up rfl (fun h => by rw [h1] at h; cases h) (fun x hx => by simp [upd, hx]) (fun x hx => by simp [upd])
        (by simpa [upd] using hctl.2.2.2)
        (fun x hx => by simp [upd]) (fun i hi => by simp [upd, hi]) (fun _ _ => rfl) ?_
        (fun _ => (hlife s.cur).2 (d.ownUp s.cur (by simp) (d.synHolds hi hf).2.2 hctl.2.2.2).1) (fun x _ => hlife x) (by simp) ?_ ?_, .inr (.inr rfl)⟩
      · intro _
        right
        refine ⟨rfl, by simp, ?_⟩
        have := hi.sched.chan _ _ hf
        simpa [upd, htc] using this
      · intro _ h; simp [upd] at h
      · intro k; exact (nst_cons (by rfl)).trans (nst_app (hse.nst k))
  case pull l op k0 h0 post hd r t h1 h2 hpc hh hty hcb hal hf =>
    have hair := hi.airNone (s := s) (by rw [h1]; simp)
    have hctl := hi.ctl
    rw [h1] at hctl
    have hmr : MayResume s hd := by
      cases hpc with
      | op =>
        obtain ⟨hd', e1, e2⟩ := ru.resume _ _ ⟨l, h1, h2⟩
        rw [hh] at e1; cases e1; exact e2
      | it =>
        obtain ⟨h', hd', e0, e1, e2⟩ := ru.next _ _ ⟨l, h1, h2⟩
        cases e0
        rw [hh] at e1; cases e1; exact e2
    rcases hmr with ⟨k, hk, hnf, hsus⟩ | hk
    · rw [hk] at hcb; cases hcb
      obtain ⟨rfl, hkn⟩ := d.ownHolds hi hf
      have htc : t ≠ s.cur := fun e => hkn (by simp [e])
      refine ⟨s.cur :: rest, d.down hkn rfl ?_ (fun h => by rw [h1] at h; cases h) (fun x hx => by simp [upd]) (fun x hx => by simp [upd])
        (fun x hx => by simp [upd, hx]) (fun i hi => by simp [upd, hi]) (fun _ _ h => h) hmem (fun _ _ _ _ h => h)
        (fun x _ => Iff.rfl) (fun _ => ⟨hal, notFinal hi hj hal hnf⟩) ?_ (by simp) ?_ ?_, .inr (.inl ⟨by assumption, rfl⟩)⟩
      · right; right
        refine ⟨rfl, rfl, by simp, ?_⟩
        have := hi.sched.chan _ _ hf
        simpa [upd, htc] using this
      · intro hb
        exfalso
        cases hb2 : s.fib (.back t) with
        | none => exact hb (by simpa [upd] using hb2)
        | some b => exact hkn (d.backHolds hi hb2).2.1
      · intro _; simp [upd]
      · intro k; exact nst_cons (by rfl)
    · rw [hk] at hcb; cases hcb
      obtain ⟨r', rfl⟩ := d.synCur hi hf
      have htc : t ≠ s.cur := (hi.sched.fib_ok _ _ hf).1
      refine ⟨r', d.up rfl (fun h => by rw [h1] at h; cases h) (fun x hx => by simp [upd, hx]) (fun x hx => by simp [upd])
        (by simpa [upd] using hctl.2.2.2)
        (fun x hx => by simp [upd]) (fun i hi => by simp [upd, hi]) (fun _ _ => rfl) ?_
        (fun _ => (d.ownUp s.cur (by simp) (d.synHolds hi hf).2.2 hctl.2.2.2).1) (fun x _ => Iff.rfl) (by simp) ?_ ?_, .inr (.inr rfl)⟩
      · intro _
        right
        refine ⟨rfl, by simp, ?_⟩
        have := hi.sched.chan _ _ hf
        simpa [upd, htc] using this
      · intro _ h; simp [upd] at h
      · intro k; exact nst_cons (by rfl)
  case enterPull fn u hr hfr hb hk hal hair =>
    have hq : hole (s.base s.cur) s.cur (s.frames s.cur) = some ⟨s.cur, .syn⟩ := by rw [hb, hfc, hfr]; rfl
    have hn : s.fib (.cb ⟨s.cur, .syn⟩) = none := by
      cases hx : s.fib (.cb ⟨s.cur, .syn⟩) with
      | none => rfl
      | some y => 
        have h1 := hi.cb.full_alive _ _ hx
        rw [hi.cb.fresh_syn s.cur (by rw [hb]; rfl)] at h1; cases h1
    refine ⟨rest, d.store rfl hair hq hn rfl (fun _ _ => rfl) (fun i hi => by simp [upd, hi]) (by simp [upd, Base.isFinal]) ?_ (by simp)
      (by simp) (fun k => nst_cons (by rfl)), .inl ⟨by first | rfl | assumption, rfl⟩⟩
    intro x
    by_cases hx : x = s.cur
    · subst hx; simp [upd]
    · simp [upd, hx]
  case enterPush fn u hr hfr hb hk hal hair =>
    have hq : hole (s.base s.cur) s.cur (s.frames s.cur) = some ⟨s.cur, .syn⟩ := by rw [hb, hfc, hfr]; rfl
    have h0 : s.cur ≠ 0 := fun h => by rw [(hi.sched.main_iff s.cur).2 h] at hb; cases hb
    obtain ⟨r', rfl⟩ := d.belowAir hi h0 hr hair hq
    have huc := (hi.sched.fib_ok _ _ hair).1
    have hctl := hi.ctl
    rw [hr] at hctl
    refine ⟨r', d.up rfl (fun _ => .inl hair) (fun x hx => by simp [upd, hx]) (fun x hx => by simp [upd])
        ?_ (fun x hx => by simp [upd]) (fun _ _ => rfl) (fun i hi => by simp [upd, hi]) ?_ (fun _ => by simpa [upd] using hal) ?_ (by simp) ?_ ?_, .inr (.inr rfl)⟩
    · cases hbk : s.fib (.back s.cur) with
      | none => simp [upd, hbk]
      | some b =>
        have := hctl.2.2.2.1 (by rw [hbk]; simp)
        rw [hole_not_unw hctl.1 hq] at this; cases this
    · intro _
      right
      refine ⟨rfl, by simp, ?_⟩
      obtain ⟨q, g1, g2, _, _⟩ := hctl.2.1 u hair
      rw [hq] at g2
      have : q = ⟨s.cur, .own⟩ := partner_inj (Option.some.inj g2).symm
      subst this
      simpa [upd, huc] using g1
    · intro x hx; simp [upd, hx]
    · intro _ h; simp [upd] at h
    · intro k; exact nst_cons (by rfl)
  case startPush h0 fn u hr hfr hb hal hair hn =>
    have hq : hole (s.base s.cur) s.cur (s.frames s.cur) = some ⟨s.cur, .syn⟩ := by rw [hb, hfc, hfr]; rfl
    exact ⟨rest, d.store rfl hair hq hn rfl (fun _ _ => rfl) (fun i hi => by simp [upd, hi]) (by simp [upd, Base.isFinal])
      (fun _ => Iff.rfl) (by simp) (by simp) (fun k => nst_cons (by rfl)), .inl ⟨by first | rfl | assumption, rfl⟩⟩
  case wait t hr hfr hair =>
    exact ⟨rest, d.quiet rfl rfl hair (fun i hi => by simp [upd, hi]) (fun _ _ => rfl) id
      (fun _ => Iff.rfl) (by simp) (by simp) (fun k => rfl), .inl ⟨by first | rfl | assumption, rfl⟩⟩
  case asg r t u hr hfr hal hf hair hex =>
    have hq : hole (s.base s.cur) s.cur (s.frames s.cur) = some r := by rw [hfc, hfr]; rfl
    exact ⟨rest, d.store rfl hair hq hf rfl (fun i hi => by simp [upd, hi]) (fun _ _ => rfl) id
      (fun _ => Iff.rfl) (by simp) (by simp) (fun k => rfl), .inl ⟨by first | rfl | assumption, rfl⟩⟩
  case asgThrow r t u e hr hfr hal hf hair hex =>
    have hq : hole (s.base s.cur) s.cur (s.frames s.cur) = some r := by rw [hfc, hfr]; rfl
    exact ⟨rest, d.store rfl hair hq hf rfl (fun i hi => by simp [upd, hi]) (fun _ _ => rfl) id
      (fun _ => Iff.rfl) (by simp) (by simp) (fun k => nst_cons (by rfl)), .inl ⟨by first | rfl | assumption, rfl⟩⟩
  case pullCtor k t u hr hfr hk hal hf hair hex hv =>
    have hq : hole (s.base s.cur) s.cur (s.frames s.cur) = some ⟨k, .own⟩ := by rw [hfc, hfr]; rfl
    exact ⟨rest, d.store rfl hair hq hf rfl (fun i hi => by simp [upd, hi]) (fun _ _ => rfl) id
      (fun _ => Iff.rfl) (by simp) (by simp) (fun k => rfl), .inl ⟨by first | rfl | assumption, rfl⟩⟩
  case pushCtor k t u hr hfr hk hal hf hair =>
    have hq : hole (s.base s.cur) s.cur (s.frames s.cur) = some ⟨k, .own⟩ := by rw [hfc, hfr]; rfl
    exact ⟨rest, d.store rfl hair hq hf rfl (fun i hi => by simp [upd, hi]) (fun _ _ => rfl) id
      (fun _ => Iff.rfl) (by simp) (by simp) (fun k => rfl), .inl ⟨by first | rfl | assumption, rfl⟩⟩
  case fin h0 t x hx hfr hb hal hf =>
    obtain ⟨r', rfl⟩ := d.synCur hi hf
    have htc : t ≠ s.cur := (hi.sched.fib_ok _ _ hf).1
    have hnr : s.ctl ≠ .recv := by
      rcases hx with ⟨h, _⟩ | ⟨e, h, _⟩ <;> rw [h] <;> simp
    have hbk : s.fib (.back s.cur) = none := by
      have hctl := hi.ctl
      rcases hx with ⟨h, _⟩ | ⟨e, h, _⟩ <;> rw [h] at hctl
      · exact hctl.2.2.2
      · exact hctl.2.2
    refine ⟨r', d.up rfl (fun h => absurd h hnr) (fun x hx => by simp [upd, hx]) (fun x hx => by simp [upd])
      (by simpa [upd] using hbk)
      (fun x hx => by simp [upd]) (fun _ _ => rfl) (fun i hi => by simp [upd, hi]) ?_ (fun _ => by simpa [upd] using hal) ?_ (by simp) ?_ ?_, .inr (.inr rfl)⟩
    · intro _
      right
      refine ⟨rfl, by simp, ?_⟩
      have := hi.sched.chan _ _ hf
      simpa [upd, htc] using this
    · intro x hx; simp [upd, hx]
    · intro _ h; simp [upd] at h
    · intro k; exact (nst_cons (by rfl)).trans ((nst_cons (by rfl)).trans (nst_cons (by rfl)))
  case nop h0 s1 hd hsc _ _ =>
    obtain ⟨e1, e2, e3, e4, e5, e6, e7, e8, e9, e10, e11⟩ := hsc.eqs
    obtain ⟨c1, _, c2, c3, c4⟩ := d.scope hi hsc
    exact ⟨rest, d.quiet e1 c2 (hi.airNone c1) e10 e11 c3 (fun x => by show (s1.cbs _).life = _ ↔ _; rw [e2]) (by simp) (by simp)
      (fun k => hsc.nst k), .inl ⟨by first | rfl | assumption, rfl⟩⟩
  case dropNone s0 hdy =>
    generalize hfo : (none : Option Nat) = fo at hdy
    cases hdy
    case handle h0 s1 hd k sl evs hsc hh hcb hal hdt =>
      exfalso
      obtain ⟨e1, e2, e3, e4, e5, e6, e7, e8, e9, e10, e11⟩ := hsc.eqs
      obtain ⟨c1, c0, c2, c3, c4⟩ := d.scope hi hsc
      obtain ⟨hd', g1, g2⟩ := ru.destroy _ c0
      rw [e5] at hh
      rw [hh] at g1; cases g1
      rw [e2] at hal
      have hk : k ≠ 0 := by
        rintro rfl
        rw [hi.cb.unborn 0 .own (.inl rfl)] at hal; cases hal
      have := d.parked hi hj hal hk (g2.1 k hcb) c1
      rw [c2, this] at hfo; cases hfo
    case ctorInvalid => cases hfo
    case ctorThrow => cases hfo
    case ctorUnw x f k t hc hfr hf =>
      exfalso
      cases x with
      | user e =>
        have hctl := hi.ctl
        rw [hc] at hctl
        have := hctl.1
        rw [hfc, hfr] at this
        rcases hf with rfl | rfl <;> simp [okRaiseU, okU, okPost, Frame.isU] at this
      | forced =>
        have := d.forced hc
        rw [hfr] at this
        rcases hf with rfl | rfl <;> simp [ctorOf] at this
    case syn r sl evs hc hfr hbb hdt =>
      have hfib : upd s.fib (.cb ⟨s.cur, .syn⟩) none = s.fib := upd_self' _ _ hfo.symm
      refine ⟨rest, d.quiet rfl hfib (hi.airNone (by rw [hc]; simp)) (fun _ _ => rfl) (fun i hi => by simp [upd, hi])
        (by simp [upd, Base.isFinal]) (fun x => by simp [upd]) (by simp) (by simp) (fun k => nst_app (hdt.nst k)), .inl ⟨by first | rfl | assumption, rfl⟩⟩
  case dropSome s0 t hdy =>
    generalize hfo : some t = fo at hdy
    cases hdy
    case handle h0 s1 hd k sl evs hsc hh hcb hal hdt =>
      obtain ⟨e1, e2, e3, e4, e5, e6, e7, e8, e9, e10, e11⟩ := hsc.eqs
      obtain ⟨c1, c0, c2, c3, c4⟩ := d.scope hi hsc
      rw [c2] at hfo
      obtain ⟨rfl, hkn⟩ := d.ownHolds hi hfo.symm
      have htc : t ≠ s.cur := fun e => hkn (by simp [e])
      refine ⟨s.cur :: rest, d.down hkn rfl ?_ (fun h => absurd h c1) (fun x hx => ?_) (fun x hx => ?_)
        (fun x hx => ?_) (fun i hic => ?_) (fun i hik => ?_) ?_ ?_ ?_ ?_ ?_ ?_ (by simp) ?_, .inr (.inl ⟨by assumption, rfl⟩)⟩
      · right; left
        refine ⟨by simp [e1], ?_⟩
        simp [e1, waitTop]
      · simp [upd, c2]
      · simp [upd, c2, hx]
      · simp [upd, c2, hx]
      · simp [upd, e1, hic, e10]
      · intro hb
        by_cases hic : i = s.cur
        · subst hic; exact hi.sched.cur_live
        · rw [← e11 i hic]; exact hb
      · intro i him
        by_cases hic : i = s.cur
        · subst hic; exact c4
        · show s1.base i ≠ _
          rw [e11 i hic]; exact hmem i him
      · intro x hx _ _ hfin
        show (s1.base x).isFinal = _
        by_cases hic : x = s.cur
        · subst hic
          cases hq : (s1.base s.cur).isFinal
          · rfl
          · rw [c3 hq] at hfin; cases hfin
        · rw [e11 x hic]; exact hfin
      · intro x hx; simp [upd, hx, e2]
      · intro h; simp [upd] at h
      · intro _; simp
      · intro _
        have := hi.sched.chan _ _ hfo.symm
        have he : s1.frames t = s.frames t := e10 t htc
        simp only [St.fr, upd, e1, htc, if_false, he]
        cases hq : s.frames t with
        | nil => rfl
        | cons f tl => rw [hq] at this; cases f <;> simp_all [hole, ctorOf]
      · intro k; exact (nst_cons (by rfl)).trans ((nst_app (hdt.nst k)).trans (hsc.nst k))
    case ctorInvalid k tl sl evs u hr hfr hk hal hf hair hex hv hdt =>
      cases hfo
      have hq : hole (s.base s.cur) s.cur (s.frames s.cur) = some ⟨k, .own⟩ := by rw [hfc, hfr]; rfl
      obtain ⟨hkn, rfl⟩ : t ∉ s.cur :: rest ∧ k = t := by
        rcases d.whereIs hi hair with ⟨_, x, _, _, h1 | ⟨h1, _⟩ | ⟨h1, _, h2, h3⟩⟩ | ⟨h0, h1 | ⟨h1, _, h2⟩⟩
        · cases h1
        · cases h1
        · subst h2; rw [hq] at h3; simp at h3
        · cases h1
        · rw [hq] at h2; simp at h2; exact ⟨h0, h2⟩
      have htc : k ≠ s.cur := fun e => hkn (by simp [e])
      refine ⟨s.cur :: rest, d.down hkn rfl ?_ (fun _ y hy => by rw [hair] at hy; cases hy; rfl) (fun x hx => ?_) (fun x hx => ?_)
        (fun x hx => ?_) (fun i hic => ?_) (fun i hik h => h) hmem (fun _ _ _ _ h => h) ?_ ?_ ?_ ?_ (by simp) ?_, .inr (.inl ⟨by assumption, rfl⟩)⟩
      · right; left
        exact ⟨by simp, by simp [waitTop]⟩
      · simp [upd]
      · simp [upd, hx]
      · simp [upd]
      · simp [upd, hic]
      · intro x hx; simp [upd, hx]
      · intro h; simp [upd] at h
      · intro _; simp
      · intro _
        have hctl := hi.ctl
        rw [hr] at hctl
        obtain ⟨q, g1, g2, _, _⟩ := hctl.2.1 k hair
        rw [hq] at g2
        have : q = ⟨k, .syn⟩ := partner_inj (Option.some.inj g2).symm
        subst this
        simp only [St.fr, upd, htc, if_false]
        cases hq : s.frames k with
        | nil => rfl
        | cons f tl => rw [hq] at g1; cases f <;> simp_all [hole, ctorOf]
      · intro k; exact (nst_cons (by rfl)).trans (nst_app (hdt.nst k))
    case ctorThrow k tl e u hr hfr hk hal hf hair hex =>
      cases hfo
      have hq : hole (s.base s.cur) s.cur (s.frames s.cur) = some ⟨k, .own⟩ := by rw [hfc, hfr]; rfl
      obtain ⟨hkn, rfl⟩ : t ∉ s.cur :: rest ∧ k = t := by
        rcases d.whereIs hi hair with ⟨_, x, _, _, h1 | ⟨h1, _⟩ | ⟨h1, _, h2, h3⟩⟩ | ⟨h0, h1 | ⟨h1, _, h2⟩⟩
        · cases h1
        · cases h1
        · subst h2; rw [hq] at h3; simp at h3
        · cases h1
        · rw [hq] at h2; simp at h2; exact ⟨h0, h2⟩
      have htc : k ≠ s.cur := fun e => hkn (by simp [e])
      refine ⟨s.cur :: rest, d.down hkn rfl ?_ (fun _ y hy => by rw [hair] at hy; cases hy; rfl) (fun x hx => ?_) (fun x hx => ?_)
        (fun x hx => ?_) (fun i hic => ?_) (fun i hik h => h) hmem (fun _ _ _ _ h => h) ?_ ?_ ?_ ?_ (by simp) ?_, .inr (.inl ⟨by assumption, rfl⟩)⟩
      · right; left
        exact ⟨by simp, by simp [waitTop]⟩
      · simp [upd]
      · simp [upd, hx]
      · simp [upd]
      · simp [upd, hic]
      · intro x hx; simp [upd, hx]
      · intro h; simp [upd] at h
      · intro _; simp
      · intro _
        have hctl := hi.ctl
        rw [hr] at hctl
        obtain ⟨q, g1, g2, _, _⟩ := hctl.2.1 k hair
        rw [hq] at g2
        have : q = ⟨k, .syn⟩ := partner_inj (Option.some.inj g2).symm
        subst this
        simp only [St.fr, upd, htc, if_false]
        cases hq : s.frames k with
        | nil => rfl
        | cons f tl => rw [hq] at g1; cases f <;> simp_all [hole, ctorOf]
      · intro k; exact (nst_cons (by rfl)).trans (nst_cons (by rfl))
    case ctorUnw x f k tl hc hfr hf =>
      exfalso
      cases x with
      | user e =>
        have hctl := hi.ctl
        rw [hc] at hctl
        have := hctl.1
        rw [hfc, hfr] at this
        rcases hf with rfl | rfl <;> simp [okRaiseU, okU, okPost, Frame.isU] at this
      | forced =>
        have := d.forced hc
        rw [hfr] at this
        rcases hf with rfl | rfl <;> simp [ctorOf] at this
    case syn r sl evs hc hfr hbb hdt =>
      exfalso
      have hctl := hi.ctl
      rw [hc] at hctl
      have hbk := hctl.2.2.2 (by rw [hbb]; simp [unwB, Base.isLam])
      cases hb : s.fib (.back s.cur) with
      | none => exact hbk hb
      | some b =>
        obtain ⟨r1, h1⟩ := d.succ hi (.inr rfl) hb
        obtain ⟨r2, h2⟩ := d.synCur hi hfo.symm
        rw [h1] at h2; cases h2
        have := hi.sched.inj _ _ _ hb hfo.symm
        cases this
  case exit r b hc hfr hb hback hdead =>
    obtain ⟨r', rfl⟩ := d.succ hi (.inr rfl) hback
    have hbc := (hi.sched.fib_ok _ _ hback).1
    have hair := hi.airNone (s := s) (by rw [hc]; simp)
    have hw := (d.backHolds hi hback).2.2.2
    refine ⟨r', d.up rfl (fun h => by rw [hc] at h; cases h) (fun x hx => by simp [upd]) (fun x hx => by simp [upd, hx])
      (by simp [upd]) (fun x hx => by simp [upd]) (fun i hi => by simp [upd, hi]) (fun i hi => by simp [upd, hi]) ?_ (by simp [upd]) ?_ (by simp) ?_ ?_, .inr (.inr rfl)⟩
    · intro h; simp [upd] at h
    · intro x hx; simp [freeCbs, upd, hx]
    · intro _ _; simpa [St.fr, upd, hbc] using hw
    · intro k
      refine (nst_cons (by rfl)).trans ?_
      split
      · exact nst_app (by simp [Ev.isSetThrow])
      · rfl

/-- As long as the rules are obeyed every reachable state is disciplined. -/
theorem disc_reach {P : Prog L G V E} {l0 : L} {g0 : G} {s : St L G V E} (h : ReachOk P l0 g0 s) :
    ∃ rest, Disc s rest := by
  induction h with
  | init => exact ⟨[], disc_init l0 g0⟩
  | step hr hu hs ih =>
    obtain ⟨rest, d⟩ := ih
    obtain ⟨rest', d', _⟩ := d.step (inv_reach hr.reach) (inv_reach (hr.reach.step hs)) (jinv_reach hr.reach) hu (step_rel (inv_reach hr.reach) hs)
    exact ⟨rest', d'⟩
end Verif
