import Verif.Rel2

/-!
# Pending constructors

Proof material: what is known about a coroutine while the constructor of its control block is still waiting.
-/
namespace Verif
variable {L G V E : Type}

/-- the block whose pending `c = …` is on top -/
def asgOf : List (Frame L V E) → Option CbRef
  | .asg r :: _ => some r
  | _ => none

structure CtorInv (s : St L G V E) : Prop where
  excl : ∀ i k, asgOf (s.frames i) = some ⟨k, .own⟩ → ∀ j, ctorOf (s.frames j) ≠ some k
  clean : ∀ i k, ctorOf (s.frames i) = some k → s.kind k = .pull →
    ((s.cbs ⟨k, .own⟩).bvalid = false ∧ (s.cbs ⟨k, .own⟩).except = none) ∨
    (i = s.cur ∧ s.ctl = .recv ∧ ((s.cbs ⟨k, .own⟩).bvalid = false ∨ (s.cbs ⟨k, .own⟩).except = none))
  pushc : ∀ i k, ctorOf (s.frames i) = some k → s.kind k = .push →
    (s.base k).isFresh = true ∨ (i = s.cur ∧ s.ctl = .recv ∧ ∃ h fn, s.base k = .pushEntry h fn)

/-- The top frame of the running context goes away or is replaced by something harmless. -/
theorem CtorInv.keep {s s' : St L G V E} (h : CtorInv s) (hfr : ∀ i, i ≠ s.cur → s'.frames i = s.frames i)
    (ha : asgOf (s'.frames s.cur) = none) (hc : ctorOf (s'.frames s.cur) = none) (hk : s'.kind = s.kind)
    (hb : ∀ k, (s.base k).isFresh = true → s.kind k = .push → s.kind s.cur = .push →  (s'.base k).isFresh = true)
    (hb' : ∀ k, (s.base k).isFresh = true → s.kind k = .push → s.kind s.cur = .pull → (s'.base k).isFresh = true)
    (he : ∀ k, (s'.cbs ⟨k, .own⟩).bvalid = (s.cbs ⟨k, .own⟩).bvalid ∧ (s'.cbs ⟨k, .own⟩).except = (s.cbs ⟨k, .own⟩).except) :
    CtorInv s' := by
  have hf : ∀ i k, asgOf (s'.frames i) = some k → i ≠ s.cur ∧ asgOf (s.frames i) = some k := by
    intro i k h1
    by_cases hi : i = s.cur
    · subst hi; rw [ha] at h1; cases h1
    · rw [hfr i hi] at h1; exact ⟨hi, h1⟩
  have hg : ∀ i k, ctorOf (s'.frames i) = some k → i ≠ s.cur ∧ ctorOf (s.frames i) = some k := by
    intro i k h1
    by_cases hi : i = s.cur
    · subst hi; rw [hc] at h1; cases h1
    · rw [hfr i hi] at h1; exact ⟨hi, h1⟩
  refine ⟨?_, ?_, ?_⟩
  · intro i k h1 j h2
    exact h.excl i k (hf i _ h1).2 j (hg j _ h2).2
  · intro i k h1 h2
    obtain ⟨h3, h4⟩ := hg i k h1
    rw [(he k).1, (he k).2]
    rcases h.clean i k h4 (by rw [← hk]; exact h2) with h5 | h5
    · exact .inl h5
    · exact absurd h5.1 h3
  · intro i k h1 h2
    obtain ⟨h3, h4⟩ := hg i k h1
    have hp : s.kind k = .push := by rw [← hk]; exact h2
    rcases h.pushc i k h4 hp with h5 | h5
    · refine .inl ?_
      cases hkc : s.kind s.cur
      · exact hb' k h5 hp hkc
      · exact hb k h5 hp hkc
    · exact absurd h5.1 h3

theorem asgOf_okRet {b : Base L} {fs : List (Frame L V E)} (h : okRet b fs = true) : asgOf fs = none := by
  cases fs with
  | nil => rfl
  | cons f t => cases f <;> simp_all [asgOf, okRet]
theorem asgOf_okU {fs : List (Frame L V E)} (h : okU fs = true) : asgOf fs = none := by
  cases fs with
  | nil => rfl
  | cons f t => cases f <;> simp_all [asgOf, okU, Frame.isU]
theorem asgOf_okPost {fs : List (Frame L V E)} (h : okPost fs = true) : asgOf fs = none := by
  cases fs with
  | nil => rfl
  | cons f t => cases f <;> simp_all [asgOf, okPost]

/-- After a step that leaves the running context running (not by unwinding or a switch) its stack top is harmless. -/
theorem Inv.calm {s : St L G V E} (hi : Inv s) (h : s.ctl ≠ .recv) (h' : s.ctl ≠ .raise .forced) :
    asgOf s.fr = none ∧ ctorOf s.fr = none := by
  have hctl := hi.ctl
  unfold CtlOk at hctl
  unfold St.fr
  split at hctl
  · exact ⟨asgOf_okU hctl.1, ctorOf_okU hctl.1⟩
  · exact ⟨asgOf_okU hctl.1, ctorOf_okU hctl.1⟩
  · exact ⟨asgOf_okRet hctl.1, ctorOf_okRet hctl.1⟩
  · have := hctl.1
    simp only [okRaiseU, Bool.and_eq_true, Bool.or_eq_true] at this
    rcases this.1 with h | h
    · exact ⟨asgOf_okU h, ctorOf_okU h⟩
    · exact ⟨asgOf_okPost h, ctorOf_okPost h⟩
  · rename_i hx; exact absurd hx h'
  · rename_i hx; exact absurd hx h

theorem calm_okU {fs : List (Frame L V E)} (h : okU fs = true) : asgOf fs = none ∧ ctorOf fs = none :=
  ⟨asgOf_okU h, ctorOf_okU h⟩
theorem calm_okUsr {fs : List (Frame L V E)} (h : okUsr fs = true) : asgOf fs = none ∧ ctorOf fs = none :=
  ⟨asgOf_okPost (okPost_of_okUsr h), ctorOf_okUsr h⟩
theorem calm_okPost {fs : List (Frame L V E)} (h : okPost fs = true) : asgOf fs = none ∧ ctorOf fs = none :=
  ⟨asgOf_okPost h, ctorOf_okPost h⟩

/-- While an exception propagates: everything below the top frame is harmless. -/
theorem Inv.calmTail {s : St L G V E} {x : Exn E} {f : Frame L V E} {t : List (Frame L V E)} (hi : Inv s)
    (hc : s.ctl = .raise x) (hf : s.fr = f :: t) : asgOf t = none ∧ ctorOf t = none := by
  have hctl := hi.ctl
  rw [hc] at hctl
  have key : okRaiseF (s.base s.cur) (f :: t) = true := by
    have hff : s.frames s.cur = f :: t := hf
    rw [← hff]
    cases x with
    | forced => exact hctl.1
    | user e =>
      have := hctl.1
      simp only [okRaiseU, Bool.and_eq_true, Bool.or_eq_true] at this
      rcases this.1 with h | h
      · exact okRaiseF_okU h this.2
      · exact okRaiseF_okPost h this.2
  cases f <;> simp [okRaiseF, okRaiseU, okU, okPost, Frame.isU] at key
  case gObj => exact calm_okU (by unfold okU; rw [List.all_eq_true]; exact key.1)
  case gCoro => exact calm_okU (by unfold okU; rw [List.all_eq_true]; exact key.1)
  case hdl => exact calm_okU (by unfold okU; rw [List.all_eq_true]; exact key.1)
  case fnRet => exact calm_okU (by unfold okU; rw [List.all_eq_true]; exact key.1)
  case usr => exact calm_okU (by unfold okU; rw [List.all_eq_true]; exact key.1)
  case fetch => exact calm_okUsr key.1
  case pfetch => exact calm_okUsr key.1
  case resid => exact calm_okUsr key.1
  case asg =>
    exact calm_okPost key.1
  case pullCtor => exact calm_okUsr key.1
  case pushCtor => exact calm_okUsr key.1

theorem Local.calm {P : Prog L G V E} {s : St L G V E} {g : G} {fs : List (Frame L V E)} {c : Ctl L V E} {evs : List (Ev V E)}
    (h : Local P s g fs c evs) (hi : Inv s)
    (hi' : Inv { s with g := g, frames := upd s.frames s.cur fs, ctl := c, log := evs ++ s.log }) :
    asgOf fs = none ∧ ctorOf fs = none := by
  have hc : c ≠ .recv := by cases h <;> simp
  by_cases hf : c = .raise .forced
  · cases h <;> first | (cases hf; done) | skip
    case rObj h1 h2 => exact hi.calmTail h1 h2
    case rSkip h1 h2 => exact hi.calmTail h1 h2
    case rFnRet h1 h2 => exact hi.calmTail h1 h2
    case rUsrF h1 h2 => exact hi.calmTail h1 h2
    case rFetch h1 h2 => exact hi.calmTail h1 h2
    case rPfetch h1 h2 => exact hi.calmTail h1 h2
    case rResid h1 h2 => exact hi.calmTail h1 h2
    case rAsg h1 h2 => exact hi.calmTail h1 h2
    case dCRaise h1 h2 =>
      have hctl := hi.ctl
      have h2' : s.frames s.cur = _ := h2
      rw [h1, CtlOk, h2'] at hctl
      have := hctl.1
      simp only [okRet, Bool.and_eq_true, Bool.or_eq_true] at this
      rcases this.1 with h | h
      · exact calm_okU h
      · exact calm_okUsr h
  · have := hi'.calm hc hf
    simpa [St.fr] using this

/-- Frame lemma for scopes: nothing but stack tops and (in the running context) the entry lambda's progress changes. -/
theorem Scope.eqs {P : Prog L G V E} {s s1 : St L G V E} {h : Nat} (hs : Scope P s h s1) :
    s1.cur = s.cur ∧ s1.cbs = s.cbs ∧ s1.kind = s.kind ∧ s1.va = s.va ∧ s1.hs = s.hs ∧ s1.nh = s.nh ∧ s1.nk = s.nk ∧
    s1.g = s.g ∧ s1.stk = s.stk ∧ (∀ i, i ≠ s.cur → s1.frames i = s.frames i) ∧ (∀ i, i ≠ s.cur → s1.base i = s.base i) := by
  cases hs <;> simp_all [upd]

theorem Scope.calm {P : Prog L G V E} {s s1 : St L G V E} {h : Nat} (hs : Scope P s h s1) :
    asgOf s1.fr = none ∧ ctorOf s1.fr = none := by
  cases hs <;> simp_all [asgOf, ctorOf, St.fr]

theorem Scope.fresh {P : Prog L G V E} {s s1 : St L G V E} {h : Nat} (hs : Scope P s h s1) (hi : Inv s) (k : Nat)
    (hk : (s.base k).isFresh = true) : (s1.base k).isFresh = true := by
  cases hs <;> first | exact hk | skip
  all_goals
    by_cases hc : k = s.cur
    · subst hc; simp_all [Base.isFresh]
    · simpa [upd, hc] using hk

theorem Dying.eqs {P : Prog L G V E} {s s0 : St L G V E} {f : Option Nat} (hs : Dying P s f s0) :
    s0.cur = s.cur ∧ s0.kind = s.kind ∧ s0.va = s.va ∧ s0.nh = s.nh ∧ s0.nk = s.nk ∧
    s0.g = s.g ∧ s0.stk = s.stk ∧ (∀ i, i ≠ s.cur → s0.frames i = s.frames i) ∧ (∀ i, i ≠ s.cur → s0.base i = s.base i) ∧
    (∀ r, (s0.cbs r).bvalid = (s.cbs r).bvalid ∧ (s0.cbs r).except = (s.cbs r).except ∧ (s0.cbs r).other = (s.cbs r).other) := by
  cases hs
  case handle hsc _ _ _ _ =>
    obtain ⟨e1, e2, e3, e4, e5, e6, e7, e8, e9, e10, e11⟩ := hsc.eqs
    refine ⟨e1, e3, e4, e6, e7, e8, e9, e10, e11, ?_⟩
    intro r
    simp only [upd, e2]
    split <;> simp_all
  all_goals
    refine ⟨rfl, rfl, rfl, rfl, rfl, rfl, rfl, ?_, ?_, ?_⟩
    · intro i hi; simp [upd, hi]
    · intro i hi; simp [upd, hi]
    · intro r; simp only [upd]; split <;> simp_all

theorem Dying.calm {P : Prog L G V E} {s s0 : St L G V E} {f : Option Nat} (hs : Dying P s f s0) :
    asgOf s0.fr = none ∧ ctorOf s0.fr = none := by
  cases hs
  case handle hsc _ _ _ _ => exact hsc.calm
  all_goals simp_all [asgOf, ctorOf, St.fr]

theorem Dying.fresh {P : Prog L G V E} {s s0 : St L G V E} {f : Option Nat} (hs : Dying P s f s0) (hi : Inv s) (k : Nat)
    (hk : (s.base k).isFresh = true) : (s0.base k).isFresh = true := by
  cases hs
  case handle hsc _ _ _ _ => exact hsc.fresh hi k hk
  case syn =>
    by_cases hc : k = s.cur
    · subst hc; simp_all [Base.isFresh]
    · simpa [upd, hc] using hk
  all_goals exact hk

theorem SetOk.except {mv : V → V} {va : Var} {b b' : CB V E} {j : Nat} {a : PushArg V E} {evs : List (Ev V E)} {w : Option V}
    (h : SetOk mv va b j a b' evs w) : b'.except = b.except ∧ b'.life = b.life ∧ b'.other = b.other ∧ b'.state = b.state := by
  cases h <;> simp
theorem SetThrows.except {va : Var} {b b' : CB V E} {j : Nat} {evs : List (Ev V E)}
    (h : SetThrows va b j b' evs) : b'.except = b.except ∧ b'.life = b.life ∧ b'.other = b.other ∧ b'.state = b.state ∧
      b'.bvalid = b.bvalid := by
  cases h <;> simp

/-- The context that will receive the next transfer to end `own k` is the one whose constructor of `k` waits. -/
theorem CtorInv.target {s : St L G V E} (hc : CtorInv s) (hi : Inv s) {t i k : Nat}
    (hh : hole (s.base t) t (s.frames t) = some ⟨k, .own⟩) (hk : ctorOf (s.frames i) = some k) : i = t := by
  cases hf : s.frames t with
  | nil =>
    rw [hf] at hh
    cases hb : s.base t <;> rw [hb] at hh <;> simp [hole] at hh
  | cons f tl =>
    have h1 := hc.excl t k
    rw [hf] at hh h1
    cases f <;> simp [hole] at hh
    case asg =>
      subst hh
      exact absurd hk (h1 rfl i)
    case pullCtor =>
      exact hi.hok.ctor_uniq i t k hk (by rw [hf, hh]; rfl)
    case pushCtor =>
      exact hi.hok.ctor_uniq i t k hk (by rw [hf, hh]; rfl)

theorem CbOk.lt_nk {base : Nat → Base L} {cbs : CbRef → CB V E} {fib : FLoc → Option Nat} {nk : Nat}
    (h : CbOk base cbs fib nk) {r : CbRef} (hr : (cbs r).life ≠ .unborn) : r.co < nk := by
  by_cases hlt : r.co < nk
  · exact hlt
  · exact absurd (h.unborn r.co r.side (.inr (by omega))) hr

theorem Inv.hole_lt {s : St L G V E} (hi : Inv s) (ha : s.fib .air = none) {i : Nat} {q : CbRef} (hc : i ≠ s.cur)
    (hh : hole (s.base i) i (s.frames i) = some q) : q.co < s.nk := by
  have hb : s.base i ≠ .none := by
    intro hb
    have := hi.sched.dead_frames i hb
    rw [hb, this] at hh
    cases hh
  obtain ⟨l, hl⟩ := hi.sched.held i hc hb
  cases l with
  | air => rw [ha] at hl; cases hl
  | cb r =>
    have h1 := hi.sched.chan r i hl
    rw [hh] at h1
    cases h1
    exact hi.cb.lt_nk (r := r) (by rw [hi.cb.full_alive r i hl]; simp)
  | back k =>
    rcases hi.sched.back_shape k i hl with h | ⟨h1, h2⟩
    · rw [hole_not_wait hh] at h; cases h
    · rw [hh] at h1; cases h1
      exact hi.sched.lt_nk k (by intro h; rw [h] at h2; cases h2)

theorem Step.ctorInv {P : Prog L G V E} {s s' : St L G V E} (hs : Step P s s') (hi : Inv s) (hi' : Inv s')
    (hc : CtorInv s) : CtorInv s' := by
  have hfc : s.frames s.cur = s.fr := rfl
  cases hs
  case loc h =>
    obtain ⟨h1, h2⟩ := h.calm hi hi'
    refine hc.keep ?_ (by simpa using h1) (by simpa using h2) rfl ?_ ?_ ?_
    · intro i h; simp [upd, h]
    all_goals simp +contextual
  case get =>
    refine hc.keep ?_ (by simp [asgOf]) (by simp [ctorOf]) rfl ?_ ?_ ?_
    · intro i h; simp [upd, h]
    · simp +contextual
    · simp +contextual
    · intro k; simp only [upd]; split <;> simp_all
  case moveCtor =>
    refine hc.keep ?_ (by simp [asgOf]) (by simp [ctorOf]) rfl ?_ ?_ ?_
    · intro i h; simp [upd, h]
    all_goals simp +contextual
  case moveAssign =>
    refine hc.keep ?_ (by simp [asgOf]) (by simp [ctorOf]) rfl ?_ ?_ ?_
    · intro i h; simp [upd, h]
    all_goals simp +contextual
  case ctorDrop =>
    obtain ⟨h1, h2⟩ := hi'.calm (by simp) (by simp)
    refine hc.keep ?_ h1 h2 rfl ?_ ?_ ?_
    · intro i h; simp [upd, h]
    all_goals simp +contextual
  case mkFn =>
    refine hc.keep ?_ (by simp [asgOf]) (by simp [ctorOf]) rfl ?_ ?_ ?_
    · intro i h; simp [upd, h]
    all_goals simp +contextual
  case wait =>
    obtain ⟨h1, h2⟩ := hi'.calm (by simp) (by simp)
    refine hc.keep ?_ h1 h2 rfl ?_ ?_ ?_
    · intro i h; simp [upd, h]
    all_goals simp +contextual
  case asg =>
    obtain ⟨h1, h2⟩ := hi'.calm (by simp) (by simp)
    refine hc.keep ?_ h1 h2 rfl ?_ ?_ ?_
    · intro i h; simp [upd, h]
    all_goals simp +contextual
  case asgThrow =>
    obtain ⟨h1, h2⟩ := hi'.calm (by simp) (by simp)
    refine hc.keep ?_ h1 h2 rfl ?_ ?_ ?_
    · intro i h; simp [upd, h]
    all_goals simp +contextual
  case pullCtor =>
    obtain ⟨h1, h2⟩ := hi'.calm (by simp) (by simp)
    refine hc.keep ?_ h1 h2 rfl ?_ ?_ ?_
    · intro i h; simp [upd, h]
    all_goals simp +contextual
  case pushCtor =>
    obtain ⟨h1, h2⟩ := hi'.calm (by simp) (by simp)
    refine hc.keep ?_ h1 h2 rfl ?_ ?_ ?_
    · intro i h; simp [upd, h]
    all_goals simp +contextual
  case pushThrow h =>
    refine hc.keep ?_ (by simp [asgOf]) (by simp [ctorOf]) rfl ?_ ?_ ?_
    · intro i h; simp [upd, h]
    · simp +contextual
    · simp +contextual
    · intro k; simp only [upd]; split
      · rename_i hk; rw [h.except.1, h.except.2.2.2.2, ← hk]; simp
      · simp
  case enterPull hfr hb hk _ _ =>
    refine hc.keep ?_ ?_ ?_ rfl ?_ ?_ ?_
    · intro i h; rfl
    · simp [asgOf, hfc, hfr]
    · simp [ctorOf, hfc, hfr]
    · intro k h1 h2 h3; rw [hk] at h3; cases h3
    · intro k h1 h2 h3
      by_cases hkc : k = s.cur
      · subst hkc; rw [hk] at h2; cases h2
      · simpa [upd, hkc] using h1
    · intro k; simp only [upd]; split <;> simp_all
  case startPush hfr hb _ _ _ =>
    refine hc.keep ?_ ?_ ?_ rfl ?_ ?_ ?_
    · intro i h; rfl
    · simp [asgOf, hfc, hfr]
    · simp [ctorOf, hfc, hfr]
    · intro k h1 h2 h3
      by_cases hkc : k = s.cur
      · subst hkc; rw [hb] at h1; cases h1
      · simpa [upd, hkc] using h1
    · intro k h1 h2 h3
      by_cases hkc : k = s.cur
      · subst hkc; rw [hb] at h1; cases h1
      · simpa [upd, hkc] using h1
    · intro k; simp
  case nop hsc _ _ =>
    obtain ⟨e1, e2, e3, e4, e5, e6, e7, e8, e9, e10, e11⟩ := hsc.eqs
    have hcalm := hsc.calm
    simp only [St.fr, e1] at hcalm
    refine hc.keep e10 hcalm.1 hcalm.2 e3 ?_ ?_ ?_
    · intro k h1 _ _; exact hsc.fresh hi k h1
    · intro k h1 _ _; exact hsc.fresh hi k h1
    · intro k; simp [e2]
  case dropNone hd =>
    obtain ⟨e1, e3, e4, e6, e7, e8, e9, e10, e11, e12⟩ := hd.eqs
    have hcalm := hd.calm
    simp only [St.fr, e1] at hcalm
    refine hc.keep e10 hcalm.1 hcalm.2 e3 ?_ ?_ ?_
    · intro k h1 _ _; exact hd.fresh hi k h1
    · intro k h1 _ _; exact hd.fresh hi k h1
    · intro k; exact ⟨(e12 _).1, (e12 _).2.1⟩
  case dropSome hd =>
    obtain ⟨e1, e3, e4, e6, e7, e8, e9, e10, e11, e12⟩ := hd.eqs
    refine hc.keep ?_ (by simp [e1, asgOf]) (by simp [e1, ctorOf]) e3 ?_ ?_ ?_
    · intro i h; simp only [upd, e1, h, if_false]; exact e10 i h
    · intro k h1 _ _; exact hd.fresh hi k h1
    · intro k h1 _ _; exact hd.fresh hi k h1
    · intro k; exact ⟨(e12 _).1, (e12 _).2.1⟩
  case exit hfr hb _ _ =>
    refine hc.keep ?_ (by simp [asgOf]) (by simp [ctorOf]) rfl ?_ ?_ ?_
    · intro i h; simp [upd, h]
    · intro k h1 h2 h3
      by_cases hkc : k = s.cur
      · subst hkc; rw [hb] at h1; cases h1
      · simpa [upd, hkc] using h1
    · intro k h1 h2 h3
      by_cases hkc : k = s.cur
      · subst hkc; rw [hb] at h1; cases h1
      · simpa [upd, hkc] using h1
    · intro k; simp only [freeCbs, upd]; (repeat' split) <;> simp_all
  case mk l kd va fn k0 hctl hcode =>
    have hcur : s.cur ≠ s.nk := by
      have := hi.sched.lt_nk s.cur hi.sched.cur_live
      omega
    have hair : s.fib .air = none := by
      have := hi.ctl; rw [hctl] at this; exact this.2.2.1
    have hasg : ∀ i k, asgOf (upd s.frames s.cur (ctorFrame kd s.nk :: .usr k0 :: s.fr) i) = some k →
        i ≠ s.cur ∧ asgOf (s.frames i) = some k ∧ k.co < s.nk := by
      intro i k h1
      by_cases hic : i = s.cur
      · subst hic; cases kd <;> simp [ctorFrame, asgOf] at h1
      · simp only [upd, hic, if_false] at h1
        refine ⟨hic, h1, hi.hole_lt hair hic (q := k) ?_⟩
        cases hf : s.frames i with
        | nil => rw [hf] at h1; cases h1
        | cons f t => rw [hf] at h1; cases f <;> simp [asgOf] at h1; simp [hole, h1]
    have hct : ∀ i k, ctorOf (upd s.frames s.cur (ctorFrame kd s.nk :: .usr k0 :: s.fr) i) = some k →
        (i = s.cur ∧ k = s.nk) ∨ (i ≠ s.cur ∧ ctorOf (s.frames i) = some k ∧ k < s.nk) := by
      intro i k h1
      by_cases hic : i = s.cur
      · subst hic; cases kd <;> simp [ctorFrame, ctorOf] at h1 <;> exact .inl ⟨rfl, h1.symm⟩
      · simp only [upd, hic, if_false] at h1
        have := hi.hok.ctor i k h1
        exact .inr ⟨hic, h1, hi.cb.lt_nk (r := ⟨k, .own⟩) (by rw [this]; simp)⟩
    refine ⟨?_, ?_, ?_⟩
    · intro i k h1 j h2
      obtain ⟨h3, h4, h5⟩ := hasg i _ h1
      rcases hct j k h2 with ⟨h6, h7⟩ | ⟨h6, h7, h8⟩
      · subst h7; simp at h5
      · exact hc.excl i k h4 j h7
    · intro i k h1 h2
      rcases hct i k h1 with ⟨h6, h7⟩ | ⟨h6, h7, h8⟩
      · subst h7; left; simp
      · have hne : k ≠ s.nk := by omega
        simp only [upd, hne, if_false] at h2
        rcases hc.clean i k h7 h2 with h9 | h9
        · left; simpa [upd, hne] using h9
        · exact absurd h9.1 h6
    · intro i k h1 h2
      rcases hct i k h1 with ⟨h6, h7⟩ | ⟨h6, h7, h8⟩
      · subst h7; left; simp [Base.isFresh]
      · have hne : k ≠ s.nk := by omega
        simp only [upd, hne, if_false] at h2
        rcases hc.pushc i k h7 h2 with h9 | h9
        · left; simpa [upd, hne] using h9
        · exact absurd h9.1 h6
  case push l op k0 h a post hd r b evs w t hctl _ _ hh _ hcb hal _ hpal hset hfib =>
    have hcal := hi.calm (by rw [hctl]; simp) (by rw [hctl]; simp)
    have hct : ∀ i k, ctorOf (upd s.frames s.cur (.asg r :: (post w ++ .usr k0 :: s.fr)) i) = some k →
        (i ≠ s.cur ∧ ctorOf (s.frames i) = some k) := by
      intro i k h1
      by_cases hic : i = s.cur
      · subst hic; simp [ctorOf] at h1
      · simp only [upd, hic, if_false] at h1
        exact ⟨hic, h1⟩
    refine ⟨?_, ?_, ?_⟩
    · intro i k h1 j h2
      obtain ⟨h3, h4⟩ := hct j k h2
      by_cases hic : i = s.cur
      · subst hic
        simp [asgOf] at h1
        subst h1
        exact (hi.hok.own h hd k hh hcb).2 j h4
      · simp only [upd, hic, if_false] at h1
        exact hc.excl i k h1 j h4
    · intro i k h1 h2
      obtain ⟨h3, h4⟩ := hct i k h1
      rcases hc.clean i k h4 h2 with h9 | h9
      · by_cases hp : r.partner = ⟨k, .own⟩
        · right
          have := hi.sched.chan r t hfib
          rw [hp] at this
          refine ⟨hc.target hi this h4, rfl, .inr ?_⟩
          have h10 := h9.2
          rw [← hp] at h10
          simp [← hp, hset.except.1, h10]
        · left
          have : ¬ (⟨k, .own⟩ : CbRef) = r.partner := fun h => hp h.symm
          simpa [upd, this] using h9
      · exact absurd h9.1 h3
    · intro i k h1 h2
      obtain ⟨h3, h4⟩ := hct i k h1
      rcases hc.pushc i k h4 h2 with h9 | h9
      · exact .inl h9
      · exact absurd h9.1 h3
  case pull l op k0 h post hd r t hctl _ _ hh _ hcb hal hfib =>
    have hct : ∀ i k, ctorOf (upd s.frames s.cur (.asg r :: (post ++ .usr k0 :: s.fr)) i) = some k →
        (i ≠ s.cur ∧ ctorOf (s.frames i) = some k) := by
      intro i k h1
      by_cases hic : i = s.cur
      · subst hic; simp [ctorOf] at h1
      · simp only [upd, hic, if_false] at h1
        exact ⟨hic, h1⟩
    refine ⟨?_, ?_, ?_⟩
    · intro i k h1 j h2
      obtain ⟨h3, h4⟩ := hct j k h2
      by_cases hic : i = s.cur
      · subst hic
        simp [asgOf] at h1
        subst h1
        exact (hi.hok.own h hd k hh hcb).2 j h4
      · simp only [upd, hic, if_false] at h1
        exact hc.excl i k h1 j h4
    · intro i k h1 h2
      obtain ⟨h3, h4⟩ := hct i k h1
      rcases hc.clean i k h4 h2 with h9 | h9
      · exact .inl h9
      · exact absurd h9.1 h3
    · intro i k h1 h2
      obtain ⟨h3, h4⟩ := hct i k h1
      rcases hc.pushc i k h4 h2 with h9 | h9
      · exact .inl h9
      · exact absurd h9.1 h3
  case enterPush fn u hctl hfr hb hk hal hair =>
    have hnc : ∀ i k, ctorOf (s.frames i) = some k → i ≠ s.cur := by
      rintro i k h rfl
      rw [hfc, hfr] at h; cases h
    refine ⟨hc.excl, ?_, ?_⟩
    · intro i k h1 h2
      rcases hc.clean i k h1 h2 with h9 | h9
      · left
        simp only [upd]
        (repeat' split) <;> simp_all
      · exact absurd h9.1 (hnc i k h1)
    · intro i k h1 h2
      rcases hc.pushc i k h1 h2 with h9 | h9
      · by_cases hkc : k = s.cur
        · right
          subst hkc
          have hct := hi.ctl
          rw [hctl] at hct
          obtain ⟨r, h5, h6, -⟩ := hct.2.1 u hair
          rw [hb, hfc, hfr] at h6
          simp only [hole, Option.some.injEq] at h6
          have h7 : r = ⟨s.cur, .own⟩ := by
            apply partner_inj; rw [← h6]; rfl
          subst h7
          refine ⟨hc.target hi h5 h1, rfl, ?_⟩
          simp
        · left; simpa [upd, hkc] using h9
      · exact absurd h9.1 (hnc i k h1)
  case fin h t x hctl hfr hb hal hfib =>
    have hctl' : s.ctl ≠ .recv := by
      rcases hctl with ⟨h1, -⟩ | ⟨e, h1, -⟩ <;> rw [h1] <;> simp
    refine ⟨hc.excl, ?_, ?_⟩
    · intro i k h1 h2
      rcases hc.clean i k h1 h2 with h9 | h9
      · by_cases hkc : k = s.cur
        · right
          subst hkc
          have := hi.sched.chan _ t hfib
          refine ⟨hc.target hi this h1, rfl, .inl ?_⟩
          simpa using h9.1
        · left
          simpa [upd, hkc] using h9
      · exact absurd h9.2.1 hctl'
    · intro i k h1 h2
      rcases hc.pushc i k h1 h2 with h9 | h9
      · by_cases hkc : k = s.cur
        · subst hkc; rw [hb] at h9; cases h9
        · left; simpa [upd, hkc] using h9
      · exact absurd h9.2.1 hctl'

theorem ctorInv_init (l0 : L) (g0 : G) : CtorInv (init l0 g0 : St L G V E) := by
  refine ⟨?_, ?_, ?_⟩ <;> simp [init, asgOf, ctorOf]

theorem ctor_reach {P : Prog L G V E} {l0 : L} {g0 : G} {s : St L G V E} (h : Reach P l0 g0 s) : CtorInv s := by
  induction h with
  | init => exact ctorInv_init l0 g0
  | step hr hs ih =>
    have hi := inv_reach hr
    exact (step_rel hi hs).ctorInv hi (inv_step hi hs) ih

end Verif
