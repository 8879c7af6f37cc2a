import Verif.JumpInv
import Verif.Disc2

/-!
# Where suspended contexts are held

Proof material: the context that made the last transfer of control over a coroutine is held at the other end (or just arriving).
-/
namespace Verif
variable {L G V E : Type}

/-- the end can be used: its block is alive, and the entry lambda has not been left -/
def Usable (s : St L G V E) (r : CbRef) : Prop :=
  (s.cbs r).life = .alive ∧ (r.side = .syn → (s.base r.co).isLam = false)

/-- not a transfer of control -/
def nj : Ev V E → Bool
  | .jump .. => false
  | _ => true

theorem nj_of_jq {evs : List (Ev V E)} (h : ∀ e ∈ evs, jq e = true) : ∀ e ∈ evs, nj e = true := by
  intro e he
  have := h e he
  cases e <;> simp_all [jq, nj]

theorem lastJump_nj {c : Nat} {evs log : List (Ev V E)} (h : ∀ e ∈ evs, nj e = true) :
    lastJump c (evs ++ log) = lastJump c log := by
  induction evs with
  | nil => rfl
  | cons e t ih =>
    have h1 := h e (by simp)
    have h2 := ih (fun e he => h e (by simp [he]))
    cases e <;> first | (simp [nj] at h1; done) | simpa [lastJump] using h2

def HeldInv (s : St L G V E) : Prop :=
  ∀ r i j, lastJump r.co s.log = some (r.partner, i, j) → Usable s r →
    s.fib (.cb r) = some i ∨ (s.ctl = .recv ∧ s.fib .air = some i ∧ hole (s.base s.cur) s.cur s.fr = some r)

theorem HeldInv.keep {s s' : St L G V E} {evs : List (Ev V E)} (h : HeldInv s) (hl : s'.log = evs ++ s.log)
    (hq : ∀ e ∈ evs, nj e = true)
    (hk : ∀ r, Usable s' r → Usable s r ∧ (∀ i, s.fib (.cb r) = some i → s'.fib (.cb r) = some i) ∧
      (∀ i, s.ctl = .recv → s.fib .air = some i → hole (s.base s.cur) s.cur s.fr = some r → s'.fib (.cb r) = some i)) :
    HeldInv s' := by
  intro r i j hj hu
  rw [hl, lastJump_nj hq] at hj
  obtain ⟨h1, h2, h3⟩ := hk r hu
  rcases h r i j hj h1 with h4 | ⟨h4, h5, h6⟩
  · exact .inl (h2 i h4)
  · exact .inl (h3 i h4 h5 h6)

/-- a transfer of control through `r0` -/
theorem HeldInv.jump {s s' : St L G V E} {r0 : CbRef} {t : Nat} {evs : List (Ev V E)} (h : HeldInv s)
    (hl : s'.log = .jump r0 s.cur t :: (evs ++ s.log)) (hq : ∀ e ∈ evs, nj e = true) (hc : s'.ctl = .recv)
    (ha : s'.fib .air = some s.cur) (hh : Usable s' r0.partner → hole (s'.base s'.cur) s'.cur s'.fr = some r0.partner)
    (hk : ∀ r, r.co ≠ r0.co → Usable s' r → Usable s r ∧ (∀ i, s.fib (.cb r) = some i → s'.fib (.cb r) = some i) ∧
      (s.ctl = .recv → hole (s.base s.cur) s.cur s.fr ≠ some r)) : HeldInv s' := by
  intro r i j hj hu
  rw [hl] at hj
  simp only [lastJump] at hj
  split at hj
  · rename_i hco
    simp only [Option.some.injEq, Prod.mk.injEq] at hj
    obtain ⟨h1, rfl, rfl⟩ := hj
    have : r = r0.partner := by rw [h1]; simp
    subst this
    exact .inr ⟨hc, ha, hh hu⟩
  · rename_i hco
    rw [lastJump_nj hq] at hj
    obtain ⟨h1, h2, h3⟩ := hk r (fun h => hco h.symm) hu
    rcases h r i j hj h1 with h4 | ⟨h4, h5, h6⟩
    · exact .inl (h2 i h4)
    · exact absurd h6 (h3 h4)

theorem Local.notRecv {P : Prog L G V E} {s : St L G V E} {g : G} {fs : List (Frame L V E)} {c : Ctl L V E}
    {evs : List (Ev V E)} (h : Local P s g fs c evs) : s.ctl ≠ .recv := by
  intro hr
  cases h <;> rename_i h1 _ <;> first | (rw [hr] at h1; cases h1; done) | simp_all

theorem Scope.usable {P : Prog L G V E} {s s1 : St L G V E} {h : Nat} (hsc : Scope P s h s1) (r : CbRef)
    (hu : r.side = .syn → (s1.base r.co).isLam = false) :
    (r.side = .syn → (s.base r.co).isLam = false) ∧ (s.ctl = .recv → hole (s.base s.cur) s.cur s.fr ≠ some r) := by
  have up : ∀ b : Base L, b.isLam = true → (r.side = .syn → (upd s.base s.cur b r.co).isLam = false) → r.side = .syn →
      (s.base r.co).isLam = false := by
    intro b hb hu hsd
    have := hu hsd
    by_cases hrc : r.co = s.cur
    · rw [hrc, upd_same, hb] at this; cases this
    · rwa [upd_ne _ _ hrc] at this
  cases hsc
  case final hr hfr _ hb =>
    refine ⟨up _ rfl hu, ?_⟩
    intro _ hole'
    rw [hfr, hb] at hole'
    have : r = ⟨s.cur, .syn⟩ := by simpa [hole] using hole'.symm
    subst this
    have := hu rfl
    simp [Base.isLam] at this
  case unwFn hc _ _ => exact ⟨up _ rfl hu, fun hr => by rw [hc] at hr; cases hr⟩
  case unwEntry hc _ _ => exact ⟨up _ rfl hu, fun hr => by rw [hc] at hr; cases hr⟩
  case unwFinal hc _ _ => exact ⟨up _ rfl hu, fun hr => by rw [hc] at hr; cases hr⟩
  all_goals exact ⟨hu, fun hr => by simp_all⟩

theorem Dying.held {P : Prog L G V E} {s s0 : St L G V E} {f : Option Nat} (hs : Dying P s f s0)
    (h : HeldInv s) : HeldInv { s0 with ctl := .deliver .unit } := by
  have hfc : s.frames s.cur = s.fr := rfl
  cases hs
  case handle s1 hd k sl evs hsc hh hcb hal hdt =>
    obtain ⟨e1, e2, e3, e4, e5, e6, e7, e8, e9, e10, e11⟩ := hsc.eqs
    obtain ⟨f1, f2, f3⟩ := hsc.fibs
    obtain ⟨ev, hl, hq⟩ := hsc.jq
    have hq := nj_of_jq hq
    refine h.keep (evs := evs ++ ev) (by simp [hl]) ?_ ?_
    · intro e he
      rcases List.mem_append.1 he with he | he
      · exact nj_of_jq hdt.jq e he
      · exact hq e he
    · rintro r ⟨hu1, hu2⟩
      have hrk : r ≠ ⟨k, .own⟩ := by rintro rfl; simp at hu1
      have hu1' : (s.cbs r).life = .alive := by simpa [upd, hrk, e2] using hu1
      have hfib : upd s1.fib (.cb ⟨k, .own⟩) none (.cb r) = s.fib (.cb r) := by simp [upd, hrk, f1]
      obtain ⟨g1, g2⟩ := hsc.usable r hu2
      exact ⟨⟨hu1', g1⟩, fun i hf => by dsimp only; rw [hfib]; exact hf, fun i hr _ hh => absurd hh (g2 hr)⟩
  case ctorInvalid k t sl evs u hr hfr _ _ _ _ _ _ hdt =>
    refine h.keep rfl (nj_of_jq hdt.jq) ?_
    rintro r ⟨hu1, hu2⟩
    have hrk : r ≠ ⟨k, .own⟩ := by rintro rfl; simp at hu1
    refine ⟨⟨by simpa [upd, hrk] using hu1, hu2⟩, ?_, ?_⟩
    · intro i hf; simpa [upd] using hf
    · intro i _ _ hole'
      rw [hfr] at hole'
      simp [hole] at hole'
      exact absurd hole'.symm hrk
  case ctorThrow k t e u hr hfr _ _ _ _ _ =>
    refine h.keep (evs := [_]) rfl (by simp [nj]) ?_
    rintro r ⟨hu1, hu2⟩
    have hrk : r ≠ ⟨k, .own⟩ := by rintro rfl; simp at hu1
    refine ⟨⟨by simpa [upd, hrk] using hu1, hu2⟩, ?_, ?_⟩
    · intro i hf; simpa [upd] using hf
    · intro i _ _ hole'
      rw [hfr] at hole'
      simp [hole] at hole'
      exact absurd hole'.symm hrk
  case ctorUnw x f k t hc hfr hf =>
    refine h.keep (evs := []) rfl (by simp) ?_
    rintro r ⟨hu1, hu2⟩
    have hrk : r ≠ ⟨k, .own⟩ := by rintro rfl; simp at hu1
    refine ⟨⟨by simpa [upd, hrk] using hu1, hu2⟩, ?_, ?_⟩
    · intro i hf; simpa [upd, hrk] using hf
    · intro i hr; rw [hc] at hr; cases hr
  case syn r0 sl evs hc hfr hb hdt =>
    refine h.keep rfl (nj_of_jq hdt.jq) ?_
    rintro r ⟨hu1, hu2⟩
    have hrk : r ≠ ⟨s.cur, .syn⟩ := by rintro rfl; simp at hu1
    refine ⟨⟨by simpa [upd, hrk] using hu1, ?_⟩, ?_, ?_⟩
    · intro hsd
      have := hu2 hsd
      have hrc : r.co ≠ s.cur := by
        intro hrc; apply hrk; rcases r with ⟨a, b⟩; simp at hrc hsd; rw [hrc, hsd]
      simpa [upd, hrc] using this
    · intro i hf; simpa [upd, hrk] using hf
    · intro i hr; rw [hc] at hr; cases hr

theorem Step.held {P : Prog L G V E} {s s' : St L G V E} (hs : Step P s s') (hi : Inv s) (hj : JInv s)
    (h : HeldInv s) : HeldInv s' := by
  have hfc : s.frames s.cur = s.fr := rfl
  have eqv : ∀ {r : CbRef}, r.co = s.cur → r.side = .syn → r = ⟨s.cur, .syn⟩ := by
    rintro ⟨a, b⟩ h1 h2; simp at h1 h2; rw [h1, h2]
  -- steps that leave blocks, bases and fibers alone
  have same : ∀ {s' : St L G V E} {evs : List (Ev V E)}, s'.log = evs ++ s.log → (∀ e ∈ evs, nj e = true) → s.ctl ≠ .recv ∨ s.fib .air = none →
      (∀ r, (s'.cbs r).life = (s.cbs r).life) → s'.base = s.base → (∀ r, s'.fib (.cb r) = s.fib (.cb r)) → HeldInv s' := by
    intro s' evs hl hq hc hcb hb hf
    refine h.keep hl hq ?_
    rintro r ⟨hu1, hu2⟩
    refine ⟨⟨by rw [← hcb]; exact hu1, by rw [hb] at hu2; exact hu2⟩, fun i hi => by rw [hf]; exact hi, ?_⟩
    intro i hr ha
    rcases hc with hc | hc
    · exact absurd hr hc
    · rw [hc] at ha; cases ha
  -- the arriving fiber is stored
  have stored : ∀ {s' : St L G V E} {evs : List (Ev V E)} {q : CbRef} {u : Nat}, s.fib .air = some u →
      hole (s.base s.cur) s.cur s.fr = some q → s'.log = evs ++ s.log → (∀ e ∈ evs, nj e = true) →
      (∀ r, r ≠ q → Usable s' r → Usable s r) → (∀ r, r ≠ q → s'.fib (.cb r) = s.fib (.cb r)) → s'.fib (.cb q) = some u →
      s.ctl = .recv → HeldInv s' := by
    intro s' evs q u ha hh hl hq hu hf hfq hr r i j hlj hus
    rw [hl, lastJump_nj hq] at hlj
    by_cases hrq : r = q
    · subst hrq
      left
      have hctl := hi.ctl
      rw [hr] at hctl
      obtain ⟨r', hr1, hr2, -⟩ := hctl.2.1 u ha
      rw [hfc, hh] at hr2
      have hrr : r = r'.partner := Option.some.inj hr2
      have hr' : r' = r.partner := by rw [hrr]; simp
      subst hr'
      have := (hj.air hr u _ ha hr1).1
      rw [partner_co, hlj] at this
      simp only [Option.some.injEq, Prod.mk.injEq] at this
      rw [hfq, this.2.1]
    · rcases h r i j hlj (hu r hrq hus) with h4 | ⟨h4, h5, h6⟩
      · left; rw [hf r hrq]; exact h4
      · rw [hh] at h6; exact absurd (Option.some.inj h6).symm hrq
  cases hs
  case loc hl =>
    refine h.keep rfl (nj_of_jq hl.jq.1) ?_
    rintro r hu
    refine ⟨hu, fun i hi => hi, ?_⟩
    intro i hr
    exact absurd hr hl.notRecv
  case get l h0 k r v h1 _ _ =>
    refine same (evs := [_]) rfl (by simp [nj]) (.inl (by rw [h1]; simp)) ?_ rfl (fun _ => rfl)
    intro r'
    by_cases hrr : r' = r
    · subst hrr; simp
    · simp [upd, hrr]
  case moveCtor h1 _ _ => exact same (evs := []) rfl (by simp) (.inl (by rw [h1]; simp)) (fun _ => rfl) rfl (fun _ => rfl)
  case moveAssign h1 _ _ _ _ => exact same (evs := []) rfl (by simp) (.inl (by rw [h1]; simp)) (fun _ => rfl) rfl (fun _ => rfl)
  case ctorDrop h1 _ => exact same (evs := []) rfl (by simp) (.inl (by rw [h1]; simp)) (fun _ => rfl) rfl (fun _ => rfl)
  case mkFn h1 _ => exact same (evs := [_]) rfl (by simp [nj]) (.inl (by rw [h1]; simp)) (fun _ => rfl) rfl (fun _ => rfl)
  case wait h1 _ ha => exact same (evs := []) rfl (by simp) (.inr ha) (fun _ => rfl) rfl (fun _ => rfl)
  case pushThrow h1 _ _ _ _ _ _ _ _ _ hse =>
    refine same rfl (nj_of_jq hse.jq) (.inl (by rw [h1]; simp)) ?_ rfl (fun _ => rfl)
    intro r'
    simp only [upd]
    split
    · rename_i hrr; rw [hse.except.2.1, hrr]
    · rfl
  case mk l kd va fn k h1 h2 =>
    refine h.jump (r0 := ⟨s.nk, .own⟩) (t := s.nk) (evs := [_, _]) rfl (by simp [nj]) rfl (by simp) ?_ ?_
    · rintro ⟨hu, -⟩
      have : (s.cbs ⟨s.nk, .syn⟩).life = .alive := by simpa [upd] using hu
      rw [hi.cb.unborn s.nk .syn (.inr (Nat.le_refl _))] at this; cases this
    · rintro r hr ⟨hu1, hu2⟩
      have hr' : r ≠ ⟨s.nk, .own⟩ := by rintro rfl; exact hr rfl
      simp only at hr
      refine ⟨⟨by simpa [upd, hr'] using hu1, by simpa [upd, hr] using hu2⟩, fun i hf => by simpa [upd] using hf, ?_⟩
      intro hc; rw [h1] at hc; cases hc
  case push l op k0 h0 a post hd r b evs w t h1 _ hpc _ _ _ hal _ _ hse hf =>
    refine h.jump (r0 := r) (t := t) rfl (nj_of_jq hse.jq) rfl (by simp) ?_ ?_
    · intro _
      have hne := (hi.sched.fib_ok _ _ hf).1
      have := hi.sched.chan _ _ hf
      simp only [St.fr]
      rw [upd_ne _ _ hne]; exact this
    · rintro r' hr ⟨hu1, hu2⟩
      have hr' : r' ≠ r.partner := by rintro rfl; exact hr rfl
      have hr'' : r' ≠ r := by rintro rfl; exact hr rfl
      refine ⟨⟨by simpa [upd, hr'] using hu1, hu2⟩, fun i hf => by simpa [upd, hr''] using hf, ?_⟩
      intro hc; rw [h1] at hc; cases hc
  case pull l op k0 h0 post hd r t h1 _ hpc _ _ _ hal hf =>
    refine h.jump (r0 := r) (t := t) (evs := []) rfl (by simp) rfl (by simp) ?_ ?_
    · intro _
      have hne := (hi.sched.fib_ok _ _ hf).1
      have := hi.sched.chan _ _ hf
      simp only [St.fr]
      rw [upd_ne _ _ hne]; exact this
    · rintro r' hr ⟨hu1, hu2⟩
      have hr'' : r' ≠ r := by rintro rfl; exact hr rfl
      refine ⟨⟨hu1, hu2⟩, fun i hf => by simpa [upd, hr''] using hf, ?_⟩
      intro hc; rw [h1] at hc; cases hc
  case enterPull fn u hr hfr hb hk hal hair =>
    refine stored (evs := [_]) (q := ⟨s.cur, .syn⟩) (u := u) hair (by rw [hfr, hb]; rfl) rfl (by simp [nj]) ?_ ?_ (by simp [upd]) hr
    · rintro r hr ⟨hu1, hu2⟩
      by_cases hro : r = ⟨s.cur, .own⟩
      · subst hro; exact ⟨hal, by simp⟩
      · refine ⟨by simpa [upd, hr, hro] using hu1, ?_⟩
        intro hsd
        have hrc : r.co ≠ s.cur := fun h => hr (eqv h hsd)
        simpa [upd, hrc] using hu2 hsd
    · intro r hr; simp [upd, hr]
  case enterPush fn u hr hfr hb hk hal hair =>
    have hctl := hi.ctl
    rw [hr] at hctl
    obtain ⟨r, hr1, hr2, hr3, hr4⟩ := hctl.2.1 u hair
    have hrr : r = ⟨s.cur, .own⟩ := by
      rw [hfc, hfr, hb] at hr2
      simp [hole] at hr2
      apply partner_inj; rw [← hr2]; rfl
    subst hrr
    have hne := (hi.sched.fib_ok _ _ hair).1
    refine h.jump (r0 := ⟨s.cur, .syn⟩) (t := u) (evs := []) rfl (by simp) rfl (by simp) ?_ ?_
    · intro _
      simp only [St.fr]
      rw [upd_ne _ _ hne]; exact hr1
    · rintro r hrc ⟨hu1, hu2⟩
      simp only at hrc
      have h1 : r ≠ ⟨s.cur, .syn⟩ := by rintro rfl; exact hrc rfl
      have h2 : r ≠ ⟨s.cur, .own⟩ := by rintro rfl; exact hrc rfl
      refine ⟨⟨by simpa [upd, h1, h2] using hu1, by simpa [upd, hrc] using hu2⟩, fun i hf => by simpa [upd, h1] using hf, ?_⟩
      intro _ hh
      rw [hfr, hb] at hh
      simp [hole] at hh
      exact h1 hh.symm
  case startPush h0 fn u hr hfr hb hal hair hf =>
    refine stored (evs := [_]) (q := ⟨s.cur, .syn⟩) (u := u) hair (by rw [hfr, hb]; rfl) rfl (by simp [nj]) ?_ ?_ (by simp [upd]) hr
    · rintro r hr ⟨hu1, hu2⟩
      refine ⟨hu1, ?_⟩
      intro hsd
      have hrc : r.co ≠ s.cur := fun h => hr (eqv h hsd)
      simpa [upd, hrc] using hu2 hsd
    · intro r hr; simp [upd, hr]
  case asg r t u hr hfr hal hf hair hex =>
    exact stored (evs := []) (q := r) hair (by rw [hfr]; rfl) rfl (by simp) (fun _ _ hu => hu) (fun r hr => by simp [upd, hr])
      (by simp [upd]) hr
  case asgThrow r t u e hr hfr hal hf hair hex =>
    exact stored (evs := [_]) (q := r) hair (by rw [hfr]; rfl) rfl (by simp [nj]) (fun _ _ hu => hu) (fun r hr => by simp [upd, hr])
      (by simp [upd]) hr
  case pullCtor k t u hr hfr hk hal hf hair hex hv =>
    exact stored (evs := []) (q := ⟨k, .own⟩) hair (by rw [hfr]; rfl) rfl (by simp) (fun _ _ hu => hu)
      (fun r hr => by simp [upd, hr]) (by simp [upd]) hr
  case pushCtor k t u hr hfr hk hal hf hair =>
    exact stored (evs := []) (q := ⟨k, .own⟩) hair (by rw [hfr]; rfl) rfl (by simp) (fun _ _ hu => hu)
      (fun r hr => by simp [upd, hr]) (by simp [upd]) hr
  case fin h0 t x hx hfr hb hal hf =>
    have hne := (hi.sched.fib_ok _ _ hf).1
    refine h.jump (r0 := ⟨s.cur, .syn⟩) (t := t) (evs := [_, _]) rfl (by simp [nj]) rfl (by simp) ?_ ?_
    · intro _
      have := hi.sched.chan _ _ hf
      simp only [St.fr]
      rw [upd_ne _ _ hne]; exact this
    · rintro r hrc ⟨hu1, hu2⟩
      simp only at hrc
      have h1 : r ≠ ⟨s.cur, .syn⟩ := by rintro rfl; exact hrc rfl
      have h2 : r ≠ ⟨s.cur, .own⟩ := by rintro rfl; exact hrc rfl
      refine ⟨⟨by simpa [upd, h1, h2] using hu1, by simpa [upd, hrc] using hu2⟩, fun i hf => by simpa [upd, h1] using hf, ?_⟩
      intro hc
      rcases hx with ⟨h, _⟩ | ⟨e, h, _⟩ <;> rw [h] at hc <;> cases hc
  case nop h0 s1 hd hsc _ _ =>
    obtain ⟨e1, e2, e3, e4, e5, e6, e7, e8, e9, e10, e11⟩ := hsc.eqs
    obtain ⟨f1, f2, f3⟩ := hsc.fibs
    obtain ⟨ev, hl, hq⟩ := hsc.jq
    have hq := nj_of_jq hq
    refine h.keep (evs := ev) hl hq ?_
    rintro r ⟨hu1, hu2⟩
    obtain ⟨g1, g2⟩ := hsc.usable r hu2
    exact ⟨⟨by rw [← e2]; exact hu1, g1⟩, fun i hf => by dsimp only; rw [f1]; exact hf, fun i hr _ hh => absurd hh (g2 hr)⟩
  case dropNone hd => exact hd.held h
  case dropSome hd =>
    refine (hd.held h).keep (evs := [_]) rfl (by simp [nj]) ?_
    intro r hu
    exact ⟨hu, fun i hf => by simpa [upd] using hf, fun i hr => by cases hr⟩
  case exit r b hc hfr hb hback hdead =>
    refine h.keep (evs := .dealloc s.cur :: (if s.fnObj s.cur = .record then [.fnDtor s.cur] else [])) rfl ?_ ?_
    · split <;> simp [nj]
    · rintro r ⟨hu1, hu2⟩
      dsimp only at hu1 hu2
      have hrc : r.co ≠ s.cur := by
        intro hrc
        rcases r with ⟨a, _ | _⟩ <;> simp at hrc <;> subst hrc <;> simp [freeCbs, upd] at hu1
      have h1 : r ≠ ⟨s.cur, .syn⟩ := by rintro rfl; exact hrc rfl
      have h2 : r ≠ ⟨s.cur, .own⟩ := by rintro rfl; exact hrc rfl
      refine ⟨⟨by simpa [freeCbs, upd, h1, h2] using hu1, by simpa [upd, hrc] using hu2⟩, fun i hf => by simpa [upd] using hf, ?_⟩
      intro i hr; rw [hc] at hr; cases hr

theorem held_reach {P : Prog L G V E} {l0 : L} {g0 : G} {s : St L G V E} (h : Reach P l0 g0 s) : HeldInv s := by
  induction h with
  | init => intro r i j hj; cases hj
  | step hr hs ih => exact (step_rel (inv_reach hr) hs).held (inv_reach hr) (jinv_reach hr) ih

end Verif
