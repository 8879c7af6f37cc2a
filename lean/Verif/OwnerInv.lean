import Verif.JumpInv
import Verif.SlotInv

/-!
# Who owns a coroutine

Proof material: a live control block of a coroutine is owned by exactly one coroutine object, or by the constructor that is
still building it; a pull object owning a coroutine has received a value.
-/
namespace Verif
variable {L G V E : Type}

def Owned (k : Nat) (hs : Nat → Option Handle) (frames : Nat → List (Frame L V E)) : Prop :=
  (∃ h hd, hs h = some hd ∧ hd.cb = some ⟨k, .own⟩) ∨ (∃ i, ctorOf (frames i) = some k)

structure OwnerInv (s : St L G V E) : Prop where
  owned : ∀ k, (s.cbs ⟨k, .own⟩).life = .alive → Owned k s.hs s.frames
  full : ∀ h hd k, s.hs h = some hd → hd.cb = some ⟨k, .own⟩ → s.kind k = .pull → s.va k ≠ .void →
    (s.cbs ⟨k, .own⟩).bvalid = true

theorem Owned.mono {k : Nat} {hs hs' : Nat → Option Handle} {frames frames' : Nat → List (Frame L V E)}
    (h : Owned k hs frames) (h1 : ∀ h hd, hs h = some hd → hd.cb = some ⟨k, .own⟩ → hs' h = some hd)
    (h2 : ∀ i, ctorOf (frames i) = some k → ctorOf (frames' i) = some k) : Owned k hs' frames' := by
  rcases h with ⟨h, hd, a, b⟩ | ⟨i, a⟩
  · exact .inl ⟨h, hd, h1 h hd a b, b⟩
  · exact .inr ⟨i, h2 i a⟩

/-- a step that keeps objects and pending constructors -/
theorem OwnerInv.keep {s s' : St L G V E} (h : OwnerInv s)
    (hh : s'.hs = s.hs) (hf : ∀ i, i ≠ s.cur → s'.frames i = s.frames i) (hc : ctorOf s.fr = none)
    (hk : s'.kind = s.kind) (hv : s'.va = s.va)
    (hb : ∀ k, (s'.cbs ⟨k, .own⟩).life = .alive → (s.cbs ⟨k, .own⟩).life = .alive)
    (hbv : ∀ k, (s.cbs ⟨k, .own⟩).bvalid = true → (s'.cbs ⟨k, .own⟩).bvalid = true) : OwnerInv s' := by
  constructor
  · intro k hk'
    refine (h.owned k (hb k hk')).mono (by rw [hh]; exact fun _ _ h _ => h) ?_
    intro i hi
    have : i ≠ s.cur := by rintro rfl; rw [show s.frames s.cur = s.fr from rfl, hc] at hi; cases hi
    rw [hf i this]; exact hi
  · intro x hd k
    rw [hh, hk, hv]
    exact fun a b c d => hbv k (h.full x hd k a b c d)

theorem Local.noCtor {P : Prog L G V E} {s : St L G V E} {g : G} {fs : List (Frame L V E)} {c : Ctl L V E} {evs : List (Ev V E)}
    (h : Local P s g fs c evs) (hi : Inv s) : ctorOf s.fr = none := by
  by_cases hc : s.ctl = .raise .forced
  · cases h <;> rename_i h1 <;> first
      | (rw [h1]; rfl)
      | (rename_i h2; rw [h2] at hc; cases hc; done)
      | (rename_i h2 _; rw [h2] at hc; cases hc; done)
      | (rename_i h2 _ _; rw [h2] at hc; cases hc; done)
      | (rename_i h2 _ _ _; rw [h2] at hc; cases hc; done)
      | (rename_i h2 _ _ _ _; rw [h2] at hc; cases hc; done)
      | (rw [h1] at hc; cases hc; done)
  · by_cases hc' : s.ctl = .recv
    · cases h <;> simp_all
    · exact (hi.calm hc' hc).2

theorem Scope.noCtor {P : Prog L G V E} {s s1 : St L G V E} {h : Nat} (hs : Scope P s h s1) (hi : Inv s) : ctorOf s.fr = none := by
  cases hs
  case leave h1 _ _ => exact (hi.calm (by rw [h1]; simp) (by rw [h1]; simp)).2
  case api h1 _ => exact (hi.calm (by rw [h1]; simp) (by rw [h1]; simp)).2
  all_goals simp_all [ctorOf]

theorem OwnerInv.dropHandle {s s' : St L G V E} {h0 : Nat} (h : OwnerInv s)
    (hh : s'.hs = upd s.hs h0 none) (hf : ∀ i, i ≠ s.cur → s'.frames i = s.frames i) (hc : ctorOf s.fr = none)
    (hk : s'.kind = s.kind) (hv : s'.va = s.va)
    (hb : ∀ k, (s'.cbs ⟨k, .own⟩).life = .alive → (s.cbs ⟨k, .own⟩).life = .alive)
    (hbv : ∀ k, (s.cbs ⟨k, .own⟩).bvalid = true → (s'.cbs ⟨k, .own⟩).bvalid = true)
    (hdead : ∀ hd k, s.hs h0 = some hd → hd.cb = some ⟨k, .own⟩ → (s'.cbs ⟨k, .own⟩).life ≠ .alive) : OwnerInv s' := by
  constructor
  · intro k hk'
    refine (h.owned k (hb k hk')).mono ?_ ?_
    · intro x hd h1 h2
      rw [hh]
      have : x ≠ h0 := by rintro rfl; exact hdead hd k h1 h2 hk'
      simpa [upd, this] using h1
    · intro i hi
      have : i ≠ s.cur := by rintro rfl; rw [show s.frames s.cur = s.fr from rfl, hc] at hi; cases hi
      rw [hf i this]; exact hi
  · intro x hd k
    rw [hh, hk, hv]
    intro a b c d
    simp only [upd] at a
    split at a
    · cases a
    · exact hbv k (h.full x hd k a b c d)

/-- a step that replaces objects -/
theorem OwnerInv.objs {s s' : St L G V E} (h : OwnerInv s) (hf : ∀ i, i ≠ s.cur → s'.frames i = s.frames i)
    (hc : ctorOf s.fr = none) (hk : s'.kind = s.kind) (hv : s'.va = s.va)
    (hb : ∀ k, (s'.cbs ⟨k, .own⟩).life = .alive → (s.cbs ⟨k, .own⟩).life = .alive)
    (hbv : ∀ k, (s.cbs ⟨k, .own⟩).bvalid = true → (s'.cbs ⟨k, .own⟩).bvalid = true)
    (h1 : ∀ k, (∃ h hd, s.hs h = some hd ∧ hd.cb = some ⟨k, .own⟩) ↔ (∃ h hd, s'.hs h = some hd ∧ hd.cb = some ⟨k, .own⟩)) :
    OwnerInv s' := by
  constructor
  · intro k hk'
    rcases h.owned k (hb k hk') with h2 | ⟨i, hi⟩
    · exact .inl ((h1 k).1 h2)
    · refine .inr ⟨i, ?_⟩
      have : i ≠ s.cur := by rintro rfl; rw [show s.frames s.cur = s.fr from rfl, hc] at hi; cases hi
      rw [hf i this]; exact hi
  · intro x hd k a b c d
    obtain ⟨y, hd', e, f⟩ := (h1 k).2 ⟨x, hd, a, b⟩
    rw [hk] at c; rw [hv] at d
    exact hbv k (h.full y hd' k e f c d)

theorem Dying.ownerInv {P : Prog L G V E} {s s0 : St L G V E} {f : Option Nat} (hs : Dying P s f s0) (hi : Inv s)
    (h : OwnerInv s) : OwnerInv s0 := by
  have hfc : s.frames s.cur = s.fr := rfl
  obtain ⟨d1, d2, d3, d4, d5, d6, d7, d8, d9, d10⟩ := hs.eqs
  have hbv : ∀ k, (s.cbs ⟨k, .own⟩).bvalid = true → (s0.cbs ⟨k, .own⟩).bvalid = true := by
    intro k hk; rw [(d10 _).1]; exact hk
  have ctorCase : ∀ k0, ctorOf s.fr = some k0 → s0.hs = s.hs → (s0.cbs ⟨k0, .own⟩).life = .dead →
      (∀ k, k ≠ k0 → (s0.cbs ⟨k, .own⟩) = (s.cbs ⟨k, .own⟩)) → OwnerInv s0 := by
    intro k0 h1 h2 h3 h4
    constructor
    · intro k hk
      have hkk : k ≠ k0 := by rintro rfl; rw [h3] at hk; cases hk
      rw [h4 k hkk] at hk
      refine (h.owned k hk).mono (by rw [h2]; exact fun _ _ h _ => h) ?_
      intro i hik
      have : i ≠ s.cur := by
        rintro rfl; rw [hfc, h1] at hik; cases hik; exact hkk rfl
      rw [d8 i this]; exact hik
    · intro x hd k
      rw [h2, d2, d3]
      exact fun a b c d => hbv k (h.full x hd k a b c d)
  cases hs
  case handle h0 s1 hd k sl evs hsc hh hcb _ hdt =>
    obtain ⟨e1, e2, e3, e4, e5, e6, e7, e8, e9, e10, e11⟩ := hsc.eqs
    refine h.dropHandle (h0 := h0) (by simp [e5]) e10 (hsc.noCtor hi) e3 e4 ?_ hbv ?_
    · intro j hj
      by_cases hjk : j = k
      · subst hjk; simp at hj
      · simpa [upd, hjk, e2] using hj
    · intro hd' j a b
      rw [e5, a] at hh
      cases hh
      rw [hcb] at b; cases b
      simp
  case ctorInvalid k _ _ _ _ hr hfr _ _ _ _ _ _ _ =>
    exact ctorCase k (by rw [hfr]; rfl) rfl (by simp) (by intro j hj; simp [upd, hj])
  case ctorThrow k _ _ _ hr hfr _ _ _ _ _ =>
    exact ctorCase k (by rw [hfr]; rfl) rfl (by simp) (by intro j hj; simp [upd, hj])
  case ctorUnw x f k t hr hfr hff =>
    exact ctorCase k (by rw [hfr]; rcases hff with rfl | rfl <;> rfl) rfl (by simp) (by intro j hj; simp [upd, hj])
  case syn hr hfr hb hdt =>
    refine h.keep rfl d8 (by rw [hfr]; rfl) rfl rfl ?_ hbv
    intro k hk; simpa [upd] using hk

theorem Step.ownerInv {P : Prog L G V E} {s s' : St L G V E} (hs : Step P s s') (hi : Inv s) (h : OwnerInv s) : OwnerInv s' := by
  have hfc : s.frames s.cur = s.fr := rfl
  have hfresh : ∀ hd, s.hs s.nh ≠ some hd := by
    intro hd hh; have := hi.hok.lt s.nh (by rw [hh]; simp); omega
  have calm : s.ctl ≠ .recv → s.ctl ≠ .raise .forced → ctorOf s.fr = none := fun a b => (hi.calm a b).2
  cases hs
  case loc hl =>
    refine h.keep rfl ?_ (hl.noCtor hi) rfl rfl (fun _ h => h) (fun _ h => h)
    intro i hi; simp [upd, hi]
  case get h1 _ _ =>
    refine h.keep rfl ?_ (calm (by rw [h1]; simp) (by rw [h1]; simp)) rfl rfl ?_ ?_
    · intro i hi; simp [upd, hi]
    · intro k; simp only [upd]; split <;> simp_all
    · intro k; simp only [upd]; split <;> simp_all
  case moveCtor l m k0 hd h1 _ hh =>
    refine h.objs ?_ (calm (by rw [h1]; simp) (by rw [h1]; simp)) rfl rfl (fun _ h => h) (fun _ h => h) ?_
    · intro i hi; simp [upd, hi]
    · intro k
      have hlt := hi.hok.lt _ (show s.hs _ ≠ none by rw [hh]; simp)
      constructor
      · rintro ⟨x, hx, a, b⟩
        by_cases hxe : x = m
        · subst hxe
          rw [hh] at a; cases a
          exact ⟨s.nh, hd, by simp [upd], b⟩
        · refine ⟨x, hx, ?_, b⟩
          have : x ≠ s.nh := by rintro rfl; exact hfresh _ a
          simp [upd, hxe, this, a]
      · rintro ⟨x, hx, a, b⟩
        simp only [upd] at a
        split at a
        · cases a; exact ⟨_, hd, hh, b⟩
        · split at a
          · cases a; simp at b
          · exact ⟨x, hx, a, b⟩
  case moveAssign d c k0 hd hc h1 h1' hdd hcc hty =>
    refine h.objs ?_ (calm (by rw [h1]; simp) (by rw [h1]; simp)) rfl rfl (fun _ h => h) (fun _ h => h) ?_
    · intro i hi; simp [upd, hi]
    · intro k
      constructor
      · rintro ⟨x, hx, a, b⟩
        by_cases hxd : x = d
        · subst hxd
          rw [hdd] at a; cases a
          exact ⟨c, { hc with cb := hd.cb }, by simp [upd], b⟩
        · by_cases hxc : x = c
          · subst hxc
            rw [hcc] at a; cases a
            exact ⟨d, { hd with cb := hc.cb }, by simp [upd, Ne.symm hxd], b⟩
          · exact ⟨x, hx, by simp [upd, hxc, hxd, a], b⟩
      · rintro ⟨x, hx, a, b⟩
        simp only [upd] at a
        split at a
        · cases a; exact ⟨d, hd, hdd, b⟩
        · split at a
          · cases a; exact ⟨c, hc, hcc, b⟩
          · exact ⟨x, hx, a, b⟩
  case ctorDrop va t h1 h2 =>
    refine h.objs ?_ (by rw [h2]; rfl) rfl rfl (fun _ h => h) (fun _ h => h) ?_
    · intro i hi; simp [upd, hi]
    · intro k
      constructor
      · rintro ⟨x, hx, a, b⟩
        have : x ≠ s.nh := by rintro rfl; exact hfresh _ a
        exact ⟨x, hx, by simp [upd, this, a], b⟩
      · rintro ⟨x, hx, a, b⟩
        simp only [upd] at a
        split at a
        · cases a; simp at b
        · exact ⟨x, hx, a, b⟩
  case mkFn h1 _ =>
    refine h.keep rfl ?_ (calm (by rw [h1]; simp) (by rw [h1]; simp)) rfl rfl (fun _ h => h) (fun _ h => h)
    intro i hi; simp [upd, hi]
  case mk kd va fn k0 h1 _ =>
    have hnk : s.cur ≠ s.nk := by have := hi.sched.lt_nk _ hi.sched.cur_live; omega
    have hct := calm (by rw [h1]; simp) (by rw [h1]; simp)
    constructor
    · intro k hk
      by_cases hkn : k = s.nk
      · subst hkn
        refine .inr ⟨s.cur, ?_⟩
        simp [upd]
        cases kd <;> rfl
      · simp [upd, hkn] at hk
        refine (h.owned k hk).mono (fun _ _ h _ => h) ?_
        intro i hik
        have : i ≠ s.cur := by rintro rfl; rw [hfc, hct] at hik; cases hik
        simp [upd, this, hik]
    · intro x hd k a b c d
      have hkn : k ≠ s.nk := by
        rintro rfl
        have := (hi.hok.own x hd s.nk a b).1
        rw [hi.cb.unborn s.nk .own (.inr (Nat.le_refl _))] at this; cases this
      simp [upd, hkn] at c d ⊢
      exact h.full x hd k a b c d
  case pushThrow h1 _ _ _ _ _ _ _ _ _ hse =>
    refine h.keep rfl ?_ (calm (by rw [h1]; simp) (by rw [h1]; simp)) rfl rfl ?_ ?_
    · intro i hi; simp [upd, hi]
    · intro k; simp only [upd]; split
      · rename_i he; rw [hse.except.2.1, he]; exact id
      · exact id
    · intro k; simp only [upd]; split
      · rename_i he; rw [hse.except.2.2.2.2, he]; exact id
      · exact id
  case push l op k0 h0 a post hd r b evs w t h1 _ hpc _ _ _ hal _ _ hse hf =>
    refine h.keep rfl ?_ (calm (by rw [h1]; simp) (by rw [h1]; simp)) rfl rfl ?_ ?_
    · intro i hi; simp [upd, hi]
    · intro k; simp only [upd]; split
      · rename_i he; rw [hse.except.2.1, he]; exact id
      · exact id
    · intro k; simp only [upd]; split
      · rename_i he; rw [he]; intro hb; cases hse <;> simp_all
      · exact id
  case pull h1 _ _ _ _ _ _ _ =>
    refine h.keep rfl ?_ (calm (by rw [h1]; simp) (by rw [h1]; simp)) rfl rfl (fun _ h => h) (fun _ h => h)
    intro i hi; simp [upd, hi]
  case enterPull hr hfr hb hk hal hair =>
    refine h.objs (fun _ _ => rfl) (by rw [hfr]; rfl) rfl rfl ?_ ?_ ?_
    · intro k hk
      by_cases hkc : k = s.cur
      · subst hkc; exact hal
      · simpa [upd, hkc] using hk
    · intro k hk
      by_cases hkc : k = s.cur
      · subst hkc; simpa [upd] using hk
      · simpa [upd, hkc] using hk
    · intro k
      constructor
      · rintro ⟨x, hx, a, b⟩
        have : x ≠ s.nh := by rintro rfl; exact hfresh _ a
        exact ⟨x, hx, by simp [upd, this, a], b⟩
      · rintro ⟨x, hx, a, b⟩
        simp only [upd] at a
        split at a
        · cases a; simp at b
        · exact ⟨x, hx, a, b⟩
  case enterPush hr hfr hb hk hal hair =>
    refine h.objs (fun _ _ => rfl) (by rw [hfr]; rfl) rfl rfl ?_ ?_ ?_
    · intro k hk
      by_cases hkc : k = s.cur
      · subst hkc; exact hal
      · simpa [upd, hkc] using hk
    · intro k hk
      by_cases hkc : k = s.cur
      · subst hkc; simpa [upd] using hk
      · simpa [upd, hkc] using hk
    · intro k
      constructor
      · rintro ⟨x, hx, a, b⟩
        have : x ≠ s.nh := by rintro rfl; exact hfresh _ a
        exact ⟨x, hx, by simp [upd, this, a], b⟩
      · rintro ⟨x, hx, a, b⟩
        simp only [upd] at a
        split at a
        · cases a; simp at b
        · exact ⟨x, hx, a, b⟩
  case startPush hr hfr hb hal hair hf =>
    exact h.keep rfl (fun _ _ => rfl) (by rw [hfr]; rfl) rfl rfl (fun _ h => h) (fun _ h => h)
  case wait hr hfr _ =>
    refine h.keep rfl ?_ (by rw [hfr]; rfl) rfl rfl (fun _ h => h) (fun _ h => h)
    intro i hi; simp [upd, hi]
  case asg hr hfr _ _ _ _ =>
    refine h.keep rfl ?_ (by rw [hfr]; rfl) rfl rfl (fun _ h => h) (fun _ h => h)
    intro i hi; simp [upd, hi]
  case asgThrow hr hfr _ _ _ _ =>
    refine h.keep rfl ?_ (by rw [hfr]; rfl) rfl rfl (fun _ h => h) (fun _ h => h)
    intro i hi; simp [upd, hi]
  case pullCtor k0 t u hr hfr hk0 hal hf hair hex hv =>
    constructor
    · intro k hk
      by_cases hkk : k = k0
      · subst hkk; exact .inl ⟨s.nh, _, by simp [upd]; rfl, rfl⟩
      · refine (h.owned k hk).mono ?_ ?_
        · intro x hd a b
          have : x ≠ s.nh := by rintro rfl; exact hfresh _ a
          simp [upd, this, a]
        · intro i hik
          have : i ≠ s.cur := by
            rintro rfl; rw [hfc, hfr] at hik; simp [ctorOf] at hik; exact hkk hik.symm
          simp [upd, this, hik]
    · intro x hd k a b c d
      simp only [upd] at a
      split at a
      · cases a
        simp at b; subst b
        simp [cbValid, isPullSide, hk0] at hv
        rcases hv.2 with hv' | hv'
        · exact absurd hv' d
        · exact hv'
      · exact h.full x hd k a b c d
  case pushCtor k0 t u hr hfr hk0 hal hf hair =>
    constructor
    · intro k hk
      by_cases hkk : k = k0
      · subst hkk; exact .inl ⟨s.nh, _, by simp [upd]; rfl, rfl⟩
      · refine (h.owned k hk).mono ?_ ?_
        · intro x hd a b
          have : x ≠ s.nh := by rintro rfl; exact hfresh _ a
          simp [upd, this, a]
        · intro i hik
          have : i ≠ s.cur := by
            rintro rfl; rw [hfc, hfr] at hik; simp [ctorOf] at hik; exact hkk hik.symm
          simp [upd, this, hik]
    · intro x hd k a b c d
      simp only [upd] at a
      split at a
      · cases a
        simp at b; subst b
        dsimp only at c
        rw [hk0] at c; cases c
      · exact h.full x hd k a b c d
  case fin hx hfr hb hal hf =>
    refine h.keep rfl (fun _ _ => rfl) (by rw [hfr]; rfl) rfl rfl ?_ ?_
    · intro k; simp only [upd]; split <;> simp_all
    · intro k; simp only [upd]; split <;> simp_all
  case nop h0 s1 hd hsc hh hcb =>
    obtain ⟨e1, e2, e3, e4, e5, e6, e7, e8, e9, e10, e11⟩ := hsc.eqs
    refine h.dropHandle (h0 := h0) (by simp [e5]) e10 (hsc.noCtor hi) e3 e4 ?_ ?_ ?_
    · intro k; simp [e2]
    · intro k; simp [e2]
    · intro hd' k a b
      rw [e5, a] at hh
      cases hh
      rcases hcb with hcb | ⟨j, hcb, _⟩ <;> rw [hcb] at b <;> simp at b
  case dropNone hd =>
    have := hd.ownerInv hi h
    exact ⟨this.owned, this.full⟩
  case dropSome s0 t hd =>
    have h1 := hd.ownerInv hi h
    refine h1.keep rfl ?_ hd.calm.2 rfl rfl (fun _ h => h) (fun _ h => h)
    intro i hi; simp [upd, hi]
  case exit r b hc hfr hb hback hdead =>
    refine h.keep rfl ?_ (by rw [hfr]; rfl) rfl rfl ?_ ?_
    · intro i hi; simp [upd, hi]
    · intro k hk
      by_cases hkc : k = s.cur
      · subst hkc; simp [freeCbs, upd] at hk
      · simpa [freeCbs, upd, hkc] using hk
    · intro k hk
      by_cases hkc : k = s.cur
      · subst hkc; simpa [freeCbs, upd] using hk
      · simpa [freeCbs, upd, hkc] using hk

theorem ownerInv_init (l0 : L) (g0 : G) : OwnerInv (init l0 g0 : St L G V E) := by
  constructor <;> simp [init]

theorem owner_reach {P : Prog L G V E} {l0 : L} {g0 : G} {s : St L G V E} (h : Reach P l0 g0 s) : OwnerInv s := by
  induction h with
  | init => exact ownerInv_init l0 g0
  | step hr hs ih => exact (step_rel (inv_reach hr) hs).ownerInv (inv_reach hr) ih

end Verif
