import Verif.OwnerInv

/-!
# Pushes and transfers of control

Proof material: every push is followed by exactly one transfer of control, and whoever is given control through the pushing
end finds a value.
-/
namespace Verif
variable {L G V E : Type}

def tq : Ev V E → Bool
  | .jump _ _ _ | .pushed _ _ => false
  | _ => true

theorem pushEnd_eq (kd : Kind) : pushEnd kd = (pullSide kd).flip := by cases kd <;> rfl

theorem transfers_quiet {kd : Nat → Kind} {va : Nat → Var} {evs log : List (Ev V E)} (hq : ∀ e ∈ evs, tq e = true)
    (h : TransfersOk kd va log) (h0 : headPushed log = none) :
    TransfersOk kd va (evs ++ log) ∧ headPushed (evs ++ log) = none := by
  induction evs with
  | nil => exact ⟨h, h0⟩
  | cons e t ih =>
    have h1 := hq e (List.mem_cons_self ..)
    obtain ⟨h2, h3⟩ := ih (fun x hx => hq x (List.mem_cons_of_mem _ hx))
    rw [List.cons_append]
    cases e <;> simp_all [tq, TransfersOk, headPushed]

theorem transfers_congr {kd kd' : Nat → Kind} {va va' : Nat → Var} {log : List (Ev V E)} {n : Nat}
    (hk : ∀ k, k < n → kd' k = kd k) (hv : ∀ k, k < n → va' k = va k)
    (hlt : ∀ e ∈ log, ∀ k, e.about = some k → k < n) (h : TransfersOk kd va log) : TransfersOk kd' va' log := by
  induction log with
  | nil => trivial
  | cons e l ih =>
    obtain ⟨h1, h2⟩ := h
    have ih' := ih (fun e he => hlt e (List.mem_cons_of_mem _ he)) h1
    refine ⟨ih', ?_⟩
    have ha := hlt e (List.mem_cons_self ..)
    cases e <;> first | exact h2 | skip
    case jump r i j =>
      have hr := ha r.co rfl
      dsimp only at h2 ⊢
      cases hp : headPushed l with
      | none => rw [hp] at h2; dsimp only at h2 ⊢; rw [hk _ hr, hv _ hr]; exact h2
      | some k =>
        rw [hp] at h2; dsimp only at h2 ⊢
        have hkr : k = r.co := by rw [h2]
        subst hkr
        rw [hk _ hr]; exact h2
    case pushed k v =>
      have hr := ha k rfl
      dsimp only at h2 ⊢
      rw [hk _ hr, hv _ hr]; exact h2

structure TInv (s : St L G V E) : Prop where
  tr : TransfersOk s.kind s.va s.log
  hp : headPushed s.log = none
  yd : ∀ k, (s.cbs ⟨k, pullSide (s.kind k)⟩).life = .alive → nFin k s.log = 0 →
    (∃ i j, lastJump k s.log = some (⟨k, pushEnd (s.kind k)⟩, i, j)) → s.va k ≠ .void →
    (s.cbs ⟨k, pullSide (s.kind k)⟩).bvalid = true

theorem TInv.keep {s s' : St L G V E} {evs : List (Ev V E)} (h : TInv s) (hk : s'.kind = s.kind) (hv : s'.va = s.va)
    (hl : s'.log = evs ++ s.log) (hq : ∀ e ∈ evs, tq e = true)
    (hb : ∀ k, (s'.cbs ⟨k, pullSide (s.kind k)⟩).life = .alive → (s.cbs ⟨k, pullSide (s.kind k)⟩).life = .alive ∧
      (s'.cbs ⟨k, pullSide (s.kind k)⟩).bvalid = (s.cbs ⟨k, pullSide (s.kind k)⟩).bvalid) : TInv s' := by
  have hq1 := transfers_quiet hq h.tr h.hp
  have hlj : ∀ k, lastJump k s'.log = lastJump k s.log := by
    intro k; rw [hl]
    clear hl hb hq1
    induction evs with
    | nil => rfl
    | cons e t ih =>
      have h1 := hq e (List.mem_cons_self ..)
      have h2 := ih (fun x hx => hq x (List.mem_cons_of_mem _ hx))
      rw [List.cons_append]
      cases e <;> simp_all [lastJump, tq]
  constructor
  · rw [hl, hk, hv]; exact hq1.1
  · rw [hl]; exact hq1.2
  · intro k h1 h2 h3 h4
    rw [hk] at h1 h3 ⊢; rw [hv] at h4; rw [hlj] at h3
    obtain ⟨h5, h6⟩ := hb k h1
    rw [h6]
    refine h.yd k h5 ?_ h3 h4
    have : nFin k s'.log = nFin k evs + nFin k s.log := by rw [hl]; simp [nFin, List.countP_append]
    omega

theorem Dtor.tq {kd : Kind} {va : Var} {b : CB V E} {r : CbRef} {sl : Slot V} {evs : List (Ev V E)}
    (h : Dtor kd va b r sl evs) : ∀ e ∈ evs, tq e = true := by
  cases h <;> simp [Verif.tq]
theorem SetThrows.tq {va : Var} {b b' : CB V E} {j : Nat} {evs : List (Ev V E)}
    (h : SetThrows va b j b' evs) : ∀ e ∈ evs, tq e = true := by
  cases h <;> simp [Verif.tq]
theorem Local.tq {P : Prog L G V E} {s : St L G V E} {g : G} {fs : List (Frame L V E)} {c : Ctl L V E} {evs : List (Ev V E)}
    (h : Local P s g fs c evs) : ∀ e ∈ evs, tq e = true := by
  cases h <;> simp [Verif.tq]
theorem Scope.tq {P : Prog L G V E} {s s1 : St L G V E} {h : Nat} (hs : Scope P s h s1) :
    ∃ evs, s1.log = evs ++ s.log ∧ ∀ e ∈ evs, tq e = true := by
  rcases hs.log with h | h
  · exact ⟨[], h, by simp⟩
  · exact ⟨[_], h, by simp [Verif.tq]⟩

theorem SetOk.transfers {mv : V → V} {kd : Nat → Kind} {va : Nat → Var} {b b' : CB V E} {k : Nat} {a : PushArg V E}
    {evs log : List (Ev V E)} {w : Option V} {i j : Nat}
    (h : SetOk mv (va k) b k a b' evs w) (ht : TransfersOk kd va log) (h0 : headPushed log = none)
    (hf : kd k = .pull → nFin k log = 0) :
    TransfersOk kd va (.jump ⟨k, pushEnd (kd k)⟩ i j :: (evs ++ log)) ∧ (va k ≠ .void → b'.bvalid = true) := by
  cases h <;> simp_all [TransfersOk, headPushed, nFin, List.countP_cons, Ev.isFin]

theorem Dying.tinv {P : Prog L G V E} {s s0 : St L G V E} {f : Option Nat} (hs : Dying P s f s0) (h : TInv s) : TInv s0 := by
  have hb : ∀ r, (s0.cbs r).bvalid = (s.cbs r).bvalid := fun r => (hs.eqs.2.2.2.2.2.2.2.2.2 r).1
  have hkd := hs.eqs.2.1
  have hva := hs.eqs.2.2.1
  have hlife : ∀ r, (s0.cbs r).life = .alive → (s.cbs r).life = .alive := by
    intro r hr
    cases hs
    case handle hsc _ _ _ _ =>
      have e2 := hsc.eqs.2.1
      simp only [upd] at hr; split at hr
      · cases hr
      · rw [e2] at hr; exact hr
    all_goals
      simp only [upd] at hr
      split at hr
      · cases hr
      · exact hr
  have key : ∃ evs, s0.log = evs ++ s.log ∧ ∀ e ∈ evs, Verif.tq e = true := by
    cases hs
    case handle hsc _ _ _ hdt =>
      obtain ⟨ev, hl, hq⟩ := hsc.tq
      refine ⟨_ ++ ev, by simp [hl]; rfl, ?_⟩
      intro e he
      rcases List.mem_append.1 he with he | he
      · exact hdt.tq e he
      · exact hq e he
    case ctorInvalid hdt => exact ⟨_, rfl, hdt.tq⟩
    case ctorThrow => exact ⟨[_], rfl, by simp [Verif.tq]⟩
    case ctorUnw => exact ⟨[], rfl, by simp⟩
    case syn hdt => exact ⟨_, rfl, hdt.tq⟩
  obtain ⟨evs, hl, hq⟩ := key
  exact h.keep hkd hva hl hq (fun k hk => ⟨hlife _ hk, hb _⟩)

theorem Step.tinv {P : Prog L G V E} {s s' : St L G V E} (hs : Step P s s') (hi : Inv s) (hlf : LifeInv s)
    (hlg : LogFresh s) (hj : JInv s) (h : TInv s) : TInv s' := by
  have hfc : s.frames s.cur = s.fr := rfl
  have hsame : ∀ k, (s.cbs ⟨k, pullSide (s.kind k)⟩).life = .alive → (s.cbs ⟨k, pullSide (s.kind k)⟩).life = .alive ∧
      (s.cbs ⟨k, pullSide (s.kind k)⟩).bvalid = (s.cbs ⟨k, pullSide (s.kind k)⟩).bvalid := fun k hk => ⟨hk, rfl⟩
  cases hs
  case loc hl => exact h.keep rfl rfl rfl hl.tq hsame
  case get =>
    refine h.keep (evs := [_]) rfl rfl rfl (by simp [tq]) ?_
    intro k hk
    simp only [upd] at hk ⊢
    split at hk <;> rename_i hkr
    · simp [hkr] at hk ⊢; exact hk
    · simp [hkr] at hk ⊢; exact hk
  case moveCtor => exact h.keep (evs := []) rfl rfl rfl (by simp) hsame
  case moveAssign => exact h.keep (evs := []) rfl rfl rfl (by simp) hsame
  case ctorDrop => exact h.keep (evs := []) rfl rfl rfl (by simp) hsame
  case mkFn => exact h.keep (evs := [_]) rfl rfl rfl (by simp [tq]) hsame
  case wait => exact h.keep (evs := []) rfl rfl rfl (by simp) hsame
  case pushThrow hse =>
    refine h.keep rfl rfl rfl hse.tq ?_
    intro k hk
    simp only [upd] at hk ⊢
    split at hk <;> rename_i hkr
    · rw [if_pos hkr, hse.except.2.2.2.2]
      rw [hse.except.2.1] at hk
      rw [hkr]; exact ⟨hk, rfl⟩
    · rw [if_neg hkr]; exact ⟨hk, rfl⟩
  case mk l kd va fn k0 _ _ =>
    have hfr := lastJump_fresh (k := s.nk) (log := s.log) (by
      intro e he hk; have := hlg e he s.nk hk; omega)
    have h1 := transfers_congr (kd' := upd s.kind s.nk kd) (va' := upd s.va s.nk va) (n := s.nk)
      (fun k hk => by simp [upd, Nat.ne_of_lt hk]) (fun k hk => by simp [upd, Nat.ne_of_lt hk]) hlg h.tr
    have h0 := h.hp
    refine ⟨?_, rfl, ?_⟩
    · simp only [TransfersOk, headPushed, lastJump]
      exact ⟨⟨⟨h1, h0⟩, trivial⟩, fun _ => .inr (.inl hfr.1)⟩
    · intro k hk1 hk2 hk3 hk4
      dsimp only at hk1 hk2 hk3 hk4 ⊢
      by_cases hkn : k = s.nk
      · subst hkn
        exfalso
        simp only [upd_same] at hk1 hk3
        cases kd
        · obtain ⟨i, j, h3⟩ := hk3
          simp [lastJump, pushEnd] at h3
        · have : (s.cbs ⟨s.nk, .syn⟩).life = .alive := by simpa [pullSide, upd] using hk1
          rw [hi.cb.unborn s.nk .syn (.inr (Nat.le_refl _))] at this; cases this
      · have hkn' : s.nk ≠ k := Ne.symm hkn
        simp only [upd, hkn, if_false] at hk1 hk3 hk4 ⊢
        simp [hkn, lastJump, hkn'] at hk1 hk3 ⊢
        refine h.yd k hk1 ?_ hk3 hk4
        simpa [nFin, List.countP_cons, Ev.isFin] using hk2
  case push l op k0 h0 a post hd r b evs w t _ _ hpc hh hty hcb hal _ _ hse hf =>
    have hborn := (hi.hok.born _ _ _ hh hcb).2.1
    have hrs : r = ⟨r.co, pushEnd (s.kind r.co)⟩ := by
      rw [hty] at hborn
      rcases r with ⟨k, _ | _⟩
      · simp [endKind] at hborn; simp [← hborn, pushEnd]
      · simp only [endKind] at hborn
        cases hkk : s.kind k <;> simp [hkk, Kind.flip] at hborn; simp [hkk, pushEnd]
    have hfn : s.kind r.co = .pull → nFin r.co s.log = 0 := by
      intro hp
      by_cases hn : nFin r.co s.log = 0
      · exact hn
      · have := hj.finS _ hn
        rw [hp] at hrs
        rw [hrs] at hf
        simp only [pushEnd] at hf
        rw [this] at hf; cases hf
    have h1 := hse.transfers (i := s.cur) (j := t) h.tr h.hp hfn
    rw [← hrs] at h1
    have hrp : r.partner = ⟨r.co, pullSide (s.kind r.co)⟩ := by
      rw [hrs]; simp [CbRef.partner, pushEnd_eq]; cases s.kind r.co <;> rfl
    refine ⟨h1.1, rfl, ?_⟩
    intro k hk1 hk2 hk3 hk4
    dsimp only at hk1 hk2 hk3 hk4 ⊢
    by_cases hkn : k = r.co
    · subst hkn
      rw [hrp, upd_same]; exact h1.2 hk4
    · have hne : (⟨k, pullSide (s.kind k)⟩ : CbRef) ≠ r.partner := by
        intro h; apply hkn; have := congrArg CbRef.co h; simpa using this
      rw [upd_ne _ _ hne] at hk1 ⊢
      have hkn' : ¬ r.co = k := fun h => hkn h.symm
      refine h.yd k hk1 ?_ ?_ hk4
      · have : nFin k (Ev.jump r s.cur t :: (evs ++ s.log)) = nFin k (evs ++ s.log) := by
          simp [nFin, List.countP_cons, Ev.isFin]
        rw [this, (count_jq hse.jq).1] at hk2
        exact hk2
      · rw [lastJump_jump, if_neg hkn', lastJump_jq hse.jq] at hk3
        exact hk3
  case pull l op k0 h0 post hd r t _ _ hpc hh hty hcb hal hf =>
    have hborn := (hi.hok.born _ _ _ hh hcb).2.1
    have hrs : r.side ≠ pushEnd (s.kind r.co) := by
      rw [hty] at hborn
      rcases r with ⟨k, _ | _⟩
      · simp [endKind] at hborn; simp [← hborn, pushEnd]
      · simp only [endKind] at hborn
        cases hkk : s.kind k <;> simp [hkk, Kind.flip] at hborn; simp [hkk, pushEnd]
    refine ⟨?_, rfl, ?_⟩
    · refine ⟨h.tr, ?_⟩
      have := h.hp
      dsimp only
      rw [this]
      exact fun h => absurd h hrs
    · intro k hk1 hk2 hk3 hk4
      dsimp only at hk1 hk2 hk3 hk4 ⊢
      obtain ⟨i, j, hk3⟩ := hk3
      by_cases hkn : r.co = k
      · subst hkn
        rw [lastJump_jump, if_pos rfl] at hk3
        simp at hk3
        exfalso; apply hrs; rw [hk3.1]
      · rw [lastJump_jump, if_neg hkn] at hk3
        refine h.yd k hk1 ?_ ⟨i, j, hk3⟩ hk4
        simpa [nFin, List.countP_cons, Ev.isFin] using hk2
  case enterPull fn u hr hfr hb hk hal hair =>
    refine h.keep (evs := [_]) rfl rfl rfl (by simp [tq]) ?_
    intro k hk1
    dsimp only at hk1 ⊢
    by_cases hkc : k = s.cur
    · subst hkc; rw [hk] at hk1 ⊢; simp [pullSide, hal]
    · simp [upd, hkc] at hk1 ⊢; exact hk1
  case enterPush fn u hr hfr hb hk hal hair =>
    have hctl := hi.ctl
    rw [hr] at hctl
    refine ⟨?_, rfl, ?_⟩
    · refine ⟨h.tr, ?_⟩
      have := h.hp
      dsimp only
      rw [this]
      rw [hk]
      simp [pushEnd]
    · intro k hk1 hk2 hk3 hk4
      dsimp only at hk1 hk2 hk3 hk4 ⊢
      obtain ⟨i, j, hk3⟩ := hk3
      by_cases hkn : s.cur = k
      · subst hkn
        rw [lastJump_jump, if_pos rfl, hk] at hk3
        simp [pushEnd] at hk3
      · rw [lastJump_jump, if_neg hkn] at hk3
        have hkn' : k ≠ s.cur := Ne.symm hkn
        simp [upd, hkn'] at hk1 ⊢
        refine h.yd k hk1 ?_ ⟨i, j, hk3⟩ hk4
        simpa [nFin, List.countP_cons, Ev.isFin] using hk2
  case startPush => exact h.keep (evs := [_]) rfl rfl rfl (by simp [tq]) hsame
  case asg => exact h.keep (evs := []) rfl rfl rfl (by simp) hsame
  case asgThrow => exact h.keep (evs := [_]) rfl rfl rfl (by simp [tq]) hsame
  case pullCtor => exact h.keep (evs := []) rfl rfl rfl (by simp) hsame
  case pushCtor => exact h.keep (evs := []) rfl rfl rfl (by simp) hsame
  case fin hh t x hx hfr hb hal hf =>
    have h0 := h.hp
    refine ⟨?_, rfl, ?_⟩
    · simp only [TransfersOk, headPushed, headFin]
      refine ⟨⟨⟨h.tr, h0⟩, trivial⟩, ?_⟩
      intro hpe
      refine .inr (.inr ⟨trivial, ?_⟩)
      cases hkk : s.kind s.cur
      · rfl
      · rw [hkk] at hpe; cases hpe
    · intro k hk1 hk2 hk3 hk4
      dsimp only at hk1 hk2 hk3 hk4 ⊢
      obtain ⟨i, j, hk3⟩ := hk3
      by_cases hkn : s.cur = k
      · subst hkn
        simp [nFin, List.countP_cons, Ev.isFin] at hk2
      · have hkn' : k ≠ s.cur := Ne.symm hkn
        simp [lastJump, hkn] at hk3
        simp [upd, hkn'] at hk1 ⊢
        refine h.yd k hk1 ?_ ⟨i, j, hk3⟩ hk4
        simpa [nFin, List.countP_cons, Ev.isFin, hkn] using hk2
  case nop hsc _ _ =>
    obtain ⟨e1, e2, e3, e4, e5, e6, e7, e8, e9, e10, e11⟩ := hsc.eqs
    obtain ⟨ev, hl, hq⟩ := hsc.tq
    refine h.keep (evs := ev) e3 e4 hl hq ?_
    intro k hk; dsimp only at hk ⊢; rw [e2] at *; exact ⟨hk, rfl⟩
  case dropNone hd => exact (hd.tinv h).keep (evs := []) rfl rfl rfl (by simp) (fun k hk => ⟨hk, rfl⟩)
  case dropSome hd => exact (hd.tinv h).keep (evs := [_]) rfl rfl rfl (by simp [tq]) (fun k hk => ⟨hk, rfl⟩)
  case exit r b hc hfr hb hback hdead =>
    refine h.keep (evs := .dealloc s.cur :: (if s.fnObj s.cur = .record then [.fnDtor s.cur] else [])) rfl rfl rfl ?_ ?_
    · split <;> simp [tq]
    · intro k hk
      dsimp only at hk ⊢
      by_cases hkc : k = s.cur
      · subst hkc
        exfalso
        generalize pullSide (s.kind s.cur) = sd at hk
        cases sd <;> simp [freeCbs, upd] at hk
      · simp [freeCbs, upd, hkc] at hk ⊢; exact hk

theorem tinv_init (l0 : L) (g0 : G) : TInv (init l0 g0 : St L G V E) := by
  constructor <;> simp [init, TransfersOk, headPushed, nFin]

theorem tinv_reach {P : Prog L G V E} {l0 : L} {g0 : G} {s : St L G V E} (h : Reach P l0 g0 s) : TInv s := by
  induction h with
  | init => exact tinv_init l0 g0
  | step hr hs ih =>
    exact (step_rel (inv_reach hr) hs).tinv (inv_reach hr) (life_reach hr) (logFresh_reach hr) (jinv_reach hr) ih

end Verif
