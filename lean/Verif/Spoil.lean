import Verif.Value
import Verif.SetThrowInv

/-! # A copy that throws while a value is stored.  The history, and proof material for `PropsSpoil`. -/
namespace Verif
variable {L G V E : Type}

variable {P : Prog L G V E} {l0 : L} {g0 : G} {s s' : St L G V E} {c : Nat}

theorem spoiled_app {evs l : List (Ev V E)} (h : ∀ e ∈ evs, e.isSetThrow c = false) : spoiled c (evs ++ l) = spoiled c l := by
  induction evs with
  | nil => rfl
  | cons e t ih =>
    have h1 := h e (List.mem_cons_self ..)
    have h2 := ih fun x hx => h x (List.mem_cons_of_mem _ hx)
    rw [List.cons_append]
    cases e <;> simp_all [spoiled, Ev.isSetThrow]

/-- the block holds a destroyed value and believes it is alive -/
structure Broken (s : St L G V E) (c : Nat) : Prop where
  va : s.va c = .val
  life : (s.cbs ⟨c, pullSide (s.kind c)⟩).life = .alive
  slot : (s.cbs ⟨c, pullSide (s.kind c)⟩).slot = .dead
  bvalid : (s.cbs ⟨c, pullSide (s.kind c)⟩).bvalid = true

def SpoilInv (s : St L G V E) : Prop := ∀ c, spoiled c s.log = true → Broken s c

theorem SpoilInv.keep {evs : List (Ev V E)} (h : spoiled c s.log = true → Broken s c) (hk : s'.kind c = s.kind c) (hv : s'.va c = s.va c)
    (hc : ∀ sd, sd = pullSide (s.kind c) → (s'.cbs ⟨c, sd⟩).life = (s.cbs ⟨c, sd⟩).life ∧ (s'.cbs ⟨c, sd⟩).slot = (s.cbs ⟨c, sd⟩).slot ∧
      (s'.cbs ⟨c, sd⟩).bvalid = (s.cbs ⟨c, sd⟩).bvalid)
    (hl : s'.log = evs ++ s.log) (he : ∀ e ∈ evs, e.isSetThrow c = false) : spoiled c s'.log = true → Broken s' c := by
  rw [hl, spoiled_app he]
  intro hs
  obtain ⟨h1, h2, h3, h4⟩ := h hs
  obtain ⟨a, b, d⟩ := hc _ rfl
  constructor <;> simp_all

/-- nothing can have been spoiled if the block is not in the state described -/
theorem SpoilInv.absurd {evs : List (Ev V E)} (h : spoiled c s.log = true → Broken s c) (hn : ¬ Broken s c) (hl : s'.log = evs ++ s.log)
    (he : ∀ e ∈ evs, e.isSetThrow c = false) : spoiled c s'.log = true → Broken s' c := by
  rw [hl, spoiled_app he]
  exact fun hs => (hn (h hs)).elim

theorem SpoilInv.scope {h : Nat} (hs : Scope P s h s') (hi : SpoilInv s) : SpoilInv s' := by
  obtain ⟨e1, e2, e3, e4, e5, e6, e7, e8, e9, e10, e11⟩ := hs.eqs
  intro c
  rcases hs.log with h | h
  · exact SpoilInv.keep (evs := []) (hi c) (by rw [e3]) (by rw [e4]) (by simp [e2]) h (by simp)
  · exact SpoilInv.keep (evs := [_]) (hi c) (by rw [e3]) (by rw [e4]) (by simp [e2]) h (by simp [Ev.isSetThrow])

/-- a block is destroyed, by its destructor or because it holds nothing -/
theorem SpoilInv.kill {k : Nat} {sd : Side} {b : CB V E} {evs : List (Ev V E)} (hi : SpoilInv s) (hk : s'.kind = s.kind) (hv : s'.va = s.va)
    (hc : s'.cbs = upd s.cbs ⟨k, sd⟩ b) (hd : sd = pullSide (s.kind k) → ¬ Broken s k) (hl : s'.log = evs ++ s.log)
    (he : ∀ c, ∀ e ∈ evs, e.isSetThrow c = false) : SpoilInv s' := by
  intro c
  by_cases hcd : c = k ∧ sd = pullSide (s.kind k)
  · obtain ⟨rfl, rfl⟩ := hcd
    exact SpoilInv.absurd (hi c) (hd rfl) hl (he c)
  · refine SpoilInv.keep (hi c) (by rw [hk]) (by rw [hv]) ?_ hl (he c)
    intro sd' hsd
    have : (⟨c, sd'⟩ : CbRef) ≠ ⟨k, sd⟩ := by
      intro h; cases h; exact hcd ⟨rfl, hsd⟩
    simp [hc, upd, this]

theorem Dtor.notBroken {k : Nat} {sd : Side} {sl : Slot V} {evs : List (Ev V E)} (h : Dtor (s.kind k) (s.va k) (s.cbs ⟨k, sd⟩) ⟨k, sd⟩ sl evs)
    (hs : sd = pullSide (s.kind k)) : ¬ Broken s k := by
  rintro ⟨h1, h2, h3, h4⟩
  rw [← hs] at h2 h3 h4
  cases h with
  | val _ _ _ hv => rw [hv] at h3; cases h3
  | skip hn => exact hn ⟨by rw [isPullSide_iff]; exact hs, h1, h4⟩

theorem SpoilInv.dying {f : Option Nat} (hs : Dying P s f s') (hci : CtorInv s) (hi : SpoilInv s) : SpoilInv s' := by
  cases hs
  case handle h s1 hd k sl evs hsc h1 h2 h3 h4 =>
    exact (SpoilInv.scope hsc hi).kill rfl rfl rfl h4.notBroken rfl h4.setThrow
  case ctorInvalid h4 => exact hi.kill rfl rfl rfl h4.notBroken rfl h4.setThrow
  case ctorThrow k t e u hc hf hk _ _ _ he =>
    refine hi.kill (evs := [_]) rfl rfl rfl ?_ rfl (by simp [Ev.isSetThrow])
    intro hps hb
    have := hb.bvalid
    rw [← hps] at this
    rcases hci.clean s.cur k (by show ctorOf s.fr = _; rw [hf]; rfl) hk with h | h
    · rw [h.1] at this; cases this
    · rw [he] at h; have := h.2.2; simp_all
  case ctorUnw x f k t hc hf hff =>
    refine hi.kill (evs := []) rfl rfl rfl ?_ rfl (by simp)
    intro hps hb
    have := hb.bvalid
    rw [← hps] at this
    have hk : s.kind k = .pull := by cases hk : s.kind k <;> simp_all [pullSide]
    rcases hci.clean s.cur k (by show ctorOf s.fr = _; rw [hf]; rcases hff with rfl | rfl <;> rfl) hk with h | h
    · rw [h.1] at this; cases this
    · rw [hc] at h; exact _root_.absurd h.2.1 (by simp)
  case syn h4 => exact hi.kill rfl rfl rfl h4.notBroken rfl h4.setThrow

/-- the block with the slot of `k` is written -/
theorem SpoilInv.write {k : Nat} {q : CbRef} {b : CB V E} {evs : List (Ev V E)} (hi : SpoilInv s) (hk : s'.kind = s.kind) (hv : s'.va = s.va)
    (hq : q = ⟨k, pullSide (s.kind k)⟩) (hc : s'.cbs = upd s.cbs q b) (hl : s'.log = evs ++ s.log)
    (he : ∀ c, c ≠ k → ∀ e ∈ evs, e.isSetThrow c = false)
    (hb : spoiled k (evs ++ s.log) = true → s.va k = .val ∧ b.life = .alive ∧ b.slot = .dead ∧ b.bvalid = true) : SpoilInv s' := by
  intro c
  by_cases hck : c = k
  · subst hck hq
    intro hs
    rw [hl] at hs
    obtain ⟨h1, h2, h3, h4⟩ := hb hs
    constructor <;> simp_all [upd]
  · refine SpoilInv.keep (hi c) (by rw [hk]) (by rw [hv]) ?_ hl (he c hck)
    intro sd' hsd
    have : (⟨c, sd'⟩ : CbRef) ≠ q := by subst hq; intro h; cases h; exact hck rfl
    simp [hc, upd, this]

theorem Step.spoil (hs : Step P s s') (hi : Inv s) (hci : CtorInv s) (hf : LogFresh s) (hsl : SlotInv P s) (h : SpoilInv s) : SpoilInv s' := by
  cases hs
  case loc hx => exact fun c => SpoilInv.keep (h c) rfl rfl (by simp) rfl (by cases hx <;> simp [Ev.isSetThrow])
  case get l h' k r v hc hcode hr =>
    obtain ⟨hd, h1, h2, h3, h4, h5, h6⟩ := readSlot_ok hr
    have hb := hi.hok.born h' hd r h1 h4
    rw [h2] at hb
    have hps := endKind_pull hb.2.1
    refine h.write (k := r.co) (q := r) (evs := [_]) rfl rfl (by rw [← hps]) rfl rfl (by simp [Ev.isSetThrow]) ?_
    intro hx
    have := (h r.co (by simpa [spoiled] using hx)).slot
    rw [← hps] at this
    rw [show (⟨r.co, r.side⟩ : CbRef) = r from rfl, h6] at this; cases this
  case moveCtor => exact fun c => SpoilInv.keep (evs := []) (h c) rfl rfl (by simp) rfl (by simp)
  case moveAssign => exact fun c => SpoilInv.keep (evs := []) (h c) rfl rfl (by simp) rfl (by simp)
  case ctorDrop => exact fun c => SpoilInv.keep (evs := []) (h c) rfl rfl (by simp) rfl (by simp)
  case mkFn => exact fun c => SpoilInv.keep (evs := [_]) (h c) rfl rfl (by simp) rfl (by simp [Ev.isSetThrow])
  case mk l kd va fn k hc hcode =>
    intro c
    by_cases hn : c = s.nk
    · subst hn
      refine SpoilInv.absurd (evs := [_, _, _]) (h _) ?_ rfl (by simp [Ev.isSetThrow])
      intro hb
      have := hi.cb.unborn s.nk (pullSide (s.kind s.nk)) (.inr (Nat.le_refl _))
      rw [hb.life] at this; cases this
    · refine SpoilInv.keep (evs := [_, _, _]) (h _) (by simp [upd, hn]) (by simp [upd, hn]) ?_ rfl (by simp [Ev.isSetThrow])
      intro sd _
      simp [upd, hn]
  case pushThrow l op k h' a post hd r b evs e hc hcode hpc hh hty hcb hal hoth hpal ha hset =>
    have hb := hi.hok.born h' hd r hh hcb
    rw [hty] at hb
    have hps := endKind_push hb.2.1
    have hq : r.partner = ⟨r.co, pullSide (s.kind r.co)⟩ := by rw [← hps.1]; rfl
    refine h.write (k := r.co) (q := r.partner) rfl rfl hq rfl rfl ?_ ?_
    · intro c hne e he; cases hset <;> simp_all [Ev.isSetThrow] <;> grind [Ev.isSetThrow]
    · have hrep := (hsl r.co).rep (by rw [← hq]; exact hpal)
      rw [← hq] at hrep
      have h2 := congrArg Prod.snd hrep
      rw [slotRep_valid] at h2
      cases hset with
      | first hva hbv =>
        intro hx
        rw [show (s.cbs r.partner).bvalid = false from hbv] at h2
        have h2 : (lastPushed r.co s.log).isSome = false := h2
        have hx : spoiled r.co s.log = true := by simpa [spoiled, h2] using hx
        have := (h r.co hx).bvalid
        rw [← hq, hbv] at this; cases this
      | again hva hbv hsv => exact fun _ => ⟨hva, hpal, rfl, hbv⟩
  case push l op k h' a post hd r b evs w t hc hcode hpc hh hty hcb hal hoth hpal hset hfib =>
    have hb := hi.hok.born h' hd r hh hcb
    rw [hty] at hb
    have hps := endKind_push hb.2.1
    have hq : r.partner = ⟨r.co, pullSide (s.kind r.co)⟩ := by rw [← hps.1]; rfl
    refine h.write (k := r.co) (q := r.partner) (evs := _ :: evs) rfl rfl hq rfl rfl ?_ ?_
    · intro c hne; cases hset <;> simp [Ev.isSetThrow]
    · intro hx
      have hx : spoiled r.co s.log = true := by
        rw [spoiled_app (by cases hset <;> simp [Ev.isSetThrow])] at hx; exact hx
      obtain ⟨b1, b2, b3, b4⟩ := h r.co hx
      rw [← hq] at b2 b3 b4
      cases hset <;> simp_all
  case pull => exact fun c => SpoilInv.keep (evs := [_]) (h c) rfl rfl (by simp) rfl (by simp [Ev.isSetThrow])
  case enterPull fn u hc hfr hb hk hal hair =>
    intro c
    refine SpoilInv.keep (evs := [_]) (h c) rfl rfl ?_ rfl (by simp [Ev.isSetThrow])
    intro sd hsd
    by_cases hcc : c = s.cur
    · subst hcc; rw [hk] at hsd; subst hsd; simp [pullSide, upd]
    · simp [upd, hcc]
  case enterPush fn u hc hfr hb hk hal hair =>
    intro c
    by_cases hcc : c = s.cur
    · subst hcc
      refine SpoilInv.absurd (evs := [_]) (h _) ?_ rfl (by simp [Ev.isSetThrow])
      intro hbr
      have hun := hi.cb.fresh_syn s.cur (by rw [hb]; rfl)
      have := hbr.life
      rw [hk] at this
      simp only [pullSide] at this
      rw [hun] at this; cases this
    · refine SpoilInv.keep (evs := [_]) (h c) rfl rfl ?_ rfl (by simp [Ev.isSetThrow])
      intro sd hsd
      simp [upd, hcc]
  case startPush => exact fun c => SpoilInv.keep (evs := [_]) (h c) rfl rfl (by simp) rfl (by simp [Ev.isSetThrow])
  case wait => exact fun c => SpoilInv.keep (evs := []) (h c) rfl rfl (by simp) rfl (by simp)
  case asg => exact fun c => SpoilInv.keep (evs := []) (h c) rfl rfl (by simp) rfl (by simp)
  case asgThrow => exact fun c => SpoilInv.keep (evs := [_]) (h c) rfl rfl (by simp) rfl (by simp [Ev.isSetThrow])
  case pullCtor => exact fun c => SpoilInv.keep (evs := []) (h c) rfl rfl (by simp) rfl (by simp)
  case pushCtor => exact fun c => SpoilInv.keep (evs := []) (h c) rfl rfl (by simp) rfl (by simp)
  case fin =>
    refine fun c => SpoilInv.keep (evs := [_, _, _]) (h c) rfl rfl ?_ rfl (by simp [Ev.isSetThrow])
    intro sd _
    simp only [upd]
    split
    · rename_i hx; rw [hx]; exact ⟨rfl, rfl, rfl⟩
    · exact ⟨rfl, rfl, rfl⟩
  case nop hsc _ _ => exact fun c => SpoilInv.keep (evs := []) (SpoilInv.scope hsc h c) rfl rfl (by simp) rfl (by simp)
  case dropNone hd => exact fun c => SpoilInv.keep (evs := []) (SpoilInv.dying hd hci h c) rfl rfl (by simp) rfl (by simp)
  case dropSome hd => exact fun c => SpoilInv.keep (evs := [_]) (SpoilInv.dying hd hci h c) rfl rfl (by simp) rfl (by simp [Ev.isSetThrow])
  case exit r b hc hfr hb hback hdead =>
    have hds : (s.cbs ⟨s.cur, .syn⟩).life ≠ .alive := by
      intro h; have := (hi.cb.syn_life s.cur).1 h; rw [hb] at this; cases this
    intro c
    by_cases hcc : c = s.cur
    · subst hcc
      refine SpoilInv.absurd (evs := .dealloc s.cur :: (if s.fnObj s.cur = .record then [.fnDtor s.cur] else [])) (h _) ?_ rfl
        (by split <;> simp [Ev.isSetThrow])
      intro hbr
      have := hbr.life
      cases hk : s.kind s.cur <;> simp only [hk, pullSide] at this
      · rw [hdead] at this; cases this
      · exact hds this
    · refine SpoilInv.keep (evs := .dealloc s.cur :: (if s.fnObj s.cur = .record then [.fnDtor s.cur] else [])) (h c) rfl rfl ?_ rfl
        (by split <;> simp [Ev.isSetThrow])
      intro sd _
      simp [freeCbs, upd, hcc]

theorem spoil_reach (hr : Reach P l0 g0 s) : SpoilInv s := by
  induction hr with
  | init => intro c hc; simp [init, spoiled] at hc
  | step hr he ih =>
    exact (step_rel (inv_reach hr) he).spoil (inv_reach hr) (ctor_reach hr) (logFresh_reach hr) (slot_reach hr) ih

end Verif
