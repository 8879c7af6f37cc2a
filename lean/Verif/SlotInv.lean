import Verif.LogInv

/-!
# The transfer slot as a function of the history

Proof material: contents of the slot of a live pull-type block, and the number of live `T`s, from the events alone.
-/
namespace Verif
variable {L G V E : Type}

/-- the end with the slot -/
def pullSide : Kind → Side
  | .pull => .own
  | .push => .syn

theorem isPullSide_iff {kd : Kind} {sd : Side} : isPullSide kd sd = true ↔ sd = pullSide kd := by
  cases kd <;> cases sd <;> simp [isPullSide, pullSide]

/-- slot contents and `bvalid`, replayed from the history -/
def slotRep (mv : V → V) (va : Var) (k : Nat) : List (Ev V E) → Slot V × Bool
  | [] => (.raw, false)
  | .pushed j v :: l => if j = k then (.live v, true) else slotRep mv va k l
  | .got j v :: l => if j = k ∧ va = .val then (.live (mv v), (slotRep mv va k l).2) else slotRep mv va k l
  | .setThrow j :: l =>
    if j = k then (if (slotRep mv va k l).2 then .dead else (slotRep mv va k l).1, (slotRep mv va k l).2)
    else slotRep mv va k l
  | _ :: l => slotRep mv va k l

/-- event irrelevant for the slot of `k` -/
def slotQuiet (k : Nat) : Ev V E → Bool
  | .pushed j _ | .got j _ | .setThrow j | .tctor j | .tdtor j => j != k
  | _ => true

theorem slotRep_quiet {mv : V → V} {va : Var} {k : Nat} {evs log : List (Ev V E)} (h : ∀ e ∈ evs, slotQuiet k e = true) :
    slotRep mv va k (evs ++ log) = slotRep mv va k log := by
  induction evs with
  | nil => rfl
  | cons e t ih =>
    have h1 := h e (List.mem_cons_self ..)
    rw [List.cons_append]
    have h2 := ih (fun x hx => h x (List.mem_cons_of_mem _ hx))
    cases e <;> simp_all [slotRep, slotQuiet]

theorem nT_quiet {k : Nat} {evs log : List (Ev V E)} (h : ∀ e ∈ evs, slotQuiet k e = true) :
    nTctor k (evs ++ log) = nTctor k log ∧ nTdtor k (evs ++ log) = nTdtor k log := by
  unfold nTctor nTdtor
  rw [List.countP_append, List.countP_append]
  have h1 : evs.countP (Ev.isTctor k) = 0 := by
    rw [List.countP_eq_zero]; intro e he hp; have := h e he; cases e <;> simp_all [slotQuiet, Ev.isTctor]
  have h2 : evs.countP (Ev.isTdtor k) = 0 := by
    rw [List.countP_eq_zero]; intro e he hp; have := h e he; cases e <;> simp_all [slotQuiet, Ev.isTdtor]
  omega

theorem nTctor_cons {k : Nat} {e : Ev V E} {l : List (Ev V E)} :
    nTctor k (e :: l) = nTctor k l + if e.isTctor k then 1 else 0 := by simp [nTctor, List.countP_cons]
theorem nTdtor_cons {k : Nat} {e : Ev V E} {l : List (Ev V E)} :
    nTdtor k (e :: l) = nTdtor k l + if e.isTdtor k then 1 else 0 := by simp [nTdtor, List.countP_cons]

def Slot.isLive : Slot V → Bool
  | .live _ => true
  | _ => false

/-- `p`: the pull-side block, `q`: the other block of the coroutine -/
structure SlotOk (mv : V → V) (va : Var) (k : Nat) (p q : CB V E) (log : List (Ev V E)) : Prop where
  unb : p.life = .unborn → p.bvalid = false
  nb : p.bvalid = false → p.slot = .raw
  qraw : q.bvalid = false ∧ q.slot = .raw
  rep : p.life = .alive → slotRep mv va k log = (p.slot, p.bvalid)
  repU : p.life = .unborn → slotRep mv va k log = (.raw, false)
  dead : va = .val → (p.life = .dead ∨ p.life = .freed) → p.slot.isLive = false
  bal : nTctor k log = nTdtor k log + (if va = .val ∧ p.slot.isLive = true then 1 else 0)
  noT : va ≠ .val → nTctor k log = 0
  void : va = .void → slotRep mv va k log = (.raw, false)

/-- the slots agree, lifetimes move forward harmlessly -/
theorem SlotOk.keep {mv : V → V} {va : Var} {k : Nat} {p q p' q' : CB V E} {evs log : List (Ev V E)}
    (h : SlotOk mv va k p q log) (hs : p'.slot = p.slot) (hb : p'.bvalid = p.bvalid)
    (hqs : q'.slot = q.slot) (hqb : q'.bvalid = q.bvalid)
    (hl : p'.life = p.life ∨ (p'.life = .alive ∧ p.life = .unborn) ∨
      (p'.life ≠ .alive ∧ p'.life ≠ .unborn ∧ (va = .val → p.slot.isLive = false)))
    (hq : ∀ e ∈ evs, slotQuiet k e = true) : SlotOk mv va k p' q' (evs ++ log) := by
  obtain ⟨h1, h2, h3, h4, h5, h6, h7, h8, h9⟩ := h
  constructor
  · intro h; rw [hb]; grind
  · rw [hs, hb]; exact h2
  · rw [hqs, hqb]; exact h3
  · intro h; rw [slotRep_quiet hq, hs, hb]; grind
  · intro h; rw [slotRep_quiet hq]; grind
  · intro hv h; rw [hs]; grind
  · rw [hs, (nT_quiet hq).1, (nT_quiet hq).2]; exact h7
  · rw [(nT_quiet hq).1]; exact h8
  · rw [slotRep_quiet hq]; exact h9

def SlotInv (P : Prog L G V E) (s : St L G V E) : Prop :=
  ∀ k, SlotOk P.mv (s.va k) k (s.cbs ⟨k, pullSide (s.kind k)⟩) (s.cbs ⟨k, (pullSide (s.kind k)).flip⟩) s.log

/-- only coroutine `c` changes -/
theorem SlotInv.change {P : Prog L G V E} {s s' : St L G V E} {evs : List (Ev V E)} (c : Nat) (h : SlotInv P s)
    (hk : ∀ k, k ≠ c → s'.kind k = s.kind k) (hv : ∀ k, k ≠ c → s'.va k = s.va k)
    (hc : ∀ r, r.co ≠ c → (s'.cbs r).slot = (s.cbs r).slot ∧ (s'.cbs r).bvalid = (s.cbs r).bvalid ∧
      (s'.cbs r).life = (s.cbs r).life)
    (hl : s'.log = evs ++ s.log) (hq : ∀ k, k ≠ c → ∀ e ∈ evs, slotQuiet k e = true)
    (hcc : SlotOk P.mv (s'.va c) c (s'.cbs ⟨c, pullSide (s'.kind c)⟩) (s'.cbs ⟨c, (pullSide (s'.kind c)).flip⟩) s'.log) :
    SlotInv P s' := by
  intro k
  by_cases hkc : k = c
  · subst hkc; exact hcc
  · rw [hk k hkc, hv k hkc, hl]
    obtain ⟨a1, a2, a3⟩ := hc ⟨k, pullSide (s.kind k)⟩ hkc
    obtain ⟨b1, b2, b3⟩ := hc ⟨k, (pullSide (s.kind k)).flip⟩ hkc
    exact (h k).keep a1 a2 b1 b2 (.inl a3) (hq k hkc)

theorem SlotInv.same {P : Prog L G V E} {s s' : St L G V E} {evs : List (Ev V E)} (h : SlotInv P s)
    (hk : s'.kind = s.kind) (hv : s'.va = s.va)
    (hc : ∀ r, (s'.cbs r).slot = (s.cbs r).slot ∧ (s'.cbs r).bvalid = (s.cbs r).bvalid ∧
      (s'.cbs r).life = (s.cbs r).life)
    (hl : s'.log = evs ++ s.log) (hq : ∀ k, ∀ e ∈ evs, slotQuiet k e = true) : SlotInv P s' := by
  intro k
  rw [hk, hv, hl]
  obtain ⟨a1, a2, a3⟩ := hc ⟨k, pullSide (s.kind k)⟩
  obtain ⟨b1, b2, b3⟩ := hc ⟨k, (pullSide (s.kind k)).flip⟩
  exact (h k).keep a1 a2 b1 b2 (.inl a3) (hq k)

theorem slotQuiet_of_about {e : Ev V E} {j k : Nat} (h : ∀ k, e.about = some k → k = j) (hk : k ≠ j) : slotQuiet k e = true := by
  cases e <;> simp_all [slotQuiet, Ev.about] <;> exact fun hh => hk hh.symm

theorem slotRep_fresh {mv : V → V} {va : Var} {k : Nat} {log : List (Ev V E)} (h : ∀ e ∈ log, e.about ≠ some k) :
    slotRep mv va k log = (.raw, false) ∧ nTctor k log = 0 ∧ nTdtor k log = 0 := by
  have hq : ∀ e ∈ log, slotQuiet k e = true := by
    intro e he; have := h e he; cases e <;> simp_all [slotQuiet, Ev.about]
  have h1 := slotRep_quiet (mv := mv) (va := va) (log := []) hq
  have h2 := nT_quiet (log := []) hq
  simp only [List.append_nil] at h1 h2
  exact ⟨h1, h2.1, h2.2⟩

/-- destruction of a block with its slot -/
theorem SlotOk.dtor {mv : V → V} {kd : Kind} {va : Var} {k : Nat} {sd : Side} {p q b b' : CB V E} {sl : Slot V} {evs log : List (Ev V E)}
    (h : SlotOk mv va k p q log) (hd : Dtor kd va b ⟨k, sd⟩ sl evs) (hsd : sd = pullSide kd) (hb : b = p) 
    (h1 : b'.slot = sl) (h2 : b'.bvalid = p.bvalid) (h3 : b'.life = .dead) : SlotOk mv va k b' q (evs ++ log) := by
  subst hb
  cases hd
  case val v hps hva hbv hsl =>
    obtain ⟨g1, g2, g3, g4, g5, g6, g7, g8, g9⟩ := h
    simp only [hva, hsl, Slot.isLive] at g7
    constructor
    · intro h; rw [h3] at h; cases h
    · rw [h2, hbv]; simp
    · exact g3
    · intro h; rw [h3] at h; cases h
    · intro h; rw [h3] at h; cases h
    · intro _ _; rw [h1]; rfl
    · rw [h1]
      simp [nTctor_cons, nTdtor_cons, Ev.isTctor, Ev.isTdtor, Slot.isLive, hva] at *
      omega
    · intro h; exact absurd hva h
    · intro h; rw [hva] at h; cases h
  case skip hn =>
    rw [hsd] at hn
    have hps : isPullSide kd (pullSide kd) = true := isPullSide_iff.2 rfl
    refine h.keep (evs := []) h1 h2 rfl rfl (.inr (.inr ⟨by rw [h3]; simp, by rw [h3]; simp, ?_⟩)) (by simp)
    intro hva
    have : b.bvalid = false := by
      cases hb : b.bvalid
      · rfl
      · exact absurd ⟨hps, hva, hb⟩ hn
    rw [h.nb this]; rfl

/-- destruction of a block without slot -/
theorem SlotOk.dtorQ {mv : V → V} {kd : Kind} {va : Var} {k : Nat} {sd : Side} {p q b q' : CB V E} {sl : Slot V} {evs log : List (Ev V E)}
    (h : SlotOk mv va k p q log) (hd : Dtor kd va b ⟨k, sd⟩ sl evs) (hsd : sd ≠ pullSide kd) (hb : b = q)
    (h1 : q'.slot = sl) (h2 : q'.bvalid = q.bvalid) : SlotOk mv va k p q' (evs ++ log) := by
  subst hb
  cases hd
  case val hps _ _ _ => exact absurd (isPullSide_iff.1 hps) hsd
  case skip => exact h.keep (evs := []) rfl rfl h1 h2 (.inl rfl) (by simp)

theorem flip_ne_pull (kd : Kind) : (pullSide kd).flip ≠ pullSide kd := by cases kd <;> simp [pullSide, Side.flip]

theorem side_cases (kd : Kind) (sd : Side) : sd = pullSide kd ∨ (sd ≠ pullSide kd ∧ sd = (pullSide kd).flip) := by
  cases kd <;> cases sd <;> simp [pullSide, Side.flip]

/-- one block of coroutine `k` is destroyed -/
theorem SlotInv.dtor {P : Prog L G V E} {s s' : St L G V E} {k : Nat} {sd : Side} {sl : Slot V} {evs : List (Ev V E)}
    (h : SlotInv P s) (hk : s'.kind = s.kind) (hv : s'.va = s.va) {b' : CB V E} (hc : s'.cbs = upd s.cbs ⟨k, sd⟩ b')
    (h1 : b'.slot = sl) (h2 : b'.bvalid = (s.cbs ⟨k, sd⟩).bvalid) (h3 : b'.life = .dead)
    (hd : Dtor (s.kind k) (s.va k) (s.cbs ⟨k, sd⟩) ⟨k, sd⟩ sl evs) (hl : s'.log = evs ++ s.log) : SlotInv P s' := by
  refine h.change k (by simp [hk]) (by simp [hv]) ?_ hl ?_ ?_
  · intro r hr
    have : r ≠ ⟨k, sd⟩ := by rintro rfl; exact hr rfl
    simp [hc, upd, this]
  · intro j hj e he
    exact slotQuiet_of_about (hd.about e he) hj
  · rw [hk, hv, hl, hc]
    rcases side_cases (s.kind k) sd with hs | ⟨hs, hs'⟩
    · subst hs
      have hne : (⟨k, (pullSide (s.kind k)).flip⟩ : CbRef) ≠ ⟨k, pullSide (s.kind k)⟩ := by
        intro h; exact flip_ne_pull _ (by injection h)
      simp only [upd, if_true, hne, if_false]
      exact (h k).dtor hd rfl rfl h1 h2 h3
    · have hne : (⟨k, pullSide (s.kind k)⟩ : CbRef) ≠ ⟨k, sd⟩ := by
        intro h; exact hs (by injection h with _ h; exact h.symm)
      subst hs'
      simp only [upd, if_true, hne, if_false]
      exact (h k).dtorQ hd hs rfl h1 h2

/-- one block is destroyed without running its destructor body: its slot must be empty -/
theorem SlotInv.kill {P : Prog L G V E} {s s' : St L G V E} {k : Nat} {sd : Side} {evs : List (Ev V E)}
    (h : SlotInv P s) (hk : s'.kind = s.kind) (hv : s'.va = s.va)
    (hc : s'.cbs = upd s.cbs ⟨k, sd⟩ { s.cbs ⟨k, sd⟩ with life := .dead })
    (he : sd = pullSide (s.kind k) → (s.cbs ⟨k, sd⟩).bvalid = false) (hl : s'.log = evs ++ s.log)
    (hq : ∀ k, ∀ e ∈ evs, slotQuiet k e = true) : SlotInv P s' := by
  refine h.change k (by simp [hk]) (by simp [hv]) ?_ hl (fun j _ => hq j) ?_
  · intro r hr
    have : r ≠ ⟨k, sd⟩ := by rintro rfl; exact hr rfl
    simp [hc, upd, this]
  · rw [hk, hv, hl, hc]
    rcases side_cases (s.kind k) sd with hs | ⟨hs, hs'⟩
    · have hb := he hs
      subst hs
      have hne : (⟨k, (pullSide (s.kind k)).flip⟩ : CbRef) ≠ ⟨k, pullSide (s.kind k)⟩ := by
        intro h; exact flip_ne_pull _ (by injection h)
      simp only [upd, if_true, hne, if_false]
      refine (h k).keep rfl rfl rfl rfl (.inr (.inr ⟨by simp, by simp, ?_⟩)) (hq k)
      intro _
      rw [(h k).nb hb]; rfl
    · have hne : (⟨k, pullSide (s.kind k)⟩ : CbRef) ≠ ⟨k, sd⟩ := by
        intro h; exact hs (by injection h with _ h; exact h.symm)
      subst hs'
      simp only [upd, if_true, hne, if_false]
      exact (h k).keep rfl rfl rfl rfl (.inl rfl) (hq k)

theorem SlotInv.scope {P : Prog L G V E} {s s1 : St L G V E} {h : Nat} (hs : Scope P s h s1) (hl : SlotInv P s) :
    SlotInv P s1 := by
  obtain ⟨e1, e2, e3, e4, e5, e6, e7, e8, e9, e10, e11⟩ := hs.eqs
  rcases hs.log with h | h
  · exact hl.same (evs := []) e3 e4 (by simp [e2]) h (by simp)
  · exact hl.same (evs := [_]) e3 e4 (by simp [e2]) h (by simp [slotQuiet])

theorem SlotInv.dying {P : Prog L G V E} {s s0 : St L G V E} {f : Option Nat} (hs : Dying P s f s0)
    (hci : CtorInv s) (hl : SlotInv P s) : SlotInv P s0 := by
  cases hs
  case handle h s1 hd k sl evs hsc h1 h2 h3 h4 =>
    exact (SlotInv.scope hsc hl).dtor rfl rfl rfl rfl rfl rfl h4 rfl
  case ctorInvalid h4 => exact hl.dtor rfl rfl rfl rfl rfl rfl h4 rfl
  case ctorThrow k t e u hc hf hk _ _ _ he =>
    refine hl.kill (evs := [_]) rfl rfl rfl ?_ rfl (by simp [slotQuiet])
    intro _
    rcases hci.clean s.cur k (by show ctorOf s.fr = _; rw [hf]; rfl) hk with h | h
    · exact h.1
    · rw [he] at h; simpa using h.2.2
  case ctorUnw x f k t hc hf hff =>
    refine hl.kill (evs := []) rfl rfl rfl ?_ rfl (by simp)
    intro hps
    have hk : s.kind k = .pull := by cases hk : s.kind k <;> simp_all [pullSide]
    rcases hci.clean s.cur k (by show ctorOf s.fr = _; rw [hf]; rcases hff with rfl | rfl <;> rfl) hk with h | h
    · exact h.1
    · rw [hc] at h; exact absurd h.2.1 (by simp)
  case syn h4 => exact hl.dtor rfl rfl rfl rfl rfl rfl h4 rfl

theorem endKind_push {kd : Kind} {sd : Side} (h : Kind.push = endKind kd sd) : sd.flip = pullSide kd ∧ sd ≠ pullSide kd := by
  cases kd <;> cases sd <;> simp_all [endKind, pullSide, Kind.flip, Side.flip]
theorem endKind_pull {kd : Kind} {sd : Side} (h : Kind.pull = endKind kd sd) : sd = pullSide kd := by
  cases kd <;> cases sd <;> simp_all [endKind, pullSide, Kind.flip]

/-- the block of `k` with the slot gets new contents -/
theorem SlotInv.write {P : Prog L G V E} {s s' : St L G V E} {k : Nat} {evs : List (Ev V E)} {b : CB V E} {q : CbRef}
    (h : SlotInv P s) (hk : s'.kind = s.kind) (hv : s'.va = s.va) (hq0 : q = ⟨k, pullSide (s.kind k)⟩)
    (hc : s'.cbs = upd s.cbs q b) (hl : s'.log = evs ++ s.log)
    (hq : ∀ j, j ≠ k → ∀ e ∈ evs, slotQuiet j e = true)
    (ho : SlotOk P.mv (s.va k) k b (s.cbs ⟨k, (pullSide (s.kind k)).flip⟩) (evs ++ s.log)) : SlotInv P s' := by
  subst hq0
  refine h.change k (by simp [hk]) (by simp [hv]) ?_ hl hq ?_
  · intro r hr
    have : r ≠ ⟨k, pullSide (s.kind k)⟩ := by rintro rfl; exact hr rfl
    simp [hc, upd, this]
  · rw [hk, hv, hl, hc]
    have hne : (⟨k, (pullSide (s.kind k)).flip⟩ : CbRef) ≠ ⟨k, pullSide (s.kind k)⟩ := by
      intro h; exact flip_ne_pull _ (by injection h)
    simp only [upd, if_true, hne, if_false]
    exact ho

theorem SetOk.slot {mv : V → V} {va : Var} {b b' q : CB V E} {k : Nat} {a : PushArg V E} {evs log : List (Ev V E)} {w : Option V}
    (h : SetOk mv va b k a b' evs w) (ho : SlotOk mv va k b q log) (hal : b.life = .alive) :
    SlotOk mv va k b' q (evs ++ log) := by
  obtain ⟨g1, g2, g3, g4, g5, g6, g7, g8, g9⟩ := ho
  have g4 := g4 hal
  cases h
  case void => exact ⟨g1, g2, g3, fun _ => g4, g5, g6, g7, g8, g9⟩
  case alias hb hs => rw [g2 hb] at hs; cases hs
  all_goals
    constructor <;> simp_all [slotRep, nTctor_cons, nTdtor_cons, Ev.isTctor, Ev.isTdtor, Slot.isLive] <;> omega

theorem SetThrows.slot {mv : V → V} {va : Var} {b b' q : CB V E} {k : Nat} {evs log : List (Ev V E)}
    (h : SetThrows va b k b' evs) (ho : SlotOk mv va k b q log) (hal : b.life = .alive) :
    SlotOk mv va k b' q (evs ++ log) := by
  obtain ⟨g1, g2, g3, g4, g5, g6, g7, g8, g9⟩ := ho
  have g4 := g4 hal
  cases h
  all_goals
    constructor <;> simp_all [slotRep, nTctor_cons, nTdtor_cons, Ev.isTctor, Ev.isTdtor, Slot.isLive] <;> omega

theorem SlotOk.get {mv : V → V} {va : Var} {p q : CB V E} {k : Nat} {v : V} {log : List (Ev V E)}
    (ho : SlotOk mv va k p q log) (hal : p.life = .alive) (hs : p.slot = .live v) :
    SlotOk mv va k { p with slot := if va = .val then .live (mv v) else p.slot } q (.got k v :: log) := by
  obtain ⟨g1, g2, g3, g4, g5, g6, g7, g8, g9⟩ := ho
  have g4 := g4 hal
  have hb : p.bvalid = true := by
    cases hb : p.bvalid
    · rw [g2 hb] at hs; cases hs
    · rfl
  by_cases hva : va = .val <;>
    constructor <;> simp_all [slotRep, nTctor_cons, nTdtor_cons, Ev.isTctor, Ev.isTdtor, Slot.isLive]

theorem Step.slotInv {P : Prog L G V E} {s s' : St L G V E} (hs : Step P s s') (hi : Inv s)
    (hci : CtorInv s) (hf : LogFresh s) (hl : SlotInv P s) : SlotInv P s' := by
  cases hs
  case loc h => exact hl.same rfl rfl (by simp) rfl (by cases h <;> simp [slotQuiet])
  case get l h k r v hc hcode hr =>
    obtain ⟨hd, h1, h2, h3, h4, h5, h6⟩ := readSlot_ok hr
    have hb := hi.hok.born h hd r h1 h4
    rw [h2] at hb
    have hps := endKind_pull hb.2.1
    refine hl.write (k := r.co) (evs := [_]) (q := r) rfl rfl (by rw [← hps]) rfl rfl ?_ ?_
    · intro j hj; simp [slotQuiet]; exact fun h => hj h.symm
    · have ho := hl r.co
      rw [← hps] at ho ⊢
      exact ho.get h5 h6
  case moveCtor => exact hl
  case moveAssign => exact hl
  case ctorDrop => exact hl
  case mkFn => exact hl.same (evs := [_]) rfl rfl (by simp) rfl (by simp [slotQuiet])
  case mk l kd va fn k hc hcode =>
    have hun : ∀ sd, (s.cbs ⟨s.nk, sd⟩).life = .unborn := fun sd => hi.cb.unborn s.nk sd (.inr (Nat.le_refl _))
    have hraw : ∀ sd, (s.cbs ⟨s.nk, sd⟩).bvalid = false ∧ (s.cbs ⟨s.nk, sd⟩).slot = .raw := by
      intro sd
      have ho := hl s.nk
      rcases side_cases (s.kind s.nk) sd with h | ⟨-, h⟩
      · subst h; exact ⟨ho.unb (hun _), ho.nb (ho.unb (hun _))⟩
      · subst h; exact ho.qraw
    have hfr := slotRep_fresh (mv := P.mv) (va := va) (k := s.nk) (log := s.log) (by
      intro e he h; have := hf e he _ h; omega)
    refine hl.change (evs := [_, _, _]) s.nk ?_ ?_ ?_ rfl (by simp [slotQuiet]) ?_
    · intro k hk; simp [upd, hk]
    · intro k hk; simp [upd, hk]
    · intro r hr
      have : r ≠ ⟨s.nk, .own⟩ := by rintro rfl; exact hr rfl
      simp [upd, this]
    · simp only [upd_same]
      have h1 := hraw .syn
      have h2 := hun .syn
      obtain ⟨f1, f2, f3⟩ := hfr
      have f4 : va = .void → slotRep P.mv Var.void s.nk s.log = (.raw, false) := fun h => h ▸ f1
      cases kd <;> constructor <;>
        simp_all [pullSide, Side.flip, upd, slotRep, nTctor_cons, nTdtor_cons, Ev.isTctor, Ev.isTdtor, Slot.isLive]
  case pushThrow l op k h a post hd r b evs e hc hcode hpc hh hty hcb hal hoth hpal ha hset =>
    have hb := hi.hok.born h hd r hh hcb
    rw [hty] at hb
    have hps := endKind_push hb.2.1
    have hq : r.partner = ⟨r.co, pullSide (s.kind r.co)⟩ := by rw [← hps.1]; rfl
    refine hl.write (k := r.co) (q := r.partner) rfl rfl hq rfl rfl ?_ ?_
    · intro j hj e he; exact slotQuiet_of_about (hset.about e he) hj
    · rw [hq] at hset hpal
      exact hset.slot (hl r.co) hpal
  case push l op k h a post hd r b evs w t hc hcode hpc hh hty hcb hal hoth hpal hset hfib =>
    have hb := hi.hok.born h hd r hh hcb
    rw [hty] at hb
    have hps := endKind_push hb.2.1
    have hq : r.partner = ⟨r.co, pullSide (s.kind r.co)⟩ := by rw [← hps.1]; rfl
    have h1 : SlotInv P { s with cbs := upd s.cbs r.partner b, log := evs ++ s.log } := by
      refine hl.write (k := r.co) (q := r.partner) rfl rfl hq rfl rfl ?_ ?_
      · intro j hj e he; exact slotQuiet_of_about (hset.about e he) hj
      · rw [hq] at hset hpal
        exact hset.slot (hl r.co) hpal
    exact h1.same (evs := [_]) rfl rfl (by simp) rfl (by simp [slotQuiet])
  case pull => exact hl.same (evs := [_]) rfl rfl (by simp) rfl (by simp [slotQuiet])
  case enterPull fn u hc hfr hb hk hal hair =>
    have hun := hi.cb.fresh_syn s.cur (by rw [hb]; rfl)
    refine hl.change (evs := [_]) s.cur (by simp) (by simp) ?_ rfl (by simp [slotQuiet]) ?_
    · intro r hr
      have h1 : r ≠ ⟨s.cur, .own⟩ := by rintro rfl; exact hr rfl
      have h2 : r ≠ ⟨s.cur, .syn⟩ := by rintro rfl; exact hr rfl
      simp [upd, h1, h2]
    · have ho := hl s.cur
      simp only [hk, pullSide, Side.flip] at ho ⊢
      exact ho.keep (evs := [_]) (by simp) (by simp) (by simp [upd, synCb, ho.qraw.2]) (by simp [upd, synCb, ho.qraw.1])
        (.inl (by simp)) (by simp [slotQuiet])
  case enterPush fn u hc hfr hb hk hal hair =>
    have hun := hi.cb.fresh_syn s.cur (by rw [hb]; rfl)
    refine hl.change (evs := [_]) s.cur (by simp) (by simp) ?_ rfl (by simp [slotQuiet]) ?_
    · intro r hr
      have h1 : r ≠ ⟨s.cur, .own⟩ := by rintro rfl; exact hr rfl
      have h2 : r ≠ ⟨s.cur, .syn⟩ := by rintro rfl; exact hr rfl
      simp [upd, h1, h2]
    · have ho := hl s.cur
      simp only [hk, pullSide, Side.flip] at ho ⊢
      have hbv := ho.unb hun
      exact ho.keep (evs := [_]) (by simp [upd, synCb, ho.nb hbv]) (by simp [upd, synCb, hbv]) (by simp) (by simp)
        (.inr (.inl ⟨by simp [upd, synCb], hun⟩)) (by simp [slotQuiet])
  case startPush => exact hl.same (evs := [_]) rfl rfl (by simp) rfl (by simp [slotQuiet])
  case wait => exact hl
  case asg => exact hl
  case asgThrow => exact hl.same (evs := [_]) rfl rfl (by simp) rfl (by simp [slotQuiet])
  case pullCtor => exact hl
  case pushCtor => exact hl
  case fin =>
    refine hl.same (evs := [_, _, _]) rfl rfl ?_ rfl (by simp [slotQuiet])
    intro r; simp only [upd]; split <;> simp_all
  case nop hsc _ _ => exact (SlotInv.scope hsc hl).same (evs := []) rfl rfl (by simp) rfl (by simp)
  case dropNone hd => exact (SlotInv.dying hd hci hl).same (evs := []) rfl rfl (by simp) rfl (by simp)
  case dropSome hd => exact (SlotInv.dying hd hci hl).same (evs := [_]) rfl rfl (by simp) rfl (by simp [slotQuiet])
  case exit r b hc hfr hb hback hdead =>
    have hds : (s.cbs ⟨s.cur, .syn⟩).life ≠ .alive := by
      intro h; have := (hi.cb.syn_life s.cur).1 h; rw [hb] at this; cases this
    refine hl.change (evs := .dealloc s.cur :: (if s.fnObj s.cur = .record then [.fnDtor s.cur] else [])) s.cur (by simp) (by simp) ?_ rfl ?_ ?_
    · intro r hr
      have h1 : r ≠ ⟨s.cur, .own⟩ := by rintro rfl; exact hr rfl
      have h2 : r ≠ ⟨s.cur, .syn⟩ := by rintro rfl; exact hr rfl
      simp [freeCbs, upd, h1, h2]
    · intro k hk; split <;> simp [slotQuiet]
    · have ho := hl s.cur
      have hq : ∀ e ∈ (.dealloc s.cur :: (if s.fnObj s.cur = .record then [.fnDtor s.cur] else []) : List (Ev V E)), slotQuiet s.cur e = true := by
        split <;> simp [slotQuiet]
      cases hk : s.kind s.cur <;> simp only [hk, pullSide, Side.flip] at ho ⊢
      · refine ho.keep (by simp [freeCbs, upd]) (by simp [freeCbs, upd]) (by simp [freeCbs, upd]) (by simp [freeCbs, upd])
          (.inr (.inr ⟨by simp [freeCbs, upd], by simp [freeCbs, upd], ?_⟩)) hq
        intro hv; exact ho.dead hv (.inl hdead)
      · refine ho.keep (by simp [freeCbs, upd]) (by simp [freeCbs, upd]) (by simp [freeCbs, upd]) (by simp [freeCbs, upd])
          (.inr (.inr ⟨by simp [freeCbs, upd], by simp [freeCbs, upd], ?_⟩)) hq
        intro hv
        cases hlf : (s.cbs ⟨s.cur, .syn⟩).life with
        | alive => exact absurd hlf hds
        | unborn => rw [ho.nb (ho.unb hlf)]; rfl
        | dead => exact ho.dead hv (.inl hlf)
        | freed => exact ho.dead hv (.inr hlf)

theorem slotInv_init (P : Prog L G V E) (l0 : L) (g0 : G) : SlotInv P (init l0 g0 : St L G V E) := by
  intro k
  constructor <;> simp [init, slotRep, nTctor, nTdtor, Slot.isLive]

theorem slot_reach {P : Prog L G V E} {l0 : L} {g0 : G} {s : St L G V E} (h : Reach P l0 g0 s) : SlotInv P s := by
  induction h with
  | init => exact slotInv_init P l0 g0
  | step hr hs ih =>
    have hi := inv_reach hr
    exact (step_rel hi hs).slotInv hi (ctor_reach hr) (logFresh_reach hr) ih

end Verif
