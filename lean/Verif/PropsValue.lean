import Verif.NoTwice
import Verif.SetThrowInv
import Verif.PropsSwitch
import Verif.PropsValid

/-!
# Transferred values (C04, C05, C17, C34, C35, C36, C37, C44)

Vocabulary in SpecValue.lean: `lastPushed c log` is the value most recently pushed over coroutine `c`, `gotSince c log` what the latest `get()`
since then returned.  Spec.lean: `nTctor c log`, `nTdtor c log` count the `T` objects the library has constructed and destroyed to
transfer values over `c`; `spoiled c log`: a copy has thrown while `c` held a value.
-/
namespace Verif
variable {L G V E : Type}
variable {P : Prog L G V E} {l0 : L} {g0 : G} {s s' : St L G V E} {h c : Nat} {k : Res V → L} {ty : Kind} {v : V}

namespace Aux

/-- the block a `get()` reads is alive: owning object, or the function's own counterpart -/
theorem readable (hr : Reach P l0 g0 s) {op : Op L V E} (hc : Calls P s op k) {r : CbRef} (hh : Refers s h ty (some r))
    (hu : r.side = .own ∨ r.co = s.cur) : (s.cbs r).life = .alive := by
  rcases r with ⟨c, sd⟩
  cases sd with
  | own => exact own_alive hr hh
  | syn =>
    rcases hu with hu | hu
    · cases hu
    · exact syn_alive hr hc.user hu.symm (refers_ne0 hr hh)

theorem handleBool_congr {t : St L G V E} (e1 : t.hs = s.hs) (e2 : t.kind = s.kind) (e3 : t.va = s.va)
    (e4 : ∀ r, (t.cbs r).life = (s.cbs r).life ∧ (t.cbs r).other = (s.cbs r).other ∧ (t.cbs r).state = (s.cbs r).state ∧
      (t.cbs r).bvalid = (s.cbs r).bvalid) (h : Nat) : handleBool t h = handleBool s h := by
  unfold handleBool cbValid
  rw [e1, e2, e3]
  cases s.hs h with
  | none => rfl
  | some hd =>
    dsimp only
    cases hd.cb with
    | none => rfl
    | some r =>
      obtain ⟨a, b, c, d⟩ := e4 r
      dsimp only
      rw [a, b, c, d]

theorem alias_ub {q : CbRef} {w : V} (hva : s.va q.co = .val) (hbv : (s.cbs q).bvalid = true) (hw : (s.cbs q).slot = .live w) :
    ∃ t, cbSet P s q .alias = .ub .readDead t := by
  have : setDestroyOld s q = some ((s.setCb q { s.cbs q with slot := .dead }).emit (.tdtor q.co)) := by
    unfold setDestroyOld; rw [if_pos hbv, hw]
  refine ⟨(s.setCb q { s.cbs q with slot := .dead }).emit (.tdtor q.co), ?_⟩
  unfold cbSet
  simp only [hva, this]
  simp only [St.emit, St.setCb, upd_at]

theorem split_last {k : CbRef} : ∀ {l : List (Ev V E)}, nJump k l ≠ 0 → ∃ a i j b, l = a ++ .jump k i j :: b ∧ nJump k a = 0
  | [], h => absurd rfl h
  | e :: l, h => by
    by_cases he : ∃ i j, e = .jump k i j
    · obtain ⟨i, j, rfl⟩ := he; exact ⟨[], i, j, l, rfl, rfl⟩
    · have h1 : ∀ l : List (Ev V E), nJump k (e :: l) = nJump k l := by
        intro l
        show List.countP _ _ = _
        rw [List.countP_cons, if_neg]
        · rfl
        cases e <;> simp
        intro hr
        exact he ⟨_, _, by rw [hr]⟩
      rw [h1] at h
      obtain ⟨a, i, j, b, rfl, hb⟩ := split_last h
      exact ⟨e :: a, i, j, b, rfl, by rw [h1]; exact hb⟩

theorem lastPushed_skip {c : Nat} {l : List (Ev V E)} : ∀ {a : List (Ev V E)}, (∀ w, Ev.pushed c w ∉ a) → lastPushed c (a ++ l) = lastPushed c l
  | [], _ => rfl
  | e :: a, h => by
    have ih := lastPushed_skip (l := l) (a := a) (fun w hw => h w (List.mem_cons_of_mem _ hw))
    cases e <;> simp only [List.cons_append, lastPushed] <;> (try exact ih)
    rename_i j w
    rw [if_neg]
    · exact ih
    · rintro rfl; exact h w List.mem_cons_self

theorem nJump_app {k : CbRef} {a b : List (Ev V E)} : nJump k (a ++ b) = nJump k a + nJump k b := List.countP_append

/-- inside a push coroutine: control came by a push -/
theorem came_by_push (hr : Reach P l0 g0 s) (hu : UserRuns s) (h0 : s.cur ≠ 0) (hk : s.kind s.cur = .push) (hv : s.va s.cur ≠ .void) :
    ∃ a i j v b, s.log = a ++ .jump ⟨s.cur, .own⟩ i j :: .pushed s.cur v :: b ∧ nJump ⟨s.cur, .own⟩ a = 0 ∧
      lastPushed s.cur s.log = some v := by
  have h2 := (lazy_reach hr s.cur).entered hk (entered_of_user hr hu h0).1
  obtain ⟨a, i, j, b, hl, ha⟩ := split_last (k := ⟨s.cur, .own⟩) (l := s.log) (by omega)
  have ht := (tinv_reach hr).tr
  rw [hl] at ht
  have ht := transfers_suffix ht
  have hb : nJump ⟨s.cur, .own⟩ b ≠ 0 := by
    rw [hl, nJump_app] at h2
    have : nJump ⟨s.cur, .own⟩ (.jump ⟨s.cur, .own⟩ i j :: b) = nJump ⟨s.cur, .own⟩ b + 1 := by
      show List.countP _ _ = _
      rw [List.countP_cons, if_pos (by simp)]; rfl
    omega
  have h3 : (match headPushed b with
      | some k' => (⟨s.cur, .own⟩ : CbRef) = ⟨k', pushEnd (s.kind k')⟩
      | none => (⟨s.cur, .own⟩ : CbRef).side = pushEnd (s.kind s.cur) →
        s.va s.cur = .void ∨ lastJump s.cur b = none ∨ (headFin b = some s.cur ∧ s.kind s.cur = .pull)) := ht.2
  rw [hk] at h3
  cases hp : headPushed b with
  | none =>
    rw [hp] at h3
    rcases h3 rfl with h3 | h3 | h3
    · exact absurd h3 hv
    · exact absurd (lastJump_none_nJump h3) hb
    · cases h3.2
  | some k' =>
    rw [hp] at h3
    simp only [CbRef.mk.injEq] at h3
    obtain ⟨h3, -⟩ := h3
    match b, hp, hl with
    | .pushed k'' v :: b', hp, hl =>
      simp only [headPushed, Option.some.injEq] at hp
      have hkk : k'' = s.cur := by rw [hp, ← h3]
      subst hkk
      refine ⟨a, i, j, v, b', hl, ha, ?_⟩
      rw [hl, lastPushed_skip]
      · simp [lastPushed]
      · intro w hw
        obtain ⟨a1, a2, rfl⟩ := List.append_of_mem hw
        rw [List.append_assoc] at hl
        obtain ⟨a', i', j', rfl⟩ := C06_push_hands_over hr hl
        rw [hk, nJump_app, nJump_app] at ha
        have : nJump ⟨s.cur, .own⟩ [(.jump ⟨s.cur, pushEnd .push⟩ i' j' : Ev V E)] = 1 := by simp [nJump, pushEnd]
        omega

end Aux
open Aux

/-- C04: `get()` on an owning `pull_type` object, called for the first time since the last push, returns exactly the value pushed last (and a
value has been pushed whenever the object refers to a coroutine: `C08_true_has_value`). -/
theorem C04_last_pushed (hr : Reach P l0 g0 s) (hc : Calls P s (.get h) k) (hh : Refers s h .pull (some ⟨c, .own⟩))
    (hv : lastPushed c s.log = some v) (hg : gotSince c s.log = none) (ht : spoiled c s.log = false) :
    ∃ s', CallRuns P s s' ∧ Returned s k (.val v) s' := by
  have hal := own_alive hr hh
  obtain ⟨w, h1, h2, h3⟩ := slot_of_pushed hr hal hh hv ht
  obtain ⟨s', a1, a2, -⟩ := get_returns hr hc hh hal h1
  have hw : w = v := by
    cases hva : s.va c with
    | void =>
      have := congrArg Prod.snd ((slot_reach hr c).void hva)
      rw [slotRep_valid, hv] at this; cases this
    | ref => exact h2 hva
    | val => rw [h3 hva, hg]
  subst hw
  exact ⟨s', a1, a2⟩

/-- C05: inside the function of a push coroutine of values or references, the last transfer of control into the coroutine was made by a
push, and the first `get()` since returns the value that was pushed. -/
theorem C05_resuming_value (hr : Reach P l0 g0 s) (hc : Calls P s (.get h) k) (hh : Refers s h .pull (some ⟨s.cur, .syn⟩))
    (hv : s.va s.cur ≠ .void) (hg : gotSince s.cur s.log = none) (ht : spoiled s.cur s.log = false) :
    ∃ a i j v b s', s.log = a ++ .jump ⟨s.cur, .own⟩ i j :: .pushed s.cur v :: b ∧ nJump ⟨s.cur, .own⟩ a = 0 ∧
      CallRuns P s s' ∧ Returned s k (.val v) s' := by
  have hk : s.kind s.cur = .push := by
    have := end_of hr hh
    revert this; cases s.kind s.cur <;> simp [pullSide]
  have h0 := refers_ne0 hr hh
  obtain ⟨a, i, j, v, b, h1, h2, h3⟩ := came_by_push hr hc.user h0 hk hv
  have hal := syn_alive hr hc.user rfl h0
  obtain ⟨w, g1, g2, g3⟩ := slot_of_pushed hr hal hh h3 ht
  obtain ⟨s', a1, a2, -⟩ := get_returns hr hc hh hal g1
  have hw : w = v := by
    cases hva : s.va s.cur with
    | void => exact absurd hva hv
    | ref => exact g2 hva
    | val => rw [g3 hva, hg]
  subst hw
  exact ⟨a, i, j, w, b, s', h1, h2, a1, a2⟩

/-- C34: a call of `get()` either is undefined (or not even well-typed) at once, or returns a value to its caller: it transfers control to
nobody, throws nothing, and leaves every coroutine object, every stack and the answer of `operator bool` of every object as they were. -/
theorem C34_no_switch (hr : Reach P l0 g0 s) (hc : Calls P s (.get h) k) :
    (∃ s' r v, CallRuns P s s' ∧ Returned s k (.val v) s' ∧ s'.log = .got r v :: s.log ∧ s'.hs = s.hs ∧ s'.frames = s.frames ∧
      s'.fib = s.fib ∧ ∀ h', handleBool s' h' = handleBool s h') ∨
    (∃ u t, step P s = .ub u t) ∨ (∃ t, step P s = .ill t) := by
  obtain ⟨l, h1, h2⟩ := hc
  have he : step P s = apiStep P (s.pushFr (.usr k)) (.get h) := by unfold step; rw [h1]; simp only [evalStep, h2]
  cases hrs : readSlot (s.pushFr (.usr k)) h with
  | ok x =>
    obtain ⟨r, v⟩ := x
    obtain ⟨hd, g1, g2, g3, g4, g5, g6⟩ := readSlot_ok hrs
    obtain ⟨s', a1, a2, a3, a4⟩ := get_returns hr ⟨l, h1, h2⟩ ⟨hd, g1, g2, g4⟩ g5 g6
    refine .inl ⟨s', r.co, v, a1, a2, a3, ?_⟩
    subst a4
    refine ⟨rfl, rfl, rfl, fun h' => ?_⟩
    refine handleBool_congr ?_ ?_ ?_ (fun r' => ?_) h' <;> (try rfl)
    dsimp only
    split
    · by_cases hrr : r' = r
      · subst hrr; simp
      · simp [upd, hrr]
    · simp
  | error o =>
    right
    rw [he]
    unfold apiStep
    simp only [hrs]
    unfold readSlot at hrs
    split at hrs
    · cases hrs; exact .inl ⟨_, _, rfl⟩
    · split at hrs
      · split at hrs
        · cases hrs; exact .inl ⟨_, _, rfl⟩
        · split at hrs
          · split at hrs
            · cases hrs
            · cases hrs; exact .inl ⟨_, _, rfl⟩
            · cases hrs; exact .inl ⟨_, _, rfl⟩
          · cases hrs; exact .inl ⟨_, _, rfl⟩
      · cases hrs; exact .inr ⟨_, rfl⟩

/-- C34: `get()` moves the value out: after a `get()` that returned `w`, the next `get()` before the next push returns what is left of `w`
(`P.mv w`) - for owning objects, and for the counterpart inside the function. -/
theorem C34_moved_out (hr : Reach P l0 g0 s) (hc : Calls P s (.get h) k) {r : CbRef} {w : V} (hh : Refers s h .pull (some r))
    (hu : r.side = .own ∨ r.co = s.cur) (hva : s.va r.co = .val) (hv : lastPushed r.co s.log = some v)
    (hg : gotSince r.co s.log = some w) (ht : spoiled r.co s.log = false) :
    ∃ s', CallRuns P s s' ∧ Returned s k (.val (P.mv w)) s' := by
  have hal := readable hr hc hh hu
  obtain ⟨x, g1, g2, g3⟩ := slot_of_pushed hr hal hh hv ht
  obtain ⟨s', a1, a2, -⟩ := get_returns hr hc hh hal g1
  rw [g3 hva, hg] at a2
  exact ⟨s', a1, a2⟩

/-- C34: dereferencing an iterator returns the same value as `get()` would, and leaves everything as it was. -/
theorem C34_deref (hr : Reach P l0 g0 s) (hc : Calls P s (.itDeref (some h)) k) {r : CbRef} (hh : Refers s h .pull (some r))
    (hu : r.side = .own ∨ r.co = s.cur) (hv : lastPushed r.co s.log = some v) (hg : gotSince r.co s.log = none)
    (ht : spoiled r.co s.log = false) :
    ∃ s', CallRuns P s s' ∧ s' = { s with ctl := .eval (k (.val v)), log := .peeked r.co v :: s.log } ∧
      lastPushed r.co s'.log = some v ∧ gotSince r.co s'.log = none := by
  have hal := readable hr hc hh hu
  obtain ⟨w, g1, g2, g3⟩ := slot_of_pushed hr hal hh hv ht
  have hw : w = v := by
    cases hva : s.va r.co with
    | void =>
      have := congrArg Prod.snd ((slot_reach hr r.co).void hva)
      rw [slotRep_valid, hv] at this; cases this
    | ref => exact g2 hva
    | val => rw [g3 hva, hg]
  subst hw
  obtain ⟨s', a1, a2⟩ := deref_returns hr hc hh hal g1
  exact ⟨s', a1, a2, by rw [a2]; exact hv, by rw [a2]; exact hg⟩

/-- C35: over a coroutine of references, `get()` returns the very reference that was pushed last, however often it is called. -/
theorem C35_identity (hr : Reach P l0 g0 s) (hc : Calls P s (.get h) k) {r : CbRef} (hh : Refers s h .pull (some r))
    (hu : r.side = .own ∨ r.co = s.cur) (hva : s.va r.co = .ref) (hv : lastPushed r.co s.log = some v) :
    ∃ s', CallRuns P s s' ∧ Returned s k (.val v) s' ∧ s'.cbs = s.cbs := by
  have hal := readable hr hc hh hu
  obtain ⟨w, g1, g2, g3⟩ := slot_of_pushed hr hal hh hv (spoiled_of_none <| setThrow_reach hr r.co (by rw [hva]; simp))
  obtain ⟨s', a1, a2, -, a4⟩ := get_returns hr hc hh hal g1
  rw [g2 hva] at a2
  refine ⟨s', a1, a2, ?_⟩
  rw [a4]
  simp [hva]

/-- C35: over a coroutine of references (or of nothing) the library constructs and destroys no `T`. -/
theorem C35_no_objects (hr : Reach P l0 g0 s) (hva : s.va c ≠ .val) : nTctor c s.log = 0 ∧ nTdtor c s.log = 0 := by
  have h1 := (slot_reach hr c).noT hva
  have h2 := (slot_reach hr c).bal
  rw [if_neg (by simp [hva])] at h2
  omega

/-- C36: over a coroutine of `void` nothing is ever stored or transferred; and `operator bool` answers as for every other coroutine
(`C08_owner`, `C28_inside`), control alternates as for every other coroutine (`C06_alternation`). -/
theorem C36_nothing_stored (hr : Reach P l0 g0 s) (hva : s.va c = .void) :
    lastPushed c s.log = none ∧ (∀ v, Ev.pushed c v ∉ s.log) ∧ nTctor c s.log = 0 ∧ nTdtor c s.log = 0 ∧
      (∀ sd, (s.cbs ⟨c, sd⟩).life = .alive → (s.cbs ⟨c, sd⟩).slot = .raw) := by
  have hs := slot_reach hr c
  have h1 : lastPushed c s.log = none := by
    have := congrArg Prod.snd (hs.void hva)
    rw [slotRep_valid] at this
    cases hx : lastPushed c s.log with
    | none => rfl
    | some _ => rw [hx] at this; cases this
  obtain ⟨h2, h3⟩ := C35_no_objects hr (c := c) (by rw [hva]; simp)
  refine ⟨h1, ?_, h2, h3, ?_⟩
  · intro v hv
    have : ∀ l : List (Ev V E), lastPushed c l = none → Ev.pushed c v ∉ l := by
      intro l
      induction l with
      | nil => intro _ h; cases h
      | cons e l ih =>
        intro hl hm
        rcases List.mem_cons.1 hm with rfl | hm
        · simp [lastPushed] at hl
        · refine ih ?_ hm
          cases e <;> simp only [lastPushed] at hl <;> (try exact hl)
          split at hl
          · cases hl
          · exact hl
    exact this _ h1 hv
  · intro sd hal
    rcases side_cases (s.kind c) sd with rfl | ⟨-, rfl⟩
    · have := hs.rep hal
      rw [hs.void hva] at this
      exact (congrArg Prod.fst this).symm
    · exact hs.qraw.2

/-- C36: `operator bool` of an owning object of a coroutine of `void` is true exactly if the function has not ended. -/
theorem C36_validity (hr : Reach P l0 g0 s) (_ : s.va c = .void) (hc : Calls P s (.valid h) k)
    (hh : Refers s h ty (some ⟨c, .own⟩)) :
    ∃ s' b, CallRuns P s s' ∧ OnlyResult s k (.bool b) s' ∧ (b = true ↔ nFin c s.log = 0) :=
  C08_owner hr hc hh

/-- C37: pushing `v` - as an lvalue or as an rvalue, with `operator()` or through an iterator - makes `v` the value most recently pushed, not
yet taken by any `get()`, and transfers control.  (What `get()` then returns: `C04_last_pushed`, `C05_resuming_value`.) -/
theorem C37_delivers (hr : Reach P l0 g0 s) {a : PushArg V E} (ha : a = .copy v ∨ a = .move v) (hp : PushesTo P s h a k) {r : CbRef}
    (hh : Refers s h .push (some r)) (hv : s.va r.co ≠ .void) (hs : step P s = .next s') :
    lastPushed r.co s'.log = some v ∧ gotSince r.co s'.log = none ∧ s'.cur ≠ s.cur ∧
      ∃ b, s'.log = .jump r s.cur s'.cur :: .pushed r.co v :: b := by
  obtain ⟨l, op, post, h1, h2, h3⟩ := hp.call
  have hi := inv_reach hr
  obtain ⟨hd, r', g1, g2, g3, g4, g5, g6, ⟨b, evs, w, t, g7, g8, rfl⟩ | ⟨_, _, e, rfl, _⟩⟩ := (step_rel hi hs).pushInv h1 h2 h3
  · obtain ⟨hd', f1, f2, f3⟩ := hh
    rw [f1] at g1; cases g1
    rw [f3] at g3; cases g3
    have ht : t ≠ s.cur := (hi.sched.fib_ok _ _ g8).1
    rcases ha with rfl | rfl <;> cases g7 <;> (try contradiction)
    all_goals rename_i hx _; (try cases hx)
    all_goals simp_all [lastPushed, gotSince]
  · rcases ha with h | h <;> cases h

/-- C37: what a push leaves in its argument.  When control comes back to a caller of `operator()(x)`, and the call returns, an lvalue argument
has its old value, an rvalue argument is what is left of a moved-from `v` (`P.mv v`). -/
theorem C37_source (hr : Reach P l0 g0 s) {a : PushArg V E} {w : V} (ha : (a = .copy v ∧ w = v) ∨ (a = .move v ∧ w = P.mv v))
    (hp : Calls P s (.push h a) k) {r : CbRef} (hh : Refers s h .push (some r)) (hv : s.va r.co ≠ .void) (hb : ComesBack P s s')
    (hc : s'.ctl = .recv) :
    (∃ s1, CallRuns P s' s1 ∧ Returned s k (.val w) s1) ∨ (∃ s1 e, CallRuns P s' s1 ∧ Threw s e s1) ∨ CallCrashes P s' := by
  have hi := inv_reach hr
  have hrs := hb.later.reach hr
  obtain ⟨s1, e1, hne⟩ : ∃ s1, step P s = .next s1 ∧ s1.cur ≠ s.cur := by
    obtain ⟨s2, ha, -⟩ := hb
    clear hrs hc
    induction ha with
    | first e h => exact ⟨_, e, h⟩
    | next _ _ _ ih => exact ih
  have hcur : s'.cur = s.cur := by obtain ⟨_, _, _, h⟩ := hb; exact h
  obtain ⟨l, h1, h2⟩ := hp
  obtain ⟨hd, r', g1, g2, g3, g4, g5, g6, ⟨b, evs, w', t, g7, g8, hs1⟩ | ⟨_, _, e, rfl, _⟩⟩ := (step_rel hi e1).pushInv h1 h2 .op
  · obtain ⟨hd', f1, f2, f3⟩ := hh
    rw [f1] at g1; cases g1
    rw [f3] at g3; cases g3
    have hw : w' = some w := by
      rcases ha with ⟨rfl, rfl⟩ | ⟨rfl, rfl⟩ <;> cases g7 <;> (try contradiction)
      all_goals rename_i hx _; (try cases hx)
      all_goals simp_all
    subst hw
    have hf := hb.frames hr e1
    rw [hs1] at hf
    simp only [upd_at] at hf
    have hpost : Post (L := L) (E := E) h [.resid w] := .resid
    rcases asg_done hrs hc hcur hf hpost with ⟨s2, x, a1, a2, _, _, _, _, _, _, _, _, a3⟩ | ⟨s2, e, a1, a2, _⟩ | a
    · cases a3; exact .inl ⟨s2, a1, a2⟩
    · exact .inr (.inl ⟨s2, e, a1, a2⟩)
    · exact .inr (.inr a)
  · rcases ha with ⟨h, -⟩ | ⟨h, -⟩ <;> cases h

/-- C17: at every moment at most one `T` of a coroutine exists, and no more are destroyed than constructed; this holds whatever the
program does, throwing copies included. -/
theorem C17_balance (hr : Reach P l0 g0 s) (c : Nat) :
    nTdtor c s.log ≤ nTctor c s.log ∧ nTctor c s.log ≤ nTdtor c s.log + 1 := by
  have h2 := (slot_reach hr c).bal
  split at h2 <;> omega

/-- C17: when the coroutine has been destroyed, all of them have been destroyed. -/
theorem C17_all_destroyed (hr : Reach P l0 g0 s) (hd : nDealloc c s.log ≠ 0) : nTctor c s.log = nTdtor c s.log := by
  have hs := slot_reach hr c
  have h2 := hs.bal
  have hna := (C15_not_used_afterwards hr c hd).2.2.2.2 (pullSide (s.kind c))
  rw [if_neg] at h2
  · omega
  · rintro ⟨hva, hl⟩
    cases hx : (s.cbs ⟨c, pullSide (s.kind c)⟩).life with
    | alive => exact hna hx
    | unborn => rw [hs.nb (hs.unb hx)] at hl; cases hl
    | dead => rw [hs.dead hva (.inl hx)] at hl; cases hl
    | freed => rw [hs.dead hva (.inr hx)] at hl; cases hl

/-- C17, partial: as long as no copy of a transferred object has thrown while the coroutine held another one, and the argument of the current
push is not the stored object itself, no transferred object is destroyed twice and none is read after its destruction.  Missing from the full claim: the two excluded
cases, in which it is false (`C17_refuted_throwing_copy`, `C17_refuted_read`, `C44_refuted`). -/
theorem C17_partial (hr : Reach P l0 g0 s) (h0 : ∀ c, spoiled c s.log = false) (ha : ∀ h k, ¬ Calls P s (.push h .alias) k)
    (t : St L G V E) : step P s ≠ .ub .doubleDestroy t ∧ step P s ≠ .ub .readDead t :=
  have h1 := fun r hal hp hb => (slot_reach hr).unspoiled (r := r) (h0 r.co) hal hp hb
  ⟨fun h => (goodT_step hr h1 ha _ _ h).1 rfl, fun h => (goodT_step hr h1 ha _ _ h).2 rfl⟩

/-- C44 is false: pushing the very object the coroutine currently holds reads it after it has been destroyed - always, not just in some
program: whenever the push end is usable and a value is held. -/
theorem C44_undefined (hr : Reach P l0 g0 s) (hc : Calls P s (.push h .alias) k) {r : CbRef} (hh : Refers s h .push (some r))
    (hal : (s.cbs r).life = .alive) (hal' : (s.cbs r.partner).life = .alive) (hva : s.va r.co = .val)
    (hv : lastPushed r.co s.log = some v) (ht : spoiled r.co s.log = false) : ∃ t, step P s = .ub .readDead t := by
  have hi := inv_reach hr
  obtain ⟨l, op, post, -, -, h3, he⟩ := PushesTo.step (.inl hc)
  obtain ⟨hd, a1, a2, a3⟩ := hh
  have hk := (hi.hok.born h hd r a1 a3).2.1
  rw [a2] at hk
  obtain ⟨hq1, hq2⟩ := endKind_push hk
  have hpp : r.partner = ⟨r.co, pullSide (s.kind r.co)⟩ := by rw [← hq1]; rfl
  have hs := slot_reach hr r.co
  have hrep := hs.rep (by rw [← hpp]; exact hal')
  rw [← hpp] at hrep
  have hbv : (s.cbs r.partner).bvalid = true := by
    have := congrArg Prod.snd hrep
    rw [slotRep_valid, hv] at this; exact this.symm
  have hsl : ∃ w, (s.cbs r.partner).slot = .live w := by
    have := congrArg Prod.fst hrep
    rw [hva, slotRep_val ht hv] at this; exact ⟨_, this.symm⟩
  obtain ⟨w, hw⟩ := hsl
  have hoth : (s.cbs r).other = some r.partner := by
    cases hx : (s.cbs r).other with
    | some q => rw [hi.other_partner hal hx]
    | none =>
      exfalso
      rcases r with ⟨c, sd⟩
      cases sd with
      | syn => rw [hi.cb.syn_other c hal] at hx; cases hx
      | own =>
        rw [hi.cb.own_other c hal] at hx
        split at hx
        · rename_i hf
          have := hi.cb.fresh_syn c hf
          exact absurd (this.symm.trans hal') (by simp)
        · cases hx
  obtain ⟨t, ht⟩ := alias_ub (P := P) (s := s.pushFr (.usr k)) (q := r.partner) hva hbv hw
  rw [he]
  unfold pushOp
  have e1 : (s.pushFr (.usr k)).hs = s.hs := rfl
  have e2 : (s.pushFr (.usr k)).cbs = s.cbs := rfl
  simp only [e1, e2, a1, a2, a3, hal, hal', hoth, if_true, ht]
  exact ⟨t, rfl⟩

/-! ### The hypotheses are satisfiable; witnesses of the refutations -/

namespace Demo
open Code

/-- The value is taken twice, then read through an iterator after the next push. -/
def twiceMain : C :=
  mk .pull .val (fun h => push h 4 (push h 5 ret)) fun h =>
    get h fun _ => get h fun _ => resume h (op (.itDeref (some h)) fun _ => get h fun _ => op (.destroy h) fun _ => ret)

/-- A coroutine of references. -/
def refMain : C :=
  mk .pull .ref (fun h => push h 77 ret) fun h => get h fun _ => get h fun _ => op (.destroy h) fun _ => ret

/-- A coroutine of `void`. -/
def voidMain : C :=
  mk .pull .void (fun h => op (.push h .unit) fun _ => ret) fun h =>
    op (.valid h) fun _ => resume h (op (.valid h) fun _ => op (.destroy h) fun _ => ret)

/-- An rvalue is pushed. -/
def moveMain : C :=
  mk .push .val (fun h => get h fun _ => resume h ret) fun h => op (.push h (.move 5)) fun _ => op (.destroy h) fun _ => ret

/-- The second push throws in the copy constructor; the exception reaches main, which destroys the coroutine. -/
def badCopyMain : C :=
  mk .pull .val (fun h => push h 1 (op (.push h (.faulty 9)) fun _ => ret)) fun h =>
    tryc (fun _ => op (.destroy h) fun _ => ret) (resume h (endTry ret))

/-- The same, but main calls `get()`. -/
def badGetMain : C :=
  mk .pull .val (fun h => push h 1 (op (.push h (.faulty 9)) fun _ => ret)) fun h =>
    tryc (fun _ => get h fun _ => ret) (resume h (endTry ret))

/-- The function pushes the value its coroutine currently holds. -/
def aliasMain : C :=
  mk .pull .val (fun h => push h 1 (op (.push h .alias) fun _ => ret)) fun h => resume h (get h fun _ => ret)

end Demo

open Demo in
/-- C04: step 11 of `askMain`. C05: step 10 of `askPushMain`. -/
example : Reach Demo.P askMain [] (stateAt askMain 11) ∧ (∃ k, Calls Demo.P (stateAt askMain 11) (.get 1) k) ∧
    Refers (stateAt askMain 11) 1 .pull (some ⟨1, .own⟩) ∧ lastPushed 1 (stateAt askMain 11).log = some 4 ∧
    gotSince 1 (stateAt askMain 11).log = none ∧ spoiled 1 (stateAt askMain 11).log = false ∧
    Reach Demo.P askPushMain [] (stateAt askPushMain 10) ∧ (∃ k, Calls Demo.P (stateAt askPushMain 10) (.get 0) k) ∧
    Refers (stateAt askPushMain 10) 0 .pull (some ⟨(stateAt askPushMain 10).cur, .syn⟩) ∧
    (stateAt askPushMain 10).va 1 ≠ .void ∧ gotSince 1 (stateAt askPushMain 10).log = none ∧
    spoiled 1 (stateAt askPushMain 10).log = false ∧ lastPushed 1 (stateAt askPushMain 10).log = some 5 :=
  ⟨reach _ _ rfl, ⟨_, _, rfl, rfl⟩, ⟨_, rfl, rfl, rfl⟩, rfl, rfl, rfl, reach _ _ rfl, ⟨_, _, rfl, rfl⟩, ⟨_, rfl, rfl, rfl⟩, by decide, rfl,
    rfl, rfl⟩

open Demo in
/-- C34: the second `get()` (step 7), and the dereferenced iterator (step 16), of `twiceMain`. -/
example : Reach Demo.P twiceMain [] (stateAt twiceMain 7) ∧ (∃ k, Calls Demo.P (stateAt twiceMain 7) (.get 1) k) ∧
    Refers (stateAt twiceMain 7) 1 .pull (some ⟨1, .own⟩) ∧ (stateAt twiceMain 7).va 1 = .val ∧
    lastPushed 1 (stateAt twiceMain 7).log = some 4 ∧ gotSince 1 (stateAt twiceMain 7).log = some 4 ∧
    spoiled 1 (stateAt twiceMain 7).log = false ∧
    Reach Demo.P twiceMain [] (stateAt twiceMain 16) ∧ (∃ k, Calls Demo.P (stateAt twiceMain 16) (.itDeref (some 1)) k) ∧
    lastPushed 1 (stateAt twiceMain 16).log = some 5 ∧ gotSince 1 (stateAt twiceMain 16).log = none :=
  ⟨reach _ _ rfl, ⟨_, _, rfl, rfl⟩, ⟨_, rfl, rfl, rfl⟩, rfl, rfl, rfl, rfl, reach _ _ rfl, ⟨_, _, rfl, rfl⟩, rfl, rfl⟩

open Demo in
/-- C35: the second `get()` of `refMain`.  C36: `voidMain`. -/
example : Reach Demo.P refMain [] (stateAt refMain 7) ∧ (∃ k, Calls Demo.P (stateAt refMain 7) (.get 1) k) ∧
    Refers (stateAt refMain 7) 1 .pull (some ⟨1, .own⟩) ∧ (stateAt refMain 7).va 1 = .ref ∧
    lastPushed 1 (stateAt refMain 7).log = some 77 ∧ gotSince 1 (stateAt refMain 7).log = some 77 ∧
    Reach Demo.P voidMain [] (stateAt voidMain 14) ∧ (stateAt voidMain 14).va 1 = .void ∧
    (∃ k, Calls Demo.P (stateAt voidMain 14) (.valid 1) k) ∧ Refers (stateAt voidMain 14) 1 .pull (some ⟨1, .own⟩) ∧
    ((stateAt voidMain 14).cbs ⟨1, .own⟩).life = .alive :=
  ⟨reach _ _ rfl, ⟨_, _, rfl, rfl⟩, ⟨_, rfl, rfl, rfl⟩, rfl, rfl, rfl, reach _ _ rfl, rfl, ⟨_, _, rfl, rfl⟩, ⟨_, rfl, rfl, rfl⟩, rfl⟩

open Demo in
/-- C37: the push of an rvalue in step 4 of `moveMain`; control is back in step 9. -/
example : Reach Demo.P moveMain [] (stateAt moveMain 4) ∧ (∃ k, Calls Demo.P (stateAt moveMain 4) (.push 1 (.move 5)) k) ∧
    Refers (stateAt moveMain 4) 1 .push (some ⟨1, .own⟩) ∧ (stateAt moveMain 4).va 1 ≠ .void ∧
    step Demo.P (stateAt moveMain 4) = .next (stateAt moveMain 5) ∧
    ComesBack Demo.P (stateAt moveMain 4) (stateAt moveMain 9) ∧ (stateAt moveMain 9).ctl = .recv :=
  ⟨reach _ _ rfl, ⟨_, _, rfl, rfl⟩, ⟨_, rfl, rfl, rfl⟩, by decide, rfl, back _ 4 3 rfl, rfl⟩

open Demo in
/-- C17: at the end of `twiceMain` two objects have been constructed and destroyed. -/
example : Reach Demo.P twiceMain [] (stateAt twiceMain 30) ∧ nDealloc 1 (stateAt twiceMain 30).log ≠ 0 ∧
    nTctor 1 (stateAt twiceMain 30).log = 2 ∧ (∀ c, spoiled c (stateAt twiceMain 30).log = false) :=
  ⟨reach _ _ rfl, by decide, rfl, fun _ => rfl⟩

open Demo in
/-- C17 is false: after the copy constructor of a pushed value has thrown, destroying the coroutine destroys the previously transferred
value a second time. -/
theorem C17_refuted_throwing_copy : ∃ (c : C) (n : Nat) (t : S), Reach Demo.P c [] (stateAt c n) ∧
    (∃ h k, Calls Demo.P (stateAt c n) (.destroy h) k) ∧ nTctor 1 (stateAt c n).log = 1 ∧ nTdtor 1 (stateAt c n).log = 1 ∧
    step Demo.P (stateAt c n) = .ub .doubleDestroy t :=
  ⟨badCopyMain, 16, _, reach _ _ rfl, ⟨1, _, _, rfl, rfl⟩, rfl, rfl, rfl⟩

open Demo in
/-- C17 is false: in the same situation `get()` reads the destroyed value. -/
theorem C17_refuted_read : ∃ (c : C) (n : Nat) (t : S), Reach Demo.P c [] (stateAt c n) ∧
    (∃ h k, Calls Demo.P (stateAt c n) (.get h) k) ∧ nTctor 1 (stateAt c n).log = 1 ∧ nTdtor 1 (stateAt c n).log = 1 ∧
    step Demo.P (stateAt c n) = .ub .readDead t :=
  ⟨badGetMain, 16, _, reach _ _ rfl, ⟨1, _, _, rfl, rfl⟩, rfl, rfl, rfl⟩

open Demo in
/-- C44 is false: in step 9 of `aliasMain` the function, resumed by its owner, pushes the value 1 that its coroutine holds; the hypotheses of
`C44_undefined` hold, and the step is undefined behaviour. -/
theorem C44_refuted : ∃ (c : C) (n : Nat) (t : S), Reach Demo.P c [] (stateAt c n) ∧
    (∃ k, Calls Demo.P (stateAt c n) (.push 0 .alias) k) ∧ Refers (stateAt c n) 0 .push (some ⟨1, .syn⟩) ∧
    ((stateAt c n).cbs ⟨1, .syn⟩).life = .alive ∧ ((stateAt c n).cbs ⟨1, .own⟩).life = .alive ∧ (stateAt c n).va 1 = .val ∧
    lastPushed 1 (stateAt c n).log = some 1 ∧ spoiled 1 (stateAt c n).log = false ∧
    step Demo.P (stateAt c n) = .ub .readDead t :=
  ⟨aliasMain, 9, _, reach _ _ rfl, ⟨_, _, rfl, rfl⟩, ⟨_, rfl, rfl, rfl⟩, rfl, rfl, rfl, rfl, rfl, rfl⟩

/-- C44, partial: what does work is pushing a copy of the value held (the missing part - pushing the object itself - is false,
`C44_undefined`): the copy becomes the value most recently pushed. -/
theorem C44_partial (hr : Reach P l0 g0 s) (hp : PushesTo P s h (.copy v) k) {r : CbRef}
    (hh : Refers s h .push (some r)) (hv : s.va r.co ≠ .void) (_ : lastPushed r.co s.log = some v) (hs : step P s = .next s') :
    lastPushed r.co s'.log = some v ∧ gotSince r.co s'.log = none :=
  ⟨(C37_delivers hr (.inl rfl) hp hh hv hs).1, (C37_delivers hr (.inl rfl) hp hh hv hs).2.1⟩

open Demo in
/-- C44: a program that pushes the value it holds again. -/
example : let c := Code.mk .pull .val (fun h => Code.push h 1 (Code.push h 1 Code.ret)) fun h => Code.resume h Code.ret
    Reach Demo.P c [] (stateAt c 9) ∧ (∃ k, PushesTo Demo.P (stateAt c 9) 0 (.copy 1) k) ∧
    Refers (stateAt c 9) 0 .push (some ⟨1, .syn⟩) ∧ (stateAt c 9).va 1 ≠ .void ∧ lastPushed 1 (stateAt c 9).log = some 1 ∧
    step Demo.P (stateAt c 9) = .next (stateAt c 10) :=
  ⟨reach _ _ rfl, ⟨_, .inl ⟨_, rfl, rfl⟩⟩, ⟨_, rfl, rfl, rfl⟩, by decide, rfl, rfl⟩

end Verif
