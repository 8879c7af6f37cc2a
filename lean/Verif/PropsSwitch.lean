import Verif.Switch
import Verif.PropsStart
import Verif.DemoMore

/-!
# Properties C06, C11, C22, C23, C24: transfers of control

`s.log` is the history of `s`, newest event first; `.jump r i j`: control goes from context `i` to context `j` through end `r` (the
owner's end or the end passed to the function).
-/
namespace Verif
variable {L G V E : Type} {P : Prog L G V E} {l0 : L} {g0 : G} {s0 s1 s s' : St L G V E}
variable {h c : Nat} {k : Res V → L} {ty : Kind} {e : E}

/-! ## C06 -/

namespace Aux

theorem head_sides {k : Nat} : ∀ {l : List (Ev V E)}, (sides k l).head? = (lastJump k l).map (fun x => x.1.side)
  | [] => rfl
  | .jump r i j :: l => by
    by_cases h : r.co = k
    · simp [sides, sideOf, lastJump, h]
    · have := head_sides (k := k) (l := l)
      simpa [sides, sideOf, lastJump, h] using this
  | .alloc _ :: l | .dealloc _ :: l | .created _ _ :: l | .enter _ :: l | .fin _ _ :: l | .fnDtor _ :: l | .pushed _ _ :: l
  | .got _ _ :: l | .peeked _ _ :: l | .tctor _ :: l | .tdtor _ :: l | .setThrow _ :: l | .rethrow _ _ _ :: l | .unwind _ _ :: l
  | .octor _ _ :: l | .odtor _ _ :: l | .exc _ _ :: l => by
    exact head_sides (k := k) (l := l)

theorem lastJump_co {k : Nat} {r : CbRef} {i j : Nat} : ∀ {l : List (Ev V E)}, lastJump k l = some (r, i, j) → r.co = k
  | [], h => by cases h
  | .jump r' i' j' :: l, h => by
    by_cases hk : r'.co = k
    · simp only [lastJump, hk, if_true] at h; cases h; exact hk
    · simp only [lastJump, hk, if_false] at h; exact lastJump_co h
  | .alloc _ :: l, h | .dealloc _ :: l, h | .created _ _ :: l, h | .enter _ :: l, h | .fin _ _ :: l, h | .fnDtor _ :: l, h
  | .pushed _ _ :: l, h | .got _ _ :: l, h | .peeked _ _ :: l, h | .tctor _ :: l, h | .tdtor _ :: l, h | .setThrow _ :: l, h
  | .rethrow _ _ _ :: l, h | .unwind _ _ :: l, h | .octor _ _ :: l, h | .odtor _ _ :: l, h | .exc _ _ :: l, h => by
    simp only [lastJump] at h; exact lastJump_co h

theorem jumps_tail {e : Ev V E} {l : List (Ev V E)} (h : JumpsOk (e :: l)) : JumpsOk l := by
  cases e <;> simp only [JumpsOk] at h <;> first | exact h | exact h.2

theorem jumps_suffix {l : List (Ev V E)} : ∀ {a : List (Ev V E)}, JumpsOk (a ++ l) → JumpsOk l
  | [], h => h
  | _ :: _, h => jumps_suffix (jumps_tail h)

theorem transfers_suffix {kd : Nat → Kind} {va : Nat → Var} {l : List (Ev V E)} :
    ∀ {a : List (Ev V E)}, TransfersOk kd va (a ++ l) → TransfersOk kd va l
  | [], h => h
  | _ :: _, h => transfers_suffix h.1

theorem alternate {k : Nat} : ∀ {l : List (Ev V E)}, JumpsOk l → Alternates (sides k l)
  | [], _ => trivial
  | e :: l, h => by
    have h1 := alternate (k := k) (jumps_tail h)
    cases e
    case jump r i j =>
      by_cases hk : r.co = k
      · have hs : sides k (.jump r i j :: l) = r.side :: sides k l := by simp [sides, sideOf, hk]
        rw [hs]
        have hh := head_sides (k := k) (l := l)
        have h0 := h.1
        rw [hk] at h0
        cases hl : lastJump k l with
        | none =>
          rw [hl] at hh h0
          have : sides k l = [] := by simpa using hh
          rw [this]
          exact h0.1
        | some x =>
          obtain ⟨r', i', j'⟩ := x
          rw [hl] at hh h0
          simp only at h0
          obtain ⟨hd, tl, he⟩ : ∃ hd tl, sides k l = hd :: tl := by
            cases hs : sides k l with
            | nil => rw [hs] at hh; cases hh
            | cons a b => exact ⟨a, b, rfl⟩
          rw [he] at hh h1 ⊢
          have hd' : hd = r'.side := by simpa using hh
          refine ⟨?_, h1⟩
          rw [hd', h0.1]
          cases r with
          | mk co sd => cases sd <;> simp [CbRef.partner, Side.flip]
      · have hs : sides k (.jump r i j :: l) = sides k l := by simp [sides, sideOf, hk]
        rw [hs]; exact h1
    all_goals exact h1

end Aux
open Aux

/-- C06: transfers of control over one coroutine strictly alternate between its two ends, the first one is made through the owner's end.
(`sides k log` lists the ends, newest first.) -/
theorem C06_alternation (hr : Reach P l0 g0 s) (k : Nat) :
    Alternates (sides k s.log) :=
  alternate (jinv_reach hr).chain

/-- C06: a value that is pushed is handed over at once: the next event is the transfer of control through the pushing end of the same
coroutine. -/
theorem C06_push_hands_over (hr : Reach P l0 g0 s) {k : Nat} {v : V} {a c : List (Ev V E)} (h : s.log = a ++ .pushed k v :: c) :
    ∃ a' i j, a = a' ++ [.jump ⟨k, pushEnd (s.kind k)⟩ i j] := by
  have ht := (tinv_reach hr).tr
  have hp := (tinv_reach hr).hp
  rw [h] at ht hp
  rcases List.eq_nil_or_concat a with rfl | ⟨a', e, rfl⟩
  · simp [headPushed] at hp
  · rw [List.concat_eq_append, List.append_assoc] at ht
    have := (transfers_suffix ht).2
    cases e <;> simp only [headPushed] at this
    case jump r i j => exact ⟨a', i, j, by rw [List.concat_eq_append, this]⟩
    case pushed => exact absurd this.1 (by simp)
    all_goals cases this

namespace Aux

theorem nJump_append {r : CbRef} {a b : List (Ev V E)} : nJump r (a ++ b) = nJump r a + nJump r b := by
  simp [nJump]

/-- the phases after a push -/
theorem phases {kd : Nat → Kind} {va : Nat → Var} {k : Nat} {v : V} {c : List (Ev V E)} :
    ∀ {b : List (Ev V E)}, JumpsOk (b ++ .pushed k v :: c) → TransfersOk kd va (b ++ .pushed k v :: c) →
    (∀ x, Ev.pushed k x ∉ b) →
    b = [] ∨
    (nJump ⟨k, pushEnd (kd k)⟩ b = 1 ∧ nJump ⟨k, otherSide (pushEnd (kd k))⟩ b = 0 ∧
      ∃ i j, lastJump k (b ++ .pushed k v :: c) = some (⟨k, pushEnd (kd k)⟩, i, j)) ∨
    (nJump ⟨k, pushEnd (kd k)⟩ b = 1 ∧ nJump ⟨k, otherSide (pushEnd (kd k))⟩ b = 1 ∧
      ∃ i j, lastJump k (b ++ .pushed k v :: c) = some (⟨k, otherSide (pushEnd (kd k))⟩, i, j)) ∨
    (kd k = .pull ∧ nFin k (b ++ .pushed k v :: c) ≠ 0)
  | [], _, _, _ => .inl rfl
  | e :: b, hj, ht, hn => by
    have hj' := jumps_tail hj
    have hn' : ∀ x, Ev.pushed k x ∉ b := fun x hx => hn x (List.mem_cons_of_mem _ hx)
    have hva : va k ≠ .void := (transfers_suffix ht.1).2.2.1
    rcases phases hj' ht.1 hn' with rfl | h | h | h
    · -- right after the push
      have := ht.2
      cases e <;> simp only [List.nil_append, headPushed] at this
      case jump r i j =>
        subst this
        refine .inr (.inl ⟨by simp [nJump], ?_, i, j, by simp [lastJump]⟩)
        cases kd k <;> simp [nJump, pushEnd, otherSide]
      case pushed => exact absurd this.1 (by simp)
      all_goals cases this
    · obtain ⟨h1, h2, i0, j0, h3⟩ := h
      cases e
      case jump r i j =>
        have h0 : (match lastJump r.co (b ++ .pushed k v :: c) with
          | none => r.side = .own ∧ j = r.co
          | some (r', i', _) => r' = r.partner ∧ j = i') := hj.1
        by_cases hk : r.co = k
        · rw [hk, h3] at h0
          simp only at h0
          have hr : r = ⟨k, otherSide (pushEnd (kd k))⟩ := by
            have h5 : r.partner = ⟨k, pushEnd (kd k)⟩ := h0.1.symm
            apply partner_inj
            rw [h5]; cases kd k <;> rfl
          subst hr
          refine .inr (.inr (.inl ⟨?_, ?_, i, j, by simp [lastJump]⟩))
          · have : nJump ⟨k, pushEnd (kd k)⟩ [(.jump ⟨k, otherSide (pushEnd (kd k))⟩ i j : Ev V E)] = 0 := by
              cases kd k <;> simp [nJump, pushEnd, otherSide]
            have h4 := nJump_append (r := ⟨k, pushEnd (kd k)⟩) (a := [(.jump ⟨k, otherSide (pushEnd (kd k))⟩ i j : Ev V E)]) (b := b)
            rw [List.singleton_append] at h4; omega
          · have : nJump ⟨k, otherSide (pushEnd (kd k))⟩ [(.jump ⟨k, otherSide (pushEnd (kd k))⟩ i j : Ev V E)] = 1 := by
              simp [nJump]
            have h4 := nJump_append (r := ⟨k, otherSide (pushEnd (kd k))⟩)
              (a := [(.jump ⟨k, otherSide (pushEnd (kd k))⟩ i j : Ev V E)]) (b := b)
            rw [List.singleton_append] at h4; omega
        · refine .inr (.inl ⟨?_, ?_, i0, j0, by simpa [lastJump, hk] using h3⟩)
          · have : r ≠ ⟨k, pushEnd (kd k)⟩ := fun h => hk (h ▸ rfl)
            simpa [nJump, this] using h1
          · have : r ≠ ⟨k, otherSide (pushEnd (kd k))⟩ := fun h => hk (h ▸ rfl)
            simpa [nJump, this] using h2
      all_goals exact .inr (.inl ⟨by simpa [nJump] using h1, by simpa [nJump] using h2, i0, j0, by simpa [lastJump] using h3⟩)
    · obtain ⟨h1, h2, i0, j0, h3⟩ := h
      cases e
      case jump r i j =>
        have h0 : (match lastJump r.co (b ++ .pushed k v :: c) with
          | none => r.side = .own ∧ j = r.co
          | some (r', i', _) => r' = r.partner ∧ j = i') := hj.1
        by_cases hk : r.co = k
        · rw [hk, h3] at h0
          simp only at h0
          have hr : r = ⟨k, pushEnd (kd k)⟩ := by
            have h5 : r.partner = ⟨k, otherSide (pushEnd (kd k))⟩ := h0.1.symm
            apply partner_inj
            rw [h5]; cases kd k <;> rfl
          subst hr
          -- only the end of the function can transfer control through the pushing end without a push
          have h6 : (match headPushed (b ++ .pushed k v :: c) with
            | some k' => (⟨k, pushEnd (kd k)⟩ : CbRef) = ⟨k', pushEnd (kd k')⟩
            | none => pushEnd (kd k) = pushEnd (kd k) →
              va k = .void ∨ lastJump k (b ++ .pushed k v :: c) = none ∨ (headFin (b ++ .pushed k v :: c) = some k ∧ kd k = .pull)) := ht.2
          cases hh : headPushed (b ++ .pushed k v :: c) with
          | some k' =>
            rw [hh] at h6
            simp only at h6
            have hk' : k' = k := by have := congrArg CbRef.co h6; exact this.symm
            subst hk'
            cases b with
            | nil => exact absurd h1 (by simp [nJump])
            | cons e b => cases e <;> simp [headPushed] at hh; subst hh; exact absurd (List.mem_cons_self ..) (hn' _)
          | none =>
            rw [hh] at h6
            simp only at h6
            rcases h6 trivial with h6 | h6 | ⟨h6, h7⟩
            · exact absurd h6 hva
            · rw [h3] at h6; cases h6
            · refine .inr (.inr (.inr ⟨h7, ?_⟩))
              show nFin k (.jump _ i j :: (b ++ .pushed k v :: c)) ≠ 0
              rw [show nFin k (.jump ⟨k, pushEnd (kd k)⟩ i j :: (b ++ .pushed k v :: c)) = nFin k (b ++ .pushed k v :: c) by
                simp [nFin, Ev.isFin]]
              generalize b ++ Ev.pushed k v :: c = l at h6
              cases l with
              | nil => cases h6
              | cons e l =>
                cases e <;> simp [headFin] at h6
                subst h6
                simp [nFin, Ev.isFin]
        · refine .inr (.inr (.inl ⟨?_, ?_, i0, j0, by simpa [lastJump, hk] using h3⟩))
          · have : r ≠ ⟨k, pushEnd (kd k)⟩ := fun h => hk (h ▸ rfl)
            simpa [nJump, this] using h1
          · have : r ≠ ⟨k, otherSide (pushEnd (kd k))⟩ := fun h => hk (h ▸ rfl)
            simpa [nJump, this] using h2
      all_goals exact .inr (.inr (.inl ⟨by simpa [nJump] using h1, by simpa [nJump] using h2, i0, j0, by simpa [lastJump] using h3⟩))
    · refine .inr (.inr (.inr ⟨h.1, ?_⟩))
      have : nFin k (b ++ .pushed k v :: c) ≤ nFin k (e :: b ++ .pushed k v :: c) := by
        simp only [nFin, List.cons_append, List.countP_cons]; omega
      have := h.2
      omega

end Aux

/-- C06: between two consecutive pushes over one coroutine, control is given to the consuming side exactly once and comes back exactly
once: no value is overwritten before the consumer has run, and the consumer does not run twice for one value. -/
theorem C06_between_pushes (hr : Reach P l0 g0 s) {k : Nat} {v w : V} {a b c : List (Ev V E)}
    (h : s.log = a ++ .pushed k w :: (b ++ .pushed k v :: c)) (hb : ∀ x, Ev.pushed k x ∉ b) :
    nJump ⟨k, pushEnd (s.kind k)⟩ b = 1 ∧ nJump ⟨k, otherSide (pushEnd (s.kind k))⟩ b = 1 := by
  obtain ⟨a', i, j, rfl⟩ := C06_push_hands_over hr h
  have hj := (jinv_reach hr).chain
  have ht := (tinv_reach hr).tr
  rw [h, List.append_assoc] at hj ht
  have hj1 := jumps_suffix hj
  have ht1 := transfers_suffix ht
  have hj2 : JumpsOk (b ++ .pushed k v :: c) := jumps_tail (jumps_tail hj1)
  have ht2 : TransfersOk s.kind s.va (b ++ .pushed k v :: c) := ht1.1.1
  have hpu := ht1.1.2
  simp only at hpu
  rcases phases hj2 ht2 hb with rfl | h' | h' | h'
  · simp [headPushed] at hpu
  · obtain ⟨-, -, i0, j0, h3⟩ := h'
    have h4 : (match lastJump k (b ++ .pushed k v :: c) with
          | none => pushEnd (s.kind k) = .own ∧ j = k
          | some (r', i', _) => r' = CbRef.partner ⟨k, pushEnd (s.kind k)⟩ ∧ j = i') := hj1.1
    rw [h3] at h4
    simp only at h4
    have := h4.1
    cases hk : s.kind k <;> rw [hk] at this <;> cases this
  · exact ⟨h'.1, h'.2.1⟩
  · exact absurd (hpu.2.2 h'.1) h'.2

/-! ## C11 -/

/-- C11: when a function ends (normally or by an exception), control goes to the context that most recently transferred control
into the coroutine through its object: `i` in the last transfer `(own end, from i, to _)`. -/
theorem C11_end_returns_to_resumer (hr : Reach P l0 g0 s) (he : step P s = .next s') {c : Nat} (h0 : nFin c s.log = 0)
    (h1 : nFin c s'.log ≠ 0) :
    c = s.cur ∧ s'.ctl = .recv ∧ ∃ j, lastJump c s.log = some (⟨c, .own⟩, s'.cur, j) := by
  obtain ⟨h2, h3, h4, -⟩ := (step_rel (inv_reach hr) he).finInv (c := c) (by omega)
  obtain ⟨j, hj⟩ := (jinv_reach hr).held _ _ h4
  exact ⟨h2, h3, j, hj⟩

/-- C11: a call made in `s0` on the coroutine object `h` (`h()`, `h(a)`, `++it`, `*it = a`) resumes coroutine `c`; `e` leaves the
function before control comes back to the call, in `s`.  Then the call throws exactly `e`, in the calling context, whose stack is as it was;
the exception was not thrown before; the coroutine is complete.  (Or undefined behaviour: the caller's coroutine object was destroyed
meanwhile.) -/
theorem C11_call_throws (hr : Reach P l0 g0 s0) (hsw : Switches P s0 h k) (hh : Refers s0 h ty (some ⟨c, .own⟩))
    (hb : ComesBack P s0 s) (hctl : s.ctl = .recv) (hf : Ev.fin c (some e) ∈ s.log) :
    (∃ s', CallRuns P s s' ∧ Threw s0 e s' ∧ nFin c s'.log = 1 ∧ nRethrow c s.log = 0 ∧ nRethrow c s'.log = 1 ∧
      s'.hs = s.hs) ∨ CallCrashes P s := by
  obtain ⟨hd, h1, -, h2⟩ := hh
  obtain ⟨hrs, hcur, post, hfr, hp⟩ := hsw.back hr h1 h2 hb
  rcases asg_done hrs hctl hcur hfr hp with ⟨s', v, -, -, hx, hal, -⟩ | ⟨s', e', hrun, ht, hx, hal, hl, hhs, -⟩ | h
  · rw [(except_of_fin hrs hal hf).1] at hx; cases hx
  · rw [(except_of_fin hrs hal hf).1] at hx; cases hx
    left
    have hrs' := CallRuns.reach hrs hrun
    have hn : nFin c s'.log = nFin c s.log := by rw [hl]; simp [nFin, Ev.isFin]
    have hre : nRethrow c s'.log = nRethrow c s.log + 1 := by rw [hl]; simp [nRethrow, Ev.isRethrow]
    have h1 := (jinv_reach hrs').re1 c
    refine ⟨s', hrun, ht, ?_, by omega, by omega, hhs⟩
    have h3 := life_facts hrs c
    have h4 := nFin_of_mem hf
    omega
  · exact .inr h

/-- C11 for programs that obey the rules: the call always throws `e`. -/
theorem C11_call_throws_rules (ho : Obeys P l0 g0) (hr : Reach P l0 g0 s0) (hsw : Switches P s0 h k)
    (hh : Refers s0 h ty (some ⟨c, .own⟩)) (hb : ComesBack P s0 s) (hf : Ev.fin c (some e) ∈ s.log) :
    ∃ s', CallRuns P s s' ∧ Threw s0 e s' ∧ nFin c s'.log = 1 ∧ nRethrow c s.log = 0 ∧ nRethrow c s'.log = 1 ∧ s'.hs = s.hs := by
  have hh' := hh
  obtain ⟨hd, h1, -, h2⟩ := hh'
  obtain ⟨hrs, hcur, post, hfr, hp⟩ := hsw.back hr h1 h2 hb
  have hctl := back_recv ho hr hb hfr
  rcases C11_call_throws hr hsw hh hb hctl hf with h | h
  · exact h
  · exact absurd h (C32_calls_do_not_crash (ho.reachOk hrs) (ho.callOk hrs))

/-- C11: no other call throws it.  The exception of a coroutine is rethrown at most once; it is one that left the function, and it is
rethrown in the context to which the end of the function transferred control. -/
theorem C11_rethrown_once (hr : Reach P l0 g0 s) (c : Nat) :
    nRethrow c s.log ≤ 1 ∧
    ∀ a b i e, s.log = a ++ .rethrow c i e :: b → Ev.fin c (some e) ∈ b ∧ lastJump c b = some (⟨c, .syn⟩, c, i) := by
  refine ⟨(jinv_reach hr).re1 c, fun a b i e h => ?_⟩
  have := reOk_reach hr
  rw [h] at this
  exact ⟨this.at.2, this.at.1⟩

/-! ## C22 -/

/-- C22: while context `i` does not run, nothing changes its stack: not its call frames, not its live local objects. -/
theorem C22_stack_untouched (hr : Reach P l0 g0 s0) {i : Nat} (h : Asleep P i s0 s) :
    s.frames i = s0.frames i ∧ liveObjs i s.log = liveObjs i s0.log := by
  have key : s.frames i = s0.frames i ∧ Reach P l0 g0 s := by
    induction h with
    | refl => exact ⟨rfl, hr⟩
    | step h1 hn e ih => exact ⟨((step_rel (inv_reach ih.2) e).framesOther (Ne.symm hn)).trans ih.1, ih.2.step e⟩
  refine ⟨key.1, ?_⟩
  rw [(obj_reach key.2).live, (obj_reach hr).live, key.1]

/-- C22: a call that transferred control (made in `s0`) gets control back by resumption.  It returns to its caller, or throws the
exception that left the other function, and the caller's stack is exactly as it was at the call.  (Or undefined behaviour.) -/
theorem C22_resumed (hr : Reach P l0 g0 s0) (hsw : Switches P s0 h k) (hb : ComesBack P s0 s) (hctl : s.ctl = .recv) :
    (∃ s' v, CallRuns P s s' ∧ Returned s0 k v s') ∨ (∃ s' e, CallRuns P s s' ∧ Threw s0 e s') ∨ CallCrashes P s := by
  obtain ⟨s1, e1⟩ : ∃ s1, step P s0 = .next s1 := by
    obtain ⟨s2, ha, -⟩ := hb
    exact ha.step1
  obtain ⟨hd, r, h1, h2, -⟩ := hsw.step hr e1
  obtain ⟨hrs, hcur, post, hfr, hp⟩ := hsw.back hr h1 h2 hb
  rcases asg_done hrs hctl hcur hfr hp with ⟨s', v, h3, h4, -⟩ | ⟨s', e, h3, h4, -⟩ | h
  · exact .inl ⟨s', v, h3, h4⟩
  · exact .inr (.inl ⟨s', e, h3, h4⟩)
  · exact .inr (.inr h)

/-- C22: if the waiting call is given control to be unwound, `forced_unwind` reaches the caller with the stack exactly as at the call. -/
theorem C22_unwound (hr : Reach P l0 g0 s0) (hsw : Switches P s0 h k) (hb : ComesBack P s0 s) (hctl : s.ctl ≠ .recv) :
    ∃ s', CallRuns P s s' ∧ s'.ctl = .raise .forced ∧ s'.cur = s0.cur ∧ s'.frames s0.cur = s0.frames s0.cur ∧ s'.log = s.log := by
  obtain ⟨s1, e1⟩ : ∃ s1, step P s0 = .next s1 := by
    obtain ⟨s2, ha, -⟩ := hb
    exact ha.step1
  obtain ⟨hd, r, h1, h2, -⟩ := hsw.step hr e1
  obtain ⟨hrs, hcur, post, hfr, hp⟩ := hsw.back hr h1 h2 hb
  exact asg_forced hrs ((hb.switch hr).resolve_left hctl) hcur hfr hp

/-! ## C23 -/

/-- C23: every transfer of control.  Through an end `r` of a coroutine it goes to the context that made the previous transfer over that
coroutine, which was made through the other end; or the coroutine has just been created and is started.  The only other changes of the
running context are the destruction of a suspended coroutine and the return from a coroutine that has ended. -/
theorem C23_every_transfer (hr : Reach P l0 g0 s) (he : step P s = .next s') (hne : s'.cur ≠ s.cur) :
    (∃ r, (∃ i j, lastJump r.co s.log = some (r.partner, i, j) ∧ s'.cur = i) ∧ lastJump r.co s'.log = some (r, s.cur, s'.cur)) ∨
    (∃ c, nCreated c s.log = 0 ∧ nCreated c s'.log = 1 ∧ s'.cur = c ∧ lastJump c s'.log = some (⟨c, .own⟩, s.cur, c)) ∨
    (s'.ctl = .raise .forced ∧ s'.log.head? = some (.unwind s.cur s'.cur)) ∨
    (s'.log.head? = some (.dealloc s.cur)) := by
  have hi := inv_reach hr
  obtain ⟨evs, hq, ⟨-, r, hl⟩ | ⟨h1, hl⟩ | ⟨h1, hl⟩⟩ := (step_rel hi he).switch hne
  · have hj := (jinv_reach (hr.step he)).chain
    have h0 : lastJump r.co s'.log = some (r, s.cur, s'.cur) := by rw [hl]; simp [lastJump]
    rw [hl] at hj
    have hj0 := hj.1
    rw [lastJump_nj hq] at hj0
    cases hj1 : lastJump r.co s.log with
    | some x =>
      obtain ⟨r', i, j⟩ := x
      rw [hj1] at hj0
      simp only at hj0
      exact .inl ⟨r, ⟨i, j, by rw [hj1, hj0.1], hj0.2⟩, h0⟩
    | none =>
      rw [hj1] at hj0
      simp only at hj0
      have hre : r = ⟨s'.cur, .own⟩ := by cases r; simp_all
      subst hre
      obtain ⟨h1, h2⟩ := firstJump hr (step_rel hi he) hne hl hj1
      refine .inr (.inl ⟨s'.cur, h1, ?_, rfl, h0⟩)
      rw [h2, h1]
  · exact .inr (.inr (.inl ⟨h1, by rw [hl]; rfl⟩))
  · exact .inr (.inr (.inr (by rw [hl]; rfl)))

/-- C23: a yield — any call that transfers control through the counterpart object given to the function of coroutine `c`, from whatever
context — goes to the context that most recently resumed (or constructed) the coroutine. -/
theorem C23_yield_to_last_resumer (hr : Reach P l0 g0 s0) (hsw : Switches P s0 h k) (hh : Refers s0 h ty (some ⟨c, .syn⟩))
    (he : step P s0 = .next s1) (hne : s1.cur ≠ s0.cur) :
    ∃ i j, lastJump c s0.log = some (⟨c, .own⟩, i, j) ∧ s1.cur = i ∧ lastJump c s1.log = some (⟨c, .syn⟩, s0.cur, i) := by
  obtain ⟨hd, h1, -, h2⟩ := hh
  obtain ⟨hd', r, h3, h4, -, ⟨t, post, evs, hfi, hc, -, -, -, -, -, hl, -⟩ | ⟨e, -, -, h5⟩⟩ := hsw.step hr he
  · rw [h1] at h3; cases h3
    rw [h2] at h4; cases h4
    obtain ⟨j, hj⟩ := (jinv_reach hr).held _ _ hfi
    exact ⟨t, j, hj, hc, by rw [hl]; simp [lastJump]⟩
  · exact absurd h5 hne

/-- C23: a resumption through the coroutine object continues the coroutine at the point that most recently yielded: control goes to the
context that made the last transfer through the counterpart, and that context is still waiting in that transfer. -/
theorem C23_resume_to_last_yield (hr : Reach P l0 g0 s0) (hsw : Switches P s0 h k) (hh : Refers s0 h ty (some ⟨c, .own⟩))
    (he : step P s0 = .next s1) (hne : s1.cur ≠ s0.cur) :
    ∃ i j, lastJump c s0.log = some (⟨c, .syn⟩, i, j) ∧ s1.cur = i ∧ lastJump c s1.log = some (⟨c, .own⟩, s0.cur, i) := by
  obtain ⟨hd, h1, -, h2⟩ := hh
  obtain ⟨hd', r, h3, h4, -, ⟨t, post, evs, hfi, hc, -, -, -, -, -, hl, -⟩ | ⟨e, -, -, h5⟩⟩ := hsw.step hr he
  · rw [h1] at h3; cases h3
    rw [h2] at h4; cases h4
    obtain ⟨j, hj⟩ := (jinv_reach hr).held _ _ hfi
    exact ⟨t, j, hj, hc, by rw [hl]; simp [lastJump]⟩
  · exact absurd h5 hne

/-! ## C24 -/

/-- C24: the running context is alive, and no continuation refers to it. -/
theorem C24_running (hr : Reach P l0 g0 s) : LiveCtx s.cur s.log ∧ ∀ l, s.fib l ≠ some s.cur := by
  have hi := inv_reach hr
  exact ⟨(liveCtx_iff hr _).2 hi.sched.cur_live, fun l h => (hi.sched.fib_ok l _ h).1 rfl⟩

/-- C24: every other live context is held by exactly one continuation. -/
theorem C24_held_once (hr : Reach P l0 g0 s) {i : Nat} (hl : LiveCtx i s.log) (hne : i ≠ s.cur) :
    ∃ l, s.fib l = some i ∧ ∀ l', s.fib l' = some i → l' = l := by
  have hi := inv_reach hr
  obtain ⟨l, h⟩ := hi.sched.held i hne ((liveCtx_iff hr i).1 hl)
  exact ⟨l, h, fun l' h' => hi.sched.inj _ _ _ h' h⟩

/-- C24: a continuation only refers to a live context that is not running. -/
theorem C24_continuations_live (hr : Reach P l0 g0 s) {l : FLoc} {i : Nat} (h : s.fib l = some i) : LiveCtx i s.log ∧ i ≠ s.cur := by
  have hi := inv_reach hr
  exact ⟨(liveCtx_iff hr _).2 (hi.sched.fib_ok l _ h).2, (hi.sched.fib_ok l _ h).1⟩

/-- C24: resuming uses the continuation up: after a transfer of control no end of any coroutine refers to the context that was
resumed, so it cannot be resumed again before it suspends. -/
theorem C24_not_twice (hr : Reach P l0 g0 s) (he : step P s = .next s') : ∀ l, s'.fib l ≠ some s'.cur :=
  (C24_running (hr.step he)).2

/-! ## Non-vacuity -/

open Demo in
/-- C06: coroutine 1 of `crossMain` pushes 1 and 2; between them it is resumed once (by coroutine 2) after giving control away once. -/
example : Reach Demo.P crossMain [] (stateAt crossMain 14) ∧ sides 1 (stateAt crossMain 14).log = [.syn, .own, .syn, .own] ∧
    ∃ a b c, (stateAt crossMain 14).log = a ++ .pushed 1 2 :: (b ++ .pushed 1 1 :: c) ∧ (∀ x, Ev.pushed 1 x ∉ b) ∧ b.length = 9 :=
  ⟨reach _ _ rfl, rfl, [_], [_, _, _, _, _, _, _, _, _], [_, _, _, _, _, _], rfl, by simp, rfl⟩

open Demo in
/-- C11: the resumption made in step 6 of `throwMain` throws 9. -/
example : Reach Demo.P throwMain [] (stateAt throwMain 6) ∧ Obeys Demo.P throwMain [] ∧
    (∃ k, Switches Demo.P (stateAt throwMain 6) 1 k) ∧ Refers (stateAt throwMain 6) 1 .pull (some ⟨1, .own⟩) ∧
    ComesBack Demo.P (stateAt throwMain 6) (stateAt throwMain 12) ∧ (stateAt throwMain 12).ctl = .recv ∧
    Ev.fin 1 (some 9) ∈ (stateAt throwMain 12).log ∧
    step Demo.P (stateAt throwMain 11) = .next (stateAt throwMain 12) ∧ nFin 1 (stateAt throwMain 11).log = 0 :=
  ⟨reach _ _ rfl, obeys _ 40 rfl, ⟨_, .inl (.inl ⟨_, rfl, rfl⟩)⟩, ⟨_, rfl, rfl, rfl⟩, back _ 6 4 rfl, rfl, List.mem_of_getElem? (i := 1) rfl,
    rfl, rfl⟩

open Demo in
/-- C11: the exception is rethrown in step 13. -/
example : Reach Demo.P throwMain [] (stateAt throwMain 13) ∧
    ∃ b, (stateAt throwMain 13).log = [] ++ .rethrow 1 0 9 :: b := ⟨reach _ _ rfl, _, rfl⟩

open Demo in
/-- C22: the generator, suspended in a push with two live local objects while main runs. -/
example : Reach Demo.P pullMain [] (stateAt pullMain 14) ∧ ((stateAt pullMain 14).frames 1).length = 5 ∧
    liveObjs 1 (stateAt pullMain 14).log = [8, 7] ∧
    Asleep Demo.P 1 (stateAt pullMain 14) (stateAt pullMain 17) :=
  ⟨reach _ _ rfl, rfl, rfl,
    .step (.step (.step .refl (by decide) rfl) (by decide) rfl) (by decide) rfl⟩

open Demo in
/-- C22: the push made in step 3 of `pullMain` is resumed, the one made in step 13 is unwound. -/
example : Reach Demo.P pullMain [] (stateAt pullMain 3) ∧ (∃ k, Switches Demo.P (stateAt pullMain 3) 0 k) ∧
    ComesBack Demo.P (stateAt pullMain 3) (stateAt pullMain 9) ∧ (stateAt pullMain 9).ctl = .recv ∧
    Reach Demo.P pullMain [] (stateAt pullMain 13) ∧ (∃ k, Switches Demo.P (stateAt pullMain 13) 0 k) ∧
    ComesBack Demo.P (stateAt pullMain 13) (stateAt pullMain 19) ∧ (stateAt pullMain 19).ctl ≠ .recv :=
  ⟨reach _ _ rfl, ⟨_, .inr ⟨_, .inl ⟨_, rfl, rfl⟩⟩⟩, back _ 3 4 rfl, rfl, reach _ _ rfl, ⟨_, .inr ⟨_, .inl ⟨_, rfl, rfl⟩⟩⟩, back _ 13 4 rfl,
    by simp [show (stateAt pullMain 19).ctl = .raise .forced from rfl]⟩

open Demo in
/-- C23: coroutine 1, created by main, is resumed by coroutine 2 and yields to coroutine 2. -/
example : Reach Demo.P crossMain [] (stateAt crossMain 13) ∧ (∃ k, Switches Demo.P (stateAt crossMain 13) 0 k) ∧
    Refers (stateAt crossMain 13) 0 .push (some ⟨1, .syn⟩) ∧
    step Demo.P (stateAt crossMain 13) = .next (stateAt crossMain 14) ∧ (stateAt crossMain 14).cur = 2 ∧
    lastJump 1 (stateAt crossMain 13).log = some (⟨1, .own⟩, 2, 1) :=
  ⟨reach _ _ rfl, ⟨_, .inr ⟨_, .inl ⟨_, rfl, rfl⟩⟩⟩, ⟨_, rfl, rfl, rfl⟩, rfl, rfl, rfl⟩

open Demo in
/-- C23: the resumption by coroutine 2 goes to where coroutine 1 yielded to main. -/
example : Reach Demo.P crossMain [] (stateAt crossMain 8) ∧ (∃ k, Switches Demo.P (stateAt crossMain 8) 1 k) ∧
    Refers (stateAt crossMain 8) 1 .pull (some ⟨1, .own⟩) ∧
    step Demo.P (stateAt crossMain 8) = .next (stateAt crossMain 9) ∧ (stateAt crossMain 9).cur ≠ (stateAt crossMain 8).cur ∧
    lastJump 1 (stateAt crossMain 8).log = some (⟨1, .syn⟩, 1, 0) :=
  ⟨reach _ _ rfl, ⟨_, .inl (.inl ⟨_, rfl, rfl⟩)⟩, ⟨_, rfl, rfl, rfl⟩, rfl, by decide, rfl⟩

open Demo in
/-- C24: coroutine 1 runs, coroutine 2 and main wait. -/
example : Reach Demo.P crossMain [] (stateAt crossMain 12) ∧ (stateAt crossMain 12).cur = 1 ∧
    LiveCtx 0 (stateAt crossMain 12).log ∧ LiveCtx 2 (stateAt crossMain 12).log ∧
    (stateAt crossMain 12).fib (.cb ⟨1, .syn⟩) = some 2 ∧ (stateAt crossMain 12).fib (.cb ⟨2, .syn⟩) = some 0 :=
  ⟨reach _ _ rfl, rfl, .inl rfl, .inr ⟨rfl, rfl⟩, rfl, rfl⟩

end Verif
