import Verif.Fwd
import Verif.SlotSpoil
import Verif.Demo

/-!
# Properties C02, C03, C15, C18, C38 (part), C39: the life of a coroutine

Stated over all programs `P`, all start states and all reachable states, in the vocabulary of `Spec` and `SpecApi`.
`s.log` is the history of `s`, newest event first.
-/
namespace Verif
variable {L G V E : Type} {P : Prog L G V E} {l0 : L} {g0 : G} {s s' : St L G V E}

/-! ## C03 -/

/-- C03: in every history the function of every coroutine is called at most once. -/
theorem C03_entered_at_most_once (hr : Reach P l0 g0 s) (k : Nat) : nEnter k s.log ≤ 1 := by
  have := life_facts hr k; omega

/-- C03: it ends at most once, and only after it was called. -/
theorem C03_ends_at_most_once (hr : Reach P l0 g0 s) (k : Nat) : nFin k s.log ≤ nEnter k s.log := by
  have := life_facts hr k; omega

/-- C03: once it has ended it is never called again, whatever the program does. -/
theorem C03_never_after_end (hr : Reach P l0 g0 s) (k : Nat) (hf : nFin k s.log ≠ 0) (hl : Later P s s') :
    nEnter k s'.log = nEnter k s.log := by
  have h1 := life_facts hr k
  have h2 := life_facts (hl.reach hr) k
  have h3 : nFin k s.log ≤ nFin k s'.log := count_mono (hl.log hr)
  omega

open Demo in
/-- Non-trivial case: a generator that has been entered and has ended, and main goes on. -/
example : Reach Demo.P fullMain [] (stateAt fullMain 31) ∧ nFin 1 (stateAt fullMain 31).log = 1 ∧
    nEnter 1 (stateAt fullMain 31).log = 1 ∧ (step Demo.P (stateAt fullMain 31)).verdict = .running :=
  ⟨reach _ _ rfl, rfl, rfl, rfl⟩

/-! ## C15 -/

/-- C15: every stack is deallocated at most once, and only if it was allocated. -/
theorem C15_dealloc_at_most_once (hr : Reach P l0 g0 s) (k : Nat) : nDealloc k s.log ≤ nAlloc k s.log ∧ nAlloc k s.log ≤ 1 := by
  have := life_facts hr k; omega

/-- C15: from its deallocation on, nothing runs on the stack, nothing is suspended on it, no continuation leads to it and no
control block on it is used. -/
theorem C15_not_used_afterwards (hr : Reach P l0 g0 s) (k : Nat) (hd : nDealloc k s.log ≠ 0) :
    s.cur ≠ k ∧ s.frames k = [] ∧ s.base k = .none ∧ (∀ l, s.fib l ≠ some k) ∧ ∀ sd, (s.cbs ⟨k, sd⟩).life ≠ .alive := by
  have hl := life_reach hr k
  have hi := inv_reach hr
  have hb : s.base k = .none := by
    generalize hb : s.base k = b at hl
    cases b <;> simp only [LifeOk] at hl
    case none => rfl
    case main => exact absurd hl.2.de hd
    case fresh => exact absurd hl.2.2.de hd
    case pushEntry => exact absurd hl.2.2.de hd
    case inFn => exact absurd hl.2.2.de hd
    case final => exact absurd hl.2.2.de hd
    case lamA => rcases hl.2 with h | ⟨_, m, _, h⟩; exact absurd h.2.de hd; exact absurd h.de hd
    case lamB => rcases hl.2 with h | ⟨_, m, _, h⟩; exact absurd h.2.de hd; exact absurd h.de hd
  refine ⟨fun h => hi.sched.cur_live (h ▸ hb), hi.sched.dead_frames k hb, hb, fun l h => (hi.sched.fib_ok l k h).2 hb, ?_⟩
  exact fun sd => (hi.cb.none_life k sd hb).1

/-- C15: at the moment of deallocation the function's frames are already gone (no local is left), and both control blocks on the
stack have been destroyed. -/
theorem C15_dealloc_when_empty (hr : Reach P l0 g0 s) (hs : step P s = .next s') (k : Nat)
    (hd : nDealloc k s'.log ≠ nDealloc k s.log) :
    s.cur = k ∧ s.frames k = [] ∧ ∀ sd, (s.cbs ⟨k, sd⟩).life ≠ .alive := by
  have hi := inv_reach hr
  have h := step_rel hi hs
  have hz : ∀ {evs : List (Ev V E)}, s'.log = evs ++ s.log → (∀ e ∈ evs, Ev.isDealloc k e = false) → False := by
    intro evs he hq
    apply hd
    unfold nDealloc
    rw [he, List.countP_append, List.countP_eq_zero.2, Nat.zero_add]
    intro e h1 h2
    rw [hq e h1] at h2; cases h2
  have scl : ∀ {h s1}, Scope P s h s1 → ∃ evs, s1.log = evs ++ s.log ∧ ∀ e ∈ evs, Ev.isDealloc k e = false := by
    intro h s1 hsc
    rcases hsc.log with e | e
    · exact ⟨[], e, by simp⟩
    · exact ⟨[_], e, by simp [Ev.isDealloc]⟩
  have dyl : ∀ {f s0}, Dying P s f s0 → ∃ evs, s0.log = evs ++ s.log ∧ ∀ e ∈ evs, Ev.isDealloc k e = false := by
    intro f s0 hdy
    cases hdy
    case handle hsc _ _ _ hdt =>
      obtain ⟨evs, h1, h2⟩ := scl hsc
      refine ⟨_ ++ evs, by show _ ++ _ = _; rw [h1, List.append_assoc], ?_⟩
      intro e he
      rcases List.mem_append.1 he with he | he
      · cases hdt <;> simp_all [Ev.isDealloc]
      · exact h2 e he
    case ctorInvalid hdt => exact ⟨_, rfl, by cases hdt <;> simp [Ev.isDealloc]⟩
    case ctorThrow => exact ⟨[_], rfl, by simp [Ev.isDealloc]⟩
    case ctorUnw => exact ⟨[], rfl, by simp⟩
    case syn hdt => exact ⟨_, rfl, by cases hdt <;> simp [Ev.isDealloc]⟩
  cases h
  case loc hl => exact (hz (evs := _) rfl (by cases hl <;> simp [Ev.isDealloc])).elim
  case pushThrow hse => exact (hz (evs := _) rfl (by cases hse <;> simp [Ev.isDealloc])).elim
  case push hse _ => exact (hz (evs := _ :: _) rfl (by cases hse <;> simp [Ev.isDealloc])).elim
  case nop hsc _ _ => obtain ⟨evs, h1, h2⟩ := scl hsc; exact (hz h1 h2).elim
  case dropNone hdy => obtain ⟨evs, h1, h2⟩ := dyl hdy; exact (hz h1 h2).elim
  case dropSome s0 t hdy =>
    obtain ⟨evs, h1, h2⟩ := dyl hdy
    refine (hz (evs := .unwind s0.cur t :: evs) (by show _ :: _ = _; rw [h1]; rfl) ?_).elim
    intro e he
    rcases List.mem_cons.1 he with rfl | he
    · rfl
    · exact h2 e he
  case exit r b hc hfr hb hbk hdead =>
    by_cases hk : k = s.cur
    · subst hk
      refine ⟨rfl, hfr, ?_⟩
      intro sd
      cases sd with
      | own => rw [hdead]; simp
      | syn =>
        intro h
        have := (hi.cb.syn_life s.cur).1 h
        rw [hb] at this; cases this
    · refine (hz (evs := .dealloc s.cur :: (if s.fnObj s.cur = .record then [.fnDtor s.cur] else [])) rfl ?_).elim
      intro e he
      rcases List.mem_cons.1 he with rfl | he
      · simp [Ev.isDealloc]; exact fun h => hk h.symm
      · split at he
        · rw [List.mem_singleton.1 he]; rfl
        · cases he
  all_goals first
    | exact (hz (evs := []) rfl (by simp)).elim
    | exact (hz (evs := [_]) rfl (by simp [Ev.isDealloc])).elim
    | exact (hz (evs := [_, _]) rfl (by simp [Ev.isDealloc])).elim
    | exact (hz (evs := [_, _, _]) rfl (by simp [Ev.isDealloc])).elim

open Demo in
/-- Non-trivial case: the step that deallocates the stack of coroutine 1 (which had locals), and the state after it. -/
example : Reach Demo.P pushMain [] (stateAt pushMain 28) ∧ step Demo.P (stateAt pushMain 28) = .next (stateAt pushMain 29) ∧
    nDealloc 1 (stateAt pushMain 29).log = 1 ∧ nDealloc 1 (stateAt pushMain 28).log = 0 :=
  ⟨reach _ _ rfl, rfl, rfl, rfl⟩

/-! ## C18 -/

/-- C18: the callable is destroyed at most once, and only if the coroutine was created. -/
theorem C18_at_most_once (hr : Reach P l0 g0 s) (k : Nat) : nFnDtor k s.log ≤ nCreated k s.log ∧ nCreated k s.log ≤ 1 := by
  have := life_facts hr k; omega

/-- C18: when the function has ended (by return or exception) the callable has been destroyed. -/
theorem C18_destroyed_when_ended (hr : Reach P l0 g0 s) (k : Nat) (h : nFin k s.log ≠ 0) : nFnDtor k s.log = 1 := by
  have := life_facts hr k; omega

/-- C18: when a coroutine's stack has been deallocated its callable has been destroyed, entered or not. -/
theorem C18_destroyed_when_gone (hr : Reach P l0 g0 s) (k : Nat) (h : nDealloc k s.log ≠ 0) : nFnDtor k s.log = 1 := by
  have := life_facts hr k; omega

/-- C18: as long as code of the function can still run (it runs, or is suspended with its frames), the callable is intact. -/
theorem C18_alive_while_running (hr : Reach P l0 g0 s) (k h : Nat) (hb : s.base k = .inFn h) : nFnDtor k s.log = 0 := by
  have := life_reach hr k
  rw [hb] at this
  exact this.2.2.fd

/-- C18: if the function was not entered the callable is destroyed only when the coroutine's stack is given back. -/
theorem C18_unentered (hr : Reach P l0 g0 s) (k : Nat) (h : nEnter k s.log = 0) : nFnDtor k s.log = nDealloc k s.log := by
  have := life_reach hr k
  generalize s.base k = b at this
  cases b <;> simp only [LifeOk] at this
  case none =>
    split at this
    · rcases this with ⟨_, _, h1, h2, h3, h4, h5, h6⟩ | ⟨_, _, n, m, _, _, h1, h2, h3, h4, h5, h6⟩ <;> omega
    · obtain ⟨_, _, h1, h2, h3, h4, h5, h6⟩ := this; omega
  case main => obtain ⟨_, h1, h2, h3, h4, h5, h6⟩ := this; omega
  case fresh => obtain ⟨_, _, h1, h2, h3, h4, h5, h6⟩ := this; omega
  case pushEntry => obtain ⟨_, _, h1, h2, h3, h4, h5, h6⟩ := this; omega
  case inFn => obtain ⟨_, _, h1, h2, h3, h4, h5, h6⟩ := this; omega
  case final => obtain ⟨_, _, h1, h2, h3, h4, h5, h6⟩ := this; omega
  case lamA => rcases this with ⟨_, ⟨_, h1, h2, h3, h4, h5, h6⟩ | ⟨_, m, _, h1, h2, h3, h4, h5, h6⟩⟩ <;> omega
  case lamB => rcases this with ⟨_, ⟨_, h1, h2, h3, h4, h5, h6⟩ | ⟨_, m, _, h1, h2, h3, h4, h5, h6⟩⟩ <;> omega

open Demo in
/-- Non-trivial cases: ended (`fullMain`), unwound (`pushMain`), still running (`pullMain`). -/
example : nFin 1 (stateAt fullMain 31).log = 1 ∧ nDealloc 1 (stateAt pushMain 31).log = 1 ∧ nFin 1 (stateAt pushMain 31).log = 0 ∧
    (∃ h, (stateAt pullMain 8).base 1 = .inFn h) :=
  ⟨rfl, rfl, rfl, _, rfl⟩

/-! ## C02 -/

/-- Suspended before its function was entered: where it is. -/
theorem unentered_push (hr : Reach P l0 g0 s) {k : Nat} (hu : UserRuns s) (hal : (s.cbs ⟨k, .own⟩).life = .alive)
    (hn : nEnter k s.log = 0) : (∃ h fn, s.base k = .pushEntry h fn) ∧ s.fib (.cb ⟨k, .own⟩) = some k ∧ k ≠ s.cur ∧
      s.frames k = [] := by
  obtain ⟨l, hc⟩ := hu
  have hi := inv_reach hr
  have hctl := hi.ctl
  rw [hc] at hctl
  have hl := life_reach hr k
  have hk0 : k ≠ 0 := by
    rintro rfl
    rw [hi.cb.unborn 0 .own (.inl rfl)] at hal; cases hal
  have hkc : k ≠ s.cur := by
    rintro rfl
    cases hb : s.base s.cur with
    | main => exact hk0 ((hi.sched.main_iff _).1 hb)
    | inFn => rw [hb] at hl; have := hl.2.2.en; omega
    | _ => have := hctl.2.1; rw [hb] at this; simp [Base.isBody] at this
  have hlam : (s.base k).isLam = false := by
    cases h : (s.base k).isLam with
    | false => rfl
    | true =>
      have := (hi.sched.back_unw k hkc).2 (by simp [unwB, h])
      exact absurd hal (back_reach hr k this hn)
  have hb : ∃ h fn, s.base k = .pushEntry h fn := by
    cases hb : s.base k with
    | none => exact absurd hal (hi.cb.none_life k .own hb).1
    | main => exact absurd ((hi.sched.main_iff _).1 hb) hk0
    | fresh => exact absurd (hi.sched.fresh_cur k (by rw [hb]; rfl)) hkc
    | pushEntry h fn => exact ⟨h, fn, rfl⟩
    | inFn => rw [hb] at hl; have := hl.2.2.en; omega
    | final => rw [hb] at hl; have := hl.2.2.en; omega
    | lamA => rw [hb] at hlam; cases hlam
    | lamB => rw [hb] at hlam; cases hlam
  obtain ⟨h, fn, hb⟩ := hb
  have hbn : s.base k ≠ .none := by rw [hb]; simp
  have hsus := hi.sched.sus k hkc hbn
  have hfr : s.frames k = [] := by
    rw [hb] at hsus
    cases hf : s.frames k with
    | nil => rfl
    | cons f t =>
      rw [hf] at hsus
      cases f <;> simp [okSw, Base.isBody] at hsus
      -- `wait` on top: impossible, the lambda is not being left
      have := (hi.sched.back_unw k hkc)
      cases t with
      | nil => simp [okRet, Base.isLam] at hsus
      | cons f' t' => cases f' <;> simp [okRet, Base.isBody] at hsus
  refine ⟨⟨h, fn, hb⟩, ?_, hkc, hfr⟩
  have hhole : hole (s.base k) k (s.frames k) = some ⟨k, .syn⟩ := by rw [hb, hfr]; rfl
  obtain ⟨l', hl'⟩ := hi.sched.held k hkc hbn
  cases l' with
  | air => rw [hctl.2.2.1] at hl'; cases hl'
  | cb r =>
    have := hi.sched.chan r k hl'
    rw [hhole] at this
    have : r = ⟨k, .own⟩ := partner_inj (Option.some.inj this).symm
    rw [← this]; exact hl'
  | back j =>
    rcases hi.sched.back_shape j k hl' with h1 | ⟨h1, _⟩
    · rw [hfr] at h1; cases h1
    · rw [hhole] at h1; simp at h1

/-- C02: constructing a push coroutine runs no user code: the constructor returns an object that refers to the new coroutine,
whose function has not been entered. -/
theorem C02_construction_enters_nothing (hr : Reach P l0 g0 s) {va : Var} {fn : Nat → L} {k : Res V → L}
    (hc : Calls P s (.mk .push va .ok fn) k) :
    ∃ s' h, CallRuns P s s' ∧ Returned s k (.handle h) s' ∧ Refers s' h .push (some ⟨s.nk, .own⟩) ∧ s'.g = s.g ∧
      (∀ j, nEnter j s'.log = nEnter j s.log) ∧ nEnter s.nk s'.log = 0 := by
  have hz : nEnter s.nk s.log = 0 := nEnter_fresh hr (Nat.le_refl _)
  obtain ⟨s1, e1, c1, u1, f1, g1, b1, k1, v1, l1, x1, a1, hs1, nh1, m1, hcn, lg1⟩ := mk_step hr hc
  have r1 := hr.step e1
  have e2 := reach_step r1 (.enterPush (fn := fn) (u := s.cur) c1 f1 (by rw [u1]; exact b1) (by rw [u1]; exact k1) (by rw [u1]; exact l1) a1)
  have r2 := r1.step e2
  simp only [u1] at e2 r2
  have hcn' := hcn
  have e3 := reach_step r2 (.pushCtor (k := s.nk) (t := .usr k :: s.fr) (u := s.nk) rfl g1 k1 (by simp [upd, l1])
    (by
      have : s1.fib (.cb ⟨s.nk, .own⟩) = none := by
        cases h : s1.fib (.cb ⟨s.nk, .own⟩) with
        | none => rfl
        | some t =>
          have h2 := (inv_reach r1).sched.chan _ _ h
          have h3 := (inv_reach r1).recvAir c1 (q := ⟨s1.cur, .syn⟩) (by rw [f1, u1, b1]; rfl) (.inr rfl)
          obtain ⟨_, _, _, h4, _⟩ := h3
          rw [u1] at h4; rw [← h]; exact h4
      simp [upd, this])
    (by simp [upd]))
  have r3 := r2.step e3
  simp only at e3 r3
  have e4 := reach_step r3 (.loc (.dUsr (k := k) (t := s.fr) (r := .handle (s1.nh + 1)) rfl (by simp [St.fr, upd])))
  refine ⟨_, s1.nh + 1, ⟨s1, e1, .step (fun h => ?_) e2 (.step (fun h => ?_) e3 (.step (fun h => ?_) e4 .refl))⟩, ⟨rfl, ?_, rfl⟩,
    ⟨_, upd_at .., rfl, rfl⟩, m1, ?_, ?_⟩
  · obtain ⟨l, h⟩ := h; rw [c1] at h; cases h
  · obtain ⟨l, h⟩ := h; cases h
  · obtain ⟨l, h⟩ := h; cases h
  · simp [upd, St.fr]
  · intro j; simp [lg1, nEnter, Ev.isEnter]
  · simp only [lg1]; simpa [nEnter, Ev.isEnter] using hz

/-- An ordinary argument is stored. -/
theorem set_total (hr : Reach P l0 g0 s) {q : CbRef} {a : PushArg V E} (hal : (s.cbs q).life = .alive)
    (hp : isPullSide (s.kind q.co) q.side = true) (hf : Fits (s.va q.co) a) (hn : spoiled q.co s.log = false) :
    ∃ b evs w, SetOk P.mv (s.va q.co) (s.cbs q) q.co a b evs w := by
  have hsf := fun hb => (slot_reach hr).unspoiled hn hal hp hb
  cases hv : s.va q.co with
  | void => exact ⟨_, _, _, .void rfl⟩
  | ref =>
    rw [hv] at hf
    cases a <;> first | exact ⟨_, _, _, .ref rfl rfl⟩ | exact hf.elim
  | val =>
    rw [hv] at hf
    cases hb : (s.cbs q).bvalid with
    | false =>
      cases a with
      | copy v => exact ⟨_, _, _, .copy0 rfl rfl hb⟩
      | move v => exact ⟨_, _, _, .move0 rfl rfl hb⟩
      | _ => exact hf.elim
    | true =>
      obtain ⟨v, hv'⟩ := hsf hb
      cases a with
      | copy v => exact ⟨_, _, _, .copy1 rfl rfl hb hv'⟩
      | move v => exact ⟨_, _, _, .move1 rfl rfl hb hv'⟩
      | _ => exact hf.elim

theorem PushesTo.call {h : Nat} {a : PushArg V E} {k : Res V → L} (hp : PushesTo P s h a k) :
    ∃ l op post, s.ctl = .eval l ∧ P.code l s.g = .api op k ∧ PushCall op h a post := by
  rcases hp with ⟨l, h1, h2⟩ | ⟨⟨l, h1, h2⟩, h3⟩
  · exact ⟨l, _, _, h1, h2, .op⟩
  · exact ⟨l, _, _, h1, h2, .it h3⟩

theorem SetOk.nEnter {mv : V → V} {va : Var} {b b' : CB V E} {k : Nat} {a : PushArg V E} {evs : List (Ev V E)} {w : Option V}
    (h : SetOk mv va b k a b' evs w) (j : Nat) (log : List (Ev V E)) : Verif.nEnter j (evs ++ log) = Verif.nEnter j log := by
  cases h <;> simp [Verif.nEnter, Ev.isEnter]

/-- C02: the first call enters the function: the call made through the object of a push coroutine that has not been entered leads,
before any other user code runs, to user code running in the new context; the function has then been entered (once). -/
theorem C02_first_call_enters (hr : Reach P l0 g0 s) {h c : Nat} {a : PushArg V E} {k : Res V → L} (hp : PushesTo P s h a k)
    (hh : Refers s h .push (some ⟨c, .own⟩)) (hn : nEnter c s.log = 0) (ha : Fits (s.va c) a) (ht : spoiled c s.log = false) :
    ∃ s', CallRuns P s s' ∧ UserRuns s' ∧ s'.cur = c ∧ s'.frames c = [] ∧ nEnter c s'.log = 1 := by
  obtain ⟨hd, hh, hty, hcb⟩ := hh
  obtain ⟨l, op, post, h1, h2, h3⟩ := hp.call
  have hi := inv_reach hr
  have hal := (hi.hok.own h hd c hh hcb).1
  obtain ⟨⟨x, fn, hb⟩, hf, hcc, hfr⟩ := unentered_push hr ⟨l, h1⟩ hal hn
  have hk : s.kind c = .push := by
    have := (hi.hok.born h hd _ hh hcb).2.1
    rw [hty] at this
    cases hkd : s.kind c
    · rw [hkd] at this; cases this
    · rfl
  have hsal : (s.cbs ⟨c, .syn⟩).life = .alive := (hi.cb.syn_life c).2 (by rw [hb]; rfl)
  have hot : (s.cbs ⟨c, .own⟩).other = some ⟨c, .syn⟩ := by
    have := hi.cb.own_other c hal
    rw [hb] at this; exact this
  obtain ⟨b, evs, w, hse⟩ := set_total hr (q := ⟨c, .syn⟩) (a := a) hsal (by rw [hk]; rfl) ha ht
  have e1 := reach_step hr (.push h1 h2 h3 hh hty hcb hal hot hsal hse hf)
  have r1 := hr.step e1
  have hn' : s.fib (.cb ⟨c, .syn⟩) = none := hi.sched.one _ _ hf
  have e2 := reach_step r1 (.startPush (h := x) (fn := fn) (u := s.cur) rfl (by simp [St.fr, upd, hcc, hfr]) hb
    (by
      show (upd s.cbs _ b ⟨c, .own⟩).life = _
      rw [upd_off _ _ (by simp [CbRef.partner, Side.flip])]; exact hal)
    (by simp [upd]) (by simp [upd, hn']))
  refine ⟨_, ⟨_, e1, .step (by rintro ⟨_, h⟩; cases h) e2 .refl⟩, ⟨_, rfl⟩, rfl, ?_, ?_⟩
  · simp [upd, hcc, hfr]
  · show nEnter c (.enter c :: .jump ⟨c, .own⟩ s.cur c :: (evs ++ s.log)) = 1
    have := hse.nEnter c s.log
    simp only [nEnter, List.countP_cons, Ev.isEnter] at this hn ⊢
    simp only [this, hn]; simp

/-- C02: as long as no call has been made through the object (the only transfer into the coroutine is the one of the constructor),
the function has not been entered. -/
theorem C02_not_before_first_call (hr : Reach P l0 g0 s) {c : Nat} (hk : s.kind c = .push) (hj : nJump ⟨c, .own⟩ s.log ≤ 1) :
    nEnter c s.log = 0 := by
  have := (lazy_reach hr c).entered hk
  by_cases h : nEnter c s.log = 0
  · exact h
  · have := this h; omega

open Demo Code in
/-- Non-trivial case: in `pushMain`, construction (step 0), first call (step 4: argument 5 pushed through object 1). -/
example : Calls Demo.P (stateAt pushMain 4) (.push 1 (.copy 5)) (fun _ => push 1 6 (op (.destroy 1) fun _ => ret)) ∧
    Refers (stateAt pushMain 4) 1 .push (some ⟨1, .own⟩) ∧ nEnter 1 (stateAt pushMain 4).log = 0 ∧
    nJump ⟨1, .own⟩ (stateAt pushMain 4).log = 1 ∧ (stateAt pushMain 4).kind 1 = .push ∧
    Fits (E := Nat) ((stateAt pushMain 4).va 1) (.copy 5) ∧ spoiled 1 (stateAt pushMain 4).log = false ∧
    Reach Demo.P pushMain [] (stateAt pushMain 4) :=
  ⟨⟨_, rfl, rfl⟩, ⟨_, rfl, rfl, rfl⟩, rfl, rfl, rfl, trivial, rfl, reach _ _ rfl⟩

/-! ## C39 -/

/-- C39: whenever control is transferred to a coroutine whose function has not been entered - for a pull coroutine by the
constructor, for a push coroutine by the first call - the very next step enters the function.  (The only other transfer into an
unentered coroutine is the one made by the constructor of a push coroutine, `nJump = 1`, which C02 describes.) -/
theorem C39_entry_check_never_skips (hr : Reach P l0 g0 s) {c i : Nat} {l : List (Ev V E)} (hc : s.ctl = .recv)
    (hl : s.log = .jump ⟨c, .own⟩ i c :: l) (hn : nEnter c s.log = 0)
    (hk : s.kind c = .pull ∨ 2 ≤ nJump ⟨c, .own⟩ s.log) :
    ∃ s', step P s = .next s' ∧ UserRuns s' ∧ s'.cur = c ∧ s'.log = .enter c :: s.log := by
  have hi := inv_reach hr
  have hlf := life_reach hr c
  have hctl := hi.ctl
  rw [hc] at hctl
  rcases arrived_reach hr hc with ⟨r, i', l', h1, h2, h3, h4⟩ | ⟨k, l', h1, _⟩
  · rw [hl] at h1
    simp only [List.cons.injEq, Ev.jump.injEq] at h1
    obtain ⟨⟨hr', hi', hcu⟩, -⟩ := h1
    subst hr' hi' hcu
    have hal : (s.cbs ⟨s.cur, .own⟩).life = .alive := (jinv_reach hr).air hc _ _ h2 h3 |>.2
    have h4' : hole (s.base s.cur) s.cur s.fr = some ⟨s.cur, .syn⟩ := h4
    cases hfr : s.fr with
    | nil =>
      rw [hfr] at h4'
      cases hb : s.base s.cur with
      | none => exact absurd hb hi.sched.cur_live
      | main => rw [hb] at h4'; cases h4'
      | fresh fn =>
        cases hkd : s.kind s.cur with
        | pull => exact ⟨_, reach_step hr (.enterPull hc hfr hb hkd hal h2), ⟨_, rfl⟩, rfl, rfl⟩
        | push =>
          have := (lazy_reach hr s.cur).fresh hkd (by rw [hb]; rfl)
          rcases hk with hk | hk
          · rw [hkd] at hk; cases hk
          · omega
      | pushEntry x fn =>
        obtain ⟨_, _, hf, -, -⟩ := hi.recvAir hc h4 (.inr rfl)
        exact ⟨_, reach_step hr (.startPush hc hfr hb hal h2 hf), ⟨_, rfl⟩, rfl, rfl⟩
      | inFn => rw [hb] at h4'; cases h4'
      | final => rw [hb] at hlf; have := hlf.2.2.en; omega
      | lamA => rw [hb] at h4'; cases h4'
      | lamB => rw [hb] at h4'; cases h4'
    | cons f t =>
      have h5 : okSw (s.base s.cur) (f :: t) = true := by rw [← hfr]; exact hctl.1
      rw [hfr] at h4'
      cases hb : s.base s.cur with
      | main =>
        have := (hi.sched.main_iff _).1 hb
        rw [this, hi.cb.unborn 0 .own (.inl rfl)] at hal; cases hal
      | inFn => rw [hb] at hlf; have := hlf.2.2.en; omega
      | final => rw [hb] at hlf; have := hlf.2.2.en; omega
      | _ => rw [hb] at h5 h4'; cases f <;> simp_all [okSw, hole, Base.isBody]
  · rw [hl] at h1; simp at h1

open Demo in
/-- Non-trivial cases: the constructor of a pull coroutine (`pullMain`), the first call of a push coroutine (`pushMain`). -/
example : (stateAt pullMain 1).log.head? = some (.jump ⟨1, .own⟩ 0 1) ∧ (stateAt pullMain 1).kind 1 = .pull ∧
    nEnter 1 (stateAt pullMain 1).log = 0 ∧
    (stateAt pushMain 5).log.head? = some (.jump ⟨1, .own⟩ 0 1) ∧ nJump ⟨1, .own⟩ (stateAt pushMain 5).log = 2 ∧
    nEnter 1 (stateAt pushMain 5).log = 0 :=
  ⟨rfl, rfl, rfl, rfl, rfl, rfl⟩

end Verif
