import Verif.Legal2
import Verif.Fwd
import Verif.Drop
import Verif.RulesCheck

/-!
# Properties C16, C32, C33, C43

What the documented rules (`Rules`) buy, and what happens when they are broken.
-/
namespace Verif
variable {L G V E : Type} {P : Prog L G V E} {l0 : L} {g0 : G} {s s' : St L G V E}

/-! ## C32 -/

/-- C32: as long as the rules have been obeyed, and are obeyed by what user code does next, the next step is defined. -/
theorem C32_no_undefined_behaviour (hk : ReachOk P l0 g0 s) (hu : Rules P s) (u : UB) (t : St L G V E) : step P s ≠ .ub u t := by
  obtain ⟨rest, c⟩ := ctx_reach hk hu
  exact c.step_noUb

/-- C32: a program that obeys the rules never runs into undefined behaviour, however long it runs. -/
theorem C32_obeying_programs (ho : Obeys P l0 g0) (n : Nat) (u : UB) (t : St L G V E) : run P n (init l0 g0) ≠ .ub u t := by
  have key : ∀ n (s : St L G V E), Reach P l0 g0 s → run P n s ≠ .ub u t := by
    intro n
    induction n with
    | zero => intro s _ h; cases h
    | succ n ih =>
      intro s hr h
      simp only [run] at h
      split at h
      · exact ih _ (hr.step ‹_›) h
      · exact C32_no_undefined_behaviour (ho.reachOk hr) (ho s hr) u t h
  exact key n _ .init

theorem fiberDrop_caught {s t : St L G V E} {f : Option Nat} : fiberDrop s f ≠ .uncaught t := by
  unfold fiberDrop; split <;> simp

theorem destroyHandle_caught {s t : St L G V E} {h : Nat} : destroyHandle s h ≠ .uncaught t := by
  unfold destroyHandle
  split
  · simp
  · split
    · simp
    · unfold deallocate
      simp only
      split
      · split
        · unfold destroyCb
          simp only
          split
          · simp
          · exact fiberDrop_caught
        · simp
      · simp

theorem exitCtx_caught {s t : St L G V E} : exitCtx s ≠ .uncaught t := by
  unfold exitCtx
  simp only
  split
  · simp
  · split <;> simp

/-- C32: `forced_unwind` never leaves `main` (no `std::terminate` because of it). -/
theorem C32_main_not_unwound (hk : ReachOk P l0 g0 s) (hc : s.ctl = .raise .forced) (t : St L G V E) :
    step P s ≠ .uncaught t := by
  obtain ⟨rest, d⟩ := disc_reach hk
  have hi := inv_reach hk.reach
  have hctl := hi.ctl
  rw [hc] at hctl
  obtain ⟨b, hb⟩ := Option.ne_none_iff_exists'.1 hctl.2.2
  have h0 := (d.backHolds hi hb).2.2.1
  intro h
  unfold step at h
  rw [hc] at h
  simp only at h
  unfold raiseStep at h
  split at h
  case h_12 =>
    split at h
    · rename_i hm
      exact h0 ((hi.sched.main_iff _).1 hm)
    · cases ‹Exn.forced = _›
    · exact destroyHandle_caught h
    · exact destroyHandle_caught h
    · exact destroyHandle_caught h
    · exact exitCtx_caught h
    · cases h
  all_goals first
    | exact destroyHandle_caught h
    | exact fiberDrop_caught h
    | (simp at h; done)
    | (simp only at h; split at h <;> cases h)

/-- C32: a call during which the rules are obeyed does not crash. -/
theorem C32_calls_do_not_crash (hk : ReachOk P l0 g0 s) (hc : CallOk P s) : ¬ CallCrashes P s := by
  rintro (⟨u, t, h⟩ | ⟨s1, e1, s2, s3, hn, hu, hx⟩)
  · exact C32_no_undefined_behaviour hk hc.1 u t h
  · have key : ∀ {a b : St L G V E}, NoUser P a b → ReachOk P l0 g0 a → CallRuns P s a → ReachOk P l0 g0 b ∧ CallRuns P s b := by
      intro a b h
      induction h with
      | refl => exact fun h1 h2 => ⟨h1, h2⟩
      | step hu hs _ ih =>
        intro h1 h2
        obtain ⟨x, hx, hy⟩ := h2
        exact ih (h1.step (hc.2 _ ⟨x, hx, hy⟩ hu) hs) ⟨x, hx, hy.trans (.step hu hs .refl)⟩
    obtain ⟨k2, r2⟩ := key hn (hk.step hc.1 e1) ⟨s1, e1, .refl⟩
    rcases hx with ⟨u, hx⟩ | ⟨hr, hx⟩
    · exact C32_no_undefined_behaviour k2 (hc.2 _ r2 hu) u _ hx
    · exact C32_main_not_unwound k2 hr _ hx

open Demo in
/-- Non-trivial case: programs that resume, push, read, let a coroutine end, catch an exception and destroy unfinished coroutines
obey the rules (`Obeys` quantifies over all their states). -/
example : Obeys Demo.P pullMain [] ∧ Obeys Demo.P pushMain [] ∧ Obeys Demo.P fullMain [] ∧ Obeys Demo.P throwMain [] :=
  ⟨obeys _ 40 rfl, obeys _ 40 rfl, obeys _ 50 rfl, obeys _ 40 rfl⟩

/-! ## C33 -/

theorem PullsFrom.call {h : Nat} {k : Res V → L} (hp : PullsFrom P s h k) :
    ∃ l op post, s.ctl = .eval l ∧ P.code l s.g = .api op k ∧ PullCall op h post ∧
      step P s = pullOp (s.pushFr (.usr k)) h post := by
  rcases hp with ⟨l, h1, h2⟩ | ⟨l, h1, h2⟩
  · exact ⟨l, _, _, h1, h2, .op, by unfold step; rw [h1]; simp only [evalStep, h2, apiStep]⟩
  · exact ⟨l, _, _, h1, h2, .it, by unfold step; rw [h1]; simp only [evalStep, h2, apiStep]⟩

theorem PushesTo.step {h : Nat} {a : PushArg V E} {k : Res V → L} (hp : PushesTo P s h a k) :
    ∃ l op post, s.ctl = .eval l ∧ P.code l s.g = .api op k ∧ PushCall op h a post ∧
      step P s = pushOp P (s.pushFr (.usr k)) h a post := by
  rcases hp with ⟨l, h1, h2⟩ | ⟨⟨l, h1, h2⟩, ha⟩
  · exact ⟨l, _, _, h1, h2, .op, by unfold Verif.step; rw [h1]; simp only [evalStep, h2, apiStep]; rfl⟩
  · exact ⟨l, _, _, h1, h2, .it ha, by unfold Verif.step; rw [h1]; cases a <;> simp_all [evalStep, apiStep]⟩

/-- C33: resuming through an object that is not-a-coroutine is always undefined (null dereference). -/
theorem C33_not_a_coroutine_pull {h : Nat} {k : Res V → L} (hp : PullsFrom P s h k) (hh : Refers s h .pull none) :
    ∃ t, step P s = .ub .nullCb t := by
  obtain ⟨hd, h1, h2, h3⟩ := hh
  obtain ⟨l, op, post, -, -, -, he⟩ := hp.call
  have h1' : (s.pushFr (.usr k)).hs h = some hd := h1
  rw [he]
  exact ⟨_, by unfold pullOp; simp only [h1', h2, h3]; rfl⟩

/-- C33: pushing through an object that is not-a-coroutine is always undefined (null dereference), whatever is pushed. -/
theorem C33_not_a_coroutine_push {h : Nat} {a : PushArg V E} {k : Res V → L} (hp : PushesTo P s h a k)
    (hh : Refers s h .push none) : ∃ t, step P s = .ub .nullCb t := by
  obtain ⟨hd, h1, h2, h3⟩ := hh
  obtain ⟨l, op, post, -, -, -, he⟩ := hp.step
  have h1' : (s.pushFr (.usr k)).hs h = some hd := h1
  rw [he]
  exact ⟨_, by unfold pushOp; simp only [h1', h2, h3]; rfl⟩

theorem cbResume_empty {s : St L G V E} {r : CbRef} (h : s.fib (.cb r) = none) : ∃ u t, cbResume s r = .ub u t := by
  unfold cbResume
  split
  · unfold fiberResume
    have : (s.pushFr (.asg r)).fib (.cb r) = none := h
    rw [this]
    exact ⟨_, _, rfl⟩
  · exact ⟨_, _, rfl⟩

theorem cbSet_fits {P : Prog L G V E} {s : St L G V E} {q : CbRef} {a : PushArg V E} (hf : Fits (s.va q.co) a) :
    (∃ s' v, cbSet P s q a = .ok s' v ∧ s'.fib = s.fib ∧ (∀ r, r ≠ q → s'.cbs r = s.cbs r) ∧ (s'.cbs q).life = (s.cbs q).life) ∨
    ∃ u s', cbSet P s q a = .ub u s' := by
  unfold cbSet
  cases hv : s.va q.co <;> rw [hv] at hf
  case void => exact .inl ⟨_, _, rfl, rfl, fun _ _ => rfl, rfl⟩
  case ref =>
    cases a <;> simp only [Fits] at hf
    refine .inl ⟨_, _, rfl, rfl, ?_, ?_⟩
    · intro r hr; simp [St.setCb, St.emit, upd, hr]
    · simp [St.setCb, St.emit]
  case val =>
    have hd : setDestroyOld s q = none ∨ ∃ s1, setDestroyOld s q = some s1 ∧ s1.fib = s.fib ∧ (∀ r, r ≠ q → s1.cbs r = s.cbs r) ∧
        (s1.cbs q).life = (s.cbs q).life := by
      unfold setDestroyOld
      split
      · split
        · refine .inr ⟨_, rfl, rfl, ?_, ?_⟩
          · intro r hr; simp [St.setCb, St.emit, upd, hr]
          · simp [St.setCb, St.emit]
        · exact .inl rfl
      · exact .inr ⟨s, rfl, rfl, fun _ _ => rfl, rfl⟩
    rcases hd with hd | ⟨s1, hd, h1, h2, h3⟩
    · right
      cases a <;> simp only [Fits] at hf <;> simp only [hd] <;> exact ⟨_, _, rfl⟩
    · left
      cases a <;> simp only [Fits] at hf <;> simp only [hd] <;> refine ⟨_, _, rfl, h1, ?_, ?_⟩
      all_goals first
        | (intro r hr; simp [setNew, St.setCb, St.emit, upd, hr, h2 r hr])
        | simp [setNew, St.setCb, St.emit, h3]

/-- storing an ordinary argument either works or is undefined -/
theorem set_or_ub {P : Prog L G V E} {s : St L G V E} {q : CbRef} {a : PushArg V E} (hf : Fits (s.va q.co) a) :
    (∃ b evs w, SetOk P.mv (s.va q.co) (s.cbs q) q.co a b evs w) ∨ ∃ u s', cbSet P s q a = .ub u s' := by
  cases hv : s.va q.co <;> rw [hv] at hf
  case void => exact .inl ⟨_, _, _, .void rfl⟩
  case ref => cases a <;> simp only [Fits] at hf; exact .inl ⟨_, _, _, .ref rfl rfl⟩
  case val =>
    cases hb : (s.cbs q).bvalid with
    | false =>
      cases a <;> simp only [Fits] at hf
      · exact .inl ⟨_, _, _, .copy0 rfl rfl hb⟩
      · exact .inl ⟨_, _, _, .move0 rfl rfl hb⟩
    | true =>
      cases hsl : (s.cbs q).slot with
      | live v =>
        cases a <;> simp only [Fits] at hf
        · exact .inl ⟨_, _, _, .copy1 rfl rfl hb hsl⟩
        · exact .inl ⟨_, _, _, .move1 rfl rfl hb hsl⟩
      | _ =>
        right
        refine ⟨.doubleDestroy, s, ?_⟩
        unfold cbSet
        cases a <;> simp only [Fits] at hf <;> simp [hv, setDestroyOld, hb, hsl]

theorem pushOp_empty {P : Prog L G V E} {s : St L G V E} {h : Nat} {hd : Handle} {r : CbRef} {a : PushArg V E}
    {post : Option V → List (Frame L V E)} (h1 : s.hs h = some hd) (h2 : hd.ty = .push) (h3 : hd.cb = some r)
    (ho : ∀ q, (s.cbs r).other = some q → (s.cbs r).life = .alive → Fits (s.va q.co) a) (hf : s.fib (.cb r) = none) : ∃ u t, pushOp P s h a post = .ub u t := by
  unfold pushOp
  simp only [h1, h2, h3, if_true]
  split
  · rename_i hal
    split
    · exact ⟨_, _, rfl⟩
    · rename_i q hq
      split
      · rcases cbSet_fits (P := P) (s := s) (ho q hq hal) with ⟨s1, v, e, e1, -⟩ | ⟨u, s1, e⟩
        · simp only [e]
          exact cbResume_empty (s := s1.setFr (post v ++ s1.fr)) (by show s1.fib _ = _; rw [e1]; exact hf)
        · simp only [e]; exact ⟨_, _, rfl⟩
      · exact ⟨_, _, rfl⟩
  · exact ⟨_, _, rfl⟩

/-- an end through which control went last holds no fiber -/
theorem JInv.usedEnd (hj : JInv s) {r : CbRef} {i j : Nat} (h : lastJump r.co s.log = some (r, i, j)) : s.fib (.cb r) = none := by
  cases hf : s.fib (.cb r) with
  | none => rfl
  | some t =>
    obtain ⟨j', h'⟩ := hj.held r t hf
    rw [h] at h'
    simp only [Option.some.injEq, Prod.mk.injEq] at h'
    exact absurd h'.1.symm (partner_ne r)

/-- C33: calling `operator()` of a pull object through whose end control was transferred last - a coroutine that is running (for
the object that owns it: re-entrant use), or the counterpart of a coroutine that is not running - is always undefined. -/
theorem C33_running_pull (hr : Reach P l0 g0 s) {h : Nat} {k : Res V → L} {r : CbRef} {i j : Nat} (hp : PullsFrom P s h k)
    (hh : Refers s h .pull (some r)) (hl : lastJump r.co s.log = some (r, i, j)) : ∃ u t, step P s = .ub u t := by
  obtain ⟨hd, h1, h2, h3⟩ := hh
  obtain ⟨l, op, post, -, -, -, he⟩ := hp.call
  rw [he]
  unfold pullOp
  have h1' : (s.pushFr (.usr k)).hs h = some hd := h1
  simp only [h1', h2, h3, if_true]
  exact cbResume_empty (s := (s.pushFr (.usr k)).setFr _) ((jinv_reach hr).usedEnd hl)

/-- C33: the same for pushing. -/
theorem C33_running_push (hr : Reach P l0 g0 s) {h : Nat} {a : PushArg V E} {k : Res V → L} {r : CbRef} {i j : Nat}
    (hp : PushesTo P s h a k) (hh : Refers s h .push (some r)) (ha : Fits (s.va r.co) a)
    (hl : lastJump r.co s.log = some (r, i, j)) : ∃ u t, step P s = .ub u t := by
  obtain ⟨hd, h1, h2, h3⟩ := hh
  obtain ⟨l, op, post, -, -, -, he⟩ := hp.step
  have hi := inv_reach hr
  rw [he]
  refine pushOp_empty (s := s.pushFr (.usr k)) (hd := hd) h1 h2 h3 ?_ ((jinv_reach hr).usedEnd hl)
  intro q hq hal
  rcases r with ⟨c, _ | _⟩
  · have := hi.cb.own_other c hal
    change (s.cbs _).other = _ at hq
    rw [this] at hq
    split at hq
    · cases hq
    · cases hq; exact ha
  · have := hi.cb.syn_other c hal
    change (s.cbs _).other = _ at hq
    rw [this] at hq
    cases hq; exact ha

theorem destroyHandle_next {s s' : St L G V E} {h : Nat} (he : destroyHandle s h = .next s') :
    (s'.cur = s.cur ∧ s'.frames = s.frames ∧ s'.fib (.back s.cur) = s.fib (.back s.cur) ∧ s'.base = s.base) ∨
    (s'.fib (.back s'.cur) = some s.cur ∧ s'.frames = upd s.frames s.cur (.wait :: s.fr) ∧
      (s'.cur ≠ s.cur → s'.fib (.back s.cur) = s.fib (.back s.cur)) ∧ s'.base = s.base) := by
  unfold destroyHandle at he
  split at he
  · cases he
  · simp only at he
    split at he
    · cases he; exact .inl ⟨rfl, rfl, rfl, rfl⟩
    · rename_i r _
      unfold deallocate at he
      split at he
      · split at he
        · unfold destroyCb at he
          simp only at he
          split at he
          · cases he
          · rename_i s1 hd
            have h1 : s1.cur = s.cur ∧ s1.frames = s.frames ∧ s1.base = s.base ∧ s1.fib = upd s.fib (.cb r) none := by
              unfold dtorSlot at hd
              split at hd
              · split at hd
                · cases hd; exact ⟨rfl, rfl, rfl, rfl⟩
                · cases hd
              · cases hd; exact ⟨rfl, rfl, rfl, rfl⟩
            obtain ⟨e1, e2, e3, e4⟩ := h1
            unfold fiberDrop at he
            split at he
            · cases he
              refine .inl ⟨e1, e2, ?_, e3⟩
              show s1.fib _ = _
              rw [e4]; simp [upd]
            · rename_i t _
              cases he
              refine .inr ⟨?_, ?_, ?_, e3⟩
              · simp [St.emit, St.setFib, St.pushFr, St.setFr, St.setCb, e1]
              · show upd s1.frames s1.cur (.wait :: s1.frames s1.cur) = _
                rw [e1, e2]; rfl
              · intro hne
                show upd s1.fib (.back t) (some s1.cur) (.back s.cur) = _
                have hne' : ¬ s.cur = t := fun h => hne h.symm
                simp [upd, e4, hne']
        · cases he; exact .inl ⟨rfl, rfl, rfl, rfl⟩
      · cases he

/-- a completed coroutine has been resumed: the program crashes -/
theorem final_crash (hr : Reach P l0 g0 s) {h u : Nat} (hc : s.ctl = .recv) (hfr : s.fr = []) (hb : s.base s.cur = .final h)
    (ha : s.fib .air = some u) (hh : hole (s.base u) u (s.frames u) = some ⟨s.cur, .own⟩) : Crashes P s := by
  have hi := inv_reach hr
  have hnu : ¬ UserRuns s := by rintro ⟨_, h⟩; rw [hc] at h; cases h
  have huc : u ≠ s.cur := (hi.sched.fib_ok _ _ ha).1
  have he := Scope.fwd (P := P) hi (jinv_reach hr) (.final hc hfr hb ha)
  cases hs : step P s with
  | ub w t => exact ⟨s, t, .refl, hnu, .inl ⟨w, hs⟩⟩
  | imp t => exact absurd hs (no_imp_inv hi)
  | uncaught t => rw [he] at hs; exact absurd hs destroyHandle_caught
  | done t => rw [he] at hs; have := destroyHandle_lib (s := _) (h := h) |> fun x => (show (Out.done t).lib from hs ▸ x); exact this.elim
  | ill t => rw [he] at hs; have := destroyHandle_lib (s := _) (h := h) |> fun x => (show (Out.ill t).lib from hs ▸ x); exact this.elim
  | next s1 =>
    have hr1 := hr.step hs
    have hi1 := inv_reach hr1
    -- the lambda is left with the continuation of `u`
    have key : ∀ {s3 : St L G V E}, NoUser P s s3 → s3.cur = s.cur → s3.fib (.back s.cur) = some u →
        s3.frames u = s.frames u → Crashes P s := by
      intro s3 hn3 hc3 hb3 hf3
      have hr3 := hn3.later.reach hr
      have hi3 := inv_reach hr3
      rcases unwound (b := u) hr3 (by rw [hc3]; exact hb3) with ⟨s4, evs, hn4, hu4⟩ | ⟨a, b, h1, h2, h3⟩
      · have hr4 := hn4.later.reach hr3
        have hi4 := inv_reach hr4
        have hlive : s4.base u ≠ .none := by have := hi4.sched.cur_live; rwa [hu4.cur] at this
        have hsame : s4.frames u = s.frames u := by
          rcases hu4.fate u with ⟨a, _⟩ | ⟨a, _⟩
          · exact a.1.trans hf3
          · exact absurd a hlive
        have hnone : s4.base s.cur = .none := by have := hu4.gone; rwa [hc3] at this
        have hdead := (hi4.cb.none_life s.cur .own hnone).1
        have hnu4 : ¬ UserRuns s4 := by rintro ⟨_, h⟩; rw [hu4.ctl] at h; cases h
        have hfr4 : s4.fr = s.frames u := by show s4.frames s4.cur = _; rw [hu4.cur]; exact hsame
        refine ⟨s4, s4, hn3.trans hn4, hnu4, .inl ⟨.dangling, ?_⟩⟩
        unfold step
        rw [hu4.ctl]
        simp only
        unfold recvStep
        rw [hfr4]
        cases hfu : s.frames u with
        | nil =>
          rw [hfu] at hh
          have : (⟨u, .syn⟩ : CbRef) = ⟨s.cur, .own⟩ := by
            simp only [hole] at hh; split at hh <;> simp_all
          cases this
        | cons f t =>
          rw [hfu] at hh
          cases f <;> simp only [hole] at hh <;> cases hh <;> simp only
      · exact ⟨a, b, hn3.trans h1, h2, h3⟩
    rw [he] at hs
    rw [he.symm] at hs
    have hs' := hs
    rw [he] at hs
    rcases destroyHandle_next hs with ⟨e1, e2, e3, e4⟩ | ⟨e1, e2, e3, e4⟩
    · refine key (.step hnu hs' .refl) e1 (e3.trans (by simp [upd])) (by rw [e2])
    · have hne : s1.cur ≠ s.cur := ((hi1.sched.fib_ok _ _ e1).1).symm
      have hb1 : s1.fib (.back s.cur) = some u := (e3 hne).trans (by simp [upd])
      rcases unwound (b := s.cur) hr1 e1 with ⟨s2, evs, hn2, hu2⟩ | ⟨a, b, h1, h2, h3⟩
      · have hr2 := hn2.later.reach hr1
        have hi2 := inv_reach hr2
        have hlive : s2.base s.cur ≠ .none := by have := hi2.sched.cur_live; rwa [hu2.cur] at this
        have hsame : SameCtx s1 s2 s.cur := by
          rcases hu2.fate s.cur with ⟨a, _⟩ | ⟨a, _⟩
          · exact a
          · exact absurd a hlive
        have hb2 : s2.fib (.back s.cur) = some u := hsame.2.2.2.2.1.trans hb1
        have hsu : s2.frames u = s1.frames u := by
          rcases hu2.fate u with ⟨a, _⟩ | ⟨a, _⟩
          · exact a.1
          · exact absurd a (hi2.sched.fib_ok _ _ hb2).2
        have hfr2 : s2.fr = .wait :: s.fr := by
          show s2.frames s2.cur = _; rw [hu2.cur, hsame.1, e2]; simp; rfl
        have e5 := reach_step hr2 (.wait hu2.ctl hfr2 hu2.air)
        have hnu2 : ¬ UserRuns s2 := by rintro ⟨_, h⟩; rw [hu2.ctl] at h; cases h
        refine key (.step hnu hs' (hn2.trans (.step hnu2 e5 .refl))) hu2.cur hb2 ?_
        show upd s2.frames s2.cur s.fr u = _
        rw [upd_ne _ _ (by rw [hu2.cur]; exact huc), hsu, e2, upd_ne _ _ huc]
      · exact ⟨a, b, .step hnu hs' h1, h2, h3⟩

/-- where a completed, suspended coroutine is -/
theorem completed_parked (hr : Reach P l0 g0 s) {c t : Nat} (hfin : nFin c s.log ≠ 0) (hf : s.fib (.cb ⟨c, .own⟩) = some t) :
    t = c ∧ s.cur ≠ c ∧ s.frames c = [] ∧ ∃ h, s.base c = .final h := by
  have hi := inv_reach hr
  have hj := jinv_reach hr
  obtain ⟨j, hlj⟩ := hj.held _ _ hf
  have htc : t = c := by
    rcases hj.finJ c hfin with ⟨j', h⟩ | ⟨i, h⟩ <;> rw [hlj] at h <;> simp at h
    exact h.1
  subst htc
  have hch := hi.sched.chan _ _ hf
  obtain ⟨hne, hlive⟩ := hi.sched.fib_ok _ _ hf
  have hsw := hi.sched.sus t hne hlive
  have hlf := life_reach hr t
  refine ⟨rfl, fun h => hne h.symm, ?_⟩
  generalize hbt : s.base t = b at *
  generalize hft : s.frames t = fs at *
  cases b <;> simp only [LifeOk] at hlf
  case none => exact absurd rfl hlive
  case main => exact absurd hlf.2.fi hfin
  case fresh => exact absurd hlf.2.2.fi hfin
  case pushEntry => exact absurd hlf.2.2.fi hfin
  case inFn => exact absurd hlf.2.2.fi hfin
  case final => cases fs with
    | nil => exact ⟨rfl, _, rfl⟩
    | cons f tl => cases f <;> simp [okSw, hole, Base.isBody] at hsw hch
  all_goals
    cases fs with
    | nil => simp [okSw] at hsw
    | cons f tl => cases f <;> simp [okSw, hole, Base.isBody] at hsw hch

/-- C33: resuming a pull object whose coroutine has ended always leads to undefined behaviour before any user code runs again. -/
theorem C33_completed_pull (hr : Reach P l0 g0 s) {h c : Nat} {k : Res V → L} (hp : PullsFrom P s h k)
    (hh : Refers s h .pull (some ⟨c, .own⟩)) (hfin : nFin c s.log ≠ 0) : CallCrashes P s := by
  have hi := inv_reach hr
  obtain ⟨hd, h1, h2, h3⟩ := hh
  obtain ⟨l, op, post, hc, hcode, hpc, he⟩ := hp.call
  have hal := (hi.hok.own h hd c h1 h3).1
  cases hf : s.fib (.cb ⟨c, .own⟩) with
  | none =>
    left
    rw [he]
    unfold pullOp
    have h1' : (s.pushFr (.usr k)).hs h = some hd := h1
    simp only [h1', h2, h3, if_true]
    exact cbResume_empty (s := (s.pushFr (.usr k)).setFr _) hf
  | some t =>
    obtain ⟨rfl, hne, hfr, h0, hb⟩ := completed_parked hr hfin hf
    right
    have e1 := reach_step hr (.pull hc hcode hpc h1 h2 h3 hal hf)
    refine ⟨_, e1, final_crash (hr.step e1) (h := h0) (u := s.cur) rfl ?_ hb (by simp) ?_⟩
    · show upd s.frames s.cur _ t = []
      rw [upd_ne _ _ (fun h => hne h.symm)]; exact hfr
    · show hole (s.base s.cur) s.cur (upd s.frames s.cur _ s.cur) = _
      simp [hole]

/-- C33: pushing to a push object whose coroutine has ended always leads to undefined behaviour before any user code runs again. -/
theorem C33_completed_push (hr : Reach P l0 g0 s) {h c : Nat} {a : PushArg V E} {k : Res V → L} (hp : PushesTo P s h a k)
    (hh : Refers s h .push (some ⟨c, .own⟩)) (ha : Fits (s.va c) a) (hfin : nFin c s.log ≠ 0) : CallCrashes P s := by
  have hi := inv_reach hr
  obtain ⟨hd, h1, h2, h3⟩ := hh
  obtain ⟨l, op, post, hc, hcode, hpc, he⟩ := hp.step
  have hal := (hi.hok.own h hd c h1 h3).1
  have hoth : ∀ q, (s.cbs ⟨c, .own⟩).other = some q → q = ⟨c, .syn⟩ := by
    intro q hq
    have := hi.cb.own_other c hal
    rw [this] at hq
    split at hq <;> cases hq
    rfl
  cases hf : s.fib (.cb ⟨c, .own⟩) with
  | none =>
    left
    rw [he]
    refine pushOp_empty (s := s.pushFr (.usr k)) (hd := hd) h1 h2 h3 ?_ hf
    intro q hq _
    rw [hoth q hq]; exact ha
  | some t =>
    obtain ⟨rfl, hne, hfr, h0, hb⟩ := completed_parked hr hfin hf
    have hot : (s.cbs ⟨t, .own⟩).other = some ⟨t, .syn⟩ := by
      have := hi.cb.own_other t hal
      rw [hb] at this; exact this
    have hsal : (s.cbs ⟨t, .syn⟩).life = .alive := (hi.cb.syn_life t).2 (by rw [hb]; rfl)
    rcases set_or_ub (P := P) (s := s.pushFr (.usr k)) (q := ⟨t, .syn⟩) (a := a) ha with ⟨b, evs, w, hse⟩ | ⟨u, s', hub⟩
    · right
      have e1 := reach_step hr (.push hc hcode hpc h1 h2 h3 hal hot hsal hse hf)
      refine ⟨_, e1, final_crash (hr.step e1) (h := h0) (u := s.cur) rfl ?_ hb (by simp) ?_⟩
      · show upd s.frames s.cur _ t = []
        rw [upd_ne _ _ (fun h => hne h.symm)]; exact hfr
      · show hole (s.base s.cur) s.cur (upd s.frames s.cur _ s.cur) = _
        simp [hole]
    · left
      rw [he]
      have h1' : (s.pushFr (.usr k)).hs h = some hd := h1
      have hal' : ((s.pushFr (.usr k)).cbs ⟨t, .own⟩).life = .alive := hal
      have hot' : ((s.pushFr (.usr k)).cbs ⟨t, .own⟩).other = some ⟨t, .syn⟩ := hot
      have hsal' : ((s.pushFr (.usr k)).cbs ⟨t, .syn⟩).life = .alive := hsal
      exact ⟨_, _, by unfold pushOp; simp only [h1', h2, h3, if_true, hal', hot', hsal', hub]; rfl⟩

/-- C33: incrementing, dereferencing or assigning through the end iterator is undefined. -/
theorem C33_end_iterator {k : Res V → L} {a : PushArg V E}
    (hc : Calls P s (.itNext none) k ∨ Calls P s (.itDeref none) k ∨ Calls P s (.itPut none a) k) :
    ∃ t, step P s = .ub .nullIter t := by
  rcases hc with ⟨l, h1, h2⟩ | ⟨l, h1, h2⟩ | ⟨l, h1, h2⟩ <;>
    exact ⟨_, by unfold step; rw [h1]; simp only [evalStep, h2, apiStep]; rfl⟩

namespace Demo
open Code

/-- After the generator has ended, main resumes it once more. -/
def againMain : C :=
  mk .pull .val (fun h => push h 1 ret) fun h => resume h (resume h ret)

/-- The consumer has ended after one value; main pushes another one. -/
def againPush : C :=
  mk .push .val (fun h => get h fun _ => ret) fun h => push h 5 (push h 6 ret)

/-- The function resumes the object that owns its own coroutine (address 1). -/
def selfMain : C :=
  mk .pull .val (fun h => push h 1 (resume 1 ret)) fun h => resume h ret

/-- The same for a push coroutine. -/
def selfPush : C :=
  mk .push .val (fun h => get h fun _ => push 1 6 ret) fun h => push h 5 ret

/-- Main resumes through a moved-from object. -/
def movedMain : C :=
  mk .pull .val gen fun h => op (.moveCtor h) fun _ => resume h ret

end Demo

open Demo in
/-- Non-trivial cases: states meeting the hypotheses of the C33 theorems, and where the programs end up. -/
example : nFin 1 (stateAt againMain 13).log = 1 ∧ Refers (stateAt againMain 13) 1 .pull (some ⟨1, .own⟩) ∧
    PullsFrom Demo.P (stateAt againMain 13) 1 (fun _ => Code.ret) ∧
    (run Demo.P 40 (init againMain [])).verdict = .ub .freedUnderOwner :=
  ⟨rfl, ⟨_, rfl, rfl, rfl⟩, .inl ⟨_, rfl, rfl⟩, rfl⟩
open Demo in
example : nFin 1 (stateAt againPush 13).log = 1 ∧ Refers (stateAt againPush 13) 1 .push (some ⟨1, .own⟩) ∧
    PushesTo Demo.P (stateAt againPush 13) 1 (.copy 6) (fun _ => Code.ret) ∧ Fits ((stateAt againPush 13).va 1) (.copy 6 : PushArg Nat Nat) ∧
    (run Demo.P 40 (init againPush [])).verdict = .ub .freedUnderOwner :=
  ⟨rfl, ⟨_, rfl, rfl, rfl⟩, .inl ⟨_, rfl, rfl⟩, trivial, rfl⟩
open Demo in
example : lastJump 1 (stateAt selfMain 9).log = some (⟨1, .own⟩, 0, 1) ∧ Refers (stateAt selfMain 9) 1 .pull (some ⟨1, .own⟩) ∧
    PullsFrom Demo.P (stateAt selfMain 9) 1 (fun _ => Code.ret) ∧ (run Demo.P 40 (init selfMain [])).verdict = .ub .emptyFiber :=
  ⟨rfl, ⟨_, rfl, rfl, rfl⟩, .inl ⟨_, rfl, rfl⟩, rfl⟩
open Demo in
example : lastJump 1 (stateAt selfPush 8).log = some (⟨1, .own⟩, 0, 1) ∧ Refers (stateAt selfPush 8) 1 .push (some ⟨1, .own⟩) ∧
    PushesTo Demo.P (stateAt selfPush 8) 1 (.copy 6) (fun _ => Code.ret) ∧
    (run Demo.P 40 (init selfPush [])).verdict = .ub .emptyFiber :=
  ⟨rfl, ⟨_, rfl, rfl, rfl⟩, .inl ⟨_, rfl, rfl⟩, rfl⟩
open Demo in
example : Refers (stateAt movedMain 8) 1 .pull none ∧ PullsFrom Demo.P (stateAt movedMain 8) 1 (fun _ => Code.ret) ∧
    (run Demo.P 40 (init movedMain [])).verdict = .ub .nullCb :=
  ⟨⟨_, rfl, rfl, rfl⟩, .inl ⟨_, rfl, rfl⟩, rfl⟩

/-! ## C43

Partial: the machine is given the function as such; what becomes of the caller's function object is in `PropsCallable.lean`, where the
two variants differ (`C43_refuted`). -/

/-- C43: from any reachable state, the next step does not depend on which compile-time path is compiled. -/
theorem C43_same_step_partial (hr : Reach P l0 g0 s) (b : Bool) : step { P with genericLambda := b } s = step P s := by
  have hi := inv_reach hr
  have hj := jinv_reach hr
  have hev : ∀ l, evalStep { P with genericLambda := b } s l = evalStep P s l := by
    intro l
    rfl
  unfold step
  cases hc : s.ctl with
  | recv =>
    simp only
    unfold recvStep
    cases hf : s.fr with
    | cons f t => cases f <;> rfl
    | nil =>
      cases hb : s.base s.cur with
      | final h =>
        obtain ⟨hal, hn⟩ := hi.recvFinal hj hc hf hb
        have key : ∀ g : Bool, (if twoStep g (s.kind s.cur) (s.va s.cur) = true then
            match (s.cbs ⟨s.cur, .own⟩).life with
            | .alive =>
              let s := (s.setFib (.cb ⟨s.cur, .syn⟩) (s.fib .air)).setFib .air none
              let f := s.fib (.cb ⟨s.cur, .syn⟩)
              leaveLambda ((s.setFib (.cb ⟨s.cur, .syn⟩) none).setFib (.back s.cur) f) h
            | _ => .ub .dangling s
          else leaveLambda ((s.setFib (.back s.cur) (s.fib .air)).setFib .air none) h) =
          leaveLambda ((s.setFib (.back s.cur) (s.fib .air)).setFib .air none) h := by
          intro g
          split
          · simp only [hal]
            congr 1
            simp only [St.setFib]
            congr 1
            funext l
            simp only [upd]
            grind
          · rfl
        exact (key b).trans (key P.genericLambda).symm
      | _ => rfl
  | _ => first | exact hev _ | rfl

/-- C43: all runs are identical, step by step, including events, results, undefined behaviour. -/
theorem C43_same_runs_partial (b : Bool) (n : Nat) : run { P with genericLambda := b } n (init l0 g0) = run P n (init l0 g0) := by
  have key : ∀ n (s : St L G V E), Reach P l0 g0 s → run { P with genericLambda := b } n s = run P n s := by
    intro n
    induction n with
    | zero => intro s _; rfl
    | succ n ih =>
      intro s hr
      simp only [run, C43_same_step_partial hr b]
      split
      · exact ih _ (hr.step ‹_›)
      · rfl
  exact key n _ .init

/-- C43: the same states are reachable. -/
theorem C43_same_states_partial (b : Bool) : Reach { P with genericLambda := b } l0 g0 s ↔ Reach P l0 g0 s := by
  constructor
  · intro h
    induction h with
    | init => exact .init
    | step _ hs ih => rw [C43_same_step_partial ih b] at hs; exact ih.step hs
  · intro h
    induction h with
    | init => exact .init
    | step hr hs ih => exact ih.step ((C43_same_step_partial hr b).trans hs)

open Demo in
/-- Non-trivial case: the two paths differ in the final jump of a push coroutine of values; here such a coroutine ends and, against
the rules, is resumed again, so that the code after the final jump runs. -/
example : (stateAt againPush 14).ctl = .recv ∧ (stateAt againPush 14).base 1 = .final 0 ∧ (stateAt againPush 14).cur = 1 ∧
    twoStep true .push .val ≠ twoStep false .push .val :=
  ⟨rfl, rfl, rfl, by decide⟩

/-! ## C16 -/

/-- Full statement of C16 (false, see `C16_refuted`): in a program obeying the rules, whenever main runs user code, the allocated
stacks are exactly those of coroutines owned by existing objects. -/
def C16_statement (P : Prog L G V E) (l0 : L) (g0 : G) : Prop :=
  ∀ s, ReachOk P l0 g0 s → s.cur = 0 → UserRuns s → ∀ k,
    (nDealloc k s.log < nAlloc k s.log ↔ ∃ h ty, Refers s h ty (some ⟨k, .own⟩))

/-- C16, for every coroutine that was created (that is: whose callable could be copied): its stack is still allocated if and only if
an object owns it.  Missing for the full statement: stacks whose coroutine was never created because copying the callable
threw (`C16_refuted`). -/
theorem C16_partial (hk : ReachOk P l0 g0 s) (h0 : s.cur = 0) (hu : UserRuns s) (k : Nat) (hcr : nCreated k s.log ≠ 0) :
    nDealloc k s.log < nAlloc k s.log ↔ ∃ h ty, Refers s h ty (some ⟨k, .own⟩) := by
  have hr := hk.reach
  have hi := inv_reach hr
  have hlf := life_reach hr k
  obtain ⟨l, hl⟩ := hu
  have hbase : nDealloc k s.log < nAlloc k s.log ↔ s.base k ≠ .none := by
    generalize s.base k = b at hlf
    cases b <;> simp only [LifeOk] at hlf
    case main => exact absurd hlf.2.cr hcr
    case none =>
      split at hlf
      · rcases hlf with ⟨_, _, h⟩ | ⟨_, _, n, m, _, _, h⟩
        · exact absurd h.cr hcr
        · rw [h.al, h.de]; simp
      · exact absurd hlf.2.2.cr hcr
    case fresh => rw [hlf.2.2.al, hlf.2.2.de]; simp
    case pushEntry => rw [hlf.2.2.al, hlf.2.2.de]; simp
    case inFn => rw [hlf.2.2.al, hlf.2.2.de]; simp
    case final => rw [hlf.2.2.al, hlf.2.2.de]; simp
    case lamA => rcases hlf.2 with ⟨_, h⟩ | ⟨_, m, _, h⟩ <;> rw [h.al, h.de] <;> simp
    case lamB => rcases hlf.2 with ⟨_, h⟩ | ⟨_, m, _, h⟩ <;> rw [h.al, h.de] <;> simp
  have hk0 : k ≠ 0 := by
    rintro rfl
    rw [(hi.sched.main_iff 0).2 rfl] at hlf
    exact hcr hlf.2.cr
  rw [hbase]
  constructor
  · intro hb
    obtain ⟨rest, d⟩ := disc_reach hk
    have hrest : rest = [] := by
      cases rest with
      | nil => rfl
      | cons y t =>
        have hla := d.last
        rw [h0, List.getLast?_cons_cons] at hla
        have hn := List.nodup_cons.1 d.nodup
        exact absurd (h0 ▸ List.mem_of_getLast? hla) hn.1
    have hnot : ∀ i, i ≠ 0 → i ∉ s.cur :: rest := by
      intro i hi0; rw [h0, hrest]; simpa using hi0
    have hal := d.parkAl k hb (hnot k hk0)
    rcases (owner_reach hr).owned k hal with ⟨h, hd, a, b⟩ | ⟨i, hct⟩
    · exact ⟨h, _, hd, a, rfl, b⟩
    · exfalso
      have hctl := hi.ctl
      rw [hl] at hctl
      by_cases hi0 : i = 0
      · subst hi0
        have hok := hctl.1
        rw [h0] at hok
        cases hf : s.frames 0 with
        | nil => rw [hf] at hct; cases hct
        | cons f t =>
          rw [hf] at hct hok
          cases f <;> simp [ctorOf] at hct <;> simp [okU, Frame.isU] at hok
      · have hlive : s.base i ≠ .none := by
          intro hb'; rw [hi.sched.dead_frames i hb'] at hct; cases hct
        rcases d.park i hlive (hnot i hi0) with hp | ⟨hp, _⟩
        · have hch := hi.sched.chan _ _ hp
          cases hf : s.frames i with
          | nil => rw [hf] at hct; cases hct
          | cons f t =>
            rw [hf] at hct hch
            cases f <;> simp [ctorOf] at hct <;> simp [hole] at hch
        · rw [hl] at hp; cases hp
  · rintro ⟨h, ty, hd, a, -, b⟩ hb
    exact (hi.cb.none_life k .own hb).1 (hi.hok.own h hd k a b).1

/-- C16: hence, when no owning object is left, every stack of a created coroutine has been returned. -/
theorem C16_all_returned (hk : ReachOk P l0 g0 s) (h0 : s.cur = 0) (hu : UserRuns s)
    (hno : ∀ h ty k, ¬ Refers s h ty (some ⟨k, .own⟩)) (k : Nat) (hcr : nCreated k s.log ≠ 0) :
    nAlloc k s.log = 1 ∧ nDealloc k s.log = 1 := by
  have h := C16_partial hk h0 hu k hcr
  have hle := life_facts hk.reach k
  have : ¬ nDealloc k s.log < nAlloc k s.log := fun hlt => by
    obtain ⟨x, ty, hx⟩ := h.1 hlt; exact hno x ty k hx
  omega

namespace Demo
open Code

/-- Copying the callable throws 3. -/
def copyFailMain : C :=
  tryc (fun _ => ret) (op (.mk .pull .val (.fnCopy 3) gen) fun _ => endTry ret)

end Demo

open Demo in
/-- C16 is false: when copying the callable into the control block throws, the stack that was already allocated is never returned.
The program obeys the rules. -/
theorem C16_refuted : Obeys Demo.P copyFailMain [] ∧ ¬ C16_statement Demo.P copyFailMain [] ∧
    nAlloc 1 (stateAt copyFailMain 4).log = 1 ∧ (stateAt copyFailMain 4).nh = 0 := by
  refine ⟨obeys _ 40 rfl, ?_, rfl, rfl⟩
  intro h
  have := (h (stateAt copyFailMain 4) (reachOk _ _ rfl) rfl ⟨_, rfl⟩ 1).1 (by decide)
  obtain ⟨x, ty, hd, hx, -⟩ := this
  cases hx

open Demo in
/-- Non-trivial cases: with the generator alive its stack is allocated and owned; at the end it has been returned and no object is
left. -/
example : ReachOk Demo.P pullMain [] (stateAt pullMain 8) ∧ nCreated 1 (stateAt pullMain 8).log = 1 ∧
    nDealloc 1 (stateAt pullMain 8).log = 0 ∧ Refers (stateAt pullMain 8) 1 .pull (some ⟨1, .own⟩) ∧
    UserRuns (stateAt pullMain 8) :=
  ⟨reachOk _ _ rfl, rfl, rfl, ⟨_, rfl, rfl, rfl⟩, ⟨_, rfl⟩⟩
open Demo in
example : ReachOk Demo.P pullMain [] (stateAt pullMain 29) ∧ (stateAt pullMain 29).cur = 0 ∧ UserRuns (stateAt pullMain 29) ∧
    nDealloc 1 (stateAt pullMain 29).log = 1 :=
  ⟨reachOk _ _ rfl, rfl, ⟨_, rfl⟩, rfl⟩

end Verif
