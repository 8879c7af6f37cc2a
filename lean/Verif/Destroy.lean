import Verif.Drop
import Verif.HeldInv
import Verif.PropsRules

/-! # Destroying a coroutine object, from the call to its return.  Proof material. -/
namespace Verif
variable {L G V E : Type}
variable {P : Prog L G V E} {l0 : L} {g0 : G} {s s' : St L G V E}

/-- a suspended coroutine is held by its own block -/
theorem held_own (hr : Reach P l0 g0 s) {c : Nat} (hs : Suspended c s.log) (ha : (s.cbs ⟨c, .own⟩).life = .alive)
    (hc : s.ctl ≠ .recv) : s.fib (.cb ⟨c, .own⟩) = some c := by
  obtain ⟨j, hj⟩ := hs
  rcases held_reach hr ⟨c, .own⟩ c j hj ⟨ha, by simp⟩ with h | ⟨h, _⟩
  · exact h
  · exact absurd h hc

/-- `~T` of the slot in the owning block -/
def slotEv (s : St L G V E) (c : Nat) : List (Ev V E) :=
  if s.kind c = .pull ∧ s.va c = .val ∧ (s.cbs ⟨c, .own⟩).bvalid = true then [.tdtor c] else []

/-- the object `h` of `c` is destroyed; `fs` and `x` are the stack and control of the destroying context afterwards -/
structure Destroyed (s s' : St L G V E) (h c : Nat) (fs : List (Frame L V E)) (x : Ctl L V E) (evs : List (Ev V E)) : Prop where
  cur : s'.cur = s.cur
  frames : s'.frames s.cur = fs
  ctl : s'.ctl = x
  log : s'.log = evs ++ .unwind s.cur c :: (slotEv s c ++ s.log)
  nk : s'.nk = s.nk
  nh : s'.nh = s.nh
  kind : s'.kind = s.kind
  va : s'.va = s.va
  gone : s'.hs h = none
  hs : ∀ x, s'.hs x = s.hs x ∨ s'.hs x = none
  cbs : ∀ r, s'.cbs r = s.cbs r ∨ (s'.cbs r).life ≠ .alive
  fib : ∀ r, s'.fib (.cb r) = s.fib (.cb r) ∨ s'.fib (.cb r) = none
  unw : ∀ e ∈ evs, unwEv e = true
  ne : c ≠ s.cur
  evc : (evs.filter (ctxEv s.kind c)).reverse = expected s c
  dead : s'.base c = .none
  here : evs.filter (ctxEv s.kind s.cur) = [] ∧ s'.base s.cur = s.base s.cur ∧ s'.fib (.back s.cur) = s.fib (.back s.cur)
  fate : ∀ i, i ≠ s.cur → Fate s s' evs i
  falls : ∀ i, s.base i ≠ .none → s'.base i = .none → Falls s c i
  order : Order s (todo s c) (dtorsIn evs)

theorem Ends.scope {h : Nat} {fs : List (Frame L V E)} {x : Ctl L V E} (he : Ends P s h fs x) :
    ∃ f, Scope P s h { s with frames := upd s.frames s.cur (f :: fs) } ∧ s.ctl ≠ .recv ∧
      ∀ s' : St L G V E, s'.ctl = .deliver .unit → s'.fr = f :: fs → Local P s' s'.g fs x [] := by
  cases he
  case api k hc =>
    obtain ⟨l, h1, h2⟩ := hc
    exact ⟨.usr k, .api h1 h2, by rw [h1]; simp, fun s' h1 h2 => .dUsr h1 h2⟩
  case leave l l' h1 h2 h3 => exact ⟨.cLeave l', .leave h1 h2 h3, by rw [h1]; simp, fun s' h1 h2 => .dCLeave h1 h2⟩
  case raise x h1 h2 => exact ⟨.cRaise x, .raise h1 h2, by rw [h1]; simp, fun s' h1 h2 => .dCRaise h1 h2⟩
  case ret h1 h2 => exact ⟨.cRet, .ret h1 h2, by rw [h1]; simp, fun s' h1 h2 => .dCRet h1 h2⟩

/-- leaving a scope adds nothing that would be destroyed -/
theorem Scope.under {h : Nat} {s1 : St L G V E} (hs : Scope P s h s1) (i : Nat) : Under s s1 i := by
  have hfc : s.frames s.cur = s.fr := rfl
  by_cases hi : i = s.cur
  · subst hi
    cases hs
    case api => exact ⟨by simp [coLocals, St.fr], by simp [St.fr], fun _ h => h⟩
    case raise hf => exact .frames (hfc.trans hf) (upd_same ..) (.inr ⟨_, rfl⟩) rfl
    case leave hf =>
      refine ⟨?_, ?_, fun _ h => h⟩
      · rw [hfc, hf]; simp only [upd_same, coLocals]; exact fun _ h => List.mem_cons_of_mem _ h
      · rw [hfc, hf]; simp
    case ret hf =>
      refine ⟨?_, ?_, fun _ h => h⟩
      · rw [hfc, hf]; simp only [upd_same, coLocals]; exact fun _ h => List.mem_cons_of_mem _ h
      · rw [hfc, hf]; simp
    all_goals exact ⟨fun _ h => h, fun _ h => h, by simp [Base.sink]⟩
  · cases hs <;> exact .same (by simp [upd, hi]) (by simp [upd, hi])

theorem CallRuns.one {s1 : St L G V E} (h : CallRuns P s s1) (hu : ¬ UserRuns s1) (e : step P s1 = .next s') : CallRuns P s s' := by
  obtain ⟨s2, e2, hn⟩ := h
  exact ⟨s2, e2, hn.trans (.step hu e .refl)⟩

theorem destroy_done {h c : Nat} {fs : List (Frame L V E)} {x : Ctl L V E} {hd : Handle} (hr : Reach P l0 g0 s)
    (he : Ends P s h fs x) (hh : s.hs h = some hd) (hcb : hd.cb = some ⟨c, .own⟩) (hf : s.fib (.cb ⟨c, .own⟩) = some c) :
    (∃ s' evs, CallRuns P s s' ∧ Destroyed s s' h c fs x evs) ∨ CallCrashes P s := by
  have hi := inv_reach hr
  have hal := (hi.hok.own h hd c hh hcb).1
  obtain ⟨f, hsc, -, hk⟩ := he.scope
  have hstep := hsc.fwd hi (jinv_reach hr)
  have hpk : isPullSide (s.kind c) .own = true ↔ s.kind c = .pull := by cases s.kind c <;> simp [isPullSide]
  have hdt : (∃ sl, Dtor (s.kind c) (s.va c) (s.cbs ⟨c, .own⟩) ⟨c, .own⟩ sl (slotEv s c)) ∨ CallCrashes P s := by
    by_cases hx : s.kind c = .pull ∧ s.va c = .val ∧ (s.cbs ⟨c, .own⟩).bvalid = true
    · cases hsl : (s.cbs ⟨c, .own⟩).slot with
      | live v =>
        left; refine ⟨.dead, ?_⟩
        rw [slotEv, if_pos hx]
        exact .val (hpk.2 hx.1) hx.2.1 hx.2.2 hsl
      | _ =>
        right; left
        rw [hstep]
        have hst : StateT.has (s.cbs ⟨c, .own⟩).state StateT.unwind = true := by
          rcases hi.cb.own_state c hal with ⟨e, _⟩ | ⟨e, _⟩ <;> rw [e] <;> rfl
        simp only [destroyHandle, hh, hcb, deallocate, hal, hst, destroyCb, dtorSlot, St.setFib, hpk.2 hx.1, hx.2.1, hx.2.2, hsl, beq_self_eq_true,
          Bool.and_self, if_true]
        exact ⟨_, _, rfl⟩
    · left
      refine ⟨(s.cbs ⟨c, .own⟩).slot, ?_⟩
      rw [slotEv, if_neg hx]
      exact .skip (by rw [hpk]; exact hx)
  rcases hdt with ⟨sl, hdt⟩ | hc
  · have hdy := Dying.handle (P := P) hsc hh hcb hal hdt
    dsimp only at hdy
    rw [hf] at hdy
    rcases drop_done hr hdy with ⟨s1, evs, hrun, hd⟩ | hc
    · left
      have hr1 : Reach P l0 g0 s1 := by
        obtain ⟨s2, e, hn⟩ := hrun
        exact hn.later.reach (hr.step e)
      have hcur : s1.cur = s.cur := hd.cur
      obtain ⟨a1, a2, a3, a4, a5, a6⟩ := hd.same
      have hfr : s1.fr = f :: fs := by
        show s1.frames s1.cur = _
        rw [hcur]
        have : s1.frames s.cur = _ := a1
        rw [this]; simp
      have e2 := reach_step hr1 (.loc (hk s1 hd.ctl hfr))
      have hne : c ≠ s.cur := hd.ne
      have hrun' := hrun.one (by rintro ⟨_, h⟩; rw [hd.ctl] at h; cases h) e2
      refine ⟨_, evs, hrun', ?_⟩
      · constructor
        case cur => exact hcur
        case frames => simp [hcur]
        case ctl => rfl
        case log => exact hd.log
        case nk => exact hd.shr.nk
        case nh => exact hd.shr.nh
        case kind => exact hd.shr.kind
        case va => exact hd.shr.va
        case gone =>
          have := hd.shr.hs h
          simpa using this
        case hs =>
          intro y
          rcases hd.shr.hs y with h1 | h1
          · by_cases hy : y = h
            · subst hy; right; simpa using h1
            · left; simpa [upd, hy] using h1
          · exact .inr h1
        case cbs =>
          intro r
          rcases hd.shr.cbs r with h1 | h1
          · by_cases hy : r = ⟨c, .own⟩
            · subst hy; right; show (s1.cbs _).life ≠ _; rw [h1]; simp
            · left; simpa [upd, hy] using h1
          · exact .inr h1
        case fib =>
          intro r
          rcases hd.shr.fib r with h1 | h1
          · by_cases hy : r = ⟨c, .own⟩
            · subst hy; right; simpa using h1
            · left; simpa [upd, hy] using h1
          · exact .inr h1
        case unw => exact hd.unw
        case ne => exact hne
        case evc =>
          refine hd.gone.2.2.trans ?_
          apply expected_eq <;> simp [upd, hne]
        case dead => exact hd.gone.1
        case here => exact ⟨hd.here, a2, by simpa [upd] using a5⟩
        case falls =>
          intro i h1 h2
          refine Falls.mono (s := s) (s' := _) ?_ ?_ (hd.falls i h1 h2)
          · refine ⟨rfl, rfl, rfl, rfl, ?_, ?_, ?_⟩
            · intro x; simp only [upd]; split <;> simp
            · intro x; simp only [upd]; split <;> simp
            · intro x; simp only [upd]; split <;> simp
          · intro j
            have := hsc.under j
            exact ⟨this.co, this.ctor, this.sink⟩
        case order =>
          have htd : todo s c = items c (upd s.frames s.cur (f :: fs) c) ++ (s.base c).items c := by
            rw [upd_ne _ _ hne]; rfl
          rw [htd]
          · refine Order.mono (s := s) ?_ ?_ ?_ hd.order
            · refine ⟨rfl, rfl, rfl, rfl, ?_, ?_, ?_⟩
              · intro x; simp only [upd]; split <;> simp
              · intro x; simp only [upd]; split <;> simp
              · intro x; simp only [upd]; split <;> simp
            · intro r hr
              by_cases hrk : r = ⟨c, .own⟩
              · subst hrk; simp at hr
              · simp [upd, hrk]
            · intro r u hfr
              simp only [upd] at hfr
              split at hfr
              · cases hfr
              · have := (hi.sched.fib_ok _ _ hfr).1
                exact ⟨by simp [upd, this], rfl⟩
        case fate =>
          intro i hi'
          rcases hd.fate i with ⟨⟨b1, b2, b3, b4, b5, b6⟩, b7⟩ | ⟨b1, b2, b3⟩
          · left
            refine ⟨⟨?_, b2, b3, ?_, by simpa [upd] using b5, b6⟩, b7⟩
            · simpa [upd, hi', hcur] using b1
            · simpa [upd] using b4
          · right
            refine ⟨b1, ?_, b3.trans ?_⟩
            · simpa [upd, hi', hcur] using b2
            · apply expected_eq <;> simp [upd, hi']
    · exact .inr hc
  · exact .inr hc

theorem Ends.calm {h : Nat} {fs : List (Frame L V E)} {x : Ctl L V E} (he : Ends P s h fs x) (hi : Inv s) :
    ctorOf fs = none ∧ x ≠ .recv ∧ s.ctl ≠ .recv := by
  have hctl := hi.ctl
  have hfc : s.frames s.cur = s.fr := rfl
  cases he
  case api k hc =>
    obtain ⟨l, h1, h2⟩ := hc
    rw [h1] at hctl
    exact ⟨ctorOf_okU hctl.1, by simp, by rw [h1]; simp⟩
  case leave h1 h2 h3 =>
    rw [h1] at hctl
    have := hctl.1
    rw [hfc, h3] at this
    simp only [okU, List.all_cons, Bool.and_eq_true] at this
    exact ⟨ctorOf_okU this.2, by simp, by rw [h1]; simp⟩
  case raise h1 h2 => exact ⟨(hi.calmTail h1 h2).2, by simp, by rw [h1]; simp⟩
  case ret h1 h3 =>
    rw [h1] at hctl
    have := hctl.1
    rw [hfc, h3] at this
    simp only [okU, List.all_cons, Bool.and_eq_true] at this
    exact ⟨ctorOf_okU this.2, by simp, by rw [h1]; simp⟩

/-- every context that is held before and is not held afterwards is gone -/
theorem Destroyed.nested {h c : Nat} {fs : List (Frame L V E)} {x : Ctl L V E} {evs : List (Ev V E)}
    (hd : Destroyed s s' h c fs x evs) (hr : Reach P l0 g0 s) (hl : Later P s s') (he : Ends P s h fs x)
    {y d : Nat} {hdl : Handle} {i : Nat} (hgone : s'.base i = .none)
    (hy : y ∈ coLocals (s.frames i) ∨ (s.base i).sink = some y) (hhy : s.hs y = some hdl) (hcb : hdl.cb = some ⟨d, .own⟩) (hs : Suspended d s.log) :
    s'.hs y = none ∧ s'.base d = .none ∧ d ≠ s.cur := by
  have hi := inv_reach hr
  have hrs := hl.reach hr
  have hi' := inv_reach hrs
  have hal := (hi.hok.own y hdl d hhy hcb).1
  obtain ⟨hc1, hc2, hc3⟩ := he.calm hi
  have hf := held_own hr hs hal hc3
  have hyl : y < s.nh := hi.hok.lt y (by rw [hhy]; simp)
  have hgy : s'.hs y = none := by
    rcases hy with hy | hy
    · rcases (hl.co hr hyl hy).2 with h1 | h1
      · rw [hi'.sched.dead_frames i hgone] at h1; cases h1
      · exact h1
    · rcases (hl.sink hr hyl hy).2 with h1 | h1
      · rw [hgone] at h1; cases h1
      · exact h1
  have hdc : d ≠ s.cur := (hi.sched.fib_ok _ _ hf).1
  refine ⟨hgy, ?_, hdc⟩
  rcases hd.fate d hdc with ⟨hsame, -⟩ | h1
  · exfalso
    have hbd : s.base d ≠ .none := (hi.sched.fib_ok _ _ hf).2
    have hbd' : s'.base d ≠ .none := by rw [hsame.2.1]; exact hbd
    obtain ⟨l, hfl⟩ := hi'.sched.held d (by rw [hd.cur]; exact hdc) hbd'
    have hown : ¬ (s'.cbs ⟨d, .own⟩).life = .alive := by
      intro ha
      rcases (owner_reach hrs).owned d ha with ⟨z, hz, h1, h2⟩ | ⟨j, h1⟩
      · rcases hd.hs z with h3 | h3
        · rw [h3] at h1
          have := hi.hok.uniq _ _ _ _ _ h1 hhy h2 hcb
          subst this
          rw [h3, h1] at hgy; cases hgy
        · rw [h3] at h1; cases h1
      · have hno := (hi.hok.own y hdl d hhy hcb).2
        have hno' := (hi'.hok.ctor j d h1)
        by_cases hj : j = s.cur
        · subst hj
          rw [hd.frames, hc1] at h1; cases h1
        · rcases hd.fate j hj with ⟨h2, -⟩ | ⟨-, h2, -⟩
          · rw [h2.1] at h1; exact hno j h1
          · rw [h2] at h1; cases h1
    have key : s.fib l = some d ∧ ∀ r, l = .cb r → (s'.cbs r).life = .alive := by
      cases l with
      | air => rw [hi'.airNone (by rw [hd.ctl]; exact hc2)] at hfl; cases hfl
      | cb r =>
        refine ⟨?_, ?_⟩
        · rcases hd.fib r with h1 | h1
          · rw [← h1]; exact hfl
          · rw [h1] at hfl; cases hfl
        · rintro _ ⟨⟩; exact hi'.cb.full_alive _ _ hfl
      | back j =>
        refine ⟨?_, by simp⟩
        by_cases hj : j = s.cur
        · subst hj; rw [← hd.here.2.2]; exact hfl
        · rcases hd.fate j hj with ⟨h2, -⟩ | ⟨h2, -, -⟩
          · rw [← h2.2.2.2.2.1]; exact hfl
          · have := (hi'.sched.back_unw j (by rw [hd.cur]; exact hj)).1 (by rw [hfl]; simp)
            rw [h2, hi'.sched.dead_frames j h2] at this
            simp [unwB, Base.isLam] at this
    have := hi.sched.inj _ _ _ key.1 hf
    subst this
    exact hown (key.2 _ rfl)
  · exact h1.1

end Verif
