import Verif.SimTop
import Verif.SpecScope
import Verif.Demo
import Verif.DemoTick

/-!
# C55: the library implements asymmetric coroutines

`Verif.Coro` (SpecCo.lean) is a machine for programs with asymmetric coroutines that knows nothing of control blocks, fibers, flags,
`std::exception_ptr` hand-over or the two-step exit: a coroutine is a function with its own stack, the active functions form a stack,
one value is in transfer.  It is stuck where the documentation forbids what the program does.  Theorems: a program that this machine
executes without getting stuck is executed by the library with the same observations and the same end; and the machine is stuck
exactly where the rules (Rules.lean) are violated.
-/
namespace Verif
variable {L G V E : Type}
variable {P : Prog L G V E} {l0 : L} {g0 : G} {s : St L G V E} {a : Coro.St L G V E}

/-- State `s` of the library and state `a` of the specification look the same to the program: the same function runs, it is at the same
place of its code (or leaves a scope with the same exception, or returns), every function has the same scopes open (local objects, `try`
blocks, calls), memory and coroutine objects are the same, and the same
observable events have happened in the same order.  And the library holds the resources the specification says there are: the stack of
a coroutine (created: its function object could be copied) is returned exactly when the coroutine is gone, its function object is
destroyed when the function has been left or the coroutine is gone, and a value of type `T` exists exactly if one has been transferred. -/
structure Agree (s : St L G V E) (a : Coro.St L G V E) : Prop where
  running : a.active.head? = some s.cur
  mem : a.g = s.g
  objs : a.hs = s.hs
  events : a.obs = s.log.filter Coro.noticed
  user : ∀ l, a.ctl = .eval l ↔ s.ctl = .eval l
  exc : ∀ x, a.ctl = .raise x ↔ s.ctl = .raise x
  ret : a.ctl = .ret ↔ s.ctl = .retn
  scopes : ∀ i, Coro.opened a i = opened s i
  stacks : ∀ k, nCreated k s.log ≠ 0 → nAlloc k s.log = 1 ∧ nDealloc k s.log ≤ 1 ∧ (nDealloc k s.log = 1 ↔ (a.co k).phase = .gone)
  callables : ∀ k, nCreated k s.log ≠ 0 → nFnDtor k s.log ≤ 1 ∧
    (nFnDtor k s.log = 1 ↔ (a.co k).phase = .gone ∨ (.enter k ∈ a.obs ∧ ∀ h, (a.co k).phase ≠ .body h))
  values : ∀ k h hd, a.hs h = some hd → hd.cb = some ⟨k, .own⟩ → hd.va = .val →
    nTctor k s.log = nTdtor k s.log + (if (a.co k).val.isSome then 1 else 0)
  noValues : ∀ k, (a.co k).phase = .gone → nTctor k s.log = nTdtor k s.log

theorem opened_abs (fs : List (Frame L V E)) : (fs.filterMap absF).filterMap Coro.scopeOf = fs.filterMap scopeOf := by
  rw [List.filterMap_filterMap]
  congr 1
  funext f
  cases f <;> rfl

/-- resources of coroutine `k` and its phase -/
theorem Sim.stacks (h : Sim P l0 g0 s a) (k : Nat) (hcr : nCreated k s.log ≠ 0) :
    nAlloc k s.log = 1 ∧ nDealloc k s.log ≤ 1 ∧ (nDealloc k s.log = 1 ↔ (a.co k).phase = .gone) := by
  obtain ⟨hk, _, rest, co, _, ok, rfl⟩ := h
  have hlf := life_reach hk.reach k
  have hp : ((absSt s rest co).co k).phase = absPhase (s.base k) := ok.phase k
  rw [hp]
  generalize s.base k = b at hlf
  cases b <;> simp only [LifeOk] at hlf
  case main => exact absurd hlf.2.cr hcr
  case none =>
    split at hlf
    · rcases hlf with ⟨_, _, h⟩ | ⟨_, _, n, m, _, _, h⟩
      · exact absurd h.cr hcr
      · simp [h.al, h.de, absPhase]
    · exact absurd hlf.2.2.cr hcr
  case fresh => simp [hlf.2.2.al, hlf.2.2.de, absPhase]
  case pushEntry => simp [hlf.2.2.al, hlf.2.2.de, absPhase]
  case inFn => simp [hlf.2.2.al, hlf.2.2.de, absPhase]
  case final => simp [hlf.2.2.al, hlf.2.2.de, absPhase]
  case lamA => rcases hlf.2 with ⟨_, h⟩ | ⟨_, m, _, h⟩ <;> simp [h.al, h.de, absPhase]
  case lamB => rcases hlf.2 with ⟨_, h⟩ | ⟨_, m, _, h⟩ <;> simp [h.al, h.de, absPhase]

theorem nEnter_mem {k : Nat} {log : List (Ev V E)} : nEnter k log ≠ 0 ↔ Ev.enter k ∈ log.filter Coro.noticed := by
  rw [List.mem_filter, nEnter, ne_eq, List.countP_eq_zero]
  constructor
  · intro h
    refine ⟨?_, rfl⟩
    by_cases hm : Ev.enter k ∈ log
    · exact hm
    · exfalso; apply h
      intro e he hp
      cases e <;> simp [Ev.isEnter] at hp
      subst hp; exact hm he
  · rintro ⟨hm, _⟩ h
    exact h _ hm (by simp [Ev.isEnter])

theorem Sim.callables (h : Sim P l0 g0 s a) (k : Nat) (hcr : nCreated k s.log ≠ 0) : nFnDtor k s.log ≤ 1 ∧
    (nFnDtor k s.log = 1 ↔ (a.co k).phase = .gone ∨ (.enter k ∈ a.obs ∧ ∀ h, (a.co k).phase ≠ .body h)) := by
  obtain ⟨hk, _, rest, co, _, ok, rfl⟩ := h
  have hlf := life_reach hk.reach k
  have hp : ((absSt s rest co).co k).phase = absPhase (s.base k) := ok.phase k
  rw [hp]
  show _ ∧ (_ ↔ _ ∨ (_ ∈ s.log.filter Coro.noticed ∧ _))
  rw [← nEnter_mem]
  generalize s.base k = b at hlf
  cases b <;> simp only [LifeOk] at hlf
  case main => exact absurd hlf.2.cr hcr
  case none =>
    split at hlf
    · rcases hlf with ⟨_, _, h⟩ | ⟨_, _, n, m, _, _, h⟩
      · exact absurd h.cr hcr
      · simp [h.fd, absPhase]
    · exact absurd hlf.2.2.cr hcr
  case fresh => simp [hlf.2.2.fd, hlf.2.2.en, absPhase]
  case pushEntry => simp [hlf.2.2.fd, hlf.2.2.en, absPhase]
  case inFn => simp [hlf.2.2.fd, hlf.2.2.en, absPhase]
  case final => simp [hlf.2.2.fd, hlf.2.2.en, absPhase]
  case lamA => rcases hlf.2 with ⟨_, h⟩ | ⟨_, m, _, h⟩ <;> simp [h.fd, h.en, absPhase]
  case lamB => rcases hlf.2 with ⟨_, h⟩ | ⟨_, m, _, h⟩ <;> simp [h.fd, h.en, absPhase]

theorem Sim.values (h : Sim P l0 g0 s a) (k x : Nat) (hd : Handle) (h1 : a.hs x = some hd) (h2 : hd.cb = some ⟨k, .own⟩) (h3 : hd.va = .val) :
    nTctor k s.log = nTdtor k s.log + (if (a.co k).val.isSome then 1 else 0) := by
  obtain ⟨hk, _, rest, co, d, ok, rfl⟩ := h
  have hi := inv_reach hk.reach
  have hs := slot_reach hk.reach k
  obtain ⟨_, _, hva⟩ := hi.hok.born x hd _ h1 h2
  have hal := (hi.hok.own x hd k h1 h2).1
  have hv : s.va k = .val := by rw [← hva]; exact h3
  have hlive : (s.cbs ⟨k, pullSide (s.kind k)⟩).slot.isLive = (co k).val.isSome := by
    have key : (s.cbs ⟨k, pullSide (s.kind k)⟩).life = .alive → (s.cbs ⟨k, pullSide (s.kind k)⟩).slot.isLive = (co k).val.isSome := by
      intro hl
      rcases ok.val k hl with ⟨w, _, e2, e3⟩ | ⟨_, e2, e3⟩ <;> simp [e2, e3, Slot.isLive]
    cases hkd : s.kind k with
    | pull => rw [hkd] at key; exact key hal
    | push =>
      rw [hkd] at key
      cases hf : (s.base k).isFresh with
      | true =>
        have hu := hi.cb.fresh_syn k hf
        rw [hkd] at hs
        rw [ok.fresh k hf]
        show (s.cbs ⟨k, pullSide .push⟩).slot.isLive = false
        rw [hs.nb (hs.unb hu)]; rfl
      | false =>
        refine key ((hi.cb.syn_life k).2 ?_)
        have hl := d.notLam hi hal
        have hn : s.base k ≠ .none := fun hb => (hi.cb.none_life k .own hb).1 hal
        have hm : s.base k ≠ .main := by
          intro hb
          have h0 := (hi.sched.main_iff k).1 hb
          rw [hi.cb.unborn k .own (.inl h0)] at hal; cases hal
        cases hb : s.base k <;> rw [hb] at hl hn hm hf <;> simp_all [Base.isLam, Base.isFresh, Base.synAlive]
  have hb := hs.bal
  rw [hb, hv, hlive]
  show _ = _ + if (co k).val.isSome = true then 1 else 0
  cases (co k).val.isSome <;> simp

theorem Sim.noValues (h : Sim P l0 g0 s a) (k : Nat) (hp : (a.co k).phase = .gone) : nTctor k s.log = nTdtor k s.log := by
  obtain ⟨hk, _, rest, co, d, ok, rfl⟩ := h
  have hi := inv_reach hk.reach
  have hs := slot_reach hk.reach k
  have hp : absPhase (s.base k) = .gone := (ok.phase k).symm.trans hp
  have hn : ∀ sd, (s.cbs ⟨k, sd⟩).life ≠ .alive := by
    intro sd hal
    cases hb : s.base k <;> rw [hb] at hp <;> simp [absPhase] at hp
    · exact (hi.cb.none_life k sd hb).1 hal
    · rw [hi.cb.unborn k sd (.inl ((hi.sched.main_iff k).1 hb))] at hal; cases hal
  rw [hs.bal, if_neg]
  · rfl
  · rintro ⟨hva, hl⟩
    cases hx : (s.cbs ⟨k, pullSide (s.kind k)⟩).life with
    | alive => exact hn _ hx
    | unborn => rw [hs.nb (hs.unb hx)] at hl; cases hl
    | dead => rw [hs.dead hva (.inl hx)] at hl; cases hl
    | freed => rw [hs.dead hva (.inr hx)] at hl; cases hl

theorem Sim.agree (h : Sim P l0 g0 s a) : Agree s a := by
  have h1 := h.stacks
  have h2 := h.callables
  have h3 := h.values
  have h4 := h.noValues
  obtain ⟨_, _, rest, co, _, _, rfl⟩ := h
  refine ⟨rfl, rfl, rfl, rfl, ?_, ?_, ?_, fun i => opened_abs _, h1, h2, h3, h4⟩ <;> cases hc : s.ctl <;> simp [absSt, absCtl, hc] <;> split <;> simp

/-- C55: whatever the library does while the rules are obeyed, the specification can do. -/
theorem C55_refines (hk : ReachOk P l0 g0 s) : ∃ a, Coro.Reach P l0 g0 a ∧ Agree s a := by
  obtain ⟨a, h1, h2⟩ := reachOk_sim hk
  exact ⟨a, h1, h2.agree⟩

/-- C55: a program that has a meaning obeys the rules, in the library, … -/
theorem C55_contract (hm : Coro.Meaningful P l0 g0) : Obeys P l0 g0 := by
  intro s hr
  obtain ⟨a, h1, h2⟩ := reach_sim hm hr
  exact (h2.rules (hm a h1)).1

/-- … is well formed and has no undefined behaviour, … -/
theorem C55_defined (hm : Coro.Meaningful P l0 g0) (hr : Reach P l0 g0 s) :
    (∃ s', step P s = .next s') ∨ step P s = .done s ∨ step P s = .uncaught s := by
  obtain ⟨a, h1, h2⟩ := reach_sim hm hr
  obtain ⟨ru, hill⟩ := h2.rules (hm a h1)
  rcases h2.out ru hill with h | ⟨h, _⟩ | ⟨h, _⟩
  · exact .inl h
  · exact .inr (.inl h)
  · exact .inr (.inr h)

/-- … and in no other program is the specification stuck: it is the exact contract. -/
theorem C55_exact : Coro.Meaningful P l0 g0 ↔ Obeys P l0 g0 ∧ ∀ s, Reach P l0 g0 s → ∀ t, step P s ≠ .ill t := by
  constructor
  · intro hm
    refine ⟨C55_contract hm, fun s hr => ?_⟩
    obtain ⟨a, h1, h2⟩ := reach_sim hm hr
    exact (h2.rules (hm a h1)).2
  · rintro ⟨ho, hw⟩ a ha hst
    have hH : ∀ a, Coro.Reach P l0 g0 a → ∀ s, Sim P l0 g0 s a → Rules P s ∧ ∀ t, step P s ≠ .ill t :=
      fun a _ s h => ⟨ho s h.1.reach, hw s h.1.reach⟩
    obtain ⟨s, h⟩ := coro_sim hH ha
    obtain ⟨s1, _, _, ⟨_, _, _, e, _⟩ | ⟨_, e⟩ | ⟨_, e⟩⟩ := h.progress' (hH a ha) <;> rw [hst] at e <;> cases e

/-- C55: every state of the specification is reached by the library: nothing is left out. -/
theorem C55_complete (hm : Coro.Meaningful P l0 g0) (ha : Coro.Reach P l0 g0 a) : ∃ s, Reach P l0 g0 s ∧ Agree s a := by
  obtain ⟨s, h⟩ := coro_sim (fun a ha s h => h.rules (hm a ha)) ha
  exact ⟨s, h.1.reach, h.agree⟩

/-- C55: the program terminates with the library iff it does in the specification, with the same memory and the same events. -/
theorem C55_same_end (hm : Coro.Meaningful P l0 g0) (g : G) (o : List (Ev V E)) :
    (∃ n t, run P n (init l0 g0) = .done t ∧ t.g = g ∧ t.log.filter Coro.noticed = o) ↔
      ∃ n a, Coro.run P n (Coro.init l0 g0) = .done a ∧ a.g = g ∧ a.obs = o := by
  constructor
  · rintro ⟨n, t, h, rfl, rfl⟩
    obtain ⟨s, hr, hs⟩ := reach_of_run .init (.inl h)
    rw [h] at hs
    obtain ⟨a, h1, h2⟩ := reach_sim hm hr
    obtain ⟨ru, hill⟩ := h2.rules (hm a h1)
    rcases h2.out ru hill with ⟨_, e⟩ | ⟨e, e'⟩ | ⟨e, _⟩ <;> rw [hs] at e <;> cases e
    obtain ⟨m, hm'⟩ := coroRun_of_reach h1
    exact ⟨m + 1, a, by rw [coroRun_step hm', e'], h2.agree.mem, h2.agree.events⟩
  · rintro ⟨n, a, h, rfl, rfl⟩
    obtain ⟨b, hr, hs⟩ := coroReach_of_run .init (.inl h)
    rw [h] at hs
    obtain ⟨s, h2⟩ := coro_sim (fun a ha s h => h.rules (hm a ha)) hr
    obtain ⟨s1, hl, h3, ⟨_, _, _, e, _⟩ | ⟨e1, e⟩ | ⟨_, e⟩⟩ := h2.progress' (fun s h => h.rules (hm b hr)) <;> rw [hs] at e <;> cases e
    obtain ⟨m, hm'⟩ := run_of_reach h3.1.reach
    exact ⟨m + 1, s1, by rw [run_step hm', e1], h3.agree.mem.symm, h3.agree.events.symm⟩

/-- C55: when the program has ended, the specification has, and what the library still holds then is what the specification has left. -/
theorem C55_end (hm : Coro.Meaningful P l0 g0) {n : Nat} {t : St L G V E} (h : run P n (init l0 g0) = .done t) :
    ∃ a, Coro.Reach P l0 g0 a ∧ Coro.step P a = .done a ∧ Agree t a := by
  obtain ⟨s, hr, hs⟩ := reach_of_run .init (.inl h)
  rw [h] at hs
  obtain ⟨a, h1, h2⟩ := reach_sim hm hr
  obtain ⟨ru, hill⟩ := h2.rules (hm a h1)
  rcases h2.out ru hill with ⟨_, e⟩ | ⟨e, e'⟩ | ⟨e, _⟩ <;> rw [hs] at e <;> cases e
  exact ⟨a, h1, e', h2.agree⟩

/-- C55: the same for programs that are left by an exception. -/
theorem C55_same_terminate (hm : Coro.Meaningful P l0 g0) (g : G) (o : List (Ev V E)) :
    (∃ n t, run P n (init l0 g0) = .uncaught t ∧ t.g = g ∧ t.log.filter Coro.noticed = o) ↔
      ∃ n a, Coro.run P n (Coro.init l0 g0) = .uncaught a ∧ a.g = g ∧ a.obs = o := by
  constructor
  · rintro ⟨n, t, h, rfl, rfl⟩
    obtain ⟨s, hr, hs⟩ := reach_of_run .init (.inr h)
    rw [h] at hs
    obtain ⟨a, h1, h2⟩ := reach_sim hm hr
    obtain ⟨ru, hill⟩ := h2.rules (hm a h1)
    rcases h2.out ru hill with ⟨_, e⟩ | ⟨e, _⟩ | ⟨e, e'⟩ <;> rw [hs] at e <;> cases e
    obtain ⟨m, hm'⟩ := coroRun_of_reach h1
    exact ⟨m + 1, a, by rw [coroRun_step hm', e'], h2.agree.mem, h2.agree.events⟩
  · rintro ⟨n, a, h, rfl, rfl⟩
    obtain ⟨b, hr, hs⟩ := coroReach_of_run .init (.inr h)
    rw [h] at hs
    obtain ⟨s, h2⟩ := coro_sim (fun a ha s h => h.rules (hm a ha)) hr
    obtain ⟨s1, hl, h3, ⟨_, _, _, e, _⟩ | ⟨_, e⟩ | ⟨e1, e⟩⟩ := h2.progress' (fun s h => h.rules (hm b hr)) <;> rw [hs] at e <;> cases e
    obtain ⟨m, hm'⟩ := run_of_reach h3.1.reach
    exact ⟨m + 1, s1, by rw [run_step hm', e1], h3.agree.mem.symm, h3.agree.events.symm⟩

/-- what a run is, if it is not over -/
theorem run_cases (hm : Coro.Meaningful P l0 g0) (n : Nat) : (∃ s, run P n (init l0 g0) = .next s ∧ Reach P l0 g0 s) ∨
    (∃ t, run P n (init l0 g0) = .done t) ∨ (∃ t, run P n (init l0 g0) = .uncaught t) := by
  induction n with
  | zero => exact .inl ⟨_, rfl, .init⟩
  | succ n ih =>
    rcases ih with ⟨s, h, hr⟩ | ⟨t, h⟩ | ⟨t, h⟩
    · rw [run_step h]
      rcases C55_defined hm hr with ⟨s', e⟩ | e | e
      · exact .inl ⟨s', e, hr.step e⟩
      · exact .inr (.inl ⟨_, e⟩)
      · exact .inr (.inr ⟨_, e⟩)
    · exact .inr (.inl ⟨t, run_stays n h (by simp)⟩)
    · exact .inr (.inr ⟨t, run_stays n h (by simp)⟩)

theorem coroRun_cases (hm : Coro.Meaningful P l0 g0) (n : Nat) : (∃ a, Coro.run P n (Coro.init l0 g0) = .next a ∧ Coro.Reach P l0 g0 a) ∨
    (∃ t, Coro.run P n (Coro.init l0 g0) = .done t) ∨ (∃ t, Coro.run P n (Coro.init l0 g0) = .uncaught t) := by
  induction n with
  | zero => exact .inl ⟨_, rfl, .init⟩
  | succ n ih =>
    rcases ih with ⟨s, h, hr⟩ | ⟨t, h⟩ | ⟨t, h⟩
    · rw [coroRun_step h]
      cases e : Coro.step P s with
      | next s' => exact .inl ⟨s', rfl, hr.step e⟩
      | done t => exact .inr (.inl ⟨_, rfl⟩)
      | uncaught t => exact .inr (.inr ⟨_, rfl⟩)
      | stuck => exact absurd e (hm s hr)
    · exact .inr (.inl ⟨t, coroRun_stays n h (by simp)⟩)
    · exact .inr (.inr ⟨t, coroRun_stays n h (by simp)⟩)

/-- C55: the program runs for ever with the library iff it does in the specification. -/
theorem C55_same_divergence (hm : Coro.Meaningful P l0 g0) :
    (∀ n, ∃ s, run P n (init l0 g0) = .next s) ↔ ∀ n, ∃ a, Coro.run P n (Coro.init l0 g0) = .next a := by
  constructor
  · intro h n
    rcases coroRun_cases hm n with ⟨a, e, _⟩ | ⟨t, e⟩ | ⟨t, e⟩
    · exact ⟨a, e⟩
    · obtain ⟨m, t', e', _⟩ := (C55_same_end hm t.g t.obs).2 ⟨n, t, e, rfl, rfl⟩
      obtain ⟨s, h⟩ := h m
      rw [e'] at h; cases h
    · obtain ⟨m, t', e', _⟩ := (C55_same_terminate hm t.g t.obs).2 ⟨n, t, e, rfl, rfl⟩
      obtain ⟨s, h⟩ := h m
      rw [e'] at h; cases h
  · intro h n
    rcases run_cases hm n with ⟨a, e, _⟩ | ⟨t, e⟩ | ⟨t, e⟩
    · exact ⟨a, e⟩
    · obtain ⟨m, t', e', _⟩ := (C55_same_end hm _ _).1 ⟨n, t, e, rfl, rfl⟩
      obtain ⟨s, h⟩ := h m
      rw [e'] at h; cases h
    · obtain ⟨m, t', e', _⟩ := (C55_same_terminate hm _ _).1 ⟨n, t, e, rfl, rfl⟩
      obtain ⟨s, h⟩ := h m
      rw [e'] at h; cases h

/-- Non-trivial case: an endless generator, consumed endlessly; the specification runs for ever, so the library does. -/
example : Coro.Meaningful Tick.P Tick.Pt.start 0 ∧ (∀ n, ∃ a, Coro.run Tick.P n (Coro.init Tick.Pt.start 0) = .next a) ∧
    ∀ n, ∃ s, run Tick.P n (init Tick.Pt.start 0) = .next s :=
  ⟨Tick.meaningful, Tick.forever, (C55_same_divergence Tick.meaningful).2 Tick.forever⟩

/-- C55: a program that ends in the specification has a meaning (so the theorems above apply to it). -/
theorem C55_ends_meaningful {n : Nat} (h : Coro.run P n (Coro.init l0 g0) = .done a ∨ Coro.run P n (Coro.init l0 g0) = .uncaught a) :
    Coro.Meaningful P l0 g0 := by
  intro b hb hs
  obtain ⟨m, hm⟩ := coroRun_of_reach hb
  have h1 : Coro.run P (m + 1) (Coro.init l0 g0) = .stuck := by rw [coroRun_step hm, hs]
  have h2 := coroRun_stays' n h1 (by simp)
  have h3 : Coro.run P (m + 1 + n) (Coro.init l0 g0) = .done a ∨ Coro.run P (m + 1 + n) (Coro.init l0 g0) = .uncaught a := by
    rw [Nat.add_comm]
    rcases h with h | h
    · exact .inl (coroRun_stays' (m + 1) h (by simp))
    · exact .inr (coroRun_stays' (m + 1) h (by simp))
  rw [h2] at h3
  rcases h3 with h | h <;> cases h

/-! ## Concrete cases -/
section
open Code

/-- the program ends normally -/
def Coro.Out.isDone {α : Type} : Coro.Out α → Bool
  | .done _ => true
  | _ => false
/-- the program is left by an exception -/
def Coro.Out.isUncaught {α : Type} : Coro.Out α → Bool
  | .uncaught _ => true
  | _ => false
/-- memory and events at the end -/
def Coro.Out.seen {L G V E : Type} : Coro.Out (Coro.St L G V E) → Option (G × List (Ev V E))
  | .done a | .uncaught a => some (a.g, a.obs)
  | _ => none

theorem meaningful_done {n : Nat} (h : (Coro.run P n (Coro.init l0 g0)).isDone = true) : Coro.Meaningful P l0 g0 := by
  cases hr : Coro.run P n (Coro.init l0 g0) <;> rw [hr] at h <;> simp [Coro.Out.isDone] at h
  exact C55_ends_meaningful (.inl hr)

theorem meaningful_uncaught {n : Nat} (h : (Coro.run P n (Coro.init l0 g0)).isUncaught = true) : Coro.Meaningful P l0 g0 := by
  cases hr : Coro.run P n (Coro.init l0 g0) <;> rw [hr] at h <;> simp [Coro.Out.isUncaught] at h
  exact C55_ends_meaningful (.inr hr)

/-- a generator inside a generator; the inner one is destroyed while suspended, with both its local objects -/
def nestMain : Demo.C :=
  mk .pull .val (fun h => mk .pull .val Demo.gen fun i => guard i (get i fun v => push h (v + 10) (resume i (get i fun w => push h (w + 10) (leave ret)))))
    fun h => get h fun _ => resume h (get h fun _ => op (.valid h) fun _ => op (.destroy h) fun _ => ret)

/-- the program resumes a coroutine whose function has returned -/
def overMain : Demo.C :=
  mk .push .void (fun _ => ret) fun h => op (.push h .unit) fun _ => op (.push h .unit) fun _ => ret

/-- the exception of the coroutine-function leaves main -/
def lostMain : Demo.C := mk .pull .val (fun h => obj 3 (push h 1 (throw 9))) fun h => guard h (resume h (leave ret))

/-- hypotheses of the C55 theorems, for programs with unwinding, nesting, exceptions -/
example : Coro.Meaningful Demo.P Demo.pullMain [] := meaningful_done (n := 60) (by decide +kernel)
example : Coro.Meaningful Demo.P Demo.pushMain [] := meaningful_done (n := 60) (by decide +kernel)
example : Coro.Meaningful Demo.P Demo.fullMain [] := meaningful_done (n := 60) (by decide +kernel)
example : Coro.Meaningful Demo.P Demo.throwMain [] := meaningful_done (n := 60) (by decide +kernel)
example : Coro.Meaningful Demo.P Demo.earlyMain [] := meaningful_done (n := 60) (by decide +kernel)
example : Coro.Meaningful Demo.P nestMain [] := meaningful_done (n := 90) (by decide +kernel)
example : Coro.Meaningful Demo.P lostMain [] := meaningful_uncaught (n := 60) (by decide +kernel)

/-- so it obeys the rules -/
example : Obeys Demo.P nestMain [] := C55_contract (meaningful_done (n := 90) (by decide +kernel))

/-- what the specification says the nested generators do, and so what the library does: the values 1, 11, 2, 12, and the inner
generator's objects 8 and 7 destroyed when the outer one is destroyed (its memory is [8, 7]) -/
example : (Coro.run Demo.P 90 (Coro.init nestMain [])).seen = some ([8, 7],
    [.odtor 2 7, .odtor 2 8, .got 1 12, .pushed 1 12, .got 2 2, .pushed 2 2, .octor 2 8, .got 1 11, .pushed 1 11, .got 2 1, .pushed 2 1,
      .octor 2 7, .enter 2, .enter 1]) := by decide +kernel

example : ∃ n t, run Demo.P n (init nestMain []) = .done t ∧ t.g = [8, 7] ∧ t.log.filter Coro.noticed =
    [.odtor 2 7, .odtor 2 8, .got 1 12, .pushed 1 12, .got 2 2, .pushed 2 2, .octor 2 8, .got 1 11, .pushed 1 11, .got 2 1, .pushed 2 1,
      .octor 2 7, .enter 2, .enter 1] := by
  have hs : (Coro.run Demo.P 90 (Coro.init nestMain [])).isDone = true ∧ (Coro.run Demo.P 90 (Coro.init nestMain [])).seen = some ([8, 7],
    [.odtor 2 7, .odtor 2 8, .got 1 12, .pushed 1 12, .got 2 2, .pushed 2 2, .octor 2 8, .got 1 11, .pushed 1 11, .got 2 1, .pushed 2 1,
      .octor 2 7, .enter 2, .enter 1]) := by decide +kernel
  refine (C55_same_end (meaningful_done hs.1) _ _).2 ?_
  cases hr : Coro.run Demo.P 90 (Coro.init nestMain []) <;> rw [hr] at hs <;> simp [Coro.Out.isDone, Coro.Out.seen] at hs
  exact ⟨90, _, hr, hs.1, hs.2⟩

/-- what a state of the library has to do with that of the specification, on a run: the nested generators after 40 steps -/
example : ∃ a, Coro.Reach Demo.P nestMain [] a ∧ Agree (Demo.stateAt nestMain 40) a :=
  C55_refines (Demo.reachOk nestMain 40 rfl)
/-- … there the stacks of both coroutines are allocated, at the end they have been returned -/
example : nAlloc 1 (Demo.stateAt nestMain 40).log = 1 ∧ nDealloc 1 (Demo.stateAt nestMain 40).log = 0 ∧
    nAlloc 2 (Demo.stateAt nestMain 40).log = 1 ∧ nDealloc 2 (Demo.stateAt nestMain 40).log = 0 ∧
    (run Demo.P 120 (init nestMain [])).verdict = .done ∧ nDealloc 1 (run Demo.P 120 (init nestMain [])).state.log = 1 ∧
    nDealloc 2 (run Demo.P 120 (init nestMain [])).state.log = 1 := by decide +kernel

/-- a program that breaks a rule has no meaning, and with the library no defined behaviour -/
example : ¬ Coro.Meaningful Demo.P overMain [] := by
  intro hm
  have h1 := C32_obeying_programs (C55_contract hm) 60
  have h2 : (run Demo.P 60 (init overMain [])).verdict ≠ .running ∧ (run Demo.P 60 (init overMain [])).verdict ≠ .done ∧
      (run Demo.P 60 (init overMain [])).verdict ≠ .uncaught := by decide +kernel
  rcases run_cases hm 60 with ⟨s, e, _⟩ | ⟨t, e⟩ | ⟨t, e⟩ <;> rw [e] at h2 <;> simp [Out.verdict] at h2

end
end Verif
