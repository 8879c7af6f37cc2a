import Verif.Destroy
import Verif.Mem
import Verif.PropsLife

/-!
# Destroying coroutines: C13, C14, C38, C45

In all theorems the object `h` of coroutine `c` is destroyed in state `s` (`Ends`): by an explicit destructor call, by leaving its
scope, by an exception or a return passing its scope.  `fs` and `x` are the stack and the control point of the destroying context
right after the destructor has returned.
-/
namespace Verif
variable {L G V E : Type}
variable {P : Prog L G V E} {l0 : L} {g0 : G} {s : St L G V E} {h c : Nat} {ty : Kind}
variable {fs : List (Frame L V E)} {x : Ctl L V E}

/-- The destructor has returned: the destroying context continues as it should, nothing but cleaning up has been done (`evs`), the
object is gone, shared memory has been changed by the destructors that ran and by nothing else, and the stack of `c` has been given back. -/
structure Cleaned (P : Prog L G V E) (s s' : St L G V E) (h c : Nat) (fs : List (Frame L V E)) (x : Ctl L V E)
    (evs : List (Ev V E)) : Prop where
  runs : CallRuns P s s'
  cur : s'.cur = s.cur
  stack : s'.frames s.cur = fs
  ctl : s'.ctl = x
  log : s'.log = evs ++ s.log
  only : OnlyCleanup evs
  mem : s'.g = effects P evs s.g
  object : s'.hs h = none
  returned : nDealloc c s'.log = 1

namespace Aux

theorem callRuns_reach {s' : St L G V E} (hr : Reach P l0 g0 s) (h : CallRuns P s s') : Later P s s' ∧ Reach P l0 g0 s' := by
  obtain ⟨s1, e, hn⟩ := h
  have := (Later.step .refl e).trans hn.later
  exact ⟨this, this.reach hr⟩

theorem slotEv_tdtor {s : St L G V E} {c : Nat} : ∀ e ∈ slotEv s c, e = .tdtor c := by
  unfold slotEv; split <;> simp

theorem filterMap_filter {α β : Type} (f : α → Option β) (p : α → Bool) (h : ∀ a, p a = false → f a = none) (l : List α) :
    (l.filter p).filterMap f = l.filterMap f := by
  induction l with
  | nil => rfl
  | cons a t ih =>
    rw [List.filter_cons]
    split
    · rw [List.filterMap_cons, List.filterMap_cons, ih]
    · rename_i hp
      rw [List.filterMap_cons, h a (by simpa using hp)]
      exact ih

theorem destroyedIn_filter {kd : Nat → Kind} {c : Nat} (evs : List (Ev V E)) :
    destroyedIn c evs = destroyedIn c (evs.filter (ctxEv kd c)) := by
  unfold destroyedIn
  rw [← List.filter_reverse, filterMap_filter]
  intro e he
  cases e <;> simp_all [ctxEv, odtorOf]

theorem destroyedIn_append {c : Nat} (a b : List (Ev V E)) : destroyedIn c (a ++ b) = destroyedIn c b ++ destroyedIn c a := by
  simp [destroyedIn]

theorem destroyedIn_rest {c : Nat} (l : List (Ev V E)) (h : ∀ e ∈ l, ∀ i o, e ≠ .odtor i o) : destroyedIn c l = [] := by
  unfold destroyedIn
  rw [List.filterMap_eq_nil_iff]
  intro e he
  have := h e (List.mem_reverse.1 he)
  cases e <;> first | rfl | exact absurd rfl (this _ _)

theorem filterMap_odtor (c : Nat) (l : List Nat) :
    (l.map (Ev.odtor c : Nat → Ev V E)).filterMap (odtorOf c) = l := by
  induction l with
  | nil => rfl
  | cons a t ih => simp [ih, odtorOf]

theorem filterMap_rest (c : Nat) (l : List (Ev V E)) (h : ∀ e ∈ l, ∀ i o, e ≠ .odtor i o) :
    l.filterMap (odtorOf c) = [] := by
  rw [List.filterMap_eq_nil_iff]
  intro e he
  have := h e he
  cases e <;> first | rfl | exact absurd rfl (this _ _)

/-- what follows the destruction of the locals -/
theorem expected_split (s : St L G V E) (c : Nat) : ∃ rest, expected s c = (locals (s.frames c)).map (Ev.odtor c) ++ rest ∧
    ∀ e ∈ rest, ∀ i o, e ≠ .odtor i o := by
  unfold expected
  refine ⟨_, rfl, ?_⟩
  intro e he i o
  rintro rfl
  revert he
  unfold expT expF
  cases s.base c <;> simp <;> (try split) <;> (try split) <;> simp

theorem destroyed_locals {s : St L G V E} {c : Nat} {evs : List (Ev V E)}
    (h : (evs.filter (ctxEv s.kind c)).reverse = expected s c) : destroyedIn c evs = locals (s.frames c) := by
  rw [destroyedIn_filter (kd := s.kind)]
  obtain ⟨rest, h1, h2⟩ := expected_split s c
  unfold destroyedIn
  rw [h, h1, List.filterMap_append, filterMap_odtor, filterMap_rest c rest h2, List.append_nil]

theorem _root_.Verif.Destroyed.all {s' : St L G V E} {evs : List (Ev V E)} (hd : Destroyed s s' h c fs x evs) :
    s'.log = (evs ++ .unwind s.cur c :: slotEv s c) ++ s.log ∧ OnlyCleanup (evs ++ .unwind s.cur c :: slotEv s c) ∧
    ∀ d, destroyedIn d (evs ++ .unwind s.cur c :: slotEv s c) = destroyedIn d evs := by
  refine ⟨by rw [hd.log]; simp, ?_, ?_⟩
  · intro e he
    rcases List.mem_append.1 he with he | he
    · have := hd.unw e he
      cases e <;> simp_all [unwEv]
    · rcases List.mem_cons.1 he with rfl | he
      · trivial
      · rw [slotEv_tdtor e he]; trivial
  · intro d
    rw [destroyedIn_append, destroyedIn_rest, List.nil_append]
    intro e he i o
    rcases List.mem_cons.1 he with rfl | he
    · simp
    · rw [slotEv_tdtor e he]; simp

theorem dealloc_of_gone {s' : St L G V E} (hr : Reach P l0 g0 s') {d : Nat} (hcr : nCreated d s'.log ≠ 0) (hb : s'.base d = .none) :
    nDealloc d s'.log = 1 := by
  have := life_reach hr d
  rw [hb] at this
  simp only [LifeOk] at this
  split at this
  · rcases this with ⟨_, _, h⟩ | ⟨_, _, n, m, _, _, h⟩
    · exact absurd h.cr hcr
    · exact h.de
  · exact absurd this.2.2.cr hcr

theorem created_of_alive (hr : Reach P l0 g0 s) {d : Nat} (hb : s.base d ≠ .none) (h0 : d ≠ 0) : nCreated d s.log = 1 := by
  have hl := life_reach hr d
  have hm := (inv_reach hr).sched.main_iff d
  generalize s.base d = b at hl hb hm
  cases b <;> simp only [LifeOk] at hl
  case none => exact absurd rfl hb
  case main => exact absurd (hm.1 rfl) h0
  case fresh => exact hl.2.2.cr
  case pushEntry => exact hl.2.2.cr
  case inFn => exact hl.2.2.cr
  case final => exact hl.2.2.cr
  case lamA => rcases hl.2 with ⟨_, h⟩ | ⟨_, m, _, h⟩ <;> exact h.cr
  case lamB => rcases hl.2 with ⟨_, h⟩ | ⟨_, m, _, h⟩ <;> exact h.cr

theorem gone_returned {s' : St L G V E} (hr : Reach P l0 g0 s) (hl : Later P s s') {d : Nat}
    (ha : (s.cbs ⟨d, .own⟩).life = .alive) (hb : s'.base d = .none) : nDealloc d s'.log = 1 := by
  have hi := inv_reach hr
  have h0 : d ≠ 0 := by rintro rfl; rw [hi.cb.unborn 0 .own (.inl rfl)] at ha; cases ha
  have hb0 : s.base d ≠ .none := fun h => (hi.cb.none_life d .own h).1 ha
  have h1 := created_of_alive hr hb0 h0
  have h2 : nCreated d s.log ≤ nCreated d s'.log := count_mono (hl.log hr)
  exact dealloc_of_gone (hl.reach hr) (by omega) hb

theorem cleaned {s' : St L G V E} {evs : List (Ev V E)} {hdl : Handle} (hr : Reach P l0 g0 s) (hrun : CallRuns P s s')
    (hd : Destroyed s s' h c fs x evs) (he : Ends P s h fs x) (hh : s.hs h = some hdl) (hcb : hdl.cb = some ⟨c, .own⟩) :
    Cleaned P s s' h c fs x (evs ++ .unwind s.cur c :: slotEv s c) := by
  obtain ⟨h1, h2, -⟩ := hd.all
  have hal := ((inv_reach hr).hok.own h hdl c hh hcb).1
  exact ⟨hrun, hd.cur, hd.frames, hd.ctl, h1, h2, hrun.mem_of hr he.notComputes h1, hd.gone, gone_returned hr (callRuns_reach hr hrun).1 hal hd.dead⟩

theorem ends_suspended (hru : Rules P s) (he : Ends P s h fs x) (hh : Refers s h ty (some ⟨c, .own⟩)) : Suspended c s.log := by
  have : Destroys P s h := by
    cases he with
    | api h => exact .api h
    | leave h1 h2 h3 => exact .leave h1 h2 h3
    | raise h1 h2 => exact .raise h1 h2
    | ret h1 h2 => exact .ret h1 h2
  obtain ⟨hd, h1, h2, -⟩ := hru.destroy h this
  obtain ⟨hd', h3, -, h5⟩ := hh
  rw [h1] at h3; cases h3
  exact h2 c h5

end Aux
open Aux

/-! ## C13 -/

/-- C13, for every program: when the object of a suspended coroutine is destroyed, the destructors of all live local objects of the
function run, each once, in reverse order of construction, before the destructor returns; no other code of any function runs
(`CallRuns`).  Otherwise the program crashes during the unwinding. -/
theorem C13_locals_destroyed (hr : Reach P l0 g0 s) (he : Ends P s h fs x) (hh : Refers s h ty (some ⟨c, .own⟩))
    (hs : Suspended c s.log) :
    (∃ s' evs, Cleaned P s s' h c fs x evs ∧ destroyedIn c evs = liveObjs c s.log) ∨ CallCrashes P s := by
  obtain ⟨hdl, h1, -, h3⟩ := hh
  have hi := inv_reach hr
  have hf := held_own hr hs (hi.hok.own h hdl c h1 h3).1 (he.calm hi).2.2
  rcases destroy_done hr he h1 h3 hf with ⟨s', evs, hrun, hd⟩ | hc
  · left
    refine ⟨s', _, cleaned hr hrun hd he h1 h3, ?_⟩
    rw [hd.all.2.2, destroyed_locals hd.evc, (obj_reach hr).live]
  · exact .inr hc

/-- C13, for programs obeying the rules: the destructor returns. -/
theorem C13_locals_destroyed_rules (hk : ReachOk P l0 g0 s) (hc : CallOk P s) (he : Ends P s h fs x)
    (hh : Refers s h ty (some ⟨c, .own⟩)) :
    ∃ s' evs, Cleaned P s s' h c fs x evs ∧ destroyedIn c evs = liveObjs c s.log := by
  rcases C13_locals_destroyed hk.reach he hh (ends_suspended hc.1 he hh) with h | h
  · exact h
  · exact absurd h (C32_calls_do_not_crash hk hc)

open Demo in
/-- Non-trivial case: the generator is destroyed with two live local objects, 7 and then 8. -/
example : ReachOk Demo.P pullMain [] (stateAt pullMain 18) ∧ CallOk Demo.P (stateAt pullMain 18) ∧
    Ends Demo.P (stateAt pullMain 18) 1 [] (.eval Code.ret) ∧
    Refers (stateAt pullMain 18) 1 .pull (some ⟨1, .own⟩) ∧ Suspended 1 (stateAt pullMain 18).log ∧
    liveObjs 1 (stateAt pullMain 18).log = [8, 7] :=
  ⟨reachOk _ _ rfl, (obeys _ 40 rfl).callOk (reach _ _ rfl), .api (k := fun _ => Code.ret) ⟨_, rfl, rfl⟩, ⟨_, rfl, rfl, rfl⟩,
    ⟨_, rfl⟩, rfl⟩

/-! ## C14 -/

namespace Aux

theorem nested_gone {s' : St L G V E} {evs : List (Ev V E)} (hr : Reach P l0 g0 s) (hl : Later P s s') (he : Ends P s h fs x)
    (hd : Destroyed s s' h c fs x evs) {i d : Nat} (hn : Nested s i d) (hi : s'.base i = .none) :
    s'.base d = .none ∧ d ≠ s.cur ∧ (s.cbs ⟨d, .own⟩).life = .alive ∧ (∀ y ty, ¬ Refers s' y ty (some ⟨d, .own⟩)) := by
  have key : ∀ {i d y : Nat} {ty : Kind}, (y ∈ coLocals (s.frames i) ∨ (s.base i).sink = some y) → Refers s y ty (some ⟨d, .own⟩) →
      Suspended d s.log → s'.base i = .none → s'.base d = .none ∧ d ≠ s.cur ∧ (s.cbs ⟨d, .own⟩).life = .alive ∧
      (∀ y ty, ¬ Refers s' y ty (some ⟨d, .own⟩)) := by
    intro i d y ty h1 h2 h3 hi
    obtain ⟨hdl, a, -, b⟩ := h2
    obtain ⟨g1, g2, g3⟩ := hd.nested hr hl he hi h1 a b h3
    refine ⟨g2, g3, ((inv_reach hr).hok.own y hdl d a b).1, ?_⟩
    rintro z _ ⟨hz, e1, -, e2⟩
    have := ((inv_reach (hl.reach hr)).hok.own z hz d e1 e2).1
    exact ((inv_reach (hl.reach hr)).cb.none_life d .own g2).1 this
  induction hn with
  | one h1 h2 h3 => exact key (.inl h1) h2 h3 hi
  | param h1 h2 h3 => exact key (.inr h1) h2 h3 hi
  | trans _ _ ih1 ih2 => exact ih2 (ih1 hi).1

theorem nested_cleaned {s' : St L G V E} {evs : List (Ev V E)} (hr : Reach P l0 g0 s) (hrun : CallRuns P s s')
    (hd : Destroyed s s' h c fs x evs) (he : Ends P s h fs x) {d : Nat} (hn : Nested s c d) :
    destroyedIn d (evs ++ .unwind s.cur c :: slotEv s c) = liveObjs d s.log ∧ nDealloc d s'.log = 1 ∧
      ∀ y ty, ¬ Refers s' y ty (some ⟨d, .own⟩) := by
  have hi := inv_reach hr
  have hl := (callRuns_reach hr hrun).1
  obtain ⟨g1, g2, g3, g4⟩ := nested_gone hr hl he hd hn hd.dead
  refine ⟨?_, gone_returned hr hl g3 g1, g4⟩
  rw [hd.all.2.2, (obj_reach hr).live]
  rcases hd.fate d g2 with ⟨h4, -⟩ | ⟨-, -, h4⟩
  · exact absurd g3 (hi.cb.none_life d .own (by rw [← h4.2.1]; exact g1)).1
  · exact destroyed_locals h4

end Aux

/-- C14, for every program: destroying the object of a suspended coroutine also destroys every coroutine nested in it (to any
depth): its local objects are destroyed in reverse order, its stack is returned, no object owns it any more; and then the
destructor returns.  Otherwise the program crashes during the unwinding (which is finite in any case). -/
theorem C14_nested (hr : Reach P l0 g0 s) (he : Ends P s h fs x) (hh : Refers s h ty (some ⟨c, .own⟩)) (hs : Suspended c s.log) :
    (∃ s' evs, Cleaned P s s' h c fs x evs ∧ ∀ d, Nested s c d →
      destroyedIn d evs = liveObjs d s.log ∧ nDealloc d s'.log = 1 ∧ ∀ y ty, ¬ Refers s' y ty (some ⟨d, .own⟩)) ∨
    CallCrashes P s := by
  obtain ⟨hdl, h1, -, h3⟩ := hh
  have hi := inv_reach hr
  have hf := held_own hr hs (hi.hok.own h hdl c h1 h3).1 (he.calm hi).2.2
  rcases destroy_done hr he h1 h3 hf with ⟨s', evs, hrun, hd⟩ | hc
  · left
    exact ⟨s', _, cleaned hr hrun hd he h1 h3, fun d hn => nested_cleaned hr hrun hd he hn⟩
  · exact .inr hc

namespace Aux

theorem parkedNoCtor (hi : Inv s) {b k : Nat} (hf : s.fib (.cb ⟨b, .own⟩) = some b)
    (h : Frame.pullCtor k ∈ s.frames b ∨ Frame.pushCtor k ∈ s.frames b) : False := by
  have hsw := hi.sched.sus b (hi.sched.fib_ok _ _ hf).1 (hi.sched.fib_ok _ _ hf).2
  have hch := hi.sched.chan _ _ hf
  have hU : ∀ {fs : List (Frame L V E)}, okU fs = true → Frame.pullCtor k ∈ fs ∨ Frame.pushCtor k ∈ fs → False := by
    intro fs hu hm
    unfold okU at hu
    rw [List.all_eq_true] at hu
    rcases hm with hm | hm <;> have := hu _ hm <;> simp [Frame.isU] at this
  have hUsr : ∀ {fs : List (Frame L V E)}, okUsr fs = true → Frame.pullCtor k ∈ fs ∨ Frame.pushCtor k ∈ fs → False := by
    intro fs hu hm
    cases fs with
    | nil => simp at hm
    | cons f t => cases f <;> simp [okUsr] at hu; exact hU hu (by simpa using hm)
  generalize s.frames b = fs at *
  cases fs with
  | nil => simp at h
  | cons f t =>
    cases f <;> simp [okSw] at hsw
    case asg r =>
      simp only [List.mem_cons, reduceCtorEq, false_or] at h
      cases t with
      | nil => simp at h
      | cons f t =>
        have h1 := hsw.1
        cases f <;> simp [okPost] at h1
        case usr => exact hU h1 (by simpa using h)
        all_goals exact hUsr h1 (by simpa using h)
    case pullCtor => simp [hole] at hch
    case pushCtor => simp [hole] at hch
    case wait => simp [hole] at hch

/-- under the rules only nested coroutines are destroyed -/
theorem falls_nested (hk : ReachOk P l0 g0 s) (hc : s.fib (.cb ⟨c, .own⟩) = some c) {i : Nat} (hf : Falls s c i) :
    (i = c ∨ Nested s c i) ∧ s.fib (.cb ⟨i, .own⟩) = some i := by
  have hi := inv_reach hk.reach
  have hj := jinv_reach hk.reach
  obtain ⟨rest, d⟩ := disc_reach hk
  have sus : ∀ {k}, s.fib (.cb ⟨k, .own⟩) = some k → Suspended k s.log := fun h => hj.held _ _ h
  induction hf with
  | self => exact ⟨.inl rfl, hc⟩
  | @next b t r _ hd ht ih =>
    obtain ⟨ih1, ih2⟩ := ih
    have cons : ∀ {k}, Nested s b k → k = c ∨ Nested s c k := by
      intro k h
      rcases ih1 with rfl | h'
      · exact .inr h
      · exact .inr (h'.trans h)
    cases hd with
    | obj h1 h2 h3 =>
      obtain ⟨rfl, -⟩ := d.ownHolds hi ht
      exact ⟨cons (.one h1 ⟨_, h2, rfl, h3⟩ (sus ht)), ht⟩
    | ctor h1 => exact (parkedNoCtor hi ih2 h1).elim
    | sink h1 h2 h3 =>
      obtain ⟨rfl, -⟩ := d.ownHolds hi ht
      exact ⟨cons (.param h1 ⟨_, h2, rfl, h3⟩ (sus ht)), ht⟩
    | syn => exact absurd (d.synHolds hi ht).2.1 (d.ownHolds hi ih2).2

theorem countP_ctxEv {kd : Nat → Kind} {d : Nat} {evs : List (Ev V E)} (h : evs.filter (ctxEv kd d) = []) : nDealloc d evs = 0 := by
  unfold nDealloc
  rw [List.countP_eq_zero]
  intro e he hd
  rw [List.filter_eq_nil_iff] at h
  have := h e he
  cases e <;> simp_all [Ev.isDealloc, ctxEv]

/-- nothing happens to a coroutine that is not nested in the one destroyed -/
theorem untouched {s' : St L G V E} {evs : List (Ev V E)} (hk : ReachOk P l0 g0 s) (hc : s.fib (.cb ⟨c, .own⟩) = some c)
    (hd : Destroyed s s' h c fs x evs) {d : Nat} (hdc : d ≠ c) (hn : ¬ Nested s c d) :
    evs.filter (ctxEv s.kind d) = [] ∧ (d ≠ s.cur → s'.frames d = s.frames d) := by
  have hi := inv_reach hk.reach
  by_cases hcur : d = s.cur
  · subst hcur; exact ⟨hd.here.1, fun h => absurd rfl h⟩
  rcases hd.fate d hcur with ⟨h1, h2⟩ | ⟨h1, h2, h3⟩
  · exact ⟨h2, fun _ => h1.1⟩
  · by_cases hb : s.base d = .none
    · have hfr := hi.sched.dead_frames d hb
      refine ⟨?_, fun _ => by rw [h2, hfr]⟩
      rw [← List.reverse_eq_nil_iff, h3]
      simp [expected, hfr, hb, locals]
    · rcases (falls_nested hk hc (hd.falls d hb h1)).1 with h | h
      · exact absurd h hdc
      · exact absurd h hn

end Aux

/-- C14, for programs obeying the rules: the unwinding always completes.  And it goes no further: no other coroutine loses a local
object, its stack, or anything on its stack. -/
theorem C14_nested_rules (hk : ReachOk P l0 g0 s) (hc : CallOk P s) (he : Ends P s h fs x) (hh : Refers s h ty (some ⟨c, .own⟩)) :
    ∃ s' evs, Cleaned P s s' h c fs x evs ∧ (∀ d, Nested s c d →
      destroyedIn d evs = liveObjs d s.log ∧ nDealloc d s'.log = 1 ∧ ∀ y ty, ¬ Refers s' y ty (some ⟨d, .own⟩)) ∧
      destroyedIn c evs = liveObjs c s.log ∧
      ∀ d, d ≠ c → ¬ Nested s c d →
        destroyedIn d evs = [] ∧ nDealloc d s'.log = nDealloc d s.log ∧ (d ≠ s.cur → s'.frames d = s.frames d) := by
  have hs := ends_suspended hc.1 he hh
  obtain ⟨hdl, h1, -, h3⟩ := hh
  have hr := hk.reach
  have hi := inv_reach hr
  have hf := held_own hr hs (hi.hok.own h hdl c h1 h3).1 (he.calm hi).2.2
  rcases destroy_done hr he h1 h3 hf with ⟨s', evs, hrun, hd⟩ | hcr
  · refine ⟨s', _, cleaned hr hrun hd he h1 h3, ?_, ?_, ?_⟩
    · exact fun d hn => nested_cleaned hr hrun hd he hn
    · rw [hd.all.2.2, (obj_reach hr).live, destroyed_locals hd.evc]
    · intro d hdc hn
      obtain ⟨h4, h5⟩ := untouched hk hf hd hdc hn
      refine ⟨?_, ?_, h5⟩
      · rw [hd.all.2.2, destroyedIn_filter (kd := s.kind), h4]; rfl
      · rw [hd.log]
        have h6 := countP_ctxEv h4
        unfold nDealloc at *
        rw [List.countP_append, h6, Nat.zero_add, List.countP_cons, List.countP_append]
        have : List.countP (Ev.isDealloc d) (slotEv s c) = 0 := by
          rw [List.countP_eq_zero]
          intro e he
          rw [slotEv_tdtor e he]; simp [Ev.isDealloc]
        rw [this]; simp [Ev.isDealloc]
  · exact absurd hcr (C32_calls_do_not_crash hk hc)

namespace Demo
open Code

/-- A generator with a local generator. -/
def nestMain : C :=
  mk .pull .val (fun h => obj 4 (mk .pull .val (fun h => obj 5 (push h 10 (push h 11 ret))) fun i =>
    guard i (push h 1 (push h 2 (leave ret))))) fun h => op (.destroy h) fun _ => ret

end Demo

open Demo in
/-- Non-trivial case: main destroys the outer generator (coroutine 1), whose function owns the inner one (coroutine 2). -/
example : ReachOk Demo.P nestMain [] (stateAt nestMain 13) ∧ CallOk Demo.P (stateAt nestMain 13) ∧
    Ends Demo.P (stateAt nestMain 13) 3 [] (.eval Code.ret) ∧ Refers (stateAt nestMain 13) 3 .pull (some ⟨1, .own⟩) ∧
    Nested (stateAt nestMain 13) 1 2 ∧ liveObjs 2 (stateAt nestMain 13).log = [5] ∧ nDealloc 2 (stateAt nestMain 13).log = 0 :=
  ⟨reachOk _ _ rfl, (obeys _ 40 rfl).callOk (reach _ _ rfl), .api (k := fun _ => Code.ret) ⟨_, rfl, rfl⟩, ⟨_, rfl, rfl, rfl⟩,
    .one (h := 2) (by decide) ⟨_, rfl, rfl, rfl⟩ ⟨_, rfl⟩, rfl, rfl⟩

namespace Demo
open Code

/-- The same with a further generator (coroutine 1) that main keeps. -/
def nestMain2 : C :=
  mk .pull .val (fun h => obj 9 (push h 20 (push h 21 (leave ret)))) fun g =>
    mk .pull .val (fun h => obj 4 (mk .pull .val (fun h => obj 5 (push h 10 (push h 11 ret))) fun i =>
      guard i (push h 1 (push h 2 (leave ret))))) fun h => op (.destroy h) fun _ => op (.destroy g) fun _ => ret

theorem nest2_nested {c d : Nat} (h : Nested (stateAt nestMain2 19) c d) : (c = 2 → d = 3) ∧ c ≠ 3 := by
  induction h with
  | @one c d h ty h1 h2 h3 =>
    obtain ⟨hd, h4, -, h5⟩ := h2
    refine ⟨?_, ?_⟩
    · rintro rfl
      have : h = 4 := by simpa [coLocals] using (show h ∈ [4] from h1)
      subst this
      have h6 : (stateAt nestMain2 19).hs 4 = some ⟨.pull, .val, some ⟨3, .own⟩⟩ := rfl
      rw [h6] at h4; cases h4; cases h5; rfl
    · rintro rfl
      exact absurd (show h ∈ ([] : List Nat) from h1) (by simp)
  | @param c d h ty h1 h2 h3 =>
    obtain ⟨hd, h4, -, h5⟩ := h2
    refine ⟨?_, ?_⟩
    · rintro rfl
      have : some 2 = some h := h1
      cases this
      have h6 : (stateAt nestMain2 19).hs 2 = some ⟨.push, .val, some ⟨2, .syn⟩⟩ := rfl
      rw [h6] at h4; cases h4; cases h5
    · rintro rfl
      have : some 3 = some h := h1
      cases this
      have h6 : (stateAt nestMain2 19).hs 3 = some ⟨.push, .val, some ⟨3, .syn⟩⟩ := rfl
      rw [h6] at h4; cases h4; cases h5
  | trans _ _ ih1 ih2 => exact ⟨fun h => absurd (ih1.1 h) ih2.2, ih1.2⟩

end Demo

open Demo in
/-- Non-trivial case: the destroyed coroutine 2 has the nested coroutine 3; coroutine 1, with its local object 9, is not nested. -/
example : ReachOk Demo.P nestMain2 [] (stateAt nestMain2 19) ∧ CallOk Demo.P (stateAt nestMain2 19) ∧
    Ends Demo.P (stateAt nestMain2 19) 5 [] (.eval (Code.op (.destroy 1) fun _ => Code.ret)) ∧
    Refers (stateAt nestMain2 19) 5 .pull (some ⟨2, .own⟩) ∧
    Nested (stateAt nestMain2 19) 2 3 ∧ ¬ Nested (stateAt nestMain2 19) 2 1 ∧ liveObjs 1 (stateAt nestMain2 19).log = [9] :=
  ⟨reachOk _ _ rfl, (obeys _ 60 rfl).callOk (reach _ _ rfl), .api (k := fun _ => Code.op (.destroy 1) fun _ => Code.ret) ⟨_, rfl, rfl⟩,
    ⟨⟨.pull, .val, some ⟨2, .own⟩⟩, rfl, rfl, rfl⟩, .one (h := 4) (by decide) ⟨_, rfl, rfl, rfl⟩ ⟨_, rfl⟩, fun h => absurd ((nest2_nested h).1 rfl) (by decide), rfl⟩

/-! ## C38 -/

/-- C38, for every program: destroying a coroutine whose function has ended runs no code of any function and no destructor of any
local of it, and returns its stack.  (An object the coroutine is still suspended under: `Suspended`; a completed coroutine is
always suspended, unless it was resumed once more, which is a crash, `C33_completed_pull`.) -/
theorem C38_completed (hr : Reach P l0 g0 s) (he : Ends P s h fs x) (hh : Refers s h ty (some ⟨c, .own⟩)) (hfin : nFin c s.log ≠ 0)
    (hs : Suspended c s.log) :
    (∃ s' evs, Cleaned P s s' h c fs x evs ∧ destroyedIn c evs = []) ∨ CallCrashes P s := by
  have hlo : liveObjs c s.log = [] := by
    obtain ⟨hdl, h1, -, h3⟩ := hh
    have hi := inv_reach hr
    have hf := held_own hr hs (hi.hok.own h hdl c h1 h3).1 (he.calm hi).2.2
    rw [(obj_reach hr).live, (completed_parked hr hfin hf).2.2.1]; rfl
  have := C13_locals_destroyed hr he hh hs
  rw [hlo] at this
  exact this

/-- C38: the same for a push coroutine that was never called. -/
theorem C38_never_entered (hr : Reach P l0 g0 s) (hu : UserRuns s) (he : Ends P s h fs x) (hh : Refers s h ty (some ⟨c, .own⟩))
    (hn : nEnter c s.log = 0) :
    (∃ s' evs, Cleaned P s s' h c fs x evs ∧ destroyedIn c evs = [] ∧ nEnter c s'.log = 0) ∨ CallCrashes P s := by
  obtain ⟨hdl, h1, -, h3⟩ := hh
  have hi := inv_reach hr
  obtain ⟨-, hf, -, hfr⟩ := unentered_push hr hu (hi.hok.own h hdl c h1 h3).1 hn
  rcases destroy_done hr he h1 h3 hf with ⟨s', evs, hrun, hd⟩ | hc
  · left
    refine ⟨s', _, cleaned hr hrun hd he h1 h3, ?_, ?_⟩
    · rw [hd.all.2.2, destroyed_locals hd.evc, hfr]; rfl
    · rw [hd.all.1]
      unfold nEnter at *
      rw [List.countP_append, hn, List.countP_eq_zero.2]
      intro e he
      have := hd.all.2.1 e he
      cases e <;> simp_all [Ev.isEnter]
  · exact .inr hc

/-- C38, for programs obeying the rules: the destructor returns, in both cases. -/
theorem C38_rules (hk : ReachOk P l0 g0 s) (hc : CallOk P s) (he : Ends P s h fs x)
    (hh : Refers s h ty (some ⟨c, .own⟩)) (hn : nFin c s.log ≠ 0 ∨ (UserRuns s ∧ nEnter c s.log = 0)) :
    ∃ s' evs, Cleaned P s s' h c fs x evs ∧ destroyedIn c evs = [] ∧ nEnter c s'.log = nEnter c s.log := by
  have hnc := C32_calls_do_not_crash hk hc
  rcases hn with hn | ⟨hu, hn⟩
  · rcases C38_completed hk.reach he hh hn (ends_suspended hc.1 he hh) with ⟨s', evs, h1, h2⟩ | h
    · refine ⟨s', evs, h1, h2, ?_⟩
      have hle := life_facts hk.reach c
      have hle' := life_facts (callRuns_reach hk.reach h1.runs).2 c
      have : nEnter c s.log ≤ nEnter c s'.log := count_mono ⟨_, h1.log⟩
      omega
    · exact absurd h hnc
  · rcases C38_never_entered hk.reach hu he hh hn with ⟨s', evs, h1, h2, h3⟩ | h
    · exact ⟨s', evs, h1, h2, by rw [h3, hn]⟩
    · exact absurd h hnc

open Demo in
/-- Non-trivial case: the generator has run to its end; main destroys it. -/
example : ReachOk Demo.P fullMain [] (stateAt fullMain 33) ∧ CallOk Demo.P (stateAt fullMain 33) ∧
    Ends Demo.P (stateAt fullMain 33) 1 [] (.eval Code.ret) ∧ Refers (stateAt fullMain 33) 1 .pull (some ⟨1, .own⟩) ∧
    nFin 1 (stateAt fullMain 33).log = 1 ∧ Suspended 1 (stateAt fullMain 33).log :=
  ⟨reachOk _ _ rfl, (obeys _ 50 rfl).callOk (reach _ _ rfl), .api (k := fun _ => Code.ret) ⟨_, rfl, rfl⟩, ⟨_, rfl, rfl, rfl⟩,
    rfl, ⟨_, rfl⟩⟩

namespace Demo
open Code
/-- A push coroutine that is destroyed without having been called. -/
def lazyMain : C := mk .push .val (fun h => obj 7 (get h fun _ => ret)) fun h => op (.destroy h) fun _ => ret
end Demo

open Demo in
/-- Non-trivial case: never entered. -/
example : ReachOk Demo.P lazyMain [] (stateAt lazyMain 4) ∧ CallOk Demo.P (stateAt lazyMain 4) ∧
    Ends Demo.P (stateAt lazyMain 4) 1 [] (.eval Code.ret) ∧ Refers (stateAt lazyMain 4) 1 .push (some ⟨1, .own⟩) ∧
    nEnter 1 (stateAt lazyMain 4).log = 0 ∧ UserRuns (stateAt lazyMain 4) :=
  ⟨reachOk _ _ rfl, (obeys _ 50 rfl).callOk (reach _ _ rfl), .api (k := fun _ => Code.ret) ⟨_, rfl, rfl⟩, ⟨_, rfl, rfl, rfl⟩,
    rfl, ⟨_, rfl⟩⟩

/-! ## C45 -/

/-- When the value is destroyed: first for a pull coroutine, last for a push coroutine. -/
def slotOrder (ty : Kind) (c : Nat) (objs : List Nat) : List (Ev V E) :=
  match ty with
  | .pull => .tdtor c :: objs.map (.odtor c)
  | .push => objs.map (.odtor c) ++ [.tdtor c]

namespace Aux

theorem destructions_append {c : Nat} (a b : List (Ev V E)) : destructions c (a ++ b) = destructions c b ++ destructions c a := by
  simp [destructions]

theorem filter_filter_imp {α : Type} (p q : α → Bool) (l : List α) (h : ∀ a ∈ l, q a = true → p a = true) :
    l.filter q = (l.filter p).filter q := by
  rw [List.filter_filter]
  apply List.filter_congr
  intro a ha
  have := h a ha
  cases hq : q a <;> simp_all

theorem filter_map_odtor (c : Nat) (l : List Nat) :
    (l.map (Ev.odtor c : Nat → Ev V E)).filter (isDestruction c) = l.map (Ev.odtor c) := by
  rw [List.filter_eq_self]
  intro e he
  obtain ⟨o, _, rfl⟩ := List.mem_map.1 he
  simp [isDestruction]

/-- what is destroyed on the stack of a parked coroutine -/
theorem expected_destr (hr : Reach P l0 g0 s) {c : Nat} (hf : s.fib (.cb ⟨c, .own⟩) = some c) :
    (expected s c).filter (isDestruction c) = (locals (s.frames c)).map (Ev.odtor c) ++ expT s c := by
  have hi := inv_reach hr
  obtain ⟨hne, hlive⟩ := hi.sched.fib_ok _ _ hf
  have hch := hi.sched.chan _ _ hf
  have hsw := hi.sched.sus c hne hlive
  have h0 : s.base c ≠ .main := by
    intro h
    have := (hi.sched.main_iff c).1 h
    subst this
    have := hi.cb.full_alive _ _ hf
    rw [hi.cb.unborn 0 .own (.inl rfl)] at this; cases this
  have hfresh : (s.base c).isFresh = false := by
    cases h : (s.base c).isFresh
    · rfl
    · exact absurd (hi.sched.fresh_cur c h) hne
  have hlam : (s.base c).isLam = false := by
    cases hb : s.base c <;> try rfl
    all_goals
      exfalso
      rw [hb] at hch hsw
      cases hfr : s.frames c with
      | nil => rw [hfr] at hch; simp [hole] at hch
      | cons f t =>
        rw [hfr] at hch hsw
        cases f <;> simp [hole, okSw, Base.isBody] at hch hsw
  have hT : (expT s c).filter (isDestruction c) = expT s c := by
    unfold expT; split <;> simp [isDestruction]
  have hF : (expF s c).filter (isDestruction c) = [] := by
    unfold expF; split <;> simp [isDestruction]
  unfold expected
  rw [List.filter_append, filter_map_odtor]
  congr 1
  generalize s.base c = b at *
  cases b
  case none => exact absurd rfl hlive
  case main => exact absurd rfl h0
  case fresh => cases hfresh
  case lamA | lamB => cases hlam
  case inFn =>
    rw [List.filter_cons_of_neg (by simp [isDestruction]), List.filter_append, hT]
    simp [isDestruction]
  all_goals
    rw [List.filter_append, List.filter_append, hT, hF]
    simp [isDestruction]

end Aux

/-- C45, for every program: a transferred value that is still alive when the object of a suspended coroutine is destroyed, is
destroyed before all locals of the function if the object is a pull coroutine, and after all of them if it is a push coroutine. -/
theorem C45_slot_order (hr : Reach P l0 g0 s) (he : Ends P s h fs x) (hh : Refers s h ty (some ⟨c, .own⟩))
    (hs : Suspended c s.log) (hT : nTdtor c s.log < nTctor c s.log) :
    (∃ s' evs, Cleaned P s s' h c fs x evs ∧ destructions c evs =
      slotOrder ty c (liveObjs c s.log)) ∨ CallCrashes P s := by
  obtain ⟨hdl, h1, h2, h3⟩ := hh
  have hi := inv_reach hr
  have hf := held_own hr hs (hi.hok.own h hdl c h1 h3).1 (he.calm hi).2.2
  have hkd : ty = s.kind c := by
    have := (hi.hok.born h hdl _ h1 h3).2.1
    rw [← h2, this]; rfl
  have hsl := slot_reach hr c
  have hlive : s.va c = .val ∧ (s.cbs ⟨c, pullSide (s.kind c)⟩).slot.isLive = true := by
    have := hsl.bal
    split at this
    · assumption
    · omega
  have hbv : (s.cbs ⟨c, pullSide (s.kind c)⟩).bvalid = true := by
    cases hb : (s.cbs ⟨c, pullSide (s.kind c)⟩).bvalid with
    | true => rfl
    | false => rw [hsl.nb hb] at hlive; simp [Slot.isLive] at hlive
  have hdes := expected_destr hr hf
  rcases destroy_done hr he h1 h3 hf with ⟨s', evs, hrun, hd⟩ | hc
  · left
    have hr' := (callRuns_reach hr hrun).2
    have hnt := (slot_reach hr' c).bal
    refine ⟨s', _, cleaned hr hrun hd he h1 h3, ?_⟩
    have htc : nTctor c s'.log = nTctor c s.log := by
      rw [hd.all.1]
      unfold nTctor
      rw [List.countP_append, Nat.add_eq_right, List.countP_eq_zero]
      intro e he
      have := hd.all.2.1 e he
      cases e <;> simp_all [Ev.isTctor]
    rw [(obj_reach hr).live, destructions_append]
    have hmid : destructions c (.unwind s.cur c :: slotEv s c) = slotEv s c := by
      unfold slotEv destructions
      split <;> simp [isDestruction]
    rw [hmid]
    subst hkd
    cases hk : s.kind c with
    | pull =>
      rw [hk] at hbv hlive hsl
      have hse : slotEv s c = [.tdtor c] := by simp [slotEv, hk, hlive.1]; exact hbv
      have hno : ∀ e ∈ evs, isDestruction c e = true → ctxEv s.kind c e = true := by
        have hz : nTdtor c evs = 0 := by
          have h5 := hsl.bal
          have h6 : nTdtor c s'.log = nTdtor c evs + (1 + nTdtor c s.log) := by
            rw [hd.all.1, hse]
            simp [nTdtor, Ev.isTdtor]
            omega
          rw [if_pos hlive] at h5
          split at hnt <;> omega
        intro e he hde
        cases e <;> simp_all [isDestruction, ctxEv]
        unfold nTdtor at hz
        rw [List.countP_eq_zero] at hz
        exact hz _ he (by simp [Ev.isTdtor])
      have heT : expT s c = [] := by simp [expT, hk]
      have : destructions c evs = (locals (s.frames c)).map (.odtor c) := by
        unfold destructions
        rw [filter_filter_imp (ctxEv s.kind c) _ _ (fun e he => hno e (List.mem_reverse.1 he)), List.filter_reverse, hd.evc, hdes, heT,
          List.append_nil]
      rw [hse, this]; rfl
    | push =>
      rw [hk] at hbv hlive hsl
      have hse : slotEv s c = [] := by simp [slotEv, hk]
      have hno : ∀ e ∈ evs, isDestruction c e = true → ctxEv s.kind c e = true := by
        intro e he hde
        cases e <;> simp_all [isDestruction, ctxEv]
      have heT : expT s c = [.tdtor c] := by simp [expT, hk, hlive.1]; exact hbv
      have : destructions c evs = (locals (s.frames c)).map (.odtor c) ++ [.tdtor c] := by
        unfold destructions
        rw [filter_filter_imp (ctxEv s.kind c) _ _ (fun e he => hno e (List.mem_reverse.1 he)), List.filter_reverse, hd.evc, hdes, heT]
      rw [hse, this]; rfl
  · exact .inr hc

/-- C45, for programs obeying the rules. -/
theorem C45_slot_order_rules (hk : ReachOk P l0 g0 s) (hc : CallOk P s) (he : Ends P s h fs x)
    (hh : Refers s h ty (some ⟨c, .own⟩)) (hT : nTdtor c s.log < nTctor c s.log) :
    ∃ s' evs, Cleaned P s s' h c fs x evs ∧ destructions c evs =
      slotOrder ty c (liveObjs c s.log) := by
  rcases C45_slot_order hk.reach he hh (ends_suspended hc.1 he hh) hT with h | h
  · exact h
  · exact absurd h (C32_calls_do_not_crash hk hc)

open Demo in
/-- Non-trivial cases: the generator with two live locals, and the consumer with one. -/
example : ReachOk Demo.P pullMain [] (stateAt pullMain 18) ∧ CallOk Demo.P (stateAt pullMain 18) ∧
    Ends Demo.P (stateAt pullMain 18) 1 [] (.eval Code.ret) ∧ Refers (stateAt pullMain 18) 1 .pull (some ⟨1, .own⟩) ∧
    nTdtor 1 (stateAt pullMain 18).log < nTctor 1 (stateAt pullMain 18).log :=
  ⟨reachOk _ _ rfl, (obeys _ 40 rfl).callOk (reach _ _ rfl), .api (k := fun _ => Code.ret) ⟨_, rfl, rfl⟩, ⟨_, rfl, rfl, rfl⟩,
    by decide⟩
open Demo in
example : ReachOk Demo.P pushMain [] (stateAt pushMain 22) ∧ CallOk Demo.P (stateAt pushMain 22) ∧
    Ends Demo.P (stateAt pushMain 22) 1 [] (.eval Code.ret) ∧ Refers (stateAt pushMain 22) 1 .push (some ⟨1, .own⟩) ∧
    nTdtor 1 (stateAt pushMain 22).log < nTctor 1 (stateAt pushMain 22).log ∧ liveObjs 1 (stateAt pushMain 22).log = [7] :=
  ⟨reachOk _ _ rfl, (obeys _ 40 rfl).callOk (reach _ _ rfl), .api (k := fun _ => Code.ret) ⟨_, rfl, rfl⟩, ⟨_, rfl, rfl, rfl⟩,
    by decide, rfl⟩

end Verif
