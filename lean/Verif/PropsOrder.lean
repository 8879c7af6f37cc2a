import Verif.PropsUnwind

/-!
# Destructors: their order across nested coroutines, and what they do to memory: C51, C52
-/
namespace Verif
open Aux
variable {L G V E : Type} {P : Prog L G V E} {l0 : L} {g0 : G} {s : St L G V E}
variable {h c : Nat} {fs : List (Frame L V E)} {x : Ctl L V E} {ty : Kind}

namespace Aux

def toItem (c : Nat) : Thing → Item
  | .obj o => .obj c o
  | .co h => .co h

theorem items_owned {c : Nat} : ∀ {fs : List (Frame L V E)},
    (∀ k, ¬ (Frame.pullCtor k ∈ fs ∨ Frame.pushCtor k ∈ fs)) → items c fs = (ownedIn fs).map (toItem c)
  | [], _ => rfl
  | f :: t, hf => by
    have ht := items_owned (c := c) (fs := t) (fun k hk => hf k (by rcases hk with hk | hk <;> simp [hk]))
    cases f
    case pullCtor k => exact absurd (.inl (by simp)) (hf k)
    case pushCtor k => exact absurd (.inr (by simp)) (hf k)
    all_goals simp [items, ownedIn, toItem, ht]

theorem todo_parked (hi : Inv s) (hf : s.fib (.cb ⟨c, .own⟩) = some c) :
    todo s c = (owned s c).map (toItem c) ++ [.blk ⟨c, .syn⟩] := by
  obtain ⟨hne, hlv⟩ := hi.sched.fib_ok _ _ hf
  have hsw := hi.sched.sus c hne hlv
  have hch := hi.sched.chan _ _ hf
  have h0 : s.base c ≠ .main := by
    intro h
    have := (hi.sched.main_iff c).1 h
    subst this
    have := hi.cb.full_alive _ _ hf
    rw [hi.cb.unborn 0 .own (.inl rfl)] at this; cases this
  have hfr := hi.sched.fresh_cur c
  have hsh : ∃ y, (s.base c).items c = [.co y, .blk ⟨c, .syn⟩] ∧ (s.base c).sink = some y := by
    generalize s.frames c = fs at hsw hch
    cases fs with
    | nil =>
      cases hb : s.base c <;> rw [hb] at hsw hfr <;> simp [okSw] at hsw
      case fresh => exact absurd (hfr rfl) hne
      all_goals exact ⟨_, rfl, rfl⟩
    | cons f t =>
      cases f <;> simp [okSw] at hsw
      case asg =>
        cases hb : s.base c <;> rw [hb] at hsw h0 <;> simp [Base.isBody] at hsw
        · exact absurd rfl h0
        · exact ⟨_, rfl, rfl⟩
      all_goals simp [hole] at hch
  obtain ⟨y, h1, h2⟩ := hsh
  unfold todo owned
  rw [items_owned (fun k hk => parkedNoCtor hi hf hk), h1, h2]
  simp [toItem]

theorem order_teardown (hk : ReachOk P l0 g0 s) (hc : s.ctl ≠ .recv) {X : List Item} {os : List (Nat × Nat)} (ho : Order s X os) :
    ∀ {c : Nat} {A : List Thing}, s.fib (.cb ⟨c, .own⟩) = some c → X = A.map (toItem c) ++ [.blk ⟨c, .syn⟩] → Teardown s c A os := by
  have hi := inv_reach hk.reach
  have hj := jinv_reach hk.reach
  obtain ⟨rest, d⟩ := disc_reach hk
  have split : ∀ {h c : Nat} {w : List Item} {A : List Thing}, Item.co h :: w = A.map (toItem c) ++ [.blk ⟨c, .syn⟩] →
      ∃ A', A = .co h :: A' ∧ w = A'.map (toItem c) ++ [.blk ⟨c, .syn⟩] := by
    intro h c w A e
    cases A with
    | nil => simp at e
    | cons a A =>
      cases a <;> simp [toItem] at e
      obtain ⟨rfl, rfl⟩ := e
      exact ⟨A, rfl, rfl⟩
  have splitB : ∀ {r : CbRef} {c : Nat} {w : List Item} {A : List Thing}, Item.blk r :: w = A.map (toItem c) ++ [.blk ⟨c, .syn⟩] →
      A = [] ∧ r = ⟨c, .syn⟩ ∧ w = [] := by
    intro h c w A e
    cases A with
    | nil => simpa using e
    | cons a A => cases a <;> simp [toItem] at e
  induction ho with
  | nil =>
    intro c A _ e
    cases A <;> simp at e
  | @obj i o w os _ ih =>
    intro c A hf e
    cases A with
    | nil => simp at e
    | cons a A =>
      cases a <;> simp [toItem] at e
      obtain ⟨⟨rfl, rfl⟩, rfl⟩ := e
      exact .obj (ih hf rfl)
  | coNop h1 h2 _ ih =>
    intro c A hf e
    obtain ⟨A', rfl, rfl⟩ := split e
    refine .skip ?_ (ih hf rfl)
    rintro k _ ⟨hd, h3, -, h4⟩
    rw [h1] at h3; cases h3
    exact absurd h4 (h2 k)
  | coNone h1 h2 h3 h4 _ ih =>
    intro c A hf e
    obtain ⟨A', rfl, rfl⟩ := split e
    refine .skip ?_ (ih hf rfl)
    rintro k _ ⟨hd, h5, -, h6⟩ hs
    rw [h1] at h5; cases h5
    rw [h2] at h6; cases h6
    rw [held_own hk.reach hs h3 hc] at h4; cases h4
  | co h1 h2 h3 h4 _ _ ih1 ih2 =>
    intro c A hf e
    obtain ⟨A', rfl, rfl⟩ := split e
    obtain ⟨rfl, -⟩ := d.ownHolds hi h4
    exact .inner ⟨_, h1, rfl, h2⟩ (hj.held _ _ h4) (ih1 h4 (todo_parked hi h4)) (ih2 hf rfl)
  | blkNone h1 h2 ho ih =>
    intro c A hf e
    obtain ⟨rfl, rfl, rfl⟩ := splitB e
    cases ho; exact .nil
  | blk h1 h2 _ ho ih1 ih2 =>
    intro c A hf e
    obtain ⟨rfl, rfl, rfl⟩ := splitB e
    exact absurd (d.synHolds hi h2).2.1 (d.ownHolds hi hf).2

theorem effects_dtors (evs : List (Ev V E)) (g : G) : effects P evs g = undone P ((dtorsIn evs).map Prod.snd) g := by
  induction evs with
  | nil => rfl
  | cons e l ih =>
    have : dtorsIn (e :: l) = dtorsIn l ++ (odtorAny e).toList := by
      cases h : odtorAny e <;> simp [dtorsIn, h]
    rw [this]
    cases e <;> simp [effects, odtorAny, ih, undone]

theorem dtors_one {evs : List (Ev V E)} (h : ∀ d, d ≠ c → destroyedIn d evs = []) : (dtorsIn evs).map Prod.snd = destroyedIn c evs := by
  induction evs with
  | nil => rfl
  | cons e l ih =>
    have h1 : dtorsIn (e :: l) = dtorsIn l ++ (odtorAny e).toList := by
      cases h : odtorAny e <;> simp [dtorsIn, h]
    have h2 : ∀ d, destroyedIn d (e :: l) = destroyedIn d l ++ (odtorOf d e).toList := by
      intro d; cases h : odtorOf d e <;> simp [destroyedIn, h]
    have ih := ih (fun d hd => by have := h d hd; rw [h2] at this; exact (List.append_eq_nil_iff.1 this).1)
    rw [h1, h2, List.map_append, ih]
    congr 1
    cases e <;> simp [odtorAny, odtorOf]
    rename_i i o
    by_cases hic : i = c
    · simp [hic]
    · have := h i hic
      rw [h2] at this
      simp [odtorOf] at this

end Aux

/-- The order is determined by the state. -/
theorem Teardown_unique {w : List Thing} {os os' : List (Nat × Nat)} (hr : Teardown s c w os) (hr' : Teardown s c w os') : os = os' := by
  induction hr generalizing os' with
  | nil => cases hr'; rfl
  | obj _ ih => cases hr'; rename_i h; rw [ih h]
  | inner h1 h2 _ _ ih1 ih2 =>
    cases hr' with
    | inner g1 g2 g3 g4 =>
      obtain ⟨_, a, -, b⟩ := h1
      obtain ⟨_, a', -, b'⟩ := g1
      rw [a] at a'; cases a'
      rw [b] at b'; cases b'
      rw [ih1 g3, ih2 g4]
    | skip g1 _ => exact absurd h2 (g1 _ _ h1)
  | skip h1 _ ih =>
    cases hr' with
    | inner g1 g2 _ _ => exact absurd g2 (h1 _ _ g1)
    | skip _ g => exact ih g

/-! ## C52 -/

/-- C52, for programs obeying the rules: destroying a coroutine destroys the local objects of its function and of all coroutines
nested in it in the order given by the scopes: innermost first, and the locals of a nested coroutine where its object is. -/
theorem C52_order (hk : ReachOk P l0 g0 s) (hc : CallOk P s) (he : Ends P s h fs x) (hh : Refers s h ty (some ⟨c, .own⟩)) :
    ∃ s' evs, Cleaned P s s' h c fs x evs ∧ Teardown s c (owned s c) (dtorsIn evs) := by
  have hs := ends_suspended hc.1 he hh
  obtain ⟨hdl, h1, -, h3⟩ := hh
  have hr := hk.reach
  have hi := inv_reach hr
  have hcalm := (he.calm hi).2.2
  have hf := held_own hr hs (hi.hok.own h hdl c h1 h3).1 hcalm
  rcases destroy_done hr he h1 h3 hf with ⟨s', evs, hrun, hd⟩ | hcr
  · refine ⟨s', _, cleaned hr hrun hd he h1 h3, ?_⟩
    have : dtorsIn (evs ++ .unwind s.cur c :: slotEv s c) = dtorsIn evs := by
      rw [dtorsIn_append]
      have : dtorsIn (.unwind s.cur c :: slotEv s c) = [] := by
        unfold dtorsIn
        rw [List.filterMap_eq_nil_iff]
        intro e he
        rcases List.mem_cons.1 (List.mem_reverse.1 he) with rfl | he
        · rfl
        · rw [slotEv_tdtor e he]; rfl
      rw [this, List.nil_append]
    rw [this]
    exact order_teardown hk hcalm hd.order hf (todo_parked hi hf)
  · exact absurd hcr (C32_calls_do_not_crash hk hc)

namespace Demo
open Code

/-- The function has object 4, then a nested coroutine whose function has object 5, then object 6. -/
def orderMain : C :=
  mk .pull .val (fun h => obj 4 (mk .pull .val (fun h => obj 5 (push h 10 (leave ret))) fun i =>
      guard i (obj 6 (push h 1 (leave (leave (leave ret))))))) fun h => op (.destroy h) fun _ => ret

theorem order_teardown : Teardown (stateAt orderMain 14) 1 (owned (stateAt orderMain 14) 1) [(1, 6), (2, 5), (1, 4)] := by
  have e1 : owned (stateAt orderMain 14) 1 = [.obj 6, .co 2, .obj 4, .co 0] := rfl
  have e2 : owned (stateAt orderMain 14) 2 = [.obj 5, .co 1] := rfl
  have skip : ∀ {h d : Nat} {ty : Kind} (q : CbRef), (stateAt orderMain 14).hs h = some ⟨.push, .val, some q⟩ → q.side = .syn →
      Refers (stateAt orderMain 14) h ty (some ⟨d, .own⟩) → ¬ Suspended d (stateAt orderMain 14).log := by
    rintro h d ty q h1 h2 ⟨hd, h3, -, h4⟩
    rw [h1] at h3; cases h3; cases h4; cases h2
  rw [e1]
  refine .obj (.inner (d := 2) (os1 := [(2, 5)]) ⟨_, rfl, rfl, rfl⟩ ⟨_, rfl⟩ ?_ (.obj (.skip (fun _ _ => skip ⟨1, .syn⟩ rfl rfl) .nil)))
  rw [e2]
  exact .obj (.skip (fun _ _ => skip ⟨2, .syn⟩ rfl rfl) .nil)

end Demo

open Demo in
/-- Non-trivial case: the hypotheses hold, and the order is 6, then 5 of the nested coroutine, then 4. -/
example : ReachOk Demo.P orderMain [] (stateAt orderMain 14) ∧ CallOk Demo.P (stateAt orderMain 14) ∧
    Ends Demo.P (stateAt orderMain 14) 3 [] (.eval .ret) ∧ Refers (stateAt orderMain 14) 3 .pull (some ⟨1, .own⟩) ∧
    Teardown (stateAt orderMain 14) 1 (owned (stateAt orderMain 14) 1) [(1, 6), (2, 5), (1, 4)] :=
  ⟨reachOk _ _ rfl, (obeys _ 60 rfl).callOk (reach _ _ rfl), .api (k := fun _ => Code.ret) ⟨_, rfl, rfl⟩,
    ⟨⟨.pull, .val, some ⟨1, .own⟩⟩, rfl, rfl, rfl⟩, order_teardown⟩

/-! ## C51 -/

/-- C51, for every program: a step that is not internal computation of user code changes memory exactly as the destructors of the
local objects destroyed in this step do. -/
theorem C51_step {s' : St L G V E} (hr : Reach P l0 g0 s) (e : step P s = .next s') (hn : ¬ Computes P s) :
    ∃ evs, s'.log = evs ++ s.log ∧ s'.g = undone P ((dtorsIn evs).map Prod.snd) s.g := by
  obtain ⟨evs, h1, h2⟩ := step_mem hr e
  exact ⟨evs, h1, by rw [h2 hn, effects_dtors]⟩

/-- C51, for every program: the same for a whole call of a library function, up to where user code runs again. -/
theorem C51_call {s' : St L G V E} {op : Op L V E} {k : Res V → L} (hr : Reach P l0 g0 s) (hc : Calls P s op k) (hrun : CallRuns P s s') :
    ∃ evs, s'.log = evs ++ s.log ∧ s'.g = undone P ((dtorsIn evs).map Prod.snd) s.g := by
  obtain ⟨evs, h1, h2⟩ := hrun.mem hr hc.notComputes
  exact ⟨evs, h1, by rw [h2, effects_dtors]⟩

open Demo in
/-- Non-trivial case: the call of the destructor, and it completes (the result is that of `C51_destroy` below). -/
example : Reach Demo.P orderMain [] (stateAt orderMain 14) ∧
    Calls Demo.P (stateAt orderMain 14) (.destroy 3) (fun _ => Code.ret) ∧ ∃ s', CallRuns Demo.P (stateAt orderMain 14) s' ∧ UserRuns s' := by
  have hk : ReachOk Demo.P orderMain [] (stateAt orderMain 14) := reachOk _ _ rfl
  have he : Calls Demo.P (stateAt orderMain 14) (.destroy 3) (fun _ => Code.ret) := ⟨_, rfl, rfl⟩
  obtain ⟨s', _, h, -⟩ := C52_order hk ((obeys _ 60 rfl).callOk (reach _ _ rfl)) (.api he)
    (⟨⟨.pull, .val, some ⟨1, .own⟩⟩, rfl, rfl, rfl⟩ : Refers (stateAt orderMain 14) 3 .pull (some ⟨1, .own⟩))
  exact ⟨hk.reach, he, s', h.runs, ⟨_, h.ctl⟩⟩

/-- C51, for programs obeying the rules: after a coroutine has been destroyed memory is as its live locals, and those of the
coroutines nested in it, have left it, in the order of C52. -/
theorem C51_destroy (hk : ReachOk P l0 g0 s) (hc : CallOk P s) (he : Ends P s h fs x) (hh : Refers s h ty (some ⟨c, .own⟩)) :
    ∃ s' evs os, Cleaned P s s' h c fs x evs ∧ Teardown s c (owned s c) os ∧ s'.g = undone P (os.map Prod.snd) s.g := by
  obtain ⟨s', evs, h1, h2⟩ := C52_order hk hc he hh
  exact ⟨s', evs, _, h1, h2, by rw [h1.mem, effects_dtors]⟩

open Demo in
/-- Non-trivial case, of the step that destroys object 6, and of the whole destruction: memory is empty before, and is [6, 5, 4]
afterwards. -/
example : (stateAt orderMain 14).g = [] ∧ (stateAt orderMain 18).g = [] ∧ step Demo.P (stateAt orderMain 18) = .next (stateAt orderMain 19) ∧
    ¬ Computes Demo.P (stateAt orderMain 18) ∧ (stateAt orderMain 19).g = [6] ∧
    undone Demo.P ([(1, 6), (2, 5), (1, 4)].map Prod.snd) (stateAt orderMain 14).g = [6, 5, 4] ∧ (stateAt orderMain 37).g = [6, 5, 4] :=
  ⟨rfl, rfl, rfl, (by rintro ⟨l, g, l', h, -⟩; cases h), rfl, rfl, rfl⟩

/-- C51: without nested coroutines these are the live locals of the function, most recently constructed first. -/
theorem C51_destroy_simple (hk : ReachOk P l0 g0 s) (hc : CallOk P s) (he : Ends P s h fs x) (hh : Refers s h ty (some ⟨c, .own⟩))
    (hn : ∀ d, ¬ Nested s c d) : ∃ s' evs, Cleaned P s s' h c fs x evs ∧ s'.g = undone P (liveObjs c s.log) s.g := by
  obtain ⟨s', evs, h1, -, h2, h3⟩ := C14_nested_rules hk hc he hh
  refine ⟨s', evs, h1, ?_⟩
  rw [h1.mem, effects_dtors, dtors_one (c := c) (fun d hd => (h3 d hd (hn d)).1), h2]

namespace Demo

theorem pull_single {c d : Nat} (h : Nested (stateAt pullMain 18) c d) : c ≠ 1 := by
  induction h with
  | @one c d h ty h1 h2 h3 => rintro rfl; exact absurd (show h ∈ ([] : List Nat) from h1) (by simp)
  | @param c d h ty h1 h2 h3 =>
    rintro rfl
    obtain ⟨hd, h4, -, h5⟩ := h2
    have : some 0 = some h := h1
    cases this
    have h6 : (stateAt pullMain 18).hs 0 = some ⟨.push, .val, some ⟨1, .syn⟩⟩ := rfl
    rw [h6] at h4; cases h4; cases h5
  | trans _ _ ih1 _ => exact ih1

end Demo

open Demo in
/-- Non-trivial case: a generator with two live locals and no nested coroutine is destroyed. -/
example : ReachOk Demo.P pullMain [] (stateAt pullMain 18) ∧ CallOk Demo.P (stateAt pullMain 18) ∧
    Ends Demo.P (stateAt pullMain 18) 1 [] (.eval Code.ret) ∧ Refers (stateAt pullMain 18) 1 .pull (some ⟨1, .own⟩) ∧
    (∀ d, ¬ Nested (stateAt pullMain 18) 1 d) ∧ undone Demo.P (liveObjs 1 (stateAt pullMain 18).log) (stateAt pullMain 18).g = [8, 7] :=
  ⟨reachOk _ _ rfl, (obeys _ 60 rfl).callOk (reach _ _ rfl), .api (k := fun _ => Code.ret) ⟨_, rfl, rfl⟩,
    ⟨⟨.pull, .val, some ⟨1, .own⟩⟩, rfl, rfl, rfl⟩, fun _ h => pull_single h rfl, rfl⟩

end Verif
