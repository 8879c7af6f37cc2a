import Verif.Rel2
import Verif.SpecApi

/-! # Every step of the library does some of a finite amount of work.  Proof material. -/
namespace Verif
variable {L G V E : Type}

/-- Work a frame is: steps the library needs to get it off the stack (pull_control_block_cc.ipp:34-151, push_control_block_cc.ipp:33-153). -/
def fwork : Frame L V E → Nat
  | .gCoro _ | .pullCtor _ | .pushCtor _ => 3
  | _ => 1

/-- Work the entry lambda of a coroutine still is (pull_control_block_cc.ipp:63-110, push_control_block_cc.ipp:61-107). -/
def bwork : Base L → Nat
  | .none | .main => 0
  | .lamB => 1
  | .lamA => 3
  | .final _ => 5
  | .inFn _ => 6
  | .pushEntry _ _ => 7
  | .fresh _ => 8

/-- Work the stack of context `k` is (lines as above). -/
def cwork (s : St L G V E) (k : Nat) : Nat := ((s.frames k).map fwork).sum + bwork (s.base k)
/-- Work all stacks are (lines as above). -/
def work (s : St L G V E) : Nat := ((List.range s.nk).map (cwork s)).sum

theorem sum_lt {f g : Nat → Nat} {c n : Nat} (hc : c < n) (hne : ∀ k, k ≠ c → f k = g k) (hlt : f c < g c) :
    ((List.range n).map f).sum < ((List.range n).map g).sum := by
  induction n with
  | zero => omega
  | succ n ih =>
    simp only [List.range_succ, List.map_append, List.sum_append, List.map_cons, List.map_nil, List.sum_cons, List.sum_nil]
    by_cases h : c = n
    · subst h
      have : (List.range c).map f = (List.range c).map g := by
        refine List.map_congr_left fun k hk => hne k ?_
        have := List.mem_range.1 hk; omega
      rw [this]; omega
    · have := ih (by omega)
      have := hne n (by omega)
      omega

theorem work_lt {s s' : St L G V E} (hc : s.cur < s.nk) (hn : s'.nk = s.nk) (hf : ∀ k, k ≠ s.cur → s'.frames k = s.frames k)
    (hb : ∀ k, k ≠ s.cur → s'.base k = s.base k) (hlt : cwork s' s.cur < cwork s s.cur) : work s' < work s := by
  unfold work
  rw [hn]
  refine sum_lt hc (fun k hk => ?_) hlt
  unfold cwork
  rw [hf k hk, hb k hk]

theorem fwork_pos (f : Frame L V E) : 0 < fwork f := by cases f <;> simp [fwork]

/-- what destroying a coroutine object costs at least; it leaves room for waiting in `~fiber()` -/
theorem Scope.work {P : Prog L G V E} {s s1 : St L G V E} {h : Nat} (hs : Scope P s h s1) (hu : ¬ UserRuns s) :
    s1.cur = s.cur ∧ s1.nk = s.nk ∧ (∀ k, k ≠ s.cur → s1.frames k = s.frames k) ∧ (∀ k, k ≠ s.cur → s1.base k = s.base k) ∧
      cwork s1 s.cur + 1 < cwork s s.cur := by
  cases hs with
  | leave h1 h2 h3 => exact absurd ⟨_, h1⟩ hu
  | api h1 h2 => exact absurd ⟨_, h1⟩ hu
  | raise h1 h2 =>
    refine ⟨rfl, rfl, fun k hk => upd_ne _ _ hk, fun _ _ => rfl, ?_⟩
    have h2' : s.frames s.cur = _ := h2
    simp [cwork, h2', fwork]; omega
  | ret h1 h2 =>
    refine ⟨rfl, rfl, fun k hk => upd_ne _ _ hk, fun _ _ => rfl, ?_⟩
    have h2' : s.frames s.cur = _ := h2
    simp [cwork, h2', fwork]; omega
  | unwFn h1 h2 h3 =>
    refine ⟨rfl, rfl, fun _ _ => rfl, fun k hk => upd_ne _ _ hk, ?_⟩
    simp [cwork, h3, bwork]
  | unwEntry h1 h2 h3 =>
    refine ⟨rfl, rfl, fun _ _ => rfl, fun k hk => upd_ne _ _ hk, ?_⟩
    simp [cwork, h3, bwork]
  | unwFinal h1 h2 h3 =>
    refine ⟨rfl, rfl, fun _ _ => rfl, fun k hk => upd_ne _ _ hk, ?_⟩
    simp [cwork, h3, bwork]
  | final h1 h2 h3 h4 =>
    refine ⟨rfl, rfl, fun _ _ => rfl, fun k hk => upd_ne _ _ hk, ?_⟩
    simp [cwork, h3, bwork]

theorem Dying.work {P : Prog L G V E} {s s0 : St L G V E} {f : Option Nat} (hd : Dying P s f s0) (hu : ¬ UserRuns s) :
    s0.cur = s.cur ∧ s0.nk = s.nk ∧ (∀ k, k ≠ s.cur → s0.frames k = s.frames k) ∧ (∀ k, k ≠ s.cur → s0.base k = s.base k) ∧
      cwork s0 s.cur + 1 < cwork s s.cur := by
  cases hd with
  | handle hs h1 h2 h3 h4 => exact hs.work hu
  | ctorInvalid h1 h2 =>
    refine ⟨rfl, rfl, fun k hk => upd_ne _ _ hk, fun _ _ => rfl, ?_⟩
    have h2' : s.frames s.cur = _ := h2
    simp [cwork, h2', fwork]; omega
  | ctorThrow h1 h2 =>
    refine ⟨rfl, rfl, fun k hk => upd_ne _ _ hk, fun _ _ => rfl, ?_⟩
    have h2' : s.frames s.cur = _ := h2
    simp [cwork, h2', fwork]; omega
  | ctorUnw h1 h2 h3 =>
    refine ⟨rfl, rfl, fun k hk => upd_ne _ _ hk, fun _ _ => rfl, ?_⟩
    have h2' : s.frames s.cur = _ := h2
    rcases h3 with rfl | rfl <;> simp [cwork, h2', fwork] <;> omega
  | syn h1 h2 h3 =>
    refine ⟨rfl, rfl, fun _ _ => rfl, fun k hk => upd_ne _ _ hk, ?_⟩
    simp [cwork, h3, bwork]

theorem Local.work {P : Prog L G V E} {s : St L G V E} {g : G} {fs : List (Frame L V E)} {c : Ctl L V E} {evs : List (Ev V E)}
    (h : Local P s g fs c evs) (hu : ¬ UserRuns s) : (fs.map fwork).sum < (s.fr.map fwork).sum := by
  cases h <;> first
    | (exfalso; exact hu ⟨_, by assumption⟩)
    | (rename_i h; rw [h]; simp [fwork]; done)
    | (rename_i h _; rw [h]; simp [fwork]; done)

theorem Step.work {P : Prog L G V E} {s s' : St L G V E} (hi : Inv s) (h : Step P s s') (hu : ¬ UserRuns s) : work s' < work s := by
  have hc : s.cur < s.nk := hi.sched.lt_nk _ hi.sched.cur_live
  cases h with
  | loc h =>
    have := h.work hu
    refine work_lt hc rfl (fun k hk => upd_ne _ _ hk) (fun _ _ => rfl) ?_
    simp only [cwork, upd_same]
    exact Nat.add_lt_add_right this _
  | get h1 => exact absurd ⟨_, h1⟩ hu
  | moveCtor h1 => exact absurd ⟨_, h1⟩ hu
  | moveAssign h1 => exact absurd ⟨_, h1⟩ hu
  | mkFn h1 => exact absurd ⟨_, h1⟩ hu
  | mk h1 => exact absurd ⟨_, h1⟩ hu
  | pushThrow h1 => exact absurd ⟨_, h1⟩ hu
  | push h1 => exact absurd ⟨_, h1⟩ hu
  | pull h1 => exact absurd ⟨_, h1⟩ hu
  | ctorDrop h1 h2 | wait h1 h2 | asg h1 h2 | asgThrow h1 h2 | pullCtor h1 h2 | pushCtor h1 h2 =>
    refine work_lt hc rfl (fun k hk => upd_ne _ _ hk) (fun _ _ => rfl) ?_
    have h2' : s.frames s.cur = _ := h2
    simp [cwork, h2', fwork]
  | enterPull h1 h2 h3 | enterPush h1 h2 h3 | startPush h1 h2 h3 | fin h1 h2 h3 =>
    refine work_lt hc rfl (fun _ _ => rfl) (fun k hk => upd_ne _ _ hk) ?_
    simp [cwork, h3, bwork]
  | nop h =>
    obtain ⟨e1, e2, e3, e4, e5⟩ := h.work hu
    exact work_lt hc e2 e3 e4 (Nat.lt_of_succ_lt e5)
  | dropNone h =>
    obtain ⟨e1, e2, e3, e4, e5⟩ := h.work hu
    exact work_lt hc e2 e3 e4 (Nat.lt_of_succ_lt e5)
  | dropSome h =>
    rename_i s0 t
    obtain ⟨e1, e2, e3, e4, e5⟩ := h.work hu
    refine work_lt hc e2 (fun k hk => ?_) e4 ?_
    · show upd _ s0.cur _ k = _
      rw [e1, upd_ne _ _ hk]; exact e3 k hk
    · unfold cwork at e5 ⊢
      simp only [e1, upd_same, St.fr, List.map_cons, List.sum_cons, fwork]
      omega
  | exit h1 h2 h3 =>
    refine work_lt hc rfl (fun k hk => upd_ne _ _ hk) (fun k hk => upd_ne _ _ hk) ?_
    simp [cwork, h3, bwork]

/-! ## what a step of user code adds -/

theorem sum_le {f g : Nat → Nat} {c n a : Nat} (hne : ∀ k, k ≠ c → f k = g k) (hle : f c ≤ g c + a) :
    ((List.range n).map f).sum ≤ ((List.range n).map g).sum + a := by
  by_cases hc : c < n
  · by_cases h : f c ≤ g c
    · rcases Nat.lt_or_eq_of_le h with h | h
      · exact Nat.le_trans (Nat.le_of_lt (sum_lt hc hne h)) (Nat.le_add_right _ _)
      · have : f = g := by funext k; by_cases hk : k = c
                           · rw [hk, h]
                           · exact hne k hk
        rw [this]; exact Nat.le_add_right _ _
    · have key : ∀ n, c < n → ((List.range n).map f).sum + g c = ((List.range n).map g).sum + f c := by
        intro n hn
        induction n with
        | zero => omega
        | succ n ih =>
          simp only [List.range_succ, List.map_append, List.sum_append, List.map_cons, List.map_nil, List.sum_cons, List.sum_nil]
          by_cases hcn : c = n
          · subst hcn
            have : (List.range c).map f = (List.range c).map g := by
              refine List.map_congr_left fun k hk => hne k ?_
              have := List.mem_range.1 hk; omega
            rw [this]; omega
          · have := ih (by omega)
            have := hne n (by omega)
            omega
      have := key n hc
      omega
  · have : (List.range n).map f = (List.range n).map g := by
      refine List.map_congr_left fun k hk => hne k ?_
      have := List.mem_range.1 hk; omega
    rw [this]; exact Nat.le_add_right _ _

theorem work_le {s s' : St L G V E} {a : Nat} (hn : s'.nk = s.nk) (hf : ∀ k, k ≠ s.cur → s'.frames k = s.frames k)
    (hb : ∀ k, k ≠ s.cur → s'.base k = s.base k) (hle : cwork s' s.cur ≤ cwork s s.cur + a) : work s' ≤ work s + a := by
  unfold work
  rw [hn]
  refine sum_le (c := s.cur) (fun k hk => ?_) hle
  unfold cwork
  rw [hf k hk, hb k hk]

theorem work_new {s s' : St L G V E} {a b : Nat} (hn : s'.nk = s.nk + 1)
    (hf : ∀ k, k ≠ s.cur → k ≠ s.nk → s'.frames k = s.frames k)
    (hb : ∀ k, k ≠ s.cur → k ≠ s.nk → s'.base k = s.base k) (hle : cwork s' s.cur ≤ cwork s s.cur + a)
    (hnew : cwork s' s.nk ≤ b) : work s' ≤ work s + a + b := by
  unfold work
  rw [hn]
  simp only [List.range_succ, List.map_append, List.sum_append, List.map_cons, List.map_nil, List.sum_cons, List.sum_nil]
  have h1 : ((List.range s.nk).map (cwork s')).sum = ((List.range s.nk).map (fun k => if k = s.nk then cwork s k else cwork s' k)).sum := by
    congr 1
    refine List.map_congr_left fun k hk => ?_
    have := List.mem_range.1 hk
    rw [if_neg (by omega)]
  have h2 := sum_le (n := s.nk) (c := s.cur) (a := a) (g := cwork s) (f := fun k => if k = s.nk then cwork s k else cwork s' k)
    (fun k hk => by
      by_cases h : k = s.nk
      · simp [h]
      · simp only [h, if_false]; unfold cwork; rw [hf k hk h, hb k hk h])
    (by by_cases h : s.cur = s.nk
        · simp [h]
        · simpa [h] using hle)
  omega

theorem Scope.work_user {P : Prog L G V E} {s s1 : St L G V E} {h : Nat} (hs : Scope P s h s1) (hu : UserRuns s) :
    s1.cur = s.cur ∧ s1.nk = s.nk ∧ (∀ k, k ≠ s.cur → s1.frames k = s.frames k) ∧ (∀ k, k ≠ s.cur → s1.base k = s.base k) ∧
      cwork s1 s.cur ≤ cwork s s.cur + 1 := by
  obtain ⟨l, hl⟩ := hu
  cases hs with
  | leave h1 h2 h3 =>
    refine ⟨rfl, rfl, fun k hk => upd_ne _ _ hk, fun _ _ => rfl, ?_⟩
    have h2' : s.frames s.cur = _ := h3
    simp [cwork, h2', fwork]; omega
  | api h1 h2 =>
    refine ⟨rfl, rfl, fun k hk => upd_ne _ _ hk, fun _ _ => rfl, ?_⟩
    simp [cwork, St.fr, fwork]; omega
  | raise h1 h2 => rw [h1] at hl; cases hl
  | ret h1 h2 => rw [h1] at hl; cases hl
  | unwFn h1 h2 h3 => rw [h1] at hl; cases hl
  | unwEntry h1 h2 h3 => rw [h1] at hl; cases hl
  | unwFinal h1 h2 h3 => rw [h1] at hl; cases hl
  | final h1 h2 h3 h4 => rw [h1] at hl; cases hl

theorem Dying.work_user {P : Prog L G V E} {s s0 : St L G V E} {f : Option Nat} (hd : Dying P s f s0) (hu : UserRuns s) :
    s0.cur = s.cur ∧ s0.nk = s.nk ∧ (∀ k, k ≠ s.cur → s0.frames k = s.frames k) ∧ (∀ k, k ≠ s.cur → s0.base k = s.base k) ∧
      cwork s0 s.cur ≤ cwork s s.cur + 1 := by
  cases hd with
  | handle hs h1 h2 h3 h4 => exact hs.work_user hu
  | ctorInvalid h1 h2 => obtain ⟨l, hl⟩ := hu; rw [h1] at hl; cases hl
  | ctorThrow h1 h2 => obtain ⟨l, hl⟩ := hu; rw [h1] at hl; cases hl
  | ctorUnw h1 h2 h3 => obtain ⟨l, hl⟩ := hu; rw [h1] at hl; cases hl
  | syn h1 h2 h3 => obtain ⟨l, hl⟩ := hu; rw [h1] at hl; cases hl

theorem Local.work_user {P : Prog L G V E} {s : St L G V E} {g : G} {fs : List (Frame L V E)} {c : Ctl L V E} {evs : List (Ev V E)}
    (h : Local P s g fs c evs) : (fs.map fwork).sum ≤ (s.fr.map fwork).sum + 3 := by
  cases h <;> first
    | exact Nat.le_add_right _ _
    | (simp [fwork]; done)
    | (simp [fwork]; omega)
    | (rename_i h; rw [h]; simp [fwork]; omega)
    | (rename_i h _; rw [h]; simp [fwork]; omega)

theorem post_work {op : Op L V E} {h : Nat} {a : PushArg V E} {post : Option V → List (Frame L V E)} (hp : PushCall op h a post) (w : Option V) :
    ((post w).map fwork).sum ≤ 1 := by
  cases hp with
  | op => cases w <;> simp [fwork]
  | it _ => simp [fwork]

/-- a step of user code adds at most 12 units of work -/
theorem Step.work_user {P : Prog L G V E} {s s' : St L G V E} (hi : Inv s) (h : Step P s s') (hu : UserRuns s) : Verif.work s' ≤ Verif.work s + 12 := by
  have hc : s.cur < s.nk := hi.sched.lt_nk _ hi.sched.cur_live
  obtain ⟨l0, hl⟩ := hu
  cases h with
  | loc h =>
    have := h.work_user
    refine work_le rfl (fun k hk => upd_ne _ _ hk) (fun _ _ => rfl) ?_
    simp only [cwork, upd_same]
    unfold St.fr at this
    omega
  | get h1 | moveCtor h1 | moveAssign h1 | pushThrow h1 =>
    refine work_le rfl (fun k hk => upd_ne _ _ hk) (fun _ _ => rfl) ?_
    simp [cwork, St.fr, fwork]; omega
  | mkFn h1 =>
    have hn : s.base s.nk = .none := by
      cases hb : s.base s.nk <;> first | rfl | (exact absurd (hi.sched.lt_nk s.nk (by rw [hb]; simp)) (by omega))
    have hfr := hi.sched.dead_frames _ hn
    refine Nat.le_trans (work_new (a := 1) (b := 0) rfl (fun k hk _ => upd_ne _ _ hk) (fun _ _ _ => rfl) ?_ ?_) (by omega)
    · simp [cwork, St.fr, fwork]; omega
    · have : s.nk ≠ s.cur := by omega
      simp [cwork, upd_ne _ _ this, hfr, hn, bwork]
  | mk h1 =>
    have hn : s.base s.nk = .none := by
      cases hb : s.base s.nk <;> first | rfl | (exact absurd (hi.sched.lt_nk s.nk (by rw [hb]; simp)) (by omega))
    have hfr := hi.sched.dead_frames _ hn
    have hne : s.nk ≠ s.cur := by omega
    refine Nat.le_trans (work_new (a := 4) (b := 8) rfl (fun k hk _ => upd_ne _ _ hk) (fun _ _ hk => upd_ne _ _ hk) ?_ ?_) (by omega)
    · rename_i kd _ _ _ _
      cases kd <;> simp [cwork, St.fr, fwork, ctorFrame, upd_ne _ _ hne.symm] <;> omega
    · simp [cwork, upd_ne _ _ hne, hfr, bwork]
  | push h1 h2 h3 =>
    refine work_le rfl (fun k hk => upd_ne _ _ hk) (fun _ _ => rfl) ?_
    have := post_work h3 ‹_›
    simp [cwork, St.fr, fwork]; omega
  | pull h1 h2 h3 =>
    refine work_le rfl (fun k hk => upd_ne _ _ hk) (fun _ _ => rfl) ?_
    cases h3 <;> simp [cwork, St.fr, fwork] <;> omega
  | ctorDrop h1 h2 => rw [h1] at hl; cases hl
  | wait h1 h2 => rw [h1] at hl; cases hl
  | asg h1 h2 => rw [h1] at hl; cases hl
  | asgThrow h1 h2 => rw [h1] at hl; cases hl
  | pullCtor h1 h2 => rw [h1] at hl; cases hl
  | pushCtor h1 h2 => rw [h1] at hl; cases hl
  | enterPull h1 h2 h3 => rw [h1] at hl; cases hl
  | enterPush h1 h2 h3 => rw [h1] at hl; cases hl
  | startPush h1 h2 h3 => rw [h1] at hl; cases hl
  | fin h1 h2 h3 => rcases h1 with ⟨h1, _⟩ | ⟨e, h1, _⟩ <;> rw [h1] at hl <;> cases hl
  | nop h =>
    obtain ⟨e1, e2, e3, e4, e5⟩ := h.work_user ⟨_, hl⟩
    exact work_le e2 e3 e4 (Nat.le_trans e5 (by omega))
  | dropNone h =>
    obtain ⟨e1, e2, e3, e4, e5⟩ := h.work_user ⟨_, hl⟩
    exact work_le e2 e3 e4 (Nat.le_trans e5 (by omega))
  | dropSome h =>
    rename_i s0 t
    obtain ⟨e1, e2, e3, e4, e5⟩ := h.work_user ⟨_, hl⟩
    refine work_le e2 (fun k hk => ?_) e4 ?_
    · show upd _ s0.cur _ k = _
      rw [e1, upd_ne _ _ hk]; exact e3 k hk
    · unfold cwork at e5 ⊢
      simp only [e1, upd_same, St.fr, List.map_cons, List.sum_cons, fwork]
      omega
  | exit h1 h2 h3 => rw [h1] at hl; cases hl
end Verif
