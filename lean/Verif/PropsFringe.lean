import Verif.ExFringe
import Verif.Produce

/-!
# C40: the example `same_fringe.cpp`
-/
namespace Verif.Fringe
variable {V E : Type} [DecidableEq V] {mv : V → V} {gl : Bool}

namespace Aux

theorem trav_yields {hp : Nat} {rest : List V} {r : Option E} (t : Tree V) (ht : t ≠ .nil) :
    ∀ F : List (Frame (Pt V) V E), (∀ f ∈ F, Plain f) → Yields (B := Mem V) (prog mv gl) hp () .retn F rest r →
      Yields (prog mv gl) hp () (.eval (.trav hp t)) F (t.inorder ++ rest) r := by
  induction t generalizing rest with
  | nil => exact absurd rfl ht
  | node l v t' ihl ihr =>
    intro F hpl hF
    have hpl' : ∀ l, ∀ f ∈ (Frame.fnRet l :: F : List (Frame (Pt V) V E)), Plain f := by
      intro l f hf
      rcases List.mem_cons.1 hf with rfl | h
      · exact .inl ⟨_, rfl⟩
      · exact hpl f h
    have hright : Yields (B := Mem V) (prog mv gl) hp () (.eval (.right hp (.node l v t'))) F (t'.inorder ++ rest) r := by
      cases t' with
      | nil => exact .tau (fun _ => rfl) (.back (fun _ => rfl) hF)
      | node a b c => exact .call (fun _ => rfl) (ihr (by simp) _ (hpl' _) (.fnRet (.back (fun _ => rfl) hF)))
    have hemit : Yields (B := Mem V) (prog mv gl) hp () (.eval (.emit hp (.node l v t'))) F (v :: (t'.inorder ++ rest)) r :=
      .push (fun _ => rfl) hpl hright
    cases l with
    | nil => exact .tau (fun _ => rfl) hemit
    | node a b c =>
      have := ihl (rest := v :: (t'.inorder ++ rest)) (by simp) (.fnRet (.emit hp (.node (.node a b c) v t')) :: F) (hpl' _) (.fnRet hemit)
      exact .call (fun _ => rfl) (by simpa [Tree.inorder] using this)

theorem lam_yields {hp : Nat} (t : Tree V) (ht : t ≠ .nil) :
    Yields (E := E) (B := Mem V) (prog mv gl) hp () (.eval (.lam hp t)) [] t.inorder none := by
  have := trav_yields (mv := mv) (gl := gl) (E := E) (hp := hp) (rest := []) (r := none) t ht [.fnRet .done]
    (by simp [Plain]) (.fnRet (.back (fun _ => rfl) .ret))
  exact .call (fun _ => rfl) (by simpa using this)

theorem copy_loop {h c hp : Nat} {l0 : Pt V} {g0 : Unit × Mem V} (xs : List V) : ∀ (v : V) (s : St (Pt V) (Unit × Mem V) V E) (m : Mem V),
    Reach (prog mv gl) l0 g0 s → Ready (prog mv gl) s h c hp () v xs none → s.ctl = .eval (.copyLoop (some h)) → s.g = ((), m) →
    ∃ s', Later (prog mv gl) s s' ∧ s'.cur = s.cur ∧ s'.fr = s.fr ∧ s'.ctl = .eval (.copyLoop none) ∧ s'.base s.cur = s.base s.cur ∧
      s'.g = ((), { m with out := m.out ++ v :: xs }) ∧ Spent s' h c hp none := by
  induction xs with
  | nil =>
    intro v s m hr hq hx hg
    obtain ⟨s1, l1, h1⟩ := op_deref hq ⟨_, hx, rfl⟩
    have r1 := l1.reach hr
    have x1 : s1.ctl = .eval (.copyPut h v) := by rw [h1]; rfl
    have e2 := tau_step (P := prog mv gl) x1 (g := ((), { m with out := m.out ++ [v] })) (l' := .copyNext h) (by rw [h1]; simp only [hg]; rfl)
    have q2 : Ready (prog mv gl) { s1 with ctl := .eval (.copyNext h), g := ((), { m with out := m.out ++ [v] }) } h c hp () v [] none :=
      hq.congr (by rw [h1]) (by rw [h1]) (by rw [h1]) (by rw [h1]) (by rw [h1]) (by rw [h1]) (by rw [h1]) (by rw [h1])
    obtain ⟨s3, _, l3, c3, f3, g3, -, k3, hres⟩ := op_next (r1.step e2) q2 ⟨_, rfl, rfl⟩ rfl
    rcases hres with ⟨_, _, h, -⟩ | ⟨-, -, x3, q3⟩ | ⟨_, -, h, -⟩
    · cases h
    · refine ⟨s3, (l1.step e2).trans l3, c3.trans (by rw [h1]), f3.trans (by rw [h1]; rfl), x3, ?_, g3, q3⟩
      rw [k3.base _ hq.ne, h1]
    · cases h
  | cons w ys ih =>
    intro v s m hr hq hx hg
    obtain ⟨s1, l1, h1⟩ := op_deref hq ⟨_, hx, rfl⟩
    have r1 := l1.reach hr
    have x1 : s1.ctl = .eval (.copyPut h v) := by rw [h1]; rfl
    have e2 := tau_step (P := prog mv gl) x1 (g := ((), { m with out := m.out ++ [v] })) (l' := .copyNext h) (by rw [h1]; simp only [hg]; rfl)
    have q2 : Ready (prog mv gl) { s1 with ctl := .eval (.copyNext h), g := ((), { m with out := m.out ++ [v] }) } h c hp () v (w :: ys) none :=
      hq.congr (by rw [h1]) (by rw [h1]) (by rw [h1]) (by rw [h1]) (by rw [h1]) (by rw [h1]) (by rw [h1]) (by rw [h1])
    obtain ⟨s3, _, l3, c3, f3, g3, -, k3, hres⟩ := op_next (r1.step e2) q2 ⟨_, rfl, rfl⟩ rfl
    rcases hres with ⟨_, _, h, x3, q3⟩ | ⟨h, -⟩ | ⟨_, h, -⟩
    · cases h
      have c3' : s3.cur = s.cur := c3.trans (by rw [h1])
      obtain ⟨s4, l4, c4, f4, x4, b4, g4, q4⟩ := ih w s3 _ (l3.reach (r1.step e2)) q3 x3 g3
      refine ⟨s4, ((l1.step e2).trans l3).trans l4, c4.trans c3', f4.trans (f3.trans (by rw [h1]; rfl)), x4, ?_, ?_, q4⟩
      · rw [← c3', b4, c3', k3.base _ hq.ne, h1]
      · rw [g4]; simp
    · cases h
    · cases h

end Aux

/-- C40, first half: the program that reads the tree `t` through a reader with `std::copy` runs to its end, and what has been copied is the
in-order sequence of `t`. -/
theorem C40_copy (t : Tree V) (ht : t ≠ .nil) (m : Mem V) :
    ∃ s' : St (Pt V) (Unit × Mem V) V E, Later (prog mv gl) (init (.copy t) ((), m)) s' ∧ step (prog mv gl) s' = .done s' ∧
      s'.g.2.out = m.out ++ t.inorder := by
  have r0 : Reach (E := E) (prog mv gl) (.copy t) ((), m) (init (.copy t) ((), m)) := .init
  obtain ⟨s1, _, l1, c1, f1, g1, b1, hres⟩ := op_mk (P := prog mv gl) r0 ⟨_, rfl, rfl⟩ rfl (Aux.lam_yields t ht)
  have hne : t.inorder ≠ [] := by cases t <;> simp [Tree.inorder] at ht ⊢
  rcases hres with ⟨v, ys, hxs, x1, q1, -⟩ | ⟨h, -⟩ | ⟨_, -, h, -⟩
  · have r1 := l1.reach r0
    have e2 := (Local.guard (P := prog mv gl) x1 rfl).fwd
    have c1' : s1.cur = 0 := c1
    have q2 := q1.congr (s' := { s1 with g := s1.g, frames := upd s1.frames s1.cur (.gCoro 1 :: s1.fr), ctl := .eval (.copyBegin 1), log := [] ++ s1.log })
      rfl rfl rfl rfl rfl rfl (upd_off _ _ q1.ne.symm) rfl
    obtain ⟨s3, l3, h3⟩ := op_begin q2 ⟨_, rfl, rfl⟩
    have r3 := l3.reach (r1.step e2)
    have q3 : Ready (prog mv gl) s3 _ _ _ () v ys none := q2.congr (by rw [h3]) (by rw [h3]) (by rw [h3]) (by rw [h3]) (by rw [h3]) (by rw [h3]) (by rw [h3]) (by rw [h3])
    obtain ⟨s4, l4, c4, f4, x4, b4, g4, q4⟩ := Aux.copy_loop ys v s3 m r3 q3 (by rw [h3]; rfl) (by rw [h3]; exact g1)
    have f4' : s4.fr = [.gCoro 1] := by
      rw [f4, h3]; show upd _ _ _ _ = _; rw [upd_at, f1]; rfl
    have c3 : s3.cur = 0 := by rw [h3]; exact c1'
    obtain ⟨s5, l5, c5, x5, f5, g5, b5, -⟩ := op_drop (l4.reach r3) q4.idle (by rw [x4]; simp) (.leave x4 rfl f4') rfl
    rw [undone_id fun _ _ => rfl] at g5
    have e6 := (Local.dCLeave (P := prog mv gl) x5 f5).fwd
    have e7 := Local.fwd (P := prog mv gl) (.ret (s := { s5 with g := s5.g, frames := upd s5.frames s5.cur [], ctl := .eval .stop, log := [] ++ s5.log }) rfl rfl)
    refine ⟨_, (((((l1.step e2).trans l3).trans l4).trans l5).step e6).step e7, ?_, ?_⟩
    · have hc5 : s5.cur = 0 := c5.trans (c4.trans c3)
      have hb : s5.base 0 = .main := by
        rw [b5 0 Nat.zero_ne_one, ← c3, b4, c3, h3]
        show s1.base 0 = _
        rw [b1 0 Nat.zero_ne_one]; rfl
      simp [step, retStep, St.fr, hc5, hb]
    · show s5.g.2.out = _
      rw [g5, g4, hxs]
  · exact absurd h hne
  · cases h

namespace Aux

/-- What `std::equal` does with two readers. -/
inductive Outcome (s : St (Pt V) (Unit × Mem V) V E) (m : Mem V) (h i c d hp ip : Nat) (xs ys : List V) : Prop
  | result (b : Bool) (s' : St (Pt V) (Unit × Mem V) V E) : Later (prog mv gl) s s' → s'.cur = s.cur → s'.fr = s.fr →
      s'.ctl = .eval (.equalDone b) → s'.base s.cur = s.base s.cur → s'.g = ((), m) → Idle s' h c hp → Idle s' i d ip →
      (b = true ↔ xs <+: ys) → (b = false → ¬ ys <+: xs) → Outcome s m h i c d hp ip xs ys
  | ub (s' s'' : St (Pt V) (Unit × Mem V) V E) : Later (prog mv gl) s s' → step (prog mv gl) s' = .ub .nullIter s'' →
      ys <+: xs → ys ≠ xs → Outcome s m h i c d hp ip xs ys

theorem same_idle {s s' : St (Pt V) (Unit × Mem V) V E} {h c hp : Nat} {x : Ctl (Pt V) V E} {lg : List (Ev V E)}
    (h1 : s' = { s with ctl := x, log := lg }) (hq : Idle s h c hp) : Idle s' h c hp :=
  hq.congr (by rw [h1]) (by rw [h1]) (by rw [h1]) (by rw [h1]) (by rw [h1]) (by rw [h1]) (by rw [h1]) (by rw [h1])

theorem same_ready {s s' : St (Pt V) (Unit × Mem V) V E} {h c hp : Nat} {x : Ctl (Pt V) V E} {lg : List (Ev V E)} {v : V} {xs : List V}
    {r : Option E} (h1 : s' = { s with ctl := x, log := lg }) (hq : Ready (prog mv gl) s h c hp () v xs r) : Ready (prog mv gl) s' h c hp () v xs r :=
  hq.congr (by rw [h1]) (by rw [h1]) (by rw [h1]) (by rw [h1]) (by rw [h1]) (by rw [h1]) (by rw [h1]) (by rw [h1])

/-- both elements are read -/
theorem read_both {h i c d hp ip : Nat} {l0 : Pt V} {g0 : Unit × Mem V} {v w : V} {xs ys : List V} {s : St (Pt V) (Unit × Mem V) V E}
    (hr : Reach (prog mv gl) l0 g0 s) (hq : Ready (prog mv gl) s h c hp () v xs none) (hq' : Ready (prog mv gl) s i d ip () w ys none)
    (hx : s.ctl = .eval (.equalLoop (some h) (some i))) :
    ∃ s' lg, Later (prog mv gl) s s' ∧ s' = { s with ctl := .eval (.equalTest h (some i) v w), log := lg } := by
  obtain ⟨s1, l1, h1⟩ := op_deref hq ⟨_, hx, rfl⟩
  have x1 : s1.ctl = .eval (.equalRead h (some i) v) := by rw [h1]; rfl
  obtain ⟨s2, l2, h2⟩ := op_deref (same_ready h1 hq') ⟨_, x1, rfl⟩
  refine ⟨s2, s2.log, l1.trans l2, ?_⟩
  rw [h2, h1]; rfl

/-- the element under the iterator after `++` -/
def Moved (mv : V → V) (gl : Bool) (s : St (Pt V) (Unit × Mem V) V E) (h c hp : Nat) (xs : List V) (X : Option Nat) : Prop :=
  (∃ x xs', xs = x :: xs' ∧ X = some h ∧ Ready (prog mv gl) s h c hp () x xs' none) ∨ (xs = [] ∧ X = none ∧ Spent s h c hp none)

theorem Moved.idle {s : St (Pt V) (Unit × Mem V) V E} {h c hp : Nat} {xs : List V} {X : Option Nat} (hm : Moved mv gl s h c hp xs X) :
    Idle s h c hp := by
  rcases hm with ⟨_, _, _, _, hq⟩ | ⟨_, _, hq⟩
  · exact hq.idle
  · exact hq.idle

/-- one round of `std::equal` in which the elements agree -/
theorem equal_round {h i c d hp ip : Nat} {l0 : Pt V} {g0 : Unit × Mem V} {m : Mem V} (hcd : c ≠ d) {v : V} {xs ys : List V}
    {s : St (Pt V) (Unit × Mem V) V E} (hr : Reach (prog mv gl) l0 g0 s) (hq : Ready (prog mv gl) s h c hp () v xs none)
    (hq' : Ready (prog mv gl) s i d ip () v ys none) (hx : s.ctl = .eval (.equalLoop (some h) (some i))) (hg : s.g = ((), m)) :
    ∃ s' X Y, Later (prog mv gl) s s' ∧ s'.cur = s.cur ∧ s'.fr = s.fr ∧ s'.ctl = .eval (.equalLoop X Y) ∧ s'.base s.cur = s.base s.cur ∧
      s'.g = ((), m) ∧ Moved mv gl s' i d ip ys Y ∧ ((∃ x xs', xs = x :: xs' ∧ X = some h ∧ Ready (prog mv gl) s' h c hp () x xs' none) ∨
        (xs = [] ∧ X = none ∧ Idle s' h c hp)) := by
  obtain ⟨s2, lg, l2, h2⟩ := read_both hr hq hq' hx
  have r2 := l2.reach hr
  have x2 : s2.ctl = .eval (.equalTest h (some i) v v) := by rw [h2]
  have c2 : s2.cur = s.cur := by rw [h2]
  have q2 := same_ready h2 hq
  have q2' := same_ready h2 hq'
  obtain ⟨s3, _, l3, c3, f3, g3, _, k3, hres⟩ := op_next r2 q2 (b := m) (k := onIt fun x => .equalNext2 x (some i))
    ⟨_, x2, by show (if v = v then _ else _) = _; rw [if_pos rfl]⟩ (by rw [h2]; exact hg)
  have r3 := l3.reach r2
  have q3' := q2'.keep r2 k3 (Ne.symm hcd) q2'.ne.symm c3
  obtain ⟨X, x3, m3⟩ : ∃ X, s3.ctl = .eval (.equalNext2 X (some i)) ∧ Moved mv gl s3 h c hp xs X := by
    rcases hres with ⟨x, xs', hxs, x3, q3⟩ | ⟨hxs, -, x3, q3⟩ | ⟨_, -, h, -⟩
    · exact ⟨_, x3, .inl ⟨x, xs', hxs, rfl, q3⟩⟩
    · exact ⟨_, x3, .inr ⟨hxs, rfl, q3⟩⟩
    · cases h
  obtain ⟨s4, _, l4, c4, f4, g4, _, k4, hres⟩ := op_next r3 q3' ⟨_, x3, rfl⟩ g3
  obtain ⟨Y, x4, m4⟩ : ∃ Y, s4.ctl = .eval (.equalLoop X Y) ∧ Moved mv gl s4 i d ip ys Y := by
    rcases hres with ⟨x, xs', hxs, x3, q3⟩ | ⟨hxs, -, x3, q3⟩ | ⟨_, -, h, -⟩
    · exact ⟨_, x3, .inl ⟨x, xs', hxs, rfl, q3⟩⟩
    · exact ⟨_, x3, .inr ⟨hxs, rfl, q3⟩⟩
    · cases h
  have hc3 : c ≠ s3.cur := by rw [c3, c2]; exact hq.ne.symm
  refine ⟨s4, X, Y, (l2.trans l3).trans l4, c4.trans (c3.trans c2), f4.trans (f3.trans (by rw [h2]; rfl)), x4, ?_, g4, m4, ?_⟩
  · rw [k4.base _ hq'.ne, k3.base _ hq.ne, h2]
  · rcases m3 with ⟨x, xs', hxs, hX, q⟩ | ⟨hxs, hX, q⟩
    · exact .inl ⟨x, xs', hxs, hX, q.keep r3 k4 hcd hc3 c4⟩
    · exact .inr ⟨hxs, hX, q.idle.keep r3 k4 hcd hc3 c4⟩

theorem equal_loop {h i c d hp ip : Nat} {l0 : Pt V} {g0 : Unit × Mem V} {m : Mem V} (hcd : c ≠ d) (xs : List V) :
    ∀ (v w : V) (ys : List V) (s : St (Pt V) (Unit × Mem V) V E),
    Reach (prog mv gl) l0 g0 s → Ready (prog mv gl) s h c hp () v xs none → Ready (prog mv gl) s i d ip () w ys none →
    s.ctl = .eval (.equalLoop (some h) (some i)) → s.g = ((), m) →
    Outcome (mv := mv) (gl := gl) s m h i c d hp ip (v :: xs) (w :: ys) := by
  induction xs with
  | nil =>
    intro v w ys s hr hq hq' hx hg
    by_cases hvw : v = w
    · subst hvw
      obtain ⟨s', X, Y, l1, c1, f1, x1, b1, g1, m1, h1⟩ := equal_round hcd hr hq hq' hx hg
      rcases h1 with ⟨x, xs', h, -⟩ | ⟨-, rfl, q⟩
      · cases h
      · have e2 := tau_step (P := prog mv gl) x1 (g := s'.g) (l' := .equalDone true) rfl
        refine .result true _ (l1.step e2) c1 f1 rfl b1 g1 (q.congr rfl rfl rfl rfl rfl rfl rfl rfl) (m1.idle.congr rfl rfl rfl rfl rfl rfl rfl rfl) ?_ (by simp)
        simp
    · obtain ⟨s2, lg, l2, h2⟩ := read_both hr hq hq' hx
      have e3 := tau_step (P := prog mv gl) (s := s2) (l := .equalTest h (some i) v w) (g := s2.g) (l' := .equalDone false) (by rw [h2])
        (by show (if v = w then _ else _) = _; rw [if_neg hvw])
      have h3 : ({ s2 with ctl := .eval (.equalDone false), g := s2.g } : St (Pt V) (Unit × Mem V) V E) = { s with ctl := .eval (.equalDone false), log := lg } := by
        rw [h2]
      refine .result false _ (l2.step e3) (by rw [h3]) (by rw [h3]; rfl) rfl (by rw [h3]) (by rw [h3]; exact hg) (same_idle h3 hq.idle)
        (same_idle h3 hq'.idle) ?_ ?_
      · simp [hvw]
      · simp [Ne.symm hvw]
  | cons x xs ih =>
    intro v w ys s hr hq hq' hx hg
    by_cases hvw : v = w
    · subst hvw
      obtain ⟨s', X, Y, l1, c1, f1, x1, b1, g1, m1, h1⟩ := equal_round hcd hr hq hq' hx hg
      have r1 := l1.reach hr
      rcases h1 with ⟨_, _, h, rfl, q⟩ | ⟨h, -⟩
      · cases h
        rcases m1 with ⟨y, ys', rfl, rfl, q'⟩ | ⟨rfl, rfl, q'⟩
        · cases ih x y ys' s' r1 q q' x1 g1 with
          | result b s2 l2 c2 f2 x2 b2 g2 i2 j2 hb1 hb2 =>
            refine .result b s2 (l1.trans l2) (c2.trans c1) (f2.trans f1) x2 ?_ g2 i2 j2 ?_ ?_
            · rw [← c1, b2, c1, b1]
            · rw [hb1]; simp
            · intro h; have := hb2 h; simpa using this
          | ub s2 s3 l2 e2 hp1 hp2 =>
            exact .ub s2 s3 (l1.trans l2) e2 (by simpa using hp1) (by simpa using hp2)
        · obtain ⟨s2, l2, h2⟩ := op_deref q ⟨_, x1, rfl⟩
          have x2 : s2.ctl = .eval (.equalRead h none x) := by rw [h2]; rfl
          refine .ub s2 (s2.pushFr (.usr (onVal fun w => .equalTest h none x w))) (l1.trans l2) ?_ (by simp) (by simp)
          simp only [step, x2, evalStep, prog, code, apiStep]
      · cases h
    · obtain ⟨s2, lg, l2, h2⟩ := read_both hr hq hq' hx
      have e3 := tau_step (P := prog mv gl) (s := s2) (l := .equalTest h (some i) v w) (g := s2.g) (l' := .equalDone false) (by rw [h2])
        (by show (if v = w then _ else _) = _; rw [if_neg hvw])
      have h3 : ({ s2 with ctl := .eval (.equalDone false), g := s2.g } : St (Pt V) (Unit × Mem V) V E) = { s with ctl := .eval (.equalDone false), log := lg } := by
        rw [h2]
      refine .result false _ (l2.step e3) (by rw [h3]) (by rw [h3]; rfl) rfl (by rw [h3]) (by rw [h3]; exact hg) (same_idle h3 hq.idle)
        (same_idle h3 hq'.idle) ?_ ?_
      · simp [hvw]
      · simp [Ne.symm hvw]

/-- the constructor of one reader, and the reader becoming a local -/
theorem make_reader {l0 : Pt V} {g0 : Unit × Mem V} {m : Mem V} {t : Tree V} (ht : t ≠ .nil) {s : St (Pt V) (Unit × Mem V) V E}
    (hr : Reach (prog mv gl) l0 g0 s) {k l : Nat → Pt V} (hc : Calls (prog mv gl) s (.mk .pull .val .ok fun out => .lam out t) (onHandle k))
    (hk : ∀ h g, (prog (E := E) mv gl).code (k h) g = .guard h (l h)) (hg : s.g = ((), m)) :
    ∃ s' v ys, Later (prog mv gl) s s' ∧ t.inorder = v :: ys ∧ s'.cur = s.cur ∧ s'.fr = .gCoro (s.nh + 1) :: s.fr ∧ s'.g = ((), m) ∧
      s'.ctl = .eval (l (s.nh + 1)) ∧ Ready (prog mv gl) s' (s.nh + 1) s.nk s.nh () v ys none ∧ Keeps s.nk s.cur s s' := by
  obtain ⟨s1, _, l1, c1, f1, g1, b1, hres⟩ := op_mk (P := prog mv gl) hr hc hg (lam_yields t ht)
  have hne : t.inorder ≠ [] := by cases t <;> simp [Tree.inorder] at ht ⊢
  rcases hres with ⟨v, ys, hxs, x1, q1, k1⟩ | ⟨h, -⟩ | ⟨_, -, h, -⟩
  · have x1 : s1.ctl = .eval (k (s.nh + 1)) := x1
    have e2 := (Local.guard (P := prog mv gl) x1 (hk _ _)).fwd
    refine ⟨_, v, ys, l1.step e2, hxs, c1, ?_, g1, rfl, q1.congr rfl rfl rfl rfl rfl rfl (upd_off _ _ q1.ne.symm) rfl, k1.trans (local_keeps rfl (.inr c1))⟩
    simp [St.fr] at f1 ⊢
    exact f1
  · exact absurd h hne
  · cases h

theorem equal_run (t u : Tree V) (ht : t ≠ .nil) (hu : u ≠ .nil) (m : Mem V) :
    (∃ b, ∃ s' : St (Pt V) (Unit × Mem V) V E, Later (prog mv gl) (init (.equal t u) ((), m)) s' ∧ step (prog mv gl) s' = .done s' ∧
      s'.g.2.res = some b ∧ (b = true ↔ t.inorder <+: u.inorder) ∧ (b = false → ¬ u.inorder <+: t.inorder)) ∨
    (∃ s' s'' : St (Pt V) (Unit × Mem V) V E, Later (prog mv gl) (init (.equal t u) ((), m)) s' ∧ step (prog mv gl) s' = .ub .nullIter s'' ∧
      u.inorder <+: t.inorder ∧ u.inorder ≠ t.inorder) := by
  have r0 : Reach (E := E) (prog mv gl) (.equal t u) ((), m) (init (.equal t u) ((), m)) := .init
  obtain ⟨s1, v, xs, l1, hxs, c1, f1, g1, x1, q1, k1⟩ := make_reader ht r0 (l := .equal2 u) ⟨_, rfl, rfl⟩ (fun _ _ => rfl) rfl
  have r1 := l1.reach r0
  obtain ⟨s2, w, ys, l2, hys, c2, f2, g2, x2, q2', k2⟩ := make_reader hu r1 (l := .equalBegin1 1) ⟨_, x1, rfl⟩ (fun _ _ => rfl) g1
  have r2 := l2.reach r1
  have hcd : (init (.equal t u) ((), m) : St (Pt V) (Unit × Mem V) V E).nk ≠ s1.nk := by
    have := (inv_reach r1).sched.lt_nk _ (by rw [q1.doze.chan.base]; simp)
    omega
  have q2 := q1.keep r1 k2 hcd q1.ne.symm c2
  obtain ⟨s3, l3, h3⟩ := op_begin q2 ⟨_, x2, rfl⟩
  have x3 : s3.ctl = .eval (.equalBegin2 (s1.nh + 1) (some 1)) := by rw [h3]; rfl
  obtain ⟨s4, l4, h4⟩ := op_begin (same_ready h3 q2') ⟨_, x3, rfl⟩
  have x4 : s4.ctl = .eval (.equalLoop (some 1) (some (s1.nh + 1))) := by rw [h4]; rfl
  have h4' : s4 = { s2 with ctl := .eval (.equalLoop (some 1) (some (s1.nh + 1))), log := s4.log } := by rw [h4, h3]; rfl
  have l04 := ((l1.trans l2).trans l3).trans l4
  have r4 := l04.reach r0
  have c1' : s1.cur = 0 := c1
  have c4 : s4.cur = 0 := by rw [h4']; exact c2.trans c1'
  have b4 : s4.base 0 = .main := by
    rw [h4']
    have hn1 : (0 : Nat) ≠ s1.nk := by
      have := (inv_reach r1).sched.lt_nk 0 (by rw [← c1']; exact (inv_reach r1).sched.cur_live)
      omega
    show s2.base 0 = _
    rw [k2.base 0 hn1, k1.base 0 Nat.zero_ne_one]; rfl
  have f4 : s4.fr = [.gCoro (s1.nh + 1), .gCoro 1] := by
    have : s4.fr = s2.fr := by rw [h4']; rfl
    rw [this, f2, f1]; rfl
  cases equal_loop (m := m) hcd xs v w ys s4 r4 (same_ready h4' q2) (same_ready h4' q2') x4 (by rw [h4']; exact g2) with
  | result b s5 l5 c5 f5 x5 b5 g5 i5 j5 hb1 hb2 =>
    left
    refine ⟨b, ?_⟩
    have e6 := tau_step (P := prog mv gl) x5 (g := ((), { m with res := some b })) (l' := .equalEnd) (by rw [g5]; rfl)
    have r6 := (l5.reach r4).step e6
    obtain ⟨s7, l7, c7, x7, f7, g7, b7, i7⟩ := op_drop r6 (j5.congr rfl rfl rfl rfl rfl rfl rfl rfl) (by simp)
      (.leave rfl rfl (f5.trans f4)) rfl
    rw [undone_id fun _ _ => rfl] at g7
    have r7 := l7.reach r6
    have i7 := i7 _ _ _ (i5.congr rfl rfl rfl rfl rfl rfl rfl rfl) hcd
    have e8 := (Local.dCLeave (P := prog mv gl) x7 f7).fwd
    have r8 := r7.step e8
    obtain ⟨s9, l9, c9, x9, f9, g9, b9, -⟩ := op_drop r8 (i7.congr rfl rfl rfl rfl rfl rfl (upd_off _ _ i7.ne.symm) rfl) (by simp)
      (.leave rfl rfl (upd_at ..)) rfl
    rw [undone_id fun _ _ => rfl] at g9
    have e10 := (Local.dCLeave (P := prog mv gl) x9 f9).fwd
    have e11 := Local.fwd (P := prog mv gl) (.ret (s := { s9 with g := s9.g, frames := upd s9.frames s9.cur [], ctl := .eval .stop, log := [] ++ s9.log }) rfl rfl)
    refine ⟨_, (((((((l04.trans l5).step e6).trans l7).step e8).trans l9).step e10).step e11), ?_, ?_, ?_, ?_⟩
    · have hc7 : s7.cur = 0 := c7.trans (c5.trans c4)
      have hc9 : s9.cur = 0 := c9.trans hc7
      have hb : s9.base 0 = .main := by
        have hd0 : (0 : Nat) ≠ s1.nk := by
          have := j5.ne
          rw [c5, c4] at this
          exact this
        rw [b9 0 Nat.zero_ne_one]
        show s7.base 0 = _
        rw [b7 0 hd0]
        show s5.base 0 = _
        rw [c4] at b5
        rw [b5, b4]
      simp [step, retStep, St.fr, hc9, hb]
    · show s9.g.2.res = _
      rw [g9]
      show s7.g.2.res = _
      rw [g7]
    · rw [hxs, hys]; exact hb1
    · rw [hxs, hys]; exact hb2
  | ub s5 s6 l5 e5 hp1 hp2 =>
    right
    exact ⟨s5, s6, l04.trans l5, e5, by rw [hxs, hys]; exact hp1, by rw [hxs, hys]; exact hp2⟩

end Aux

/-- C40, second half, as far as it holds: if the two fringes have the same length, the program that compares two readers with `std::equal`
runs to its end and its result says whether the fringes are equal.  (Missing: trees whose fringes differ in length; `C40_equal_prefix` and
`C40_equal_overrun` say what happens then.) -/
theorem C40_equal_partial (t u : Tree V) (ht : t ≠ .nil) (hu : u ≠ .nil) (m : Mem V) (hl : t.inorder.length = u.inorder.length) :
    ∃ s' : St (Pt V) (Unit × Mem V) V E, Later (prog mv gl) (init (.equal t u) ((), m)) s' ∧ step (prog mv gl) s' = .done s' ∧
      s'.g.2.res = some (decide (t.inorder = u.inorder)) := by
  rcases Aux.equal_run t u ht hu m with ⟨b, s', h1, h2, h3, h4, -⟩ | ⟨_, _, _, _, h, hne⟩
  · refine ⟨s', h1, h2, h3.trans ?_⟩
    congr 1
    rw [Bool.eq_iff_iff, h4, decide_eq_true_iff]
    exact ⟨fun h => h.eq_of_length hl, fun h => h ▸ List.prefix_rfl⟩
  · exact absurd (h.eq_of_length hl.symm) hne

/-- If the fringe of the first tree is a beginning of the second's, the result is `true` (also if the second goes on). -/
theorem C40_equal_prefix (t u : Tree V) (ht : t ≠ .nil) (hu : u ≠ .nil) (m : Mem V) (hl : t.inorder <+: u.inorder) :
    ∃ s' : St (Pt V) (Unit × Mem V) V E, Later (prog mv gl) (init (.equal t u) ((), m)) s' ∧ step (prog mv gl) s' = .done s' ∧
      s'.g.2.res = some true := by
  rcases Aux.equal_run t u ht hu m with ⟨b, s', h1, h2, h3, h4, -⟩ | ⟨_, _, _, _, h, hne⟩
  · exact ⟨s', h1, h2, by rw [h3, h4.2 hl]⟩
  · exact absurd (h.eq_of_length (Nat.le_antisymm h.length_le hl.length_le)) hne

/-- If the fringes differ at some position that both have, the result is `false`. -/
theorem C40_equal_differ (t u : Tree V) (ht : t ≠ .nil) (hu : u ≠ .nil) (m : Mem V) (h1 : ¬ t.inorder <+: u.inorder)
    (h2 : ¬ u.inorder <+: t.inorder) :
    ∃ s' : St (Pt V) (Unit × Mem V) V E, Later (prog mv gl) (init (.equal t u) ((), m)) s' ∧ step (prog mv gl) s' = .done s' ∧
      s'.g.2.res = some false := by
  rcases Aux.equal_run t u ht hu m with ⟨b, s', l, h, h3, h4, -⟩ | ⟨_, _, _, _, h, hne⟩
  · refine ⟨s', l, h, ?_⟩
    cases b
    · exact h3
    · exact absurd (h4.1 rfl) h1
  · exact absurd h h2

/-- If the fringe of the second tree ends first, without a difference before, the program dereferences an end iterator: undefined
behaviour (`std::equal` with three iterators, same_fringe.cpp:140-145, 162-167). -/
theorem C40_equal_overrun (t u : Tree V) (ht : t ≠ .nil) (hu : u ≠ .nil) (m : Mem V) (h1 : u.inorder <+: t.inorder)
    (h2 : u.inorder ≠ t.inorder) :
    ∃ s' s'' : St (Pt V) (Unit × Mem V) V E, Later (prog mv gl) (init (.equal t u) ((), m)) s' ∧ step (prog mv gl) s' = .ub .nullIter s'' := by
  rcases Aux.equal_run t u ht hu m with ⟨b, s', l, h, h3, h4, h5⟩ | ⟨s', s'', h, h', -⟩
  · cases b
    · exact absurd h1 (h5 rfl)
    · have := h4.1 rfl
      exact absurd (h1.eq_of_length (Nat.le_antisymm h1.length_le this.length_le)) h2
  · exact ⟨s', s'', h, h'⟩

/-- The second half of C40 is false in general: two trees with different fringes for which the program ends with `true`. -/
theorem C40_equal_refuted : ¬ ∀ t u : Tree Nat, t ≠ .nil → u ≠ .nil →
    ∃ s' : St (Pt Nat) (Unit × Mem Nat) Nat Empty, Later (prog id true) (init (.equal t u) ((), {})) s' ∧ step (prog id true) s' = .done s' ∧
      s'.g.2.res = some (decide (t.inorder = u.inorder)) := by
  intro h
  obtain ⟨s1, l1, e1, h1⟩ := h (.node .nil 0 .nil) (.node .nil 0 (.node .nil 1 .nil)) (by simp) (by simp)
  obtain ⟨s2, l2, e2, h2⟩ := C40_equal_prefix (E := Empty) (mv := id) (gl := true) (.node .nil 0 .nil) (.node .nil 0 (.node .nil 1 .nil))
    (by simp) (by simp) {} (by simp [Tree.inorder])
  have := end_unique l1 l2 (by rw [e1]; simp) (by rw [e2]; simp)
  subst this
  rw [h1] at h2
  simp [Tree.inorder] at h2

/-- … and two trees for which the program does not end at all (`C40_equal_overrun`). -/
theorem C40_equal_refuted_ub : ∃ t u : Tree Nat, t ≠ .nil ∧ u ≠ .nil ∧
    ¬ ∃ s' : St (Pt Nat) (Unit × Mem Nat) Nat Empty, Later (prog id true) (init (.equal t u) ((), {})) s' ∧ step (prog id true) s' = .done s' := by
  refine ⟨.node .nil 0 (.node .nil 1 .nil), .node .nil 0 .nil, by simp, by simp, ?_⟩
  rintro ⟨s1, l1, e1⟩
  obtain ⟨s2, s3, l2, e2⟩ := C40_equal_overrun (E := Empty) (mv := id) (gl := true) (.node .nil 0 (.node .nil 1 .nil)) (.node .nil 0 .nil)
    (by simp) (by simp) {} (by simp [Tree.inorder]) (by simp [Tree.inorder])
  have := end_unique l1 l2 (by rw [e1]; simp) (by rw [e2]; simp)
  subst this
  rw [e1] at e2
  cases e2

/-! Non-vacuity: the trees of the example (`create_left_tree_from("d")`, `create_right_tree_from("b")`, `…("x")`, same_fringe.cpp:44-78),
with the letters as numbers. -/

/-- same_fringe.cpp:44-60 -/
def leftTree (root : Nat) : Tree Nat := .node (.node (.node .nil 1 .nil) 2 (.node .nil 3 .nil)) root (.node .nil 5 .nil)
/-- same_fringe.cpp:62-78 -/
def rightTree (root : Nat) : Tree Nat := .node (.node .nil 1 .nil) root (.node (.node .nil 3 .nil) 4 (.node .nil 5 .nil))

example : leftTree 4 ≠ .nil ∧ (leftTree 4).inorder = [1, 2, 3, 4, 5] := by decide
example : (leftTree 4).inorder.length = (rightTree 2).inorder.length ∧ (leftTree 4).inorder = (rightTree 2).inorder := by decide
example : ¬ (leftTree 4).inorder <+: (rightTree 24).inorder ∧ ¬ (rightTree 24).inorder <+: (leftTree 4).inorder := by decide
example : (Tree.node .nil 1 .nil).inorder <+: (rightTree 2).inorder ∧ (Tree.node .nil 1 .nil).inorder ≠ (rightTree 2).inorder := by decide

end Verif.Fringe
