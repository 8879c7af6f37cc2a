import Verif.ExLayout
import Verif.Consume
import Verif.ObjInv

/-!
# C48: the example `layout.cpp`
-/
namespace Verif.Layout
variable {V E : Type} {num : Nat} {mv : V → V} {gl : Bool}

namespace Aux

/-- one word is printed, on the current line -/
theorem word_takes {hp i : Nat} {v : V} {g : List (Tok V)} (hi : i < num) :
    Takes (E := E) (prog num mv gl) hp g v (.eval (.inner hp i)) [.gObj 0] (g ++ [.word v]) (.asks (.inner hp (i + 1)) [.gObj 0]) := by
  refine .tau (g1 := g) (l' := .check hp i) ?_ (.bang rfl (.get rfl (.tau rfl (.askOp (k := fun _ => Pt.inner hp (i + 1)) rfl))))
  show (if i < num then _ else _) = _
  rw [if_pos hi]

/-- one word is printed, on a new line -/
theorem line_takes {hp : Nat} {v : V} {g : List (Tok V)} (hn : 0 < num) :
    Takes (E := E) (prog num mv gl) hp g v (.eval (.inner hp num)) [.gObj 0] (g ++ [.eol, .word v]) (.asks (.inner hp 1) [.gObj 0]) := by
  refine .tau (g1 := g) (l' := .eol hp) ?_ (.tau rfl (.tau rfl ?_))
  · show (if num < num then _ else _) = _
    rw [if_neg (by omega)]
  · have := word_takes (E := E) (mv := mv) (gl := gl) (hp := hp) (v := v) (g := g ++ [.eol]) hn
    simpa using this

/-- where the writer waits after `j` words -/
def At (num : Nat) (hp j : Nat) (l : Pt V) (F : List (Frame (Pt V) V E)) : Prop :=
  (j = 0 ∧ l = .lam hp ∧ F = []) ∨ (0 < j ∧ l = .inner hp ((j - 1) % num + 1) ∧ F = [.gObj 0])

/-- what is printed for word `j` -/
def piece (num : Nat) (p : V × Nat) : List (Tok V) := if p.2 ≠ 0 ∧ num ∣ p.2 then [.eol, .word p.1] else [.word p.1]

theorem step_takes {hp j : Nat} {v : V} {g : List (Tok V)} {l : Pt V} {F : List (Frame (Pt V) V E)} (hn : 0 < num) (ha : At num hp j l F) :
    ∃ l' F', Takes (prog num mv gl) hp g v (.eval l) F (g ++ piece num (v, j)) (.asks l' F') ∧ At num hp (j + 1) l' F' := by
  rcases ha with ⟨rfl, rfl, rfl⟩ | ⟨hj, rfl, rfl⟩
  · refine ⟨.inner hp 1, [.gObj 0], .obj rfl (.tau rfl ?_), .inr ⟨by omega, ?_, rfl⟩⟩
    · have := word_takes (E := E) (mv := mv) (gl := gl) (hp := hp) (v := v) (g := g) hn
      simpa [piece] using this
    · simp
  · have hlt := Nat.mod_lt (j - 1) hn
    by_cases hd : num ∣ j
    · have h1 : (j - 1) % num + 1 = num := by
        obtain ⟨q, rfl⟩ := hd
        obtain ⟨q, rfl⟩ : ∃ r, q = r + 1 := ⟨q - 1, by rcases q with _ | q <;> simp_all⟩
        have : num * (q + 1) - 1 = (num - 1) + num * q := by rw [Nat.mul_add]; omega
        rw [this, Nat.add_mul_mod_self_left, Nat.mod_eq_of_lt (by omega)]
        omega
      have h2 : j % num = 0 := Nat.mod_eq_zero_of_dvd hd
      rw [h1]
      refine ⟨.inner hp 1, [.gObj 0], ?_, .inr ⟨by omega, ?_, rfl⟩⟩
      · have e : piece num (v, j) = [.eol, .word v] := by simp [piece, hd]; omega
        rw [e]
        exact line_takes hn
      · simp [h2]
    · have h1 : (j - 1) % num + 1 < num := by
        refine Nat.lt_of_le_of_ne hlt fun h => hd ?_
        have := Nat.div_add_mod (j - 1) num
        refine ⟨(j - 1) / num + 1, ?_⟩
        rw [Nat.mul_add]
        omega
      have h2 : j % num = (j - 1) % num + 1 := by
        have : j = (j - 1) + 1 := by omega
        conv => lhs; rw [this]
        rw [Nat.add_mod, Nat.mod_eq_of_lt (a := 1) (by omega), Nat.mod_eq_of_lt h1]
      refine ⟨.inner hp ((j - 1) % num + 1 + 1), [.gObj 0], ?_, .inr ⟨by omega, ?_, rfl⟩⟩
      · have e : piece num (v, j) = [.word v] := by simp [piece, hd]
        rw [e]
        exact word_takes h1
      · simp [h2]

theorem copy_loop {h c hp : Nat} {l0 : Pt V} {g0 : List (Tok V)} (hn : 0 < num) (ws : List V) :
    ∀ (j : Nat) (l : Pt V) (F : List (Frame (Pt V) V E)) (s : St (Pt V) (List (Tok V)) V E),
    Reach (prog num mv gl) l0 g0 s → Sink s h c hp l F → At num hp j l F → s.ctl = .eval (.copy (some h) ws) →
    ∃ s' l' F', Later (prog num mv gl) s s' ∧ s'.cur = s.cur ∧ s'.fr = s.fr ∧ s'.ctl = .eval (.copy (some h) []) ∧
      s'.base s.cur = s.base s.cur ∧ s'.g = s.g ++ (ws.zipIdx j).flatMap (piece num) ∧ Sink s' h c hp l' F' ∧ At num hp (j + ws.length) l' F' := by
  induction ws with
  | nil =>
    intro j l F s hr hq ha hx
    exact ⟨s, l, F, .refl, rfl, rfl, hx, rfl, by simp, hq, ha⟩
  | cons w ws ih =>
    intro j l F s hr hq ha hx
    obtain ⟨l1, F1, ht, ha1⟩ := step_takes (E := E) (mv := mv) (gl := gl) (v := w) (g := s.g) hn ha
    obtain ⟨s1, t1, c1, f1, g1, -, k1, r, hres, x1, q1⟩ := op_push hr hq ⟨_, hx, rfl⟩ (.it (by simp)) .copy ht
    cases hres
    obtain ⟨s2, l2, F2, t2, c2, f2, x2, b2, g2, q2, a2⟩ := ih (j + 1) l1 F1 s1 (t1.reach hr) q1 ha1 x1
    refine ⟨s2, l2, F2, t1.trans t2, c2.trans c1, f2.trans f1, x2, ?_, ?_, q2, ?_⟩
    · rw [← c1, b2, c1, k1.base _ hq.ne]
    · rw [g2, g1]; simp [List.zipIdx_cons]
    · have : j + 1 + ws.length = j + (ws.length + 1) := by omega
      rw [List.length_cons, ← this]; exact a2

end Aux

/-- C48: for all words and all `num > 0` the program prints exactly the words in order, a line break between groups of `num`, and then "Done".
At that point the `FinalEOL` of the writer is alive if and only if there was a word (the writer has been entered).  The destructor of the
writer at the end of `main` unwinds the lambda; thereby the `FinalEOL` prints a line break if and only if there was a word, and the program
ends. -/
theorem C48_layout (num : Nat) (hn : 0 < num) (ws : List V) (mv : V → V) (gl : Bool) :
    ∃ s1 s2 : St (Pt V) (List (Tok V)) V E, Later (prog num mv gl) (init (.main ws) []) s1 ∧ Later (prog num mv gl) s1 s2 ∧
      step (prog num mv gl) s2 = .done s2 ∧ s1.g = layout num ws ++ [.done] ∧
      s2.g = layout num ws ++ [.done] ++ (if ws = [] then [] else [.eol]) ∧
      liveObjs 1 s1.log = (if ws = [] then [] else [0]) ∧ liveObjs 1 s2.log = [] := by
  have r0 : Reach (E := E) (prog num mv gl) (.main ws) [] (init (.main ws) []) := .init
  obtain ⟨s1, l1, c1, f1, g1, n1, k1, x1, q1⟩ := op_localPush (P := prog num mv gl) (l' := .start 1 ws) r0 ⟨_, rfl, rfl⟩ rfl
  have r1 := l1.reach r0
  obtain ⟨s2, l2, h2, q2⟩ := op_beginPush (P := prog num mv gl) (h := 1) q1 ⟨_, x1, rfl⟩
  have r2 := l2.reach r1
  have c2 : s2.cur = 0 := by rw [h2]; exact c1
  obtain ⟨s3, l', F', l3, c3, f3, x3, b3, g3, q3, a3⟩ := Aux.copy_loop hn ws 0 _ _ s2 r2 q2 (.inl ⟨rfl, rfl, rfl⟩) (by rw [h2]; rfl)
  have r3 := l3.reach r2
  have e4 := tau_step (P := prog num mv gl) x3 (g := s3.g) (l' := .finish) rfl
  have e5 := tau_step (P := prog num mv gl) (s := { s3 with ctl := .eval .finish, g := s3.g }) rfl (g := s3.g ++ [.done]) (l' := .stop) rfl
  have r5 := (r3.step e4).step e5
  have hF : ∀ f ∈ F', Plain f := by
    rcases a3 with ⟨-, -, rfl⟩ | ⟨-, -, rfl⟩
    · simp
    · simp [Plain]
  have f3' : s3.fr = [.gCoro 1] := by
    rw [f3, h2]
    exact f1
  have b3' : s3.base 0 = .main := by
    rw [← c2, b3, c2, h2]
    exact k1.base 0 Nat.zero_ne_one
  obtain ⟨s6, l6, d6, g6, fc6, -⟩ := main_end r5 (q3.tau.idle hF) rfl rfl f3' (c3.trans c2) b3'
  have hlo : locals (s3.frames 1) = if ws = [] then [] else [0] := by
    rw [show locals (s3.frames 1) = locals F' from q3.hungry.objs]
    rcases a3 with ⟨h, -, rfl⟩ | ⟨h, -, rfl⟩
    · obtain rfl : ws = [] := by cases ws <;> simp at h ⊢
      rfl
    · have : ws ≠ [] := by rintro rfl; simp at h
      simp [this, locals]
  have hout : s3.g = layout num ws := by
    rw [g3, h2]
    show s1.g ++ _ = _
    rw [g1]
    rfl
  refine ⟨_, s6, (((l1.trans l2).trans l3).step e4).step e5, l6, d6, ?_, ?_, ?_, ?_⟩
  · show s3.g ++ _ = _
    rw [hout]
  · rw [g6]
    show undone _ (locals (s3.frames 1)) (s3.g ++ _) = _
    rw [hlo, hout]
    split
    · exact (List.append_nil _).symm
    · rfl
  · rw [(obj_reach r5).live 1]
    exact hlo
  · rw [(obj_reach (l6.reach r5)).live 1, show s6.frames 1 = [] from fc6]
    rfl

/-- With `num = 0` (outside C48) the writer prints line breaks for ever once it is given a word: the program does not end. -/
theorem C48_zero (w : V) (ws : List V) (mv : V → V) (gl : Bool) :
    (∀ n, ∃ s' : St (Pt V) (List (Tok V)) V E, Later (prog 0 mv gl) (init (.main (w :: ws)) []) s' ∧ s'.g = List.replicate n .eol) ∧
      ¬ ∃ s' : St (Pt V) (List (Tok V)) V E, Later (prog 0 mv gl) (init (.main (w :: ws)) []) s' ∧ step (prog 0 mv gl) s' = .done s' := by
  have r0 : Reach (E := E) (prog 0 mv gl) (.main (w :: ws)) [] (init (.main (w :: ws)) []) := .init
  obtain ⟨s1, l1, c1, f1, g1, n1, k1, x1, q1⟩ := op_localPush (P := prog 0 mv gl) (l' := .start 1 (w :: ws)) r0 ⟨_, rfl, rfl⟩ rfl
  have r1 := l1.reach r0
  obtain ⟨s2, l2, h2, q2⟩ := op_beginPush (P := prog 0 mv gl) (h := 1) q1 ⟨_, x1, rfl⟩
  have r2 := l2.reach r1
  obtain ⟨s3, l3, w3, -, g3, x3, -⟩ := feed_wake (P := prog 0 mv gl) r2 q2 ⟨_, show s2.ctl = .eval (.copy (some 1) (w :: ws)) by rw [h2]; rfl, rfl⟩ (.it (by simp)) .copy
  have e4 := (Local.newObj (P := prog 0 mv gl) x3 rfl).fwd
  generalize hs4 : ({ s3 with g := _, frames := _, ctl := _, log := _ } : St (Pt V) (List (Tok V)) V E) = s4 at e4
  have x4 : s4.ctl = .eval (.outer 0) := by subst hs4; rfl
  have g4 : s4.g = [] := by subst hs4; show s3.g = []; rw [g3, h2]; exact g1
  have l4 := ((l1.trans l2).trans l3).step e4
  have round : ∀ n, ∃ s' : St (Pt V) (List (Tok V)) V E, Later (prog 0 mv gl) s4 s' ∧ s'.ctl = .eval (.outer 0) ∧ s'.g = List.replicate n .eol := by
    intro n
    induction n with
    | zero => exact ⟨s4, .refl, x4, g4⟩
    | succ n ih =>
      obtain ⟨s', l', x', g'⟩ := ih
      have a1 := tau_step (P := prog 0 mv gl) x' (g := s'.g) (l' := .inner 0 0) rfl
      have a2 := tau_step (P := prog 0 mv gl) (s := { s' with ctl := .eval (.inner 0 0), g := s'.g }) rfl (g := s'.g) (l' := .eol 0) rfl
      have a3 := tau_step (P := prog 0 mv gl) (s := { s' with ctl := .eval (.eol 0), g := s'.g }) rfl (g := s'.g ++ [.eol]) (l' := .outer 0) rfl
      refine ⟨_, ((l'.step a1).step a2).step a3, rfl, ?_⟩
      show s'.g ++ _ = _
      rw [g', List.replicate_succ']
  refine ⟨fun n => ?_, ?_⟩
  · obtain ⟨s', l', -, h⟩ := round n
    exact ⟨s', l4.trans l', h⟩
  · rintro ⟨s', l', hd⟩
    have stay : ∀ s5 : St (Pt V) (List (Tok V)) V E, Later (prog 0 mv gl) s4 s5 → s5.ctl = .eval (.outer 0) ∨ s5.ctl = .eval (.inner 0 0) ∨ s5.ctl = .eval (.eol 0) := by
      intro s5 l5
      induction l5 with
      | refl => exact .inl x4
      | step _ e ih =>
        rcases ih with h | h | h
        · rw [tau_step (P := prog 0 mv gl) h rfl] at e; cases e; exact .inr (.inl rfl)
        · rw [tau_step (P := prog 0 mv gl) h rfl] at e; cases e; exact .inr (.inr rfl)
        · rw [tau_step (P := prog 0 mv gl) h rfl] at e; cases e; exact .inl rfl
    have l5 : Later (prog 0 mv gl) s4 s' := later_end l' l4 (by rw [hd]; simp)
    rcases stay s' l5 with h | h | h <;> rw [tau_step (P := prog 0 mv gl) h rfl] at hd <;> cases hd

/-! Non-vacuity: five words, two on a line. -/
example : layout 2 [10, 20, 30, 40, 50] = [.word 10, .word 20, .eol, .word 30, .word 40, .eol, .word 50] := by decide
example : layout 2 [10, 20] = [.word 10, .word 20] ∧ layout 5 ([] : List Nat) = [] ∧ layout 1 [1, 2] = [.word 1, .eol, .word 2] := by decide
example : 0 < 5 := by decide

end Verif.Layout
