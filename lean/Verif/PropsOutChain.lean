import Verif.PropsChain

/-!
# C58: chains with push coroutines

The chains of doc/motivation.qbk:541-565: pull coroutines, then a loop in main that passes its items on into a chain of push coroutines, at its
end a writer.  `written` (SpecChain.lean) is the same computation without coroutines.
-/
namespace Verif
variable {G V E : Type}
open Chain

/-- C58: the chain does what the nested loops do, whatever the input, the stages before and after the loop, the loop and the writer; whenever the
writer has got an item, its local object is destroyed exactly once, at the end or when the writer throws. -/
theorem C58_out_chain (C : Spec V G E) {w : V → G → G × Option E} (hw : C.writer = some w) (mv : V → V) (gl : Bool) (g : G) :
    Same (prog C mv gl) (.make 0 0) g (written C w g) :=
  same_of_ends (written_ok hw g)

theorem nested_append (fs hs : List (Stage V G E)) (c : V → G → Run G E) : nested (fs ++ hs) c = nested fs (nested hs c) := by
  induction fs with
  | nil => rfl
  | cons f fs ih => simp only [List.cons_append, nested, ih]

/-- C58: "because of the symmetry of the API" (doc/motivation.qbk:559-560) it does not matter on which side of the loop a stage is: the program with
the stages `hs` as pull coroutines before the loop and the program with the same functions as push coroutines after it end in the same way, with the
same memory.  Whatever the stages do, with side effects and exceptions. -/
theorem C58_symmetry (input : List V) (fs hs : List (Stage V G E)) (w : V → G → G × Option E) (eol : G → G) (mv : V → V) (gl : Bool) (g : G) :
    ∃ r, Same (prog { input := input, stages := fs ++ hs, consume := fun _ g => (g, .goOn), writer := some w, eol := eol } mv gl) (.make 0 0) g r ∧
      Same (prog { input := input, stages := fs, consume := fun _ g => (g, .goOn), writer := some w, outs := hs.reverse, eol := eol } mv gl)
        (.make 0 0) g r := by
  refine ⟨_, C58_out_chain _ rfl mv gl g, ?_⟩
  have h := C58_out_chain { input := input, stages := fs, consume := fun _ g => (g, .goOn), writer := some w, outs := hs.reverse, eol := eol } rfl mv gl g
  have hon : ∀ rest : Cont V G E, onward (fun _ g => (g, .goOn)) rest = rest := fun _ => rfl
  have he : written { input := input, stages := fs ++ hs, consume := fun _ g => (g, .goOn), writer := some w, eol := eol } w g =
      written { input := input, stages := fs, consume := fun _ g => (g, .goOn), writer := some w, outs := hs.reverse, eol := eol } w g := by
    simp only [written, List.map_append, nested_append, List.reverse_reverse, List.reverse_nil, List.map_nil, nested, hon]
    rfl
  rw [he]
  exact h

theorem each_write (w : V → G → G) (vs : List V) (g : G) (s : Begun) :
    each (write (E := E) fun v g => (w v g, none)) vs (g, s) = .ok (vs.foldl (fun g v => w v g) g, s || !vs.isEmpty) := by
  induction vs generalizing g s with
  | nil => simp [each]
  | cons v vs ih =>
    show each _ vs (w v g, true) = _
    rw [ih]; simp

/-- a chain whose stages only compute -/
def computing (input : List V) (fs hs : List (V → List V)) (w : V → G → G) (eol : G → G) : Spec V G E where
  input := input
  stages := fs.map fun f v g => (g, .ok (f v))
  consume := fun _ g => (g, .goOn)
  writer := some fun v g => (w v g, none)
  outs := hs.map fun f v g => (g, .ok (f v))
  eol := eol

/-- C58: if the stages only compute, the writer gets what the composition of the stages gives, in order; its local object is destroyed at the end,
but only if it has got anything. -/
theorem C58_pipeline (input : List V) (fs hs : List (V → List V)) (w : V → G → G) (eol : G → G) (mv : V → V) (gl : Bool) (g : G)
    (items : List V) (hi : items = hs.reverse.foldl (fun vs f => vs.flatMap f) (fs.foldl (fun vs f => vs.flatMap f) input)) :
    ∃ n t, run (prog (E := E) (computing input fs hs w eol) mv gl) n (init (.make 0 0) g) = .done t ∧
      t.g = if items.isEmpty then g else eol (items.foldl (fun g v => w v g) g) := by
  have h := C58_out_chain (E := E) (computing input fs hs w eol) rfl mv gl g
  have hl : ∀ fs : List (V → List V), (fs.map fun f v (g : G) => (g, (.ok (f v) : Except E (List V)))).map (lift (S := Begun)) =
      fs.map fun f v (x : G × Begun) => (x, .ok (f v)) := by
    intro fs
    rw [List.map_map]; rfl
  have hon : ∀ rest : Cont V G E, onward (fun _ g => (g, .goOn)) rest = rest := fun _ => rfl
  simp only [written, computing, ← List.map_reverse, hl, hon, each_pure] at h
  rw [each_write, ← hi] at h
  show Same (prog (computing input fs hs w eol) mv gl) (.make 0 0) g (.ok _)
  cases items with
  | nil => exact h
  | cons v vs => exact h

/-- the page: item number `i` is preceded by a line break if `i` is a multiple of `num`, other than 0; the last line is finished -/
def page (num width : Nat) (tokens : List (List Char)) : List Char :=
  (tokens.zipIdx.flatMap fun (tok, i) => (if i ≠ 0 ∧ i % num = 0 then ['\n'] else []) ++ padded width tok) ++ if tokens.isEmpty then [] else ['\n']

theorem layout_page (num width : Nat) (hn : num ≠ 0) (tokens : List (List Char)) (k : Nat) (p : Page)
    (hp : p.2 = if k = 0 then 0 else (k - 1) % num + 1) :
    (tokens.foldl (fun p tok => (layout (E := E) num width tok p).1) p).1 =
      p.1 ++ (tokens.zipIdx k).flatMap fun (tok, i) => (if i ≠ 0 ∧ i % num = 0 then ['\n'] else []) ++ padded width tok := by
  induction tokens generalizing k p with
  | nil => simp
  | cons tok toks ih =>
    have key : (p.2 = num ↔ k ≠ 0 ∧ k % num = 0) ∧ (layout (E := E) num width tok p).1.2 = k % num + 1 := by
      have hlt := Nat.mod_lt (k - 1) (Nat.pos_of_ne_zero hn)
      have hmod : k ≠ 0 → k % num = if (k - 1) % num + 1 = num then 0 else (k - 1) % num + 1 := by
        intro hk
        obtain ⟨j, rfl⟩ : ∃ j, k = j + 1 := ⟨k - 1, by omega⟩
        simp only [Nat.add_sub_cancel] at hlt ⊢
        rw [Nat.add_mod]
        by_cases h1 : num = 1
        · subst h1; simp [Nat.mod_one]
        · rw [Nat.mod_eq_of_lt (show 1 < num by omega)]
          split
          · next h => rw [h, Nat.mod_self]
          · rw [Nat.mod_eq_of_lt (by omega)]
      by_cases hk : k = 0
      · subst hk
        simp only [if_pos] at hp
        have : ¬ (0 = num) := fun h => hn h.symm
        simp [hp, layout, this]
      · rw [if_neg hk] at hp
        have hm := hmod hk
        by_cases hc : (k - 1) % num + 1 = num
        · rw [if_pos hc] at hm
          simp [hp, hc, layout, hk, hm]
        · rw [if_neg hc] at hm
          have : k % num ≠ 0 := by omega
          refine ⟨by simp only [hp]; omega, ?_⟩
          simp [layout, hp, hc, hm]
    rw [List.foldl_cons, ih (k + 1) _ (by rw [key.2]; simp), List.zipIdx_cons, List.flatMap_cons]
    by_cases hc : p.2 = num
    · have := key.1.1 hc
      simp [layout, hc, this]
    · have : ¬ (k ≠ 0 ∧ k % num = 0) := fun h => hc (key.1.2 h)
      simp [layout, hc, this]

/-- the words of a text -/
def wordsOf (lines : List (List Char)) : List (List Char) := (lines.flatMap (scan .plain)).filter fun tok => tok.head?.any isAlpha

theorem onlyWords_filter (toks : List (List Char)) :
    (toks.flatMap fun token => match token with | c :: _ => if isAlpha c then [token] else [] | [] => []) =
      toks.filter fun tok => tok.head?.any isAlpha := by
  induction toks with
  | nil => rfl
  | cons tok toks ih =>
    rw [List.flatMap_cons, ih]
    cases tok with
    | nil => simp
    | cons c cs => by_cases hc : isAlpha c = true <;> simp [hc]

/-- C58: both chains of the documentation (doc/motivation.qbk:541-565) print the same page: the words of the text, `num` to a line. -/
theorem C58_layout (lines : List (List Char)) (num width : Nat) (hn : num ≠ 0) (mv : List Char → List Char) (gl : Bool) :
    (∃ n t, run (prog (E := E) (laid lines num width) mv gl) n (init (.make 0 0) ([], 0)) = .done t ∧ t.g.1 = page num width (wordsOf lines)) ∧
    ∃ n t, run (prog (E := E) (filtered lines num width) mv gl) n (init (.make 0 0) ([], 0)) = .done t ∧ t.g.1 = page num width (wordsOf lines) := by
  let words : List Char → List (List Char) := fun token => match token with | c :: _ => if isAlpha c then [token] else [] | [] => []
  have hw : (lines.flatMap (scan .plain)).flatMap words = wordsOf lines := onlyWords_filter _
  have fin : (if (wordsOf lines).isEmpty then (([], 0) : Page)
      else finalEOL ((wordsOf lines).foldl (fun p tok => (layout (E := E) num width tok p).1) ([], 0))).1 = page num width (wordsOf lines) := by
    cases hl : wordsOf lines with
    | nil => rfl
    | cons v vs =>
      have := layout_page (E := E) num width hn (v :: vs) 0 ([], 0) rfl
      simp only [List.isEmpty_cons, Bool.false_eq_true, if_false, finalEOL, page]
      rw [this]; rfl
  constructor
  · obtain ⟨n, t, h1, h2⟩ := C58_pipeline (E := E) lines [scan .plain, words] [] (fun tok p => (layout (E := E) num width tok p).1) finalEOL mv gl ([], 0)
      (wordsOf lines) hw.symm
    exact ⟨n, t, h1, by rw [h2]; exact fin⟩
  · obtain ⟨n, t, h1, h2⟩ := C58_pipeline (E := E) lines [scan .plain] [words] (fun tok p => (layout (E := E) num width tok p).1) finalEOL mv gl ([], 0)
      (wordsOf lines) hw.symm
    exact ⟨n, t, h1, by rw [h2]; exact fin⟩

/-! ## Examples -/

-- what the documentation's program prints
example : String.ofList (page 5 15 (wordsOf docText)) =
    "           This             is            the          first           line\n" ++
    "           This            the         second            The          third\n" ++
    "            has       a phrase\n" := by decide +kernel

/-- one stage before the loop, two after it, all with side effects; the last constructed one throws at 13, the writer at 66, the loop is left at 99 -/
def noisyOut (input : List Nat) : Spec Nat (List Nat) String where
  input := input
  stages := [fun v g => (g ++ [1000 + v], .ok [v, v + 1])]
  consume := fun v g => (g ++ [2000 + v], if v = 99 then .leave else .goOn)
  writer := some fun v g => (g ++ [5000 + v], if v = 66 then some "writer" else none)
  outs := [fun v g => (g ++ [4000 + v], .ok [v]), fun v g => if v = 13 then (g ++ [6666], .error "thirteen") else (g ++ [3000 + v], .ok [v, v])]
  eol := fun g => g ++ [7777]

-- the items go through everything one by one; the writer's object is destroyed at the end
example : ∃ n t, run (prog (noisyOut [1]) id true) n (init (.make 0 0) []) = .done t ∧
    t.g = [1001, 2001, 3001, 4001, 5001, 4001, 5001, 2002, 3002, 4002, 5002, 4002, 5002, 7777] := C58_out_chain (noisyOut [1]) rfl id true []
-- no item: the writer is never entered
example : ∃ n t, run (prog (noisyOut []) id true) n (init (.make 0 0) []) = .done t ∧ t.g = [] := C58_out_chain (noisyOut []) rfl id true []
-- the loop is left: the writer, suspended, is unwound
example : ∃ n t, run (prog (noisyOut [98]) id true) n (init (.make 0 0) []) = .done t ∧
    t.g = [1098, 2098, 3098, 4098, 5098, 4098, 5098, 2099, 7777] := C58_out_chain (noisyOut [98]) rfl id true []
-- a push stage throws before the writer has got anything: the exception arrives in main, through the loop
example : ∃ n t, run (prog (noisyOut [13]) id true) n (init (.make 0 0) []) = .uncaught t ∧ t.ctl = .raise (.user "thirteen") ∧
    t.g = [1013, 2013, 6666] := C58_out_chain (noisyOut [13]) rfl id true []
-- the writer throws: through two coroutines into main
example : ∃ n t, run (prog (noisyOut [66]) id true) n (init (.make 0 0) []) = .uncaught t ∧ t.ctl = .raise (.user "writer") ∧
    t.g = [1066, 2066, 3066, 4066, 5066, 7777] := C58_out_chain (noisyOut [66]) rfl id true []

end Verif
