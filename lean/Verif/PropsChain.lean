import Verif.ChainEnd
import Verif.PropsRefine

/-!
# C57: chained coroutines behave as nested loops

The chain of doc/motivation.qbk:440-539: a reader, any number of stages, each a coroutine that consumes the one before it, and a loop that
consumes the last one.  `loops` (SpecChain.lean) is the same computation without coroutines.
-/
namespace Verif
variable {L G V E : Type} {P : Prog L G V E} {l0 : L} {g0 : G}

/-- what the specification machine ends with is what the library ends with -/
theorem lib_done {n : Nat} {a : Coro.St L G V E} (h : Coro.run P n (Coro.init l0 g0) = .done a) :
    ∃ m t, run P m (init l0 g0) = .done t ∧ Agree t a := by
  have hm := C55_ends_meaningful (.inl h)
  obtain ⟨b, hr, hs⟩ := coroReach_of_run .init (.inl h)
  rw [h] at hs
  obtain ⟨s, h2⟩ := coro_sim (fun a ha s h => h.rules (hm a ha)) hr
  obtain ⟨s1, hl, h3, ⟨_, _, _, e, _⟩ | ⟨e1, e⟩ | ⟨_, e⟩⟩ := h2.progress' (fun s h => h.rules (hm b hr)) <;> rw [hs] at e <;> cases e
  obtain ⟨m, hm'⟩ := run_of_reach h3.1.reach
  exact ⟨m + 1, s1, by rw [run_step hm', e1], h3.agree⟩

theorem lib_uncaught {n : Nat} {a : Coro.St L G V E} (h : Coro.run P n (Coro.init l0 g0) = .uncaught a) :
    ∃ m t, run P m (init l0 g0) = .uncaught t ∧ Agree t a := by
  have hm := C55_ends_meaningful (.inr h)
  obtain ⟨b, hr, hs⟩ := coroReach_of_run .init (.inr h)
  rw [h] at hs
  obtain ⟨s, h2⟩ := coro_sim (fun a ha s h => h.rules (hm a ha)) hr
  obtain ⟨s1, hl, h3, ⟨_, _, _, e, _⟩ | ⟨_, e⟩ | ⟨e1, e⟩⟩ := h2.progress' (fun s h => h.rules (hm b hr)) <;> rw [hs] at e <;> cases e
  obtain ⟨m, hm'⟩ := run_of_reach h3.1.reach
  exact ⟨m + 1, s1, by rw [run_step hm', e1], h3.agree⟩

namespace Chain

/-- What `r`, the end of the loops without coroutines, says about a program of the model: it ends with the same memory; if an exception leaves
the loops, that exception leaves main. -/
def Same (P : Prog (Pt V E) G V E) (l0 : Pt V E) (g0 : G) : Run G E → Prop
  | .ok g => ∃ n t, run P n (init l0 g0) = .done t ∧ t.g = g
  | .error (g, none) => ∃ n t, run P n (init l0 g0) = .done t ∧ t.g = g
  | .error (g, some e) => ∃ n t, run P n (init l0 g0) = .uncaught t ∧ t.ctl = .raise (.user e) ∧ t.g = g

end Chain
open Chain

/-- the same, on the library -/
theorem same_of_ends {P : Prog (Pt V E) G V E} {l0 : Pt V E} {g : G} {r : Run G E} (h : Chain.Ends P (Coro.init l0 g) r) : Same P l0 g r := by
  match r, h with
  | .ok g', ⟨n, t, h1, h2⟩ =>
    obtain ⟨m, s, h3, h4⟩ := lib_done h1
    exact ⟨m, s, h3, h4.mem.symm.trans h2⟩
  | .error (g', none), ⟨n, t, h1, h2⟩ =>
    obtain ⟨m, s, h3, h4⟩ := lib_done h1
    exact ⟨m, s, h3, h4.mem.symm.trans h2⟩
  | .error (g', some e), ⟨n, t, h1, h2, h3⟩ =>
    obtain ⟨m, s, h4, h5⟩ := lib_uncaught h1
    exact ⟨m, s, h4, (h5.exc _).1 h2, h5.mem.symm.trans h3⟩

/-- C57: the chain does what the nested loops do, whatever the input, the stages and the consumer. -/
theorem C57_chain (C : Spec V G E) (hw : C.writer = none) (mv : V → V) (gl : Bool) (g : G) : Same (prog C mv gl) (.make 0 0) g (loops C g) :=
  same_of_ends (chain_ok hw g)

theorem each_append (b : V → G → Run G E) (xs ys : List V) (g : G) : each b (xs ++ ys) g = (each b xs g).bind (each b ys) := by
  induction xs generalizing g with
  | nil => rfl
  | cons x xs ih =>
    simp only [List.cons_append, each]
    cases b x g with
    | ok g' => exact ih g'
    | error _ => rfl

/-- stages that only compute -/
theorem each_pure (fs : List (V → List V)) (c : V → G → Run G E) (input : List V) (g : G) :
    each (nested (fs.map fun f v g => (g, .ok (f v))) c) input g = each c (fs.foldl (fun vs f => vs.flatMap f) input) g := by
  induction fs generalizing input g with
  | nil => rfl
  | cons f fs ih =>
    refine Eq.trans ?_ (ih (input.flatMap f) g)
    clear ih
    induction input generalizing g with
    | nil => rfl
    | cons v vs ihv =>
      simp only [List.flatMap_cons, each_append, each, List.map_cons, nested, through]
      congr 1
      funext g'
      exact ihv g'

/-- C57: if the stages only compute, the chain is the composition of the stages. -/
theorem C57_pipeline (input : List V) (fs : List (V → List V)) (c : V → G → G) (mv : V → V) (gl : Bool) (g : G) :
    ∃ n t, run (prog (E := E) { input := input, stages := fs.map fun f v g => (g, .ok (f v)), consume := fun v g => (c v g, .goOn) } mv gl)
        n (init (.make 0 0) g) = .done t ∧
      t.g = (fs.foldl (fun vs f => vs.flatMap f) input).foldl (fun g v => c v g) g := by
  have h := C57_chain (E := E) { input := input, stages := fs.map fun f v g => (g, .ok (f v)), consume := fun v g => (c v g, .goOn) } rfl mv gl g
  have key : ∀ (vs : List V) (g : G), each (last (E := E) fun v g => (c v g, .goOn)) vs g = .ok (vs.foldl (fun g v => c v g) g) := by
    intro vs
    induction vs with
    | nil => intro g; rfl
    | cons v vs ih => intro g; exact ih (c v g)
  unfold loops at h
  rw [each_pure, key] at h
  exact h

/-- C57: the chain of the documentation prints the words of the text, in order. -/
theorem C57_words (lines : List (List Char)) (mv : List Char → List Char) (gl : Bool) (g : List (List Char)) :
    ∃ n t, run (prog (E := E) (words lines) mv gl) n (init (.make 0 0) g) = .done t ∧
      t.g = g ++ (lines.flatMap (scan .plain)).filter fun tok => tok.head?.any isAlpha := by
  have h := C57_chain (E := E) (words lines) rfl mv gl g
  have inner : ∀ (toks : List (List Char)) (g : List (List Char)),
      each (through onlyWords (through trace (last (E := E) (words lines).consume))) toks g = .ok (g ++ toks.filter fun tok => tok.head?.any isAlpha) := by
    intro toks
    induction toks with
    | nil => intro g; simp [each]
    | cons tok toks ih =>
      intro g
      simp only [each, through, onlyWords]
      cases tok with
      | nil => simpa [each, Except.bind] using ih g
      | cons c cs =>
        by_cases hc : isAlpha c = true
        · simpa [each, Except.bind, through, trace, last, words, hc] using ih (g ++ [c :: cs])
        · simpa [each, Except.bind, hc] using ih g
  have outer : ∀ (lines : List (List Char)) (c : List Char → List (List Char) → Run (List (List Char)) E)
      (_ : ∀ toks g, each c toks g = .ok (g ++ toks.filter fun tok => tok.head?.any isAlpha)) (g : List (List Char)),
      each (through tokenize c) lines g = .ok (g ++ (lines.flatMap (scan .plain)).filter fun tok => tok.head?.any isAlpha) := by
    intro lines c hc
    induction lines with
    | nil => intro g; simp [each]
    | cons l ls ih =>
      intro g
      simp only [each, through, tokenize, hc, Except.bind]
      rw [ih]
      simp
  have : loops (E := E) (words lines) g = .ok (g ++ (lines.flatMap (scan .plain)).filter fun tok => tok.head?.any isAlpha) :=
    outer lines _ inner g
  rw [this] at h
  exact h

/-! ## Examples -/

/-- the text of the documentation (doc/motivation.qbk:523-527) -/
def docText : List (List Char) := ["This is the first line.".toList, "This, the second.".toList, "The third has \"a phrase\"!".toList]

example : (docText.flatMap (scan .plain)).filter (fun tok => tok.head?.any isAlpha) =
    ["This", "is", "the", "first", "line", "This", "the", "second", "The", "third", "has", "a phrase"].map String.toList := by decide +kernel

/-- two stages with side effects; the second throws when it sees 13; the consumer leaves at 99.  Memory: what happened, and in what order -/
def noisy (input : List Nat) : Spec Nat (List Nat) String where
  input := input
  stages := [fun v g => (g ++ [1000 + v], .ok [v, v + 1]),
    fun v g => if v = 13 then (g ++ [6666], .error "thirteen") else (g ++ [2000 + v], .ok [v])]
  consume := fun v g => (g ++ [v], if v = 99 then .leave else .goOn)

-- the stages run in turn, one item at a time: it is not one loop after the other
example : loops (noisy [1, 5]) [] = .ok [1001, 2001, 1, 2002, 2, 1005, 2005, 5, 2006, 6] := rfl
example : ∃ n t, run (prog (noisy [1, 5]) id true) n (init (.make 0 0) []) = .done t ∧
    t.g = [1001, 2001, 1, 2002, 2, 1005, 2005, 5, 2006, 6] := C57_chain (noisy [1, 5]) rfl id true []
-- the consumer leaves the loop: the rest of the input is not processed
example : ∃ n t, run (prog (noisy [99, 5]) id true) n (init (.make 0 0) []) = .done t ∧ t.g = [1099, 2099, 99] := C57_chain (noisy [99, 5]) rfl id true []
-- a stage throws: the exception arrives in main
example : ∃ n t, run (prog (noisy [1, 12, 7]) id true) n (init (.make 0 0) []) = .uncaught t ∧ t.ctl = .raise (.user "thirteen") ∧
    t.g = [1001, 2001, 1, 2002, 2, 1012, 2012, 12, 6666] := C57_chain (noisy [1, 12, 7]) rfl id true []
-- no input: no stage gets anything
example : ∃ n t, run (prog (noisy []) id true) n (init (.make 0 0) [8]) = .done t ∧ t.g = [8] := C57_chain (noisy []) rfl id true [8]

end Verif
