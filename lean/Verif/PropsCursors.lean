import Verif.CursorsRun
import Verif.PropsCrew

/-!
# C76: cursors that are opened, advanced, moved, exchanged and closed at any time
-/
namespace Verif.Cursors
open Crew (Job Note fails left report about)
variable {V E : Type} {mv : V → V} {gl : Bool}

namespace Aux

theorem about_append (j : Nat) (xs ys : List (Nat × Note V E)) : about j (xs ++ ys) = about j xs ++ about j ys := List.filterMap_append

theorem about_map (i j : Nat) (ns : List (Note V E)) : about j (ns.map (Prod.mk i)) = if i = j then ns else [] := by
  induction ns with
  | nil => simp [about]
  | cons n ns ih => by_cases h : i = j <;> simp_all [about]

/-- what one command does to the cursors, and what is noted -/
def turn (c : Cmd V E) (st : List (Option (List V × Option E))) : List (Option (List V × Option E)) × List (Nat × Note V E) :=
  match c with
  | .open_ t => (st ++ [born t.said t.ends], (fails t.said t.ends).map (Prod.mk st.length))
  | .next j =>
    match st[j]? with
    | some (some (v :: ys, r)) => (st.set j (some (ys, left ys r)), (.said v :: fails ys r).map (Prod.mk j))
    | _ => (st, [])
  | .move _ => (st, [])
  | .assign i j =>
    match st[i]?, st[j]? with
    | some (some p), some (some q) => ((st.set i (some q)).set j (some p), [])
    | _, _ => (st, [])
  | .close j => (st.set j none, [])

theorem serve_cons (c : Cmd V E) (cs : List (Cmd V E)) (st : List (Option (List V × Option E))) :
    serve (c :: cs) st = (turn c st).2 ++ serve cs (turn c st).1 := by
  cases c with
  | open_ t => simp [serve, turn]
  | move j => simp [serve, turn]
  | close j => simp [serve, turn]
  | next j => rcases hx : st[j]? with _ | _ | ⟨_ | ⟨v, ys⟩, r⟩ <;> simp [serve, turn, hx]
  | assign i j => rcases hx : st[i]? with _ | _ | p <;> rcases hy : st[j]? with _ | _ | q <;> simp [serve, turn, hx, hy]

theorem turn_len (c : Cmd V E) (st : List (Option (List V × Option E))) : (turn c st).1.length = st.length + opened [c] := by
  cases c with
  | open_ t => simp [turn, opened]
  | move j => simp [turn, opened]
  | close j => simp [turn, opened]
  | next j => simp only [turn, opened]; split <;> simp
  | assign i j => simp only [turn, opened]; split <;> simp

theorem opened_cons (c : Cmd V E) (cs : List (Cmd V E)) : opened (c :: cs) = opened [c] + opened cs := by
  cases c <;> simp [opened]; omega

/-- a cursor that does not exist yet -/
theorem turn_beyond {c : Cmd V E} {st : List (Option (List V × Option E))} {j : Nat} (h : st.length + opened [c] ≤ j) : about j (turn c st).2 = [] := by
  cases c with
  | open_ t => simp only [opened] at h; simp only [turn]; rw [about_map, if_neg (by omega)]
  | move i => rfl
  | close i => rfl
  | assign i k => simp only [turn]; split <;> rfl
  | next i =>
    simp only [turn]
    split
    · rename_i hx
      have := (List.getElem?_eq_some_iff.1 hx).1
      simp only [opened] at h
      rw [about_map, if_neg (by omega)]
    · rfl

/-- whom a command is for -/
def For (k : Nat) : Cmd V E → Prop
  | .next j | .close j => j = k
  | .assign i j => i = k ∨ j = k
  | _ => False

/-- a command for somebody else -/
theorem turn_other {c : Cmd V E} {st : List (Option (List V × Option E))} {k : Nat} (h : ¬ For k c) {o : Option (List V × Option E)} (ho : st[k]? = some o) :
    about k (turn c st).2 = [] ∧ (turn c st).1[k]? = some o := by
  have hl := (List.getElem?_eq_some_iff.1 ho).1
  cases c with
  | open_ t =>
    simp only [turn]
    exact ⟨by rw [about_map, if_neg (by omega)], by rw [List.getElem?_append_left hl]; exact ho⟩
  | move i => exact ⟨rfl, ho⟩
  | close i => exact ⟨rfl, by simp only [turn]; rw [List.getElem?_set_ne h]; exact ho⟩
  | next i =>
    change ¬ i = k at h
    simp only [turn]
    split
    · exact ⟨by rw [about_map, if_neg h], by rw [List.getElem?_set_ne h]; exact ho⟩
    · exact ⟨rfl, ho⟩
  | assign i j =>
    simp only [For, not_or] at h
    simp only [turn]
    split
    · exact ⟨rfl, by rw [List.getElem?_set_ne h.2, List.getElem?_set_ne h.1]; exact ho⟩
    · exact ⟨rfl, ho⟩

theorem turns_other {c : Cmd V E} {cs : List (Cmd V E)} {k : Nat} (h : ¬ For k c) : turns k (c :: cs) = turns k cs := by
  cases c with
  | next j => exact if_neg h
  | close j => exact if_neg h
  | _ => rfl

/-- no assignment to or from `k` -/
def Apart (k : Nat) (cs : List (Cmd V E)) : Prop := ∀ i j, Cmd.assign i j ∈ cs → i ≠ k ∧ j ≠ k

theorem Apart.tail {k : Nat} {c : Cmd V E} {cs : List (Cmd V E)} (h : Apart k (c :: cs)) : Apart k cs := fun i j hm => h i j (by simp [hm])

theorem Apart.head {k i j : Nat} {cs : List (Cmd V E)} (h : Apart k (.assign i j :: cs)) : ¬ (i = k ∨ j = k) := by
  have := h i j (by simp)
  simpa using this

theorem gone_about (k : Nat) (cs : List (Cmd V E)) : ∀ st : List (Option (List V × Option E)), Apart k cs → st[k]? = some none → about k (serve cs st) = [] := by
  induction cs with
  | nil => intro st _ _; rfl
  | cons c cs ih =>
    intro st ha hx
    have hl := (List.getElem?_eq_some_iff.1 hx).1
    rw [serve_cons, about_append]
    by_cases hw : For k c
    · cases c with
      | open_ t => exact hw.elim
      | move i => exact hw.elim
      | assign i j => exact absurd hw ha.head
      | close i => obtain rfl : i = k := hw
                   rw [ih _ ha.tail (by simp only [turn]; exact List.getElem?_set_self hl)]; rfl
      | next i => obtain rfl : i = k := hw
                  simp only [turn, hx]
                  rw [ih _ ha.tail hx]; rfl
    · obtain ⟨h1, h2⟩ := turn_other hw hx
      rw [h1, ih _ ha.tail h2]; rfl

/-- a cursor that has nothing left -/
theorem done_about (k : Nat) (cs : List (Cmd V E)) : ∀ (st : List (Option (List V × Option E))) (r : Option E), Apart k cs → st[k]? = some (some ([], r)) →
    about k (serve cs st) = [] := by
  induction cs with
  | nil => intro st _ _ _; rfl
  | cons c cs ih =>
    intro st r ha hx
    have hl := (List.getElem?_eq_some_iff.1 hx).1
    rw [serve_cons, about_append]
    by_cases hw : For k c
    · cases c with
      | open_ t => exact hw.elim
      | move i => exact hw.elim
      | assign i j => exact absurd hw ha.head
      | close i => obtain rfl : i = k := hw
                   rw [gone_about i cs _ ha.tail (by simp only [turn]; exact List.getElem?_set_self hl)]; rfl
      | next i => obtain rfl : i = k := hw
                  simp only [turn, hx]
                  rw [ih _ r ha.tail hx]; rfl
    · obtain ⟨h1, h2⟩ := turn_other hw hx
      rw [h1, ih _ r ha.tail h2]; rfl

theorem serve_about (k : Nat) (cs : List (Cmd V E)) : ∀ (st : List (Option (List V × Option E))) (v : V) (ys : List V) (r : Option E), Apart k cs →
    st[k]? = some (some (v :: ys, r)) → about k (serve cs st) = report (v :: ys) r (turns k cs) := by
  induction cs with
  | nil => intro st v ys r _ _; simp [serve, about, turns, report]
  | cons c cs ih =>
    intro st v ys r ha hx
    have hl := (List.getElem?_eq_some_iff.1 hx).1
    rw [serve_cons, about_append]
    by_cases hw : For k c
    · cases c with
      | open_ t => exact hw.elim
      | move i => exact hw.elim
      | assign i j => exact absurd hw ha.head
      | close i =>
        obtain rfl : i = k := hw
        rw [gone_about i cs _ ha.tail (by simp only [turn]; exact List.getElem?_set_self hl)]
        simp [turn, turns, about, report]
      | next i =>
        obtain rfl : i = k := hw
        simp only [turn, hx, turns, if_true]
        rw [about_map, if_pos rfl]
        cases ys with
        | nil =>
          rw [done_about i cs _ none ha.tail (by rw [List.getElem?_set_self hl]; rfl)]
          cases r <;> simp [fails, report]
        | cons w zs =>
          rw [ih _ w zs r ha.tail (by rw [List.getElem?_set_self hl]; rfl)]
          cases r <;> simp [fails, report]
    · obtain ⟨h1, h2⟩ := turn_other hw hx
      rw [h1, turns_other hw, ih _ v ys r ha.tail h2]
      rfl

theorem new_about (k : Nat) (t : Job V E) (post pre : List (Cmd V E)) : ∀ st : List (Option (List V × Option E)), st.length + opened pre = k →
    Apart k post → about k (serve (pre ++ .open_ t :: post) st) = report t.said t.ends (turns k post) := by
  induction pre with
  | nil =>
    intro st hl ha
    simp only [opened] at hl
    rw [List.nil_append, serve, about_append, about_map, if_pos (by omega)]
    have hx : (st ++ [born t.said t.ends])[k]? = some (born t.said t.ends) := by rw [← hl]; simp
    cases hs : t.said with
    | nil =>
      cases he : t.ends with
      | none => rw [hs, he] at hx; rw [done_about k post _ none ha hx]; simp [fails, report]
      | some e => rw [hs, he] at hx; rw [gone_about k post _ ha hx]; simp [fails, report]
    | cons v ys =>
      rw [hs] at hx
      rw [serve_about k post _ v ys t.ends ha (by cases he : t.ends <;> rw [he] at hx <;> exact hx)]
      cases t.ends <;> rfl
  | cons c pre ih =>
    intro st hl ha
    rw [opened_cons] at hl
    rw [List.cons_append, serve_cons, about_append, turn_beyond (by omega), ih _ (by rw [turn_len]; omega) ha]
    rfl

theorem serve_unmoved (p : Cmd V E → Bool) (hp : ∀ c, p c = false → ∃ j, c = .move j) (cs : List (Cmd V E)) :
    ∀ st : List (Option (List V × Option E)), serve (cs.filter p) st = serve cs st := by
  induction cs with
  | nil => intro st; rfl
  | cons c cs ih =>
    intro st
    cases hc : p c with
    | true => rw [List.filter_cons_of_pos hc, serve_cons, serve_cons, ih]
    | false =>
      rw [List.filter_cons_of_neg (by simp [hc]), ih]
      obtain ⟨j, rfl⟩ := hp c hc
      rfl

theorem set_twice (st : List (Option (List V × Option E))) (i j : Nat) : (turn (.assign i j) (turn (.assign i j) st).1).1 = st := by
  rcases hx : st[i]? with _ | _ | p
  · simp [turn, hx]
  · simp [turn, hx]
  · rcases hy : st[j]? with _ | _ | q
    · simp [turn, hx, hy]
    · simp [turn, hx, hy]
    · have li := (List.getElem?_eq_some_iff.1 hx).1
      have lj := (List.getElem?_eq_some_iff.1 hy).1
      have h1 : (turn (.assign i j) st).1 = (st.set i (some q)).set j (some p) := by simp [turn, hx, hy]
      have g1 : ((st.set i (some q)).set j (some p))[i]? = some (some q) := by
        by_cases hij : i = j
        · subst hij
          rw [hx] at hy
          rw [List.getElem?_set_self (by simpa using li)]
          exact hy ▸ rfl
        · rw [List.getElem?_set_ne (Ne.symm hij), List.getElem?_set_self li]
      have g2 : ((st.set i (some q)).set j (some p))[j]? = some (some p) := List.getElem?_set_self (by simpa using lj)
      rw [h1]
      simp only [turn, g1, g2]
      apply List.ext_getElem?
      intro k
      by_cases hkj : k = j
      · subst hkj; rw [List.getElem?_set_self (by simpa using lj), hy]
      · rw [List.getElem?_set_ne (Ne.symm hkj)]
        by_cases hki : k = i
        · subst hki; rw [List.getElem?_set_self (by simpa using li), hx]
        · rw [List.getElem?_set_ne (Ne.symm hki), List.getElem?_set_ne (Ne.symm hkj), List.getElem?_set_ne (Ne.symm hki)]

theorem assign_silent (st : List (Option (List V × Option E))) (i j : Nat) : (turn (.assign i j) st).2 = [] := by
  simp only [turn]; split <;> rfl

theorem serve_twice (i j : Nat) (post pre : List (Cmd V E)) : ∀ st : List (Option (List V × Option E)),
    serve (pre ++ .assign i j :: .assign i j :: post) st = serve (pre ++ post) st := by
  induction pre with
  | nil => intro st; rw [List.nil_append, serve_cons, serve_cons, assign_silent, assign_silent, set_twice]; rfl
  | cons c pre ih => intro st; rw [List.cons_append, List.cons_append, serve_cons, serve_cons, ih]

end Aux

/-- C76: whatever the cursors and the commands are, the program comes to its end, and has noted what a program notes that keeps the lists of the values
to come in a table. -/
theorem C76_serve (cs : List (Cmd V E)) :
    ∃ s' : S V E, Later (prog mv gl) (init (.run [] cs) ((), [])) s' ∧ step (prog mv gl) s' = .done s' ∧ s'.g.2 = serve cs [] := by
  obtain ⟨s1, l1, e1, g1⟩ := run (mv := mv) (gl := gl) cs [] [] [] (init (.run [] cs) ((), [])) .init
    ⟨rfl, rfl, rfl, rfl, rfl⟩ ⟨rfl, by simp, by simp⟩
  exact ⟨s1, l1, e1, by rw [g1]; simp⟩

/-- C76: this is its only end: it meets no undefined behaviour, and no exception leaves main. -/
theorem C76_only (cs : List (Cmd V E)) {s : S V E}
    (hl : Later (prog mv gl) (init (.run [] cs) ((), [])) s) (he : ∀ s', step (prog mv gl) s ≠ .next s') :
    step (prog mv gl) s = .done s ∧ s.g.2 = serve cs [] := by
  obtain ⟨s', l', e', g'⟩ := C76_serve (mv := mv) (gl := gl) cs
  have : s = s' := Robin.Aux.one_end l' (fun x => by rw [e']; simp) hl he
  subst this
  exact ⟨e', g'⟩

/-- C76: a cursor that is not assigned to or from is not disturbed by the others: what is noted about it depends only on its function and on how often it is
advanced before it is closed. -/
theorem C76_independent (pre post : List (Cmd V E)) (t : Job V E) (ha : ∀ i j, Cmd.assign i j ∈ post → i ≠ opened pre ∧ j ≠ opened pre) {s : S V E}
    (hl : Later (prog mv gl) (init (.run [] (pre ++ .open_ t :: post)) ((), [])) s) (he : ∀ s', step (prog mv gl) s ≠ .next s') :
    about (opened pre) s.g.2 = report t.said t.ends (turns (opened pre) post) := by
  rw [(C76_only _ hl he).2]
  exact Aux.new_about _ t post pre [] (by simp) ha

/-- C76: with any of the moves left out, the notes are the same. -/
theorem C76_moves (p : Cmd V E → Bool) (hp : ∀ c, p c = false → ∃ j, c = .move j) (cs : List (Cmd V E)) {s s' : S V E}
    (hl : Later (prog mv gl) (init (.run [] cs) ((), [])) s) (he : ∀ x, step (prog mv gl) s ≠ .next x)
    (hl' : Later (prog mv gl) (init (.run [] (cs.filter p)) ((), [])) s') (he' : ∀ x, step (prog mv gl) s' ≠ .next x) : s'.g = s.g :=
  Prod.ext rfl (by rw [(C76_only _ hl he).2, (C76_only _ hl' he').2, Aux.serve_unmoved p hp])

/-- C76: the assignment loses nothing: done twice, it is as if it had not been done, also if a cursor is assigned to itself. -/
theorem C76_twice (i j : Nat) (pre post : List (Cmd V E)) {s s' : S V E}
    (hl : Later (prog mv gl) (init (.run [] (pre ++ .assign i j :: .assign i j :: post)) ((), [])) s) (he : ∀ x, step (prog mv gl) s ≠ .next x)
    (hl' : Later (prog mv gl) (init (.run [] (pre ++ post)) ((), [])) s') (he' : ∀ x, step (prog mv gl) s' ≠ .next x) : s'.g = s.g :=
  Prod.ext rfl (by rw [(C76_only _ hl he).2, (C76_only _ hl' he').2, Aux.serve_twice])

/-! Non-vacuity.  Cursor 0 says 1, 2 from a helper it calls, and 3; cursor 1 says 10 and throws; cursor 2 throws at once; cursor 3 returns at once.  Cursors 0
and 1 are exchanged when each has been advanced, so that cursor 1 goes on with the values of the first function; cursor 0 has failed by then.  Cursor 4 is
closed while it is suspended. -/

/-- the commands -/
def demo : List (Cmd Nat String) :=
  [.open_ (.sub (.obj 0 (.say 1 (.say 2 .ret))) (.say 3 .ret)), .open_ (.say 10 (.fail "x")), .next 0, .move 0, .open_ (.fail "y"), .open_ .ret, .next 1,
    .assign 0 1, .next 0, .next 1, .assign 1 1, .move 1, .next 2, .assign 2 1, .next 3, .assign 3 1, .next 3, .open_ (.obj 1 (.say 7 (.say 8 .ret))), .next 4,
    .move 4, .close 4, .next 4, .close 2, .close 9, .next 3]

example : ∃ s' : S Nat String, Later (prog (fun _ => 0) false) (init (.run [] demo) ((), [])) s' ∧ step (prog (fun _ => 0) false) s' = .done s' ∧
    s'.g.2 = [(0, .said 1), (2, .failed "y"), (1, .said 10), (1, .failed "x"), (1, .said 2), (3, .said 3), (4, .said 7)] := C76_serve demo
example : demo = demo.take 17 ++ .open_ (.obj 1 (.say 7 (.say 8 .ret))) :: demo.drop 18 ∧ opened (demo.take 17) = 4 ∧ turns 4 (demo.drop 18) = 1 ∧
    report [7, 8] (none : Option String) 1 = [.said 7] := ⟨rfl, rfl, rfl, rfl⟩
example : ∀ i j, Cmd.assign i j ∈ demo.drop 18 → i ≠ 4 ∧ j ≠ 4 := by intro i j h; simp [demo] at h
example : ∀ c : Cmd Nat String, (match c with | .move _ => false | _ => true) = false → ∃ j, c = .move j := by
  intro c h; cases c <;> simp_all
/-- a single assignment is noticed -/
example : serve ([.open_ (.say 1 .ret), .open_ (.say 2 .ret), .assign 0 1, .next 0] : List (Cmd Nat String)) [] = [(0, .said 2)] ∧
    serve ([.open_ (.say 1 .ret), .open_ (.say 2 .ret), .next 0] : List (Cmd Nat String)) [] = [(0, .said 1)] := by decide

end Verif.Cursors
