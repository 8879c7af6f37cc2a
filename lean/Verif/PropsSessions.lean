import Verif.SessionsRun
import Verif.PropsEvents

/-!
# C75: sessions that are opened, served, moved and closed at any time
-/
namespace Verif.Sessions
open Events (React about)
variable {Q V E : Type} {δ : Q → V → React Q E} {mv : V → V} {gl : Bool}

namespace Aux
open Events.Aux (about_cons)

theorem about_append {A : Type} (j : Nat) (xs ys : List (Nat × A)) : about j (xs ++ ys) = about j xs ++ about j ys := List.filterMap_append

theorem about_freed (i j : Nat) (os : List Nat) : about j (os.map fun o => (i, (.freed o : Note V E))) = if i = j then os.map .freed else [] := by
  induction os with
  | nil => simp [about]
  | cons o os ih => rw [List.map_cons, about_cons, ih]; by_cases h : i = j <;> simp [h]

theorem finale_about (j : Nat) (st : List (Option (Q × List Nat))) : ∀ n, about j (finale (V := V) (E := E) n st) =
    if n ≤ j then (match st[j - n]? with | some (some (_, os)) => os.map .freed | _ => []) else [] := by
  induction st with
  | nil => intro n; simp [finale, about]
  | cons o st ih =>
    intro n
    rcases Nat.lt_trichotomy n j with h | rfl | h
    · obtain ⟨k, rfl⟩ : ∃ k, j = n + 1 + k := ⟨j - (n + 1), by omega⟩
      have := ih (n + 1)
      rw [if_pos (by omega), show n + 1 + k - (n + 1) = k by omega] at this
      rw [if_pos (by omega), show n + 1 + k - n = k + 1 by omega]
      cases o with
      | none => exact this
      | some p =>
        rw [finale, about_append, about_freed, if_neg (by omega), this]
        simp
    · have := ih (n + 1)
      rw [if_neg (by omega)] at this
      rw [if_pos (by omega), Nat.sub_self]
      cases o with
      | none => exact this
      | some p => rw [finale, about_append, about_freed, if_pos rfl, this]; simp
    · have := ih (n + 1)
      rw [if_neg (by omega)] at this
      rw [if_neg (by omega)]
      cases o with
      | none => exact this
      | some p => rw [finale, about_append, about_freed, if_neg (by omega), this]; simp

/-- what one command does to the states, and what is noted -/
def turn (δ : Q → V → React Q E) (c : Cmd Q V) (st : List (Option (Q × List Nat))) : List (Option (Q × List Nat)) × List (Nat × Note V E) :=
  match c with
  | .open_ q => (st ++ [some (q, [])], [])
  | .move _ => (st, [])
  | .close j =>
    match st[j]? with
    | some (some (_, os)) => (st.set j none, os.map fun o => (j, .freed o))
    | _ => (st, [])
  | .send j v =>
    match st[j]? with
    | none => (st, [])
    | some none => (st, [(j, .lost v)])
    | some (some (q, os)) => match δ q v with
      | .again q' => (st.set j (some (q', os)), [(j, .heard v)])
      | .deep o q' => (st.set j (some (q', o :: os)), [(j, .heard v), (j, .held o)])
      | .quit => (st.set j none, (j, .heard v) :: os.map fun o => (j, .freed o))
      | .fail e => (st.set j none, (j, .heard v) :: (os.map fun o => (j, .freed o)) ++ [(j, .failed e)])

theorem serve_cons (c : Cmd Q V) (cs : List (Cmd Q V)) (st : List (Option (Q × List Nat))) :
    serve δ (c :: cs) st = (turn δ c st).2 ++ serve δ cs (turn δ c st).1 := by
  cases c with
  | open_ q => simp [serve, turn]
  | move j => simp [serve, turn]
  | close j => rcases hx : st[j]? with _ | _ | ⟨q, os⟩ <;> simp [serve, turn, hx]
  | send j v =>
    rcases hx : st[j]? with _ | _ | ⟨q, os⟩
    · simp [serve, turn, hx]
    · simp [serve, turn, hx]
    · cases hd : δ q v <;> simp [serve, turn, hx, hd]

/-- whom a command is for -/
def toWhom : Cmd Q V → Option Nat
  | .send j _ | .close j => some j
  | _ => none

theorem turn_len (c : Cmd Q V) (st : List (Option (Q × List Nat))) : (turn δ c st).1.length = st.length + opened [c] := by
  cases c with
  | open_ q => simp [turn, opened]
  | move j => simp [turn, opened]
  | close j => simp only [turn, opened]; split <;> simp
  | send j v =>
    simp only [turn, opened]
    split
    · simp
    · simp
    · split <;> simp

theorem opened_cons (c : Cmd Q V) (cs : List (Cmd Q V)) : opened (c :: cs) = opened [c] + opened cs := by
  cases c <;> simp [opened]; omega

/-- a command for somebody else -/
theorem turn_other {c : Cmd Q V} {st : List (Option (Q × List Nat))} {j : Nat} (h : toWhom c ≠ some j) :
    about j (turn δ c st).2 = [] ∧ (∀ o, st[j]? = some o → (turn δ c st).1[j]? = some o) := by
  cases c with
  | open_ q =>
    refine ⟨rfl, fun o ho => ?_⟩
    have hl := (List.getElem?_eq_some_iff.1 ho).1
    simp only [turn]
    rw [List.getElem?_append_left hl]; exact ho
  | move i => exact ⟨rfl, fun o ho => ho⟩
  | close i =>
    have hn : i ≠ j := fun e => h (by rw [e]; rfl)
    simp only [turn]
    split
    · exact ⟨by rw [about_freed, if_neg hn], fun o ho => by rw [List.getElem?_set_ne hn]; exact ho⟩
    · exact ⟨rfl, fun o ho => ho⟩
  | send i v =>
    have hn : i ≠ j := fun e => h (by rw [e]; rfl)
    simp only [turn]
    split
    · exact ⟨rfl, fun o ho => ho⟩
    · exact ⟨by simp [about, hn], fun o ho => ho⟩
    · split
      · exact ⟨by simp [about, hn], fun o ho => by rw [List.getElem?_set_ne hn]; exact ho⟩
      · exact ⟨by simp [about, hn], fun o ho => by rw [List.getElem?_set_ne hn]; exact ho⟩
      · exact ⟨by rw [about_cons, if_neg hn, about_freed, if_neg hn], fun o ho => by rw [List.getElem?_set_ne hn]; exact ho⟩
      · exact ⟨by rw [List.cons_append, about_cons, if_neg hn, about_append, about_freed, if_neg hn]; simp [about, hn],
          fun o ho => by rw [List.getElem?_set_ne hn]; exact ho⟩

theorem mine_other {c : Cmd Q V} {cs : List (Cmd Q V)} {j : Nat} (h : toWhom c ≠ some j) : mine j (c :: cs) = mine j cs := by
  cases c with
  | open_ q => rfl
  | move i => rfl
  | close i => exact if_neg fun e => h (by rw [e]; rfl)
  | send i v => exact if_neg fun e => h (by rw [e]; rfl)

/-- a session that does not exist yet -/
theorem turn_beyond {c : Cmd Q V} {st : List (Option (Q × List Nat))} {j : Nat} (h : st[j]? = none) : about j (turn δ c st).2 = [] := by
  by_cases hw : toWhom c = some j
  · cases c with
    | open_ q => rfl
    | move i => rfl
    | close i => obtain rfl : i = j := by simpa [toWhom] using hw
                 simp [turn, h, about]
    | send i v => obtain rfl : i = j := by simpa [toWhom] using hw
                  simp [turn, h, about]
  · exact (turn_other hw).1

theorem over_about (j : Nat) (cs : List (Cmd Q V)) : ∀ st : List (Option (Q × List Nat)), st[j]? = some none →
    about j (serve δ cs st) = account.over (mine j cs) := by
  induction cs with
  | nil => intro st hx; rw [serve, finale_about]; simp [hx, mine, account.over]
  | cons c cs ih =>
    intro st hx
    rw [serve_cons, about_append]
    by_cases hw : toWhom c = some j
    · cases c with
      | open_ q => cases hw
      | move i => cases hw
      | close i => obtain rfl : i = j := by simpa [toWhom] using hw
                   simp only [turn, hx, mine, if_true, account.over]
                   rw [ih st hx]; rfl
      | send i v => obtain rfl : i = j := by simpa [toWhom] using hw
                    simp only [turn, hx, mine, if_true, account.over]
                    rw [ih st hx]; simp [about]
    · rw [(turn_other hw).1, mine_other hw, ih _ ((turn_other hw).2 _ hx)]
      rfl

theorem serve_about (j : Nat) (cs : List (Cmd Q V)) : ∀ (st : List (Option (Q × List Nat))) (q : Q) (os : List Nat), st[j]? = some (some (q, os)) →
    about j (serve δ cs st) = account δ q os (mine j cs) := by
  induction cs with
  | nil => intro st q os hx; rw [serve, finale_about]; simp [hx, mine, account]
  | cons c cs ih =>
    intro st q os hx
    rw [serve_cons, about_append]
    by_cases hw : toWhom c = some j
    · have hs : ∀ o, (st.set j o)[j]? = some o := fun o => List.getElem?_set_self (List.getElem?_eq_some_iff.1 hx).1
      cases c with
      | open_ q => cases hw
      | move i => cases hw
      | close i =>
        obtain rfl : i = j := by simpa [toWhom] using hw
        simp only [turn, hx, mine, if_true, account]
        rw [over_about i cs _ (hs _), about_freed, if_pos rfl]
      | send i v =>
        obtain rfl : i = j := by simpa [toWhom] using hw
        simp only [turn, hx, mine, if_true, account]
        cases δ q v with
        | again q' => simp only [ih _ _ _ (hs _)]; simp [about]
        | deep o q' => simp only [ih _ _ _ (hs _)]; simp [about]
        | quit => simp only [over_about i cs _ (hs _), about_cons, about_freed, if_true]; simp
        | fail e => simp only [over_about i cs _ (hs _), List.cons_append, about_cons, about_append, about_freed, if_true]; simp [about]
    · rw [(turn_other hw).1, mine_other hw, ih _ _ _ ((turn_other hw).2 _ hx)]
      rfl

theorem new_about (j : Nat) (q : Q) (post pre : List (Cmd Q V)) : ∀ st : List (Option (Q × List Nat)), st.length + opened pre = j →
    about j (serve δ (pre ++ .open_ q :: post) st) = account δ q [] (mine j post) := by
  induction pre with
  | nil =>
    intro st hl
    simp only [opened] at hl
    rw [List.nil_append, serve]
    exact serve_about j post _ q [] (by rw [← hl]; simp)
  | cons c pre ih =>
    intro st hl
    rw [List.cons_append, serve_cons, about_append, turn_beyond (List.getElem?_eq_none ?_), ih _ ?_]
    · rfl
    · rw [turn_len]; rw [opened_cons] at hl; omega
    · omega

theorem none_about (j : Nat) (cs : List (Cmd Q V)) : ∀ st : List (Option (Q × List Nat)), st.length + opened cs ≤ j →
    about j (serve δ cs st) = [] := by
  induction cs with
  | nil => intro st hl; rw [serve, finale_about]; simp [show st[j]? = none from List.getElem?_eq_none (by simp [opened] at hl; omega)]
  | cons c cs ih =>
    intro st hl
    rw [opened_cons] at hl
    rw [serve_cons, about_append, turn_beyond (List.getElem?_eq_none (by omega)), ih _ (by rw [turn_len]; omega)]
    rfl

theorem opening (cs : List (Cmd Q V)) : ∀ j, j < opened cs → ∃ pre q post, cs = pre ++ .open_ q :: post ∧ opened pre = j := by
  induction cs with
  | nil => intro j h; simp [opened] at h
  | cons c cs ih =>
    intro j h
    by_cases hc : ∃ q, c = .open_ q
    · obtain ⟨q, rfl⟩ := hc
      cases j with
      | zero => exact ⟨[], q, cs, rfl, rfl⟩
      | succ j =>
        obtain ⟨pre, q', post, rfl, hj⟩ := ih j (by simp [opened] at h; omega)
        exact ⟨.open_ q :: pre, q', post, rfl, by simp [opened, hj]⟩
    · have ho : opened [c] = 0 := by
        cases c with
        | open_ q => exact absurd ⟨q, rfl⟩ hc
        | _ => rfl
      rw [opened_cons, ho] at h
      obtain ⟨pre, q', post, rfl, hj⟩ := ih j (by omega)
      exact ⟨c :: pre, q', post, rfl, by rw [opened_cons, ho]; omega⟩

theorem over_brackets (cs : List (Say V)) : Bracketed [] (account.over (E := E) cs) := by
  induction cs with
  | nil => rfl
  | cons c cs ih => cases c <;> simpa [account.over, Bracketed] using ih

theorem freed_brackets (os : List Nat) (ns : List (Note V E)) (h : Bracketed [] ns) : Bracketed os (os.map .freed ++ ns) := by
  induction os with
  | nil => exact h
  | cons o os ih => exact ⟨os, rfl, ih⟩

theorem account_brackets (cs : List (Say V)) : ∀ (q : Q) (os : List Nat), Bracketed os (account δ q os cs) := by
  induction cs with
  | nil => intro q os; have := freed_brackets (V := V) (E := E) os [] rfl; simpa [account] using this
  | cons c cs ih =>
    intro q os
    cases c with
    | close => exact freed_brackets os _ (over_brackets cs)
    | event v =>
      simp only [account, Bracketed]
      cases δ q v with
      | again q' => exact ih q' os
      | deep o q' => exact ih q' (o :: os)
      | quit => exact freed_brackets os _ (over_brackets cs)
      | fail e => exact freed_brackets os _ (over_brackets (E := E) cs)

theorem serve_unmoved (p : Cmd Q V → Bool) (hp : ∀ c, p c = false → ∃ j, c = .move j) (cs : List (Cmd Q V)) :
    ∀ st : List (Option (Q × List Nat)), serve δ (cs.filter p) st = serve δ cs st := by
  induction cs with
  | nil => intro st; rfl
  | cons c cs ih =>
    intro st
    cases hc : p c with
    | true => rw [List.filter_cons_of_pos hc, serve_cons, serve_cons, ih]
    | false =>
      rw [List.filter_cons_of_neg (by simp [hc]), ih]
      obtain ⟨j, rfl⟩ := hp c hc
      rfl

end Aux

/-- C75: whatever the sessions and the commands are, the program comes to its end, and has noted what a program notes that calls callbacks and keeps
the states of the sessions, and the objects they hold, in a table. -/
theorem C75_serve (cs : List (Cmd Q V)) :
    ∃ s' : S Q V E, Later (prog δ mv gl) (init (.run [] cs) ((), [])) s' ∧ step (prog δ mv gl) s' = .done s' ∧ s'.g.2 = serve δ cs [] := by
  obtain ⟨s1, l1, e1, g1⟩ := run (δ := δ) (mv := mv) (gl := gl) (E := E) cs [] [] [] (init (.run [] cs) ((), [])) .init
    ⟨rfl, rfl, rfl, rfl, rfl⟩ ⟨rfl, by simp, by simp, by simp⟩
  exact ⟨s1, l1, e1, by rw [g1]; simp⟩

/-- C75: this is its only end: it meets no undefined behaviour, and no exception leaves main. -/
theorem C75_only (cs : List (Cmd Q V)) {s : S Q V E}
    (hl : Later (prog δ mv gl) (init (.run [] cs) ((), [])) s) (he : ∀ s', step (prog δ mv gl) s ≠ .next s') :
    step (prog δ mv gl) s = .done s ∧ s.g.2 = serve δ cs [] := by
  obtain ⟨s', l', e', g'⟩ := C75_serve (δ := δ) (mv := mv) (gl := gl) (E := E) cs
  have : s = s' := Robin.Aux.one_end l' (fun x => by rw [e']; simp) hl he
  subst this
  exact ⟨e', g'⟩

/-- C75: what is noted about a session depends only on its first state and on the commands for it after it has been opened: neither on the other
sessions, nor on when they are opened, moved or closed, nor on whether they end or throw. -/
theorem C75_independent (pre post : List (Cmd Q V)) (q : Q) {s : S Q V E}
    (hl : Later (prog δ mv gl) (init (.run [] (pre ++ .open_ q :: post)) ((), [])) s) (he : ∀ s', step (prog δ mv gl) s ≠ .next s') :
    about (opened pre) s.g.2 = account δ q [] (mine (opened pre) post) := by
  rw [(C75_only _ hl he).2]
  exact Aux.new_about _ q post pre [] (by simp)

/-- C75: every session has released the objects it held, each once, in the reverse order of their construction. -/
theorem C75_released (cs : List (Cmd Q V)) {s : S Q V E}
    (hl : Later (prog δ mv gl) (init (.run [] cs) ((), [])) s) (he : ∀ s', step (prog δ mv gl) s ≠ .next s') (j : Nat) :
    Bracketed [] (about j s.g.2) := by
  rcases Nat.lt_or_ge j (opened cs) with h | h
  · obtain ⟨pre, q, post, rfl, rfl⟩ := Aux.opening cs j h
    rw [C75_independent pre post q hl he]
    exact Aux.account_brackets _ _ _
  · rw [(C75_only _ hl he).2, Aux.none_about j cs [] (by simpa using h)]
    rfl

/-- C75: with any of the moves left out, the notes are the same. -/
theorem C75_moves (p : Cmd Q V → Bool) (hp : ∀ c, p c = false → ∃ j, c = .move j) (cs : List (Cmd Q V)) {s s' : S Q V E}
    (hl : Later (prog δ mv gl) (init (.run [] cs) ((), [])) s) (he : ∀ x, step (prog δ mv gl) s ≠ .next x)
    (hl' : Later (prog δ mv gl) (init (.run [] (cs.filter p)) ((), [])) s') (he' : ∀ x, step (prog δ mv gl) s' ≠ .next x) : s'.g = s.g :=
  Prod.ext rfl (by rw [(C75_only _ hl he).2, (C75_only _ hl' he').2, Aux.serve_unmoved p hp])

/-! Non-vacuity: the sessions are the handlers of C74.  Session 0 throws two calls deep, after it has been moved; session 1 is closed two calls deep,
while session 2, which is one call deep, goes on; session 3 is opened after that, and is left to the end of the program, as is session 2; session 4
returns one call deep; session 5 is closed before it has begun. -/

/-- the commands -/
def demo : List (Cmd Nat Nat) :=
  [.open_ 0, .open_ 0, .send 0 3, .send 1 1, .move 0, .open_ 0, .send 0 5, .send 2 7, .send 1 3, .move 0, .send 0 4, .close 1, .send 1 8, .send 2 2, .open_ 1,
    .send 3 5, .close 0, .move 3, .open_ 0, .send 4 9, .send 4 1, .open_ 0, .close 5, .close 5, .send 9 9, .move 1]

example : ∃ s' : S Nat Nat String, Later (prog Events.demo (fun _ => 0) false) (init (.run [] demo) ((), [])) s' ∧
    step (prog Events.demo (fun _ => 0) false) s' = .done s' ∧
    s'.g.2 = [(0, .heard 3), (0, .held 3), (1, .heard 1), (1, .held 1), (0, .heard 5), (0, .held 5), (2, .heard 7), (2, .held 7), (1, .heard 3), (1, .held 3),
      (0, .heard 4), (0, .freed 5), (0, .freed 3), (0, .failed "x"), (1, .freed 3), (1, .freed 1), (1, .lost 8), (2, .heard 2), (3, .heard 5), (3, .held 5),
      (4, .heard 9), (4, .held 9), (4, .heard 1), (4, .freed 9), (2, .freed 7), (3, .freed 5)] := C75_serve demo
example : account Events.demo 0 [] [.event 1, .event 3, .close, .event 8] =
    [.heard 1, .held 1, .heard 3, .held 3, .freed 3, .freed 1, .lost 8] := by decide
example : demo = ([.open_ 0] : List (Cmd Nat Nat)) ++ .open_ 0 :: demo.drop 2 ∧ opened ([.open_ 0] : List (Cmd Nat Nat)) = 1 := ⟨rfl, rfl⟩
example : ¬ Bracketed [] ([.held 1, .held 2, .freed 1, .freed 2] : List (Note Nat String)) ∧ ¬ Bracketed [] ([.held 1] : List (Note Nat String)) := by
  simp [Bracketed]
example : ∀ c : Cmd Nat Nat, (match c with | .move _ => false | _ => true) = false → ∃ j, c = .move j := by
  intro c h; cases c <;> simp_all

end Verif.Sessions
