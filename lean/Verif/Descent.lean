import Verif.SpecParser

/-!
# Recursive descent on token lists

Proof material for C41: the big-step behaviour of the functions E, T, S of example/parser.cpp:57-94 on the list of tokens that are still to
come, and its relation to the grammar.
-/
namespace Verif.Parser

/-- The functions, and the two loops. -/
inductive NT
  | s | t | tLoop | e | eLoop

/-- `Big n ts w o`: called when `ts` is to come, `n` passes the bytes `w` to the callback and returns when `o = some rest`
is to come, or throws (`o = none`). -/
inductive Big : NT → List Byte → List Byte → Option (List Byte) → Prop
  | digit {d ts} : Digit d → Big .s (d :: ts) [d] (some ts)
  | close {ts w r} : Big .e ts w (some (byte ')' :: r)) → Big .s (byte '(' :: ts) (byte '(' :: w ++ [byte ')']) (some r)
  | open_ {ts w r} : Big .e ts w (some r) → (∀ x, r.head? = some x → x ≠ byte ')') → Big .s (byte '(' :: ts) (byte '(' :: w) none
  | inner {ts w} : Big .e ts w none → Big .s (byte '(' :: ts) (byte '(' :: w) none
  | bad {ts} : (∀ x, ts.head? = some x → ¬ Digit x ∧ x ≠ byte '(') → Big .s ts [] none
  | t {ts w r v o} : Big .s ts w (some r) → Big .tLoop r v o → Big .t ts (w ++ v) o
  | tBad {ts w} : Big .s ts w none → Big .t ts w none
  | tStop {ts} : (∀ x, ts.head? = some x → ¬ MulOp x) → Big .tLoop ts [] (some ts)
  | tMore {op ts w r v o} : MulOp op → Big .s ts w (some r) → Big .tLoop r v o → Big .tLoop (op :: ts) (op :: (w ++ v)) o
  | tLoopBad {op ts w} : MulOp op → Big .s ts w none → Big .tLoop (op :: ts) (op :: w) none
  | e {ts w r v o} : Big .t ts w (some r) → Big .eLoop r v o → Big .e ts (w ++ v) o
  | eBad {ts w} : Big .t ts w none → Big .e ts w none
  | eStop {ts} : (∀ x, ts.head? = some x → ¬ AddOp x) → Big .eLoop ts [] (some ts)
  | eMore {op ts w r v o} : AddOp op → Big .t ts w (some r) → Big .eLoop r v o → Big .eLoop (op :: ts) (op :: (w ++ v)) o
  | eLoopBad {op ts w} : AddOp op → Big .t ts w none → Big .eLoop (op :: ts) (op :: w) none

theorem digit_paren {d : Byte} (h : Digit d) : d ≠ byte '(' := by rintro rfl; revert h; unfold Digit; decide

/-- what is passed on is a beginning of what was to come, the rest remains -/
theorem Big.split {n ts w o} (h : Big n ts w o) : ∃ r, ts = w ++ r ∧ (∀ r', o = some r' → r' = r) := by
  induction h with
  | digit _ => exact ⟨_, rfl, by simp⟩
  | @close _ _ r _ ih => obtain ⟨_, rfl, h⟩ := ih; cases h _ rfl; exact ⟨r, by simp, by simp⟩
  | open_ _ _ ih => obtain ⟨r, rfl, h⟩ := ih; exact ⟨_, rfl, by simp⟩
  | inner _ ih => obtain ⟨r, rfl, h⟩ := ih; exact ⟨_, rfl, by simp⟩
  | bad _ => exact ⟨_, rfl, by simp⟩
  | t _ _ ih1 ih2 => obtain ⟨r, rfl, h⟩ := ih1; obtain ⟨r2, h2, h3⟩ := ih2; cases h _ rfl; exact ⟨r2, by rw [h2, List.append_assoc], h3⟩
  | tBad _ ih => obtain ⟨r, rfl, h⟩ := ih; exact ⟨_, rfl, by simp⟩
  | tStop _ => exact ⟨_, rfl, by simp⟩
  | tMore _ _ _ ih1 ih2 => obtain ⟨r, rfl, h⟩ := ih1; obtain ⟨r2, h2, h3⟩ := ih2; cases h _ rfl; exact ⟨r2, by rw [h2]; simp, h3⟩
  | tLoopBad _ _ ih => obtain ⟨r, rfl, h⟩ := ih; exact ⟨_, rfl, by simp⟩
  | e _ _ ih1 ih2 => obtain ⟨r, rfl, h⟩ := ih1; obtain ⟨r2, h2, h3⟩ := ih2; cases h _ rfl; exact ⟨r2, by rw [h2, List.append_assoc], h3⟩
  | eBad _ ih => obtain ⟨r, rfl, h⟩ := ih; exact ⟨_, rfl, by simp⟩
  | eStop _ => exact ⟨_, rfl, by simp⟩
  | eMore _ _ _ ih1 ih2 => obtain ⟨r, rfl, h⟩ := ih1; obtain ⟨r2, h2, h3⟩ := ih2; cases h _ rfl; exact ⟨r2, by rw [h2]; simp, h3⟩
  | eLoopBad _ _ ih => obtain ⟨r, rfl, h⟩ := ih; exact ⟨_, rfl, by simp⟩

/-- one behaviour only -/
theorem Big.det {n ts w o} (h : Big n ts w o) : ∀ {w' o'}, Big n ts w' o' → w' = w ∧ o' = o := by
  induction h with
  | digit hd =>
    intro w' o' h
    cases h with
    | digit => exact ⟨rfl, rfl⟩
    | close | open_ | inner => exact absurd rfl (digit_paren hd)
    | bad h => exact absurd hd (h _ rfl).1
  | close _ ih =>
    intro w' o' h
    cases h with
    | digit hd => exact absurd rfl (digit_paren hd)
    | close h => obtain ⟨rfl, h⟩ := ih h; cases h; exact ⟨rfl, rfl⟩
    | open_ h hn => obtain ⟨rfl, h⟩ := ih h; cases h; exact absurd rfl (hn _ rfl)
    | inner h => cases (ih h).2
    | bad h => exact absurd rfl (h _ rfl).2
  | open_ _ hn ih =>
    intro w' o' h
    cases h with
    | digit hd => exact absurd rfl (digit_paren hd)
    | close h => obtain ⟨rfl, h⟩ := ih h; cases h; exact absurd rfl (hn _ rfl)
    | open_ h hn => obtain ⟨rfl, h⟩ := ih h; exact ⟨rfl, rfl⟩
    | inner h => cases (ih h).2
    | bad h => exact absurd rfl (h _ rfl).2
  | inner _ ih =>
    intro w' o' h
    cases h with
    | digit hd => exact absurd rfl (digit_paren hd)
    | close h => cases (ih h).2
    | open_ h hn => cases (ih h).2
    | inner h => obtain ⟨rfl, h⟩ := ih h; exact ⟨rfl, rfl⟩
    | bad h => exact absurd rfl (h _ rfl).2
  | bad hb =>
    intro w' o' h
    cases h with
    | digit hd => exact absurd hd (hb _ rfl).1
    | close h | open_ h hn | inner h => exact absurd rfl (hb _ rfl).2
    | bad h => exact ⟨rfl, rfl⟩
  | t _ _ ih1 ih2 =>
    intro w' o' h
    cases h with
    | t h1 h2 => obtain ⟨rfl, h⟩ := ih1 h1; cases h; obtain ⟨rfl, rfl⟩ := ih2 h2; exact ⟨rfl, rfl⟩
    | tBad h => cases (ih1 h).2
  | tBad _ ih =>
    intro w' o' h
    cases h with
    | t h1 h2 => cases (ih h1).2
    | tBad h => exact ih h
  | tStop hn =>
    intro w' o' h
    cases h with
    | tStop => exact ⟨rfl, rfl⟩
    | tMore h | tLoopBad h => exact absurd h (hn _ rfl)
  | tMore ho _ _ ih1 ih2 =>
    intro w' o' h
    cases h with
    | tStop hn => exact absurd ho (hn _ rfl)
    | tMore _ h1 h2 => obtain ⟨rfl, h⟩ := ih1 h1; cases h; obtain ⟨rfl, rfl⟩ := ih2 h2; exact ⟨rfl, rfl⟩
    | tLoopBad _ h => cases (ih1 h).2
  | tLoopBad ho _ ih =>
    intro w' o' h
    cases h with
    | tStop hn => exact absurd ho (hn _ rfl)
    | tMore _ h1 h2 => cases (ih h1).2
    | tLoopBad _ h => obtain ⟨rfl, h⟩ := ih h; exact ⟨rfl, rfl⟩
  | e _ _ ih1 ih2 =>
    intro w' o' h
    cases h with
    | e h1 h2 => obtain ⟨rfl, h⟩ := ih1 h1; cases h; obtain ⟨rfl, rfl⟩ := ih2 h2; exact ⟨rfl, rfl⟩
    | eBad h => cases (ih1 h).2
  | eBad _ ih =>
    intro w' o' h
    cases h with
    | e h1 h2 => cases (ih h1).2
    | eBad h => exact ih h
  | eStop hn =>
    intro w' o' h
    cases h with
    | eStop => exact ⟨rfl, rfl⟩
    | eMore h | eLoopBad h => exact absurd h (hn _ rfl)
  | eMore ho _ _ ih1 ih2 =>
    intro w' o' h
    cases h with
    | eStop hn => exact absurd ho (hn _ rfl)
    | eMore _ h1 h2 => obtain ⟨rfl, h⟩ := ih1 h1; cases h; obtain ⟨rfl, rfl⟩ := ih2 h2; exact ⟨rfl, rfl⟩
    | eLoopBad _ h => cases (ih1 h).2
  | eLoopBad ho _ ih =>
    intro w' o' h
    cases h with
    | eStop hn => exact absurd ho (hn _ rfl)
    | eMore _ h1 h2 => cases (ih h1).2
    | eLoopBad _ h => obtain ⟨rfl, h⟩ := ih h; exact ⟨rfl, rfl⟩

instance : DecidablePred Digit := fun c => inferInstanceAs (Decidable (c ∈ _))
instance : DecidablePred AddOp := fun c => inferInstanceAs (Decidable (_ ∨ _))
instance : DecidablePred MulOp := fun c => inferInstanceAs (Decidable (_ ∨ _))

/-- always some behaviour; `S` consumes something -/
theorem Big.total (m : Nat) : ∀ ts : List Byte, ts.length ≤ m →
    (∃ w o, Big .s ts w o ∧ ∀ r, o = some r → r.length < ts.length) ∧ (∃ w o, Big .t ts w o ∧ ∀ r, o = some r → r.length < ts.length) ∧
    (∃ w o, Big .tLoop ts w o ∧ ∀ r, o = some r → r.length ≤ ts.length) ∧ (∃ w o, Big .e ts w o ∧ ∀ r, o = some r → r.length < ts.length) ∧
    (∃ w o, Big .eLoop ts w o ∧ ∀ r, o = some r → r.length ≤ ts.length) := by
  induction m with
  | zero =>
    intro ts hl
    cases ts with
    | cons => simp at hl
    | nil =>
      have h : Big .s [] [] none := .bad (by simp)
      exact ⟨⟨_, _, h, by simp⟩, ⟨_, _, .tBad h, by simp⟩, ⟨_, _, .tStop (by simp), by simp⟩, ⟨_, _, .eBad (.tBad h), by simp⟩,
        ⟨_, _, .eStop (by simp), by simp⟩⟩
  | succ m ih =>
    intro ts hl
    cases ts with
    | nil =>
      have h : Big .s [] [] none := .bad (by simp)
      exact ⟨⟨_, _, h, by simp⟩, ⟨_, _, .tBad h, by simp⟩, ⟨_, _, .tStop (by simp), by simp⟩, ⟨_, _, .eBad (.tBad h), by simp⟩,
        ⟨_, _, .eStop (by simp), by simp⟩⟩
    | cons c ts =>
      have hl' : ts.length ≤ m := by simpa using hl
      have hs : ∃ w o, Big .s (c :: ts) w o ∧ ∀ r, o = some r → r.length < (c :: ts).length := by
        by_cases hd : Digit c
        · exact ⟨_, _, .digit hd, by simp⟩
        by_cases hp : c = byte '('
        · subst hp
          obtain ⟨-, -, -, ⟨w, o, h, hlen⟩, -⟩ := ih ts hl'
          match o, h, hlen with
          | none, h, _ => exact ⟨_, _, .inner h, by simp⟩
          | some [], h, _ => exact ⟨_, _, .open_ h (by simp), by simp⟩
          | some (x :: r), h, hlen =>
            by_cases hx : x = byte ')'
            · subst hx; refine ⟨_, _, .close h, ?_⟩
              have := hlen _ rfl
              rintro r ⟨⟩; simp at this ⊢; omega
            · exact ⟨_, _, .open_ h (by rintro y ⟨⟩; exact hx), by simp⟩
        · exact ⟨_, _, .bad (by rintro x ⟨⟩; exact ⟨hd, hp⟩), by simp⟩
      have ht : ∃ w o, Big .t (c :: ts) w o ∧ ∀ r, o = some r → r.length < (c :: ts).length := by
        obtain ⟨w, o, h, hlen⟩ := hs
        cases o with
        | none => exact ⟨_, _, .tBad h, by simp⟩
        | some r =>
          have h1 := hlen r rfl
          obtain ⟨-, -, ⟨v, o, h2, h3⟩, -⟩ := ih r (by simp at h1; omega)
          exact ⟨_, _, .t h h2, fun r' e => by have := h3 r' e; omega⟩
      have htl : ∃ w o, Big .tLoop (c :: ts) w o ∧ ∀ r, o = some r → r.length ≤ (c :: ts).length := by
        by_cases ho : MulOp c
        · obtain ⟨⟨w, o, h, hlen⟩, -⟩ := ih ts hl'
          cases o with
          | none => exact ⟨_, _, .tLoopBad ho h, by simp⟩
          | some r =>
            have h1 := hlen r rfl
            obtain ⟨-, -, ⟨v, o, h2, h3⟩, -⟩ := ih r (by omega)
            exact ⟨_, _, .tMore ho h h2, fun r' e => by have := h3 r' e; simp; omega⟩
        · exact ⟨_, _, .tStop (by rintro x ⟨⟩; exact ho), by simp⟩
      have he : ∃ w o, Big .e (c :: ts) w o ∧ ∀ r, o = some r → r.length < (c :: ts).length := by
        obtain ⟨w, o, h, hlen⟩ := ht
        cases o with
        | none => exact ⟨_, _, .eBad h, by simp⟩
        | some r =>
          have h1 := hlen r rfl
          obtain ⟨-, -, -, -, ⟨v, o, h2, h3⟩⟩ := ih r (by simp at h1; omega)
          exact ⟨_, _, .e h h2, fun r' e => by have := h3 r' e; omega⟩
      have hel : ∃ w o, Big .eLoop (c :: ts) w o ∧ ∀ r, o = some r → r.length ≤ (c :: ts).length := by
        by_cases ho : AddOp c
        · obtain ⟨-, ⟨w, o, h, hlen⟩, -⟩ := ih ts hl'
          cases o with
          | none => exact ⟨_, _, .eLoopBad ho h, by simp⟩
          | some r =>
            have h1 := hlen r rfl
            obtain ⟨-, -, -, -, ⟨v, o, h2, h3⟩⟩ := ih r (by omega)
            exact ⟨_, _, .eMore ho h h2, fun r' e => by have := h3 r' e; simp; omega⟩
        · exact ⟨_, _, .eStop (by rintro x ⟨⟩; exact ho), by simp⟩
      exact ⟨hs, ht, htl, he, hel⟩

/-- the same words, with a rest that begins alike: the same behaviour -/
theorem Big.local_ {n ts w o} (h : Big n ts w o) : ∀ {r r' : List Byte}, ts = w ++ r → r'.head? = r.head? →
    Big n (w ++ r') w (o.map fun _ => r') := by
  induction h with
  | digit hd => intro r r' _ _; exact .digit hd
  | @close ts w r0 h ih =>
    intro r r' _ _
    obtain ⟨r1, rfl, h2⟩ := h.split
    cases h2 _ rfl
    have := ih (r' := byte ')' :: r') rfl rfl
    simpa using Big.close this
  | @open_ ts w r0 h hn ih =>
    intro r r' e hh
    obtain ⟨r1, rfl, h2⟩ := h.split
    cases h2 _ rfl
    have e : r0 = r := by simpa using e
    subst e
    exact .open_ (ih rfl hh) (by rw [hh]; exact hn)
  | inner h ih => intro r r' e hh; exact .inner (ih (by simpa using e) hh)
  | bad hn => intro r r' e hh; simp at e; subst e; exact .bad (by simpa [hh] using hn)
  | @t ts w r0 v o h1 h2 ih1 ih2 =>
    intro r r' e hh
    obtain ⟨r1, rfl, h3⟩ := h1.split
    cases h3 _ rfl
    obtain ⟨r2, rfl, h4⟩ := h2.split
    have e : r2 = r := by simpa using e
    subst e
    have i2 := ih2 rfl hh
    have i1 := ih1 (r' := v ++ r') rfl (by cases v <;> simp [hh])
    simpa using Big.t i1 i2
  | tBad _ ih => intro r r' e hh; exact .tBad (ih e hh)
  | tStop hn => intro r r' e hh; simp at e; subst e; exact .tStop (by simpa [hh] using hn)
  | @tMore op ts w r0 v o ho h1 h2 ih1 ih2 =>
    intro r r' e hh
    obtain ⟨r1, rfl, h3⟩ := h1.split
    cases h3 _ rfl
    obtain ⟨r2, rfl, h4⟩ := h2.split
    have e : r2 = r := by simpa using e
    subst e
    have i2 := ih2 rfl hh
    have i1 := ih1 (r' := v ++ r') rfl (by cases v <;> simp [hh])
    simpa using Big.tMore ho i1 i2
  | tLoopBad ho _ ih => intro r r' e hh; exact .tLoopBad ho (ih (by simpa using e) hh)
  | @e ts w r0 v o h1 h2 ih1 ih2 =>
    intro r r' e hh
    obtain ⟨r1, rfl, h3⟩ := h1.split
    cases h3 _ rfl
    obtain ⟨r2, rfl, h4⟩ := h2.split
    have e : r2 = r := by simpa using e
    subst e
    have i2 := ih2 rfl hh
    have i1 := ih1 (r' := v ++ r') rfl (by cases v <;> simp [hh])
    simpa using Big.e i1 i2
  | eBad _ ih => intro r r' e hh; exact .eBad (ih e hh)
  | eStop hn => intro r r' e hh; simp at e; subst e; exact .eStop (by simpa [hh] using hn)
  | @eMore op ts w r0 v o ho h1 h2 ih1 ih2 =>
    intro r r' e hh
    obtain ⟨r1, rfl, h3⟩ := h1.split
    cases h3 _ rfl
    obtain ⟨r2, rfl, h4⟩ := h2.split
    have e : r2 = r := by simpa using e
    subst e
    have i2 := ih2 rfl hh
    have i1 := ih1 (r' := v ++ r') rfl (by cases v <;> simp [hh])
    simpa using Big.eMore ho i1 i2
  | eLoopBad ho _ ih => intro r r' e hh; exact .eLoopBad ho (ih (by simpa using e) hh)

/-! ## Soundness -/

/-- what a function passes on when it returns -/
def Gen : NT → List Byte → Prop
  | .s, w => WordS w
  | .t, w => WordT w
  | .tLoop, w => ∀ v, WordT v → WordT (v ++ w)
  | .e, w => WordE w
  | .eLoop, w => ∀ v, WordE v → WordE (v ++ w)

theorem zero_word : WordS [byte '0'] := .digit (by unfold Digit; decide)

theorem Big.sound {n ts w o} (h : Big n ts w o) : match o with | some _ => Gen n w | none => ∃ z, Gen n (w ++ z) := by
  induction h with
  | digit hd => exact WordS.digit hd
  | close _ ih => exact WordS.paren ih
  | @open_ ts w r _ _ ih => exact ⟨[byte ')'], WordS.paren ih⟩
  | @inner ts w _ ih => obtain ⟨z, hz⟩ := ih; exact ⟨z ++ [byte ')'], by simpa [Gen] using WordS.paren hz⟩
  | bad _ => exact ⟨_, zero_word⟩
  | @t ts w r v o _ _ ih1 ih2 =>
    cases o with
    | some => exact ih2 _ (.one ih1)
    | none => obtain ⟨z, hz⟩ := ih2; exact ⟨z, by simpa [Gen] using hz _ (.one ih1)⟩
  | tBad _ ih => obtain ⟨z, hz⟩ := ih; exact ⟨z, .one hz⟩
  | tStop _ => intro v hv; simpa using hv
  | @tMore op ts w r v o ho _ _ ih1 ih2 =>
    cases o with
    | some => intro u hu; simpa using ih2 _ (.more hu ho ih1)
    | none => obtain ⟨z, hz⟩ := ih2; exact ⟨z, fun u hu => by simpa using hz _ (.more hu ho ih1)⟩
  | tLoopBad ho _ ih => obtain ⟨z, hz⟩ := ih; exact ⟨z, fun u hu => .more hu ho hz⟩
  | @e ts w r v o _ _ ih1 ih2 =>
    cases o with
    | some => exact ih2 _ (.one ih1)
    | none => obtain ⟨z, hz⟩ := ih2; exact ⟨z, by simpa [Gen] using hz _ (.one ih1)⟩
  | eBad _ ih => obtain ⟨z, hz⟩ := ih; exact ⟨z, .one hz⟩
  | eStop _ => intro v hv; simpa using hv
  | @eMore op ts w r v o ho _ _ ih1 ih2 =>
    cases o with
    | some => intro u hu; simpa using ih2 _ (.more hu ho ih1)
    | none => obtain ⟨z, hz⟩ := ih2; exact ⟨z, fun u hu => by simpa using hz _ (.more hu ho ih1)⟩
  | eLoopBad ho _ ih => obtain ⟨z, hz⟩ := ih; exact ⟨z, fun u hu => .more hu ho hz⟩

/-! ## Completeness -/

theorem add_mul {x : Byte} (h : AddOp x) : ¬ MulOp x := by rcases h with rfl | rfl <;> unfold MulOp <;> decide
theorem paren_op : ¬ MulOp (byte ')') ∧ ¬ AddOp (byte ')') := by unfold MulOp AddOp; decide

mutual
theorem complE {w : List Byte} : WordE w → ∀ r v o, (∀ x, r.head? = some x → ¬ MulOp x) → Big .eLoop r v o → Big .e (w ++ r) (w ++ v) o
  | .one h, r, v, o, hr, hb => .e (by simpa using complT h r [] _ (.tStop hr)) hb
  | .more (w := w) (op := op) (v := u) h ho h', r, v, o, hr, hb => by
    have h2 : Big .t (u ++ r) u (some r) := by simpa using complT h' r [] _ (.tStop hr)
    have := complE h (op :: (u ++ r)) _ o (by rintro x ⟨⟩; exact add_mul ho) (.eMore ho h2 hb)
    simpa using this
theorem complT {w : List Byte} : WordT w → ∀ r v o, Big .tLoop r v o → Big .t (w ++ r) (w ++ v) o
  | .one h, r, v, o, hb => .t (complS h r) hb
  | .more (w := w) (op := op) (v := u) h ho h', r, v, o, hb => by
    have := complT h (op :: (u ++ r)) _ o (.tMore ho (complS h' r) hb)
    simpa using this
theorem complS {w : List Byte} : WordS w → ∀ r, Big .s (w ++ r) w (some r)
  | .digit h, r => .digit h
  | .paren (w := w) h, r => by
    have := complE h (byte ')' :: r) [] _ (by rintro x ⟨⟩; exact paren_op.1) (.eStop (by rintro x ⟨⟩; exact paren_op.2))
    rw [List.append_nil] at this
    simpa using Big.close this
end

/-- a word that is not followed by an operator is parsed as a whole -/
theorem Big.complete {w r : List Byte} (h : WordE w) (hr : ∀ x, r.head? = some x → ¬ MulOp x ∧ ¬ AddOp x) : Big .e (w ++ r) w (some r) := by
  simpa using complE h r [] _ (fun x hx => (hr x hx).1) (.eStop fun x hx => (hr x hx).2)

/-- … and if the parser throws, what it has passed on is not a word -/
theorem Big.not_word {ts w : List Byte} (h : Big .e ts w none) : ¬ WordE w := by
  intro hw
  obtain ⟨r, rfl, -⟩ := h.split
  by_cases hr : ∀ x, r.head? = some x → ¬ MulOp x ∧ ¬ AddOp x
  · cases (h.det (Big.complete hw hr)).2
  · obtain ⟨x, hx, hop⟩ : ∃ x, r.head? = some x ∧ (MulOp x ∨ AddOp x) := by
      refine Classical.byContradiction fun hn => hr fun x hx => ⟨fun h => hn ⟨x, hx, .inl h⟩, fun h => hn ⟨x, hx, .inr h⟩⟩
    have h1 := h.local_ rfl (r' := [x, byte '0']) (by simp [hx])
    have h2 : WordE (w ++ [x, byte '0']) := by
      rcases hop with ho | ho
      · exact mulE hw ho zero_word
      · exact .more hw ho (.one zero_word)
    have h3 := Big.complete h2 (r := []) (by simp)
    rw [List.append_nil] at h3
    cases (h1.det h3).2
where
  mulE {w : List Byte} {x : Byte} {v : List Byte} (h : WordE w) (ho : MulOp x) (hv : WordS v) : WordE (w ++ x :: v) := by
    cases h with
    | one h => exact .one (.more h ho hv)
    | more h1 h2 h3 => simpa using WordE.more h1 h2 (.more h3 ho hv)

/-- what is passed on is the longest beginning of a word -/
theorem Big.longest {ts w o} (h : Big .e ts w o) : Longest ts w := by
  obtain ⟨r, rfl, -⟩ := h.split
  refine ⟨⟨r, rfl⟩, ?_, ?_⟩
  · have := h.sound
    cases o with
    | none => exact this
    | some => exact ⟨[], by simpa [Gen] using this⟩
  · rintro w' ⟨r', e⟩ ⟨z, hz⟩
    refine Classical.byContradiction fun hlt => ?_
    have hlt : w.length < w'.length := by omega
    -- `w'` goes on after `w`
    obtain ⟨c, u, rfl⟩ : ∃ c u, w' = w ++ c :: u := by
      have h1 : w <+: w' := List.prefix_of_prefix_length_le ⟨r, rfl⟩ ⟨r', e⟩ (Nat.le_of_lt hlt)
      obtain ⟨u, rfl⟩ := h1
      cases u with
      | nil => simp at hlt
      | cons c u => exact ⟨c, u, rfl⟩
    have hr : r.head? = some c := by
      have : c :: (u ++ r') = r := by simpa using e
      rw [← this]; rfl
    have h1 := h.local_ rfl (r' := c :: (u ++ z)) (by simp [hr])
    have h2 := Big.complete hz (r := []) (by simp)
    have h3 := (h1.det (by simpa using h2)).1
    simp at h3

end Verif.Parser
