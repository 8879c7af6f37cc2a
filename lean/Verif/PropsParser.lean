import Verif.ExParser
import Verif.Descent
import Verif.Produce

/-!
# C41: the example `parser.cpp`
-/
namespace Verif.Parser
variable {mv : Byte → Byte} {gl : Bool}

namespace Aux

theorem space_iff (c : Byte) : isspace c = true ↔ White c := by
  simp [isspace, White, bytes, byte, UInt8.le_iff_toNat_le, ← UInt8.toNat_inj]
  omega

theorem digit_iff (c : Byte) : isdigit c = true ↔ Digit c := by
  simp [isdigit, Digit, bytes, byte, UInt8.le_iff_toNat_le, ← UInt8.toNat_inj]
  omega

/-- the tokens still to come, including `next`; the end of the stream is seen as the byte 0xFF -/
def Sees (a : Src) (ts : List Byte) : Prop := (ts = [] ∧ a.next = 255 ∧ tokens a.inp = []) ∨ ts = a.next :: tokens a.inp

/-- A way to execute the parser: `Y a x F xs` says what follows if `xs` is passed to the callback; `Q` is a condition on
the frames. -/
structure Sem (mv : Byte → Byte) (gl : Bool) (k : Cb) (Q : List (Frame Pt Byte Err) → Prop) (Y : Src → Ctl Pt Byte Err → List (Frame Pt Byte Err) → List Byte → Prop) : Prop where
  loc : ∀ {a a' x x' F F' xs}, (∀ (s : St Pt (Src × Mem) Byte Err) b, s.g = (a, b) → s.ctl = x → s.fr = F →
      ∃ evs, Local (prog mv gl) s (a', b) F' x' evs) → Y a' x' F' xs → Y a x F xs
  plain : ∀ {l F}, Q F → Q (.fnRet l :: F)
  cb : ∀ {a F xs c}, Q F → Y a .retn F xs → Y a (.eval (.cb k c)) F (c :: xs)

section
variable {k : Cb} {Q : List (Frame Pt Byte Err) → Prop} {Y : Src → Ctl Pt Byte Err → List (Frame Pt Byte Err) → List Byte → Prop}
  (S : Sem mv gl k Q Y)
include S
variable {a a' : Src} {F : List (Frame Pt Byte Err)} {xs : List Byte} {l l' l1 : Pt} {e : Err}

theorem Sem.tau (hc : ∀ b, code l (a, b) = .tau (a', b) l') (hy : Y a' (.eval l') F xs) : Y a (.eval l) F xs :=
  S.loc (fun s b hg hx hf => ⟨[], hf ▸ .tau hx (hg ▸ hc b)⟩) hy

theorem Sem.call (hc : ∀ b, code l (a, b) = .call l1 l') (hy : Y a (.eval l1) (.fnRet l' :: F) xs) : Y a (.eval l) F xs :=
  S.loc (fun s b hg hx hf => ⟨[], by rw [← hf, ← hg]; exact .call hx (hg ▸ hc b)⟩) hy

theorem Sem.back (hc : ∀ b, code l (a, b) = .ret) (hy : Y a .retn F xs) : Y a (.eval l) F xs :=
  S.loc (fun s b hg hx hf => ⟨[], by rw [← hf, ← hg]; exact .ret hx (hg ▸ hc b)⟩) hy

theorem Sem.raise (hc : ∀ b, code l (a, b) = .throw e) (hy : Y a (.raise (.user e)) F xs) : Y a (.eval l) F xs :=
  S.loc (fun s b hg hx hf => ⟨[], by rw [← hf, ← hg]; exact .throw hx (hg ▸ hc b)⟩) hy

theorem Sem.fnRet (hy : Y a (.eval l) F xs) : Y a .retn (.fnRet l :: F) xs :=
  S.loc (fun s b hg hx hf => ⟨[], by rw [← hg]; exact .tFnRet hx hf⟩) hy

theorem Sem.fnThrow (hy : Y a (.raise (.user e)) F xs) : Y a (.raise (.user e)) (.fnRet l :: F) xs :=
  S.loc (fun s b hg hx hf => ⟨[], by rw [← hg]; exact .rFnRet hx hf⟩) hy

/-- `scan()` -/
theorem Sem.scan (inp : List Byte) : ∀ {c : Byte}, (∀ a', Sees a' (tokens inp) → Y a' .retn F xs) → Y ⟨c, inp⟩ (.eval .scan) F xs := by
  induction inp with
  | nil =>
    intro c hy
    refine S.tau (fun _ => rfl) (S.back (fun _ => ?_) (hy _ (.inl ⟨rfl, rfl, rfl⟩)))
    rfl
  | cons d r ih =>
    intro c hy
    refine S.tau (fun _ => rfl) ?_
    by_cases hd : isspace d = true
    · refine S.tau (a' := ⟨d, r⟩) (l' := .scan) (fun b => by simp [code, Src.pull, hd]) (ih fun a' h => hy a' ?_)
      simpa [tokens, (space_iff d).1 hd] using h
    · refine S.back (fun b => by simp [code, Src.pull, hd]) (hy _ (.inr ?_))
      simp [tokens, mt (space_iff d).2 hd, Src.pull]

omit S in
/-- where a function of the parser begins -/
def lbl (k : Cb) : NT → Pt
  | .s => .s k
  | .t => .t k
  | .tLoop => .tLoop k
  | .e => .e k
  | .eLoop => .eLoop k

omit S in
/-- what has to follow -/
def Cont (Y : Src → Ctl Pt Byte Err → List (Frame Pt Byte Err) → List Byte → Prop) (F : List (Frame Pt Byte Err)) (xs : List Byte) :
    Option (List Byte) → Prop
  | some r => ∀ a', Sees a' r → Y a' .retn F xs
  | none => ∀ a', Y a' (.raise (.user .parser_error)) F xs

/-- a byte is passed on and the next one is read -/
theorem Sem.accept {c : Byte} {ts : List Byte} (hs : Sees a (c :: ts)) (hF : Q F) (hc : ∀ b, code l (a, b) = .call (.cb k a.next) l')
    (hc' : ∀ g, code l' g = .call .scan l1) (hy : ∀ a', Sees a' ts → Y a' (.eval l1) F xs) : Y a (.eval l) F (c :: xs) := by
  rcases hs with ⟨h, -⟩ | h
  · cases h
  · cases h
    exact S.call hc (S.cb (S.plain hF) (S.fnRet (S.call (fun _ => hc' _) (S.scan a.inp fun a' h => S.fnRet (hy a' h)))))

omit S in
theorem Sees.next {c : Byte} {ts : List Byte} (hs : Sees a (c :: ts)) : a.next = c := by
  rcases hs with ⟨h, -⟩ | h <;> cases h
  rfl

omit S in
/-- a test of `next` that fails for all tokens to come and at the end -/
theorem Sees.not {p : Byte → Prop} {ts : List Byte} (hs : Sees a ts) (h : ∀ x, ts.head? = some x → ¬ p x) (h0 : ¬ p 255) : ¬ p a.next := by
  rcases hs with ⟨-, h1, -⟩ | rfl
  · rwa [h1]
  · exact h _ rfl

/-- the functions of the parser -/
theorem Sem.parse {n : NT} {ts w : List Byte} {o : Option (List Byte)} (h : Big n ts w o) : ∀ {a F xs}, Sees a ts → Q F →
    Cont Y F xs o → Y a (.eval (lbl k n)) F (w ++ xs) := by
  have close {a F xs} {ts : List Byte} (hs : Sees a (byte ')' :: ts)) (hF : Q F) (hc : Cont Y F xs (some ts)) :
      Y a (.eval (.sClose k)) F (byte ')' :: xs) := by
    refine S.accept hs hF (l' := .sScan) (l1 := .done) (fun b => ?_) (fun _ => rfl) fun a' h => S.back (fun _ => rfl) (hc _ h)
    simp [code, hs.next]
  have open' {a F xs} {ts : List Byte} (hs : Sees a (byte '(' :: ts)) (hF : Q F)
      (hy : ∀ a', Sees a' ts → Y a' (.eval (.e k)) (.fnRet (.sClose k) :: F) xs) : Y a (.eval (.s k)) F (byte '(' :: xs) := by
    refine S.accept hs hF (l' := .sOpen k) (l1 := .sE k) (fun b => ?_) (fun _ => rfl) fun a' h => S.call (fun _ => rfl) (hy a' h)
    have : isdigit (byte '(') = false := by decide
    simp [code, hs.next, this]
  induction h with
  | @digit d ts hd =>
    intro a F xs hs hF hc
    refine S.accept hs hF (l' := .sScan) (l1 := .done) (fun b => ?_) (fun _ => rfl) fun a' h => S.back (fun _ => rfl) (hc _ h)
    simp [code, lbl, hs.next, (digit_iff d).2 hd]
  | close _ ih =>
    intro a F xs hs hF hc
    refine open' hs hF fun a' h => ?_
    simpa [lbl] using ih (xs := byte ')' :: xs) h (S.plain hF) fun a'' h' => S.fnRet (close h' hF hc)
  | open_ _ hn ih =>
    intro a F xs hs hF hc
    refine open' hs hF fun a' h => ?_
    refine ih h (S.plain hF) fun a'' h' => S.fnRet (S.raise (fun b => ?_) (hc a''))
    have := h'.not (p := (· = byte ')')) hn (by decide)
    simp [code, this]
  | inner _ ih =>
    intro a F xs hs hF hc
    refine open' hs hF fun a' h => ?_
    exact ih h (S.plain hF) fun a'' => S.fnThrow (hc a'')
  | bad hn =>
    intro a F xs hs hF hc
    refine S.raise (fun b => ?_) (hc a)
    have h1 := hs.not (p := Digit) (fun x hx => (hn x hx).1) (by unfold Digit; decide)
    have h2 := hs.not (p := (· = byte '(')) (fun x hx => (hn x hx).2) (by decide)
    simp [code, lbl, h2, mt (digit_iff _).1 h1]
  | t _ _ ih1 ih2 =>
    intro a F xs hs hF hc
    rw [List.append_assoc]
    exact S.call (fun _ => rfl) (ih1 hs (S.plain hF) fun a' h => S.fnRet (ih2 h hF hc))
  | tBad _ ih =>
    intro a F xs hs hF hc
    exact S.call (fun _ => rfl) (ih hs (S.plain hF) fun a' => S.fnThrow (hc a'))
  | tStop hn =>
    intro a F xs hs hF hc
    refine S.back (fun b => ?_) (hc a hs)
    have := hs.not hn (by unfold MulOp; decide)
    simp only [MulOp] at this
    simp [code, lbl, this]
  | tMore ho _ _ ih1 ih2 =>
    intro a F xs hs hF hc
    refine S.accept hs hF (l' := .tScan k) (l1 := .tS k) (fun b => ?_) (fun _ => rfl) fun a' h => ?_
    · have := hs.next; subst this; simp only [MulOp] at ho; simp [code, lbl, ho]
    · rw [List.append_eq, List.append_assoc]
      exact S.call (fun _ => rfl) (ih1 h (S.plain hF) fun a' h => S.fnRet (ih2 h hF hc))
  | tLoopBad ho _ ih =>
    intro a F xs hs hF hc
    refine S.accept hs hF (l' := .tScan k) (l1 := .tS k) (fun b => ?_) (fun _ => rfl) fun a' h => ?_
    · have := hs.next; subst this; simp only [MulOp] at ho; simp [code, lbl, ho]
    · exact S.call (fun _ => rfl) (ih h (S.plain hF) fun a' => S.fnThrow (hc a'))
  | e _ _ ih1 ih2 =>
    intro a F xs hs hF hc
    rw [List.append_assoc]
    exact S.call (fun _ => rfl) (ih1 hs (S.plain hF) fun a' h => S.fnRet (ih2 h hF hc))
  | eBad _ ih =>
    intro a F xs hs hF hc
    exact S.call (fun _ => rfl) (ih hs (S.plain hF) fun a' => S.fnThrow (hc a'))
  | eStop hn =>
    intro a F xs hs hF hc
    refine S.back (fun b => ?_) (hc a hs)
    have := hs.not hn (by unfold AddOp; decide)
    simp only [AddOp] at this
    simp [code, lbl, this]
  | eMore ho _ _ ih1 ih2 =>
    intro a F xs hs hF hc
    refine S.accept hs hF (l' := .eScan k) (l1 := .eT k) (fun b => ?_) (fun _ => rfl) fun a' h => ?_
    · have := hs.next; subst this; simp only [AddOp] at ho; simp [code, lbl, ho]
    · rw [List.append_eq, List.append_assoc]
      exact S.call (fun _ => rfl) (ih1 h (S.plain hF) fun a' h => S.fnRet (ih2 h hF hc))
  | eLoopBad ho _ ih =>
    intro a F xs hs hF hc
    refine S.accept hs hF (l' := .eScan k) (l1 := .eT k) (fun b => ?_) (fun _ => rfl) fun a' h => ?_
    · have := hs.next; subst this; simp only [AddOp] at ho; simp [code, lbl, ho]
    · exact S.call (fun _ => rfl) (ih h (S.plain hF) fun a' => S.fnThrow (hc a'))

/-- constructor of Parser, and `run()` -/
theorem Sem.run {w : List Byte} {o : Option (List Byte)} (h : Big .e (tokens a.inp) w o) (hF : Q F) (hc : Cont Y F xs o) :
    Y a (.eval (.init k)) F (w ++ xs) := by
  refine S.tau (fun _ => rfl) (S.call (fun _ => rfl) (S.scan a.inp fun a' h' => S.fnRet (S.call (fun _ => rfl) (S.parse h h' (S.plain hF) ?_))))
  cases o with
  | some r => exact fun a' h => S.fnRet (S.back (fun _ => rfl) (hc _ h))
  | none => exact fun a' => S.fnThrow (hc _)

end

theorem sem_yields (hp : Nat) (r : Option Err) : Sem mv gl (.yield hp) (fun F => ∀ f ∈ F, Plain f)
    fun a x F xs => Yields (B := Mem) (prog mv gl) hp a x F xs r where
  loc h hy := .loc h hy
  plain hF f hf := by
    rcases List.mem_cons.1 hf with rfl | h
    · exact .inl ⟨_, rfl⟩
    · exact hF f h
  cb hF hy := .push (fun _ => rfl) hF (.back (fun _ => rfl) hy)

/-- the error, if any -/
def err : Option (List Byte) → Option Err
  | some _ => none
  | none => some .parser_error

/-- the coroutine-function -/
theorem lam_yields {hp : Nat} {a : Src} {w : List Byte} {o : Option (List Byte)} (h : Big .e (tokens a.inp) w o) :
    Yields (B := Mem) (prog mv gl) hp a (.eval (.lam hp)) [] w (err o) := by
  refine .obj (fun _ => rfl) ?_
  have := (sem_yields (mv := mv) (gl := gl) hp (err o)).run (a := a) (F := [.gObj 0]) (xs := []) h (by simp [Plain]) ?_
  · simpa using this
  · cases o with
    | some => exact fun a' _ => .objRet (fun _ => rfl) .ret
    | none => exact fun a' => .objThrow (fun _ => rfl) .throw

theorem wordT_ne {w : List Byte} (h : WordT w) : w ≠ [] := by
  cases h with
  | one h => cases h <;> simp
  | more => simp

theorem wordE_ne {w : List Byte} (h : WordE w) : w ≠ [] := by
  cases h with
  | one h => exact wordT_ne h
  | more => simp

/-- what main has written and returned -/
def report (m : Mem) (w : List Byte) : Option Err → Mem
  | none => { out := m.out ++ w.map .parsed ++ [.done], exit := some true }
  | some e => { out := m.out ++ w.map .parsed ++ [.exception e], exit := some false }

theorem same_ready {s s' : St Pt (Src × Mem) Byte Err} {h c hp : Nat} {a : Src} {x : Ctl Pt Byte Err} {lg : List (Ev Byte Err)} {g : Src × Mem}
    {v : Byte} {xs : List Byte} {r : Option Err} (h1 : s' = { s with ctl := x, g := g, log := lg }) (hq : Ready (prog mv gl) s h c hp a v xs r) :
    Ready (prog mv gl) s' h c hp a v xs r :=
  hq.congr (by rw [h1]) (by rw [h1]) (by rw [h1]) (by rw [h1]) (by rw [h1]) (by rw [h1]) (by rw [h1]) (by rw [h1])

/-- the range-based for loop -/
theorem loop_run {h c hp : Nat} {l0 : Pt} {g0 : Src × Mem} {r : Option Err} (xs : List Byte) : ∀ (v : Byte) (a : Src) (s : St Pt (Src × Mem) Byte Err) (m : Mem),
    Reach (prog mv gl) l0 g0 s → Ready (prog mv gl) s h c hp a v xs r → s.ctl = .eval (.loop (some h)) → s.g = (a, m) →
    ∃ s' a', Later (prog mv gl) s s' ∧ s'.cur = s.cur ∧ s'.fr = s.fr ∧ s'.base s.cur = s.base s.cur ∧
      s'.g = (a', { m with out := m.out ++ (v :: xs).map .parsed }) ∧ Spent s' h c hp r ∧
      s'.ctl = (match r with | none => .eval (.loop none) | some e => .raise (.user e)) := by
  induction xs with
  | nil =>
    intro v a s m hr hq hx hg
    obtain ⟨s1, l1, h1⟩ := op_deref hq ⟨_, hx, rfl⟩
    have r1 := l1.reach hr
    have x1 : s1.ctl = .eval (.print h v) := by rw [h1]; rfl
    have e2 := tau_step (P := prog mv gl) x1 (g := (a, { m with out := m.out ++ [.parsed v] })) (l' := .next h) (by rw [h1]; simp only [hg]; rfl)
    have q2 := same_ready (mv := mv) (gl := gl) (s' := { s1 with ctl := .eval (.next h), g := (a, { m with out := m.out ++ [.parsed v] }) })
      (by rw [h1]) hq
    obtain ⟨s3, a', l3, c3, f3, g3, -, k3, hres⟩ := op_next (r1.step e2) q2 ⟨_, rfl, rfl⟩ rfl
    refine ⟨s3, a', (l1.step e2).trans l3, c3.trans (by rw [h1]), f3.trans (by rw [h1]; rfl), ?_, g3, ?_⟩
    · rw [k3.base _ hq.ne, h1]
    · rcases hres with ⟨_, _, h, -⟩ | ⟨-, rfl, x3, q3⟩ | ⟨_, -, rfl, x3, q3⟩
      · cases h
      · exact ⟨q3, x3⟩
      · exact ⟨q3, x3⟩
  | cons w ys ih =>
    intro v a s m hr hq hx hg
    obtain ⟨s1, l1, h1⟩ := op_deref hq ⟨_, hx, rfl⟩
    have r1 := l1.reach hr
    have x1 : s1.ctl = .eval (.print h v) := by rw [h1]; rfl
    have e2 := tau_step (P := prog mv gl) x1 (g := (a, { m with out := m.out ++ [.parsed v] })) (l' := .next h) (by rw [h1]; simp only [hg]; rfl)
    have q2 := same_ready (mv := mv) (gl := gl) (s' := { s1 with ctl := .eval (.next h), g := (a, { m with out := m.out ++ [.parsed v] }) })
      (by rw [h1]) hq
    obtain ⟨s3, a3, l3, c3, f3, g3, -, k3, hres⟩ := op_next (r1.step e2) q2 ⟨_, rfl, rfl⟩ rfl
    rcases hres with ⟨_, _, h, x3, q3⟩ | ⟨h, -⟩ | ⟨_, h, -⟩
    · cases h
      have c3' : s3.cur = s.cur := c3.trans (by rw [h1])
      obtain ⟨s4, a4, l4, c4, f4, b4, g4, q4, x4⟩ := ih w a3 s3 _ (l3.reach (r1.step e2)) q3 x3 g3
      refine ⟨s4, a4, ((l1.step e2).trans l3).trans l4, c4.trans c3', f4.trans (f3.trans (by rw [h1]; rfl)), ?_, ?_, q4, x4⟩
      · rw [← c3', b4, c3', k3.base _ hq.ne, h1]
      · rw [g4]; simp
    · cases h
    · cases h

/-- the end of main: nothing is left -/
theorem finish {s : St Pt (Src × Mem) Byte Err} (hx : s.ctl = .retn) (hf : s.fr = []) (hb : s.base s.cur = .main) :
    step (prog mv gl) s = .done s := by
  unfold St.fr at hf
  simp [step, hx, retStep, St.fr, hf, hb]

/-- the handler, and the end of main -/
theorem handler {s : St Pt (Src × Mem) Byte Err} {a : Src} {m : Mem} {e : Err} (hx : s.ctl = .raise (.user e)) (hf : s.fr = [.hdl false .caught])
    (hb : s.base s.cur = .main) (hg : s.g = (a, m)) :
    ∃ s', Later (prog mv gl) s s' ∧ step (prog mv gl) s' = .done s' ∧ s'.g.2 = { out := m.out ++ [.exception e], exit := some false } := by
  have e1 := Local.fwd (P := prog mv gl) (.rCatch hx hf)
  generalize hs1 : ({ s with g := _, frames := _, ctl := _, log := _ } : St Pt (Src × Mem) Byte Err) = s1 at e1
  have e2 := tau_step (P := prog mv gl) (s := s1) (l := .caught e) (by subst hs1; rfl) (g := (a, { out := m.out ++ [.exception e], exit := some false }))
    (l' := .done) (by subst hs1; simp only [hg]; rfl)
  generalize hs2 : ({ s1 with ctl := _, g := _ } : St Pt (Src × Mem) Byte Err) = s2 at e2
  have e3 := Local.fwd (P := prog mv gl) (.ret (s := s2) (l := .done) (by subst hs2; rfl) rfl)
  refine ⟨_, ((Later.refl.step e1).step e2).step e3, finish rfl ?_ ?_, ?_⟩
  · subst hs2 hs1; simp [St.fr]
  · subst hs2 hs1; simpa using hb
  · subst hs2; rfl

/-- example/parser.cpp as a whole -/
theorem main_run {inp : List Byte} {c0 : Byte} (m : Mem) {w : List Byte} {o : Option (List Byte)} (h : Big .e (tokens inp) w o) :
    ∃ s', Later (prog mv gl) (init .main (⟨c0, inp⟩, m)) s' ∧ step (prog mv gl) s' = .done s' ∧ s'.g.2 = report m w (err o) := by
  obtain ⟨s0, hs0, e0⟩ : ∃ s0, s0 = _ ∧ step (prog mv gl) (init .main (⟨c0, inp⟩, m)) = .next s0 :=
    ⟨_, rfl, Local.fwd (P := prog mv gl) (.try_ (s := init Pt.main ((⟨c0, inp⟩ : Src), m)) rfl rfl)⟩
  have r0 := Reach.init.step e0
  have n0 : s0.nh = 0 ∧ s0.nk = 1 ∧ s0.cur = 0 ∧ s0.fr = [.hdl false .caught] ∧ s0.g = (⟨c0, inp⟩, m) ∧ s0.base 0 = .main := by
    subst hs0; exact ⟨rfl, rfl, rfl, rfl, rfl, rfl⟩
  obtain ⟨n1, n2, n3, n4, n5, n6⟩ := n0
  obtain ⟨s1, a1, l1, c1, f1, g1, b1, hres⟩ := op_mk (P := prog mv gl) r0 (fn := .lam) (k := onHandle .scope) ⟨_, by subst hs0; rfl, rfl⟩ n5 (lam_yields (a := ⟨c0, inp⟩) h)
  have r1 := l1.reach r0
  have c1' : s1.cur = 0 := c1.trans n3
  have hb1 : s1.base 0 = .main := by rw [b1 0 (by omega), n6]
  rcases hres with ⟨v, ys, rfl, x1, q1, -⟩ | ⟨rfl, h', -⟩ | ⟨e, rfl, h', x1, -⟩
  · generalize s0.nh + 1 = hd at x1 q1
    have e2 := (Local.guard (P := prog mv gl) x1 rfl).fwd
    have q2 := q1.congr (s' := { s1 with g := s1.g, frames := upd s1.frames s1.cur (.gCoro hd :: s1.fr), ctl := .eval (.begin_ hd), log := [] ++ s1.log })
      rfl rfl rfl rfl rfl rfl (upd_off _ _ q1.ne.symm) rfl
    obtain ⟨s3, l3, h3⟩ := op_begin q2 ⟨_, rfl, rfl⟩
    have r3 := l3.reach (r1.step e2)
    have q3 : Ready (prog mv gl) s3 _ _ _ a1 v ys (err o) := same_ready (by rw [h3]) q2
    obtain ⟨s4, a4, l4, c4, f4, b4, g4, q4, x4⟩ := loop_run ys v a1 s3 m r3 q3 (by rw [h3]; rfl) (by rw [h3]; exact g1)
    have c3 : s3.cur = 0 := by rw [h3]; exact c1'
    have c4' : s4.cur = 0 := c4.trans c3
    have f4' : s4.fr = [.gCoro hd, .hdl false .caught] := by
      rw [f4, h3]; show upd _ _ _ _ = _; rw [upd_at, f1, n4]
    have hb4 : s4.base 0 = .main := by rw [← c3, b4, c3, h3]; exact hb1
    have hnk : (0 : Nat) ≠ s0.nk := by omega
    have l04 := (((Later.refl.step e0).trans l1).step e2).trans (l3.trans l4)
    have r4 := l4.reach r3
    have i4 := q4.idle
    clear q4 q3 q2 q1 h3 l3 l1 e0 e2 r3 r1 r0
    cases o with
    | none =>
      obtain ⟨s5, l5, c5, x5, f5, g5, b5, -⟩ := op_drop r4 i4 (by rw [x4]; simp [err]) (.raise x4 f4') rfl
      rw [undone_id fun _ _ => rfl] at g5
      have e6 := Local.fwd (P := prog mv gl) (.dCRaise x5 f5)
      obtain ⟨s7, l7, d7, g7⟩ := handler (mv := mv) (gl := gl) (a := a4)
        (s := { s5 with g := s5.g, frames := upd s5.frames s5.cur [.hdl false .caught], ctl := .raise (.user .parser_error), log := [] ++ s5.log })
        rfl (by simp [St.fr]) (by show s5.base s5.cur = _; rw [c5, c4', b5 0 hnk, hb4]) (g5.trans g4)
      exact ⟨s7, ((l04.trans l5).step e6).trans l7, d7, by rw [g7]; simp [report, err]⟩
    | some rest =>
      have e5 := tau_step (P := prog mv gl) (s := s4) (l := .loop none) x4 (g := s4.g) (l' := .success) rfl
      generalize hs5 : ({ s4 with ctl := _, g := _ } : St Pt (Src × Mem) Byte Err) = s5 at e5
      have e6 := tau_step (P := prog mv gl) (s := s5) (l := .success) (by subst hs5; rfl)
        (g := (a4, report m (v :: ys) none)) (l' := .done) (by subst hs5; simp only [g4]; rfl)
      generalize hs6 : ({ s5 with ctl := _, g := _ } : St Pt (Src × Mem) Byte Err) = s6 at e6
      have e7 := Local.fwd (P := prog mv gl) (.ret (s := s6) (l := .done) (by subst hs6; rfl) rfl)
      generalize hs7 : ({ s6 with g := _, frames := _, ctl := _, log := _ } : St Pt (Src × Mem) Byte Err) = s7 at e7
      have l7 := ((l04.step e5).step e6).step e7
      have i7 : Idle s7 hd s0.nk s0.nh := by
        refine i4.congr ?_ ?_ ?_ ?_ ?_ ?_ ?_ ?_ <;> subst hs7 hs6 hs5 <;> try rfl
        exact upd_off _ _ (by rw [c4']; exact hnk.symm)
      have x7 : s7.ctl = .retn := by subst hs7; rfl
      have f7 : s7.fr = [.gCoro hd, .hdl false .caught] := by rw [← f4']; subst hs7 hs6 hs5; simp [St.fr]
      obtain ⟨s8, l8, c8, x8, f8, g8, b8, -⟩ := op_drop (((r4.step e5).step e6).step e7) i7 (by rw [x7]; simp) (.ret x7 f7) rfl
      rw [undone_id fun _ _ => rfl] at g8
      have e9 := Local.fwd (P := prog mv gl) (.dCRet x8 f8)
      have e10 := Local.fwd (P := prog mv gl) (.tHdl (s := { s8 with g := s8.g, frames := upd s8.frames s8.cur [.hdl false .caught], ctl := .retn, log := [] ++ s8.log })
        rfl (by show upd _ _ _ _ = _; rw [upd_at]))
      have c8' : s8.cur = 0 := by rw [c8, ← c4']; subst hs7 hs6 hs5; rfl
      have hb8 : s8.base 0 = .main := by rw [b8 0 hnk, ← hb4]; subst hs7 hs6 hs5; rfl
      refine ⟨_, ((l7.trans l8).step e9).step e10, finish rfl (by simp [St.fr]) (by show s8.base s8.cur = _; rw [c8', hb8]), ?_⟩
      show s8.g.2 = _
      rw [g8]; subst hs7 hs6; rfl
  · cases o with
    | none => cases h'
    | some => exact absurd rfl (wordE_ne h.sound)
  · cases o with
    | some => cases h'
    | none =>
      cases h'
      obtain ⟨s7, l7, d7, g7⟩ := handler (mv := mv) (gl := gl) x1 (f1.trans n4) (by rw [c1', hb1]) g1
      exact ⟨s7, ((Later.refl.step e0).trans l1).trans l7, d7, by rw [g7]; simp [report, err]⟩

/-- executing the parser with a callback that prints -/
theorem sem_direct (xf : Ctl Pt Byte Err) (Ff : List (Frame Pt Byte Err)) : Sem mv gl .direct (fun _ => True) fun a x F xs =>
    ∀ (s : St Pt (Src × Mem) Byte Err) m, s.g = (a, m) → s.ctl = x → s.fr = F → ∃ s' a', Later (prog mv gl) s s' ∧ s'.cur = s.cur ∧
      s'.base = s.base ∧ s'.g = (a', { m with out := m.out ++ xs.map .parsed }) ∧ s'.ctl = xf ∧ s'.fr = Ff where
  plain _ := trivial
  loc {a a' x x' F F' xs} h hy s m hg hx hf := by
    obtain ⟨evs, hl⟩ := h s m hg hx hf
    have e1 := Local.fwd hl
    generalize hs1 : ({ s with g := _, frames := _, ctl := _, log := _ } : St Pt (Src × Mem) Byte Err) = s1 at e1
    obtain ⟨s2, a2, l2, h1, h2, h3⟩ := hy s1 m (by subst hs1; rfl) (by subst hs1; rfl) (by subst hs1; simp [St.fr])
    exact ⟨s2, a2, (Later.refl.step e1).trans l2, h1.trans (by subst hs1; rfl), h2.trans (by subst hs1; rfl), h3⟩
  cb {a F xs c} _ hy s m hg hx hf := by
    have e1 := tau_step (P := prog mv gl) hx (g := (a, { m with out := m.out ++ [.parsed c] })) (l' := .done) (by rw [hg]; rfl)
    generalize hs1 : ({ s with ctl := _, g := _ } : St Pt (Src × Mem) Byte Err) = s1 at e1
    have e2 := Local.fwd (P := prog mv gl) (.ret (s := s1) (l := .done) (by subst hs1; rfl) rfl)
    generalize hs2 : ({ s1 with g := _, frames := _, ctl := _, log := _ } : St Pt (Src × Mem) Byte Err) = s2 at e2
    obtain ⟨s3, a3, l3, h1, h2, h3, h4⟩ := hy s2 { m with out := m.out ++ [.parsed c] } (by subst hs2 hs1; rfl) (by subst hs2; rfl)
      (by subst hs2 hs1; simpa [St.fr] using hf)
    exact ⟨s3, a3, ((Later.refl.step e1).step e2).trans l3, h1.trans (by subst hs2 hs1; rfl), h2.trans (by subst hs2 hs1; rfl),
      by rw [h3]; simp, h4⟩

/-- the parser without a coroutine -/
theorem plain_run {inp : List Byte} {c0 : Byte} (m : Mem) {w : List Byte} {o : Option (List Byte)} (h : Big .e (tokens inp) w o) :
    ∃ s', Later (prog mv gl) (init .plain (⟨c0, inp⟩, m)) s' ∧ step (prog mv gl) s' = .done s' ∧ s'.g.2 = report m w (err o) := by
  obtain ⟨s0, hs0, e0⟩ : ∃ s0, s0 = _ ∧ step (prog mv gl) (init .plain (⟨c0, inp⟩, m)) = .next s0 :=
    ⟨_, rfl, Local.fwd (P := prog mv gl) (.try_ (s := init Pt.plain ((⟨c0, inp⟩ : Src), m)) rfl rfl)⟩
  have e1 := Local.fwd (P := prog mv gl) (.call (s := s0) (l := .plainP) (by subst hs0; rfl) rfl)
  generalize hs1 : ({ s0 with g := _, frames := _, ctl := _, log := _ } : St Pt (Src × Mem) Byte Err) = s1 at e1
  have hf1 : s1.fr = [.fnRet .success, .hdl false .caught] := by subst hs1 hs0; rfl
  have hg1 : s1.g = (⟨c0, inp⟩, m) := by subst hs1 hs0; rfl
  have hx1 : s1.ctl = .eval (.init .direct) := by subst hs1; rfl
  have hc1 : s1.cur = 0 := by subst hs1 hs0; rfl
  have hb1 : s1.base 0 = .main := by subst hs1 hs0; rfl
  have l1 := (Later.refl.step e0).step e1
  cases o with
  | none =>
    have S := sem_direct (mv := mv) (gl := gl) (.raise (.user .parser_error)) [.hdl false .caught]
    obtain ⟨s2, a2, l2, h1, h2, h3, h4, h5⟩ := S.run (a := ⟨c0, inp⟩) (F := [.fnRet .success, .hdl false .caught]) (xs := []) h trivial
      (fun a' => S.fnThrow fun s m hg hx hf => ⟨s, a', .refl, rfl, rfl, by rw [hg]; simp, hx, hf⟩) s1 m hg1 hx1 hf1
    obtain ⟨s3, l3, d3, g3⟩ := handler (mv := mv) (gl := gl) h4 h5 (by rw [h1, h2, hc1, hb1]) h3
    exact ⟨s3, (l1.trans l2).trans l3, d3, by rw [g3]; simp [report, err]⟩
  | some r =>
    have S := sem_direct (mv := mv) (gl := gl) (.eval .success) [.hdl false .caught]
    obtain ⟨s2, a2, l2, h1, h2, h3, h4, h5⟩ := S.run (a := ⟨c0, inp⟩) (F := [.fnRet .success, .hdl false .caught]) (xs := []) h trivial
      (fun a' _ => S.fnRet fun s m hg hx hf => ⟨s, a', .refl, rfl, rfl, by rw [hg]; simp, hx, hf⟩) s1 m hg1 hx1 hf1
    have e3 := tau_step (P := prog mv gl) h4 (g := (a2, report m w none)) (l' := .done) (by rw [h3]; simp [prog, code, report])
    generalize hs3 : ({ s2 with ctl := _, g := _ } : St Pt (Src × Mem) Byte Err) = s3 at e3
    have e4 := Local.fwd (P := prog mv gl) (.ret (s := s3) (l := .done) (by subst hs3; rfl) rfl)
    generalize hs4 : ({ s3 with g := _, frames := _, ctl := _, log := _ } : St Pt (Src × Mem) Byte Err) = s4 at e4
    have f4 : s4.fr = [.hdl false .caught] := by rw [← h5]; subst hs4 hs3; simp [St.fr]
    have e5 := Local.fwd (P := prog mv gl) (.tHdl (s := s4) (by subst hs4; rfl) f4)
    refine ⟨_, (((l1.trans l2).step e3).step e4).step e5, finish rfl (by simp [St.fr]) ?_, ?_⟩
    · show s4.base s4.cur = _
      have : s4.base = s2.base ∧ s4.cur = s2.cur := by subst hs4 hs3; exact ⟨rfl, rfl⟩
      rw [this.1, this.2, h1, h2, hc1, hb1]
    · subst hs4 hs3; rfl

end Aux

/-- The bytes main has printed as "Parsed: …". -/
def parsed (m : Mem) : List Byte := m.out.filterMap fun | .parsed c => some c | _ => none

/-- C41: for every input, the program of example/parser.cpp runs to its end, and what it has written is: a line for each byte of the longest
beginning of the input (without white space) that can be continued to a word of the grammar, in order, and then "Done" (exit success) or the
message of `parser_error` (exit failure); the latter exactly if that beginning is not itself a word. -/
theorem C41_output (inp : List Byte) (c0 : Byte) : ∃ w s', Longest (tokens inp) w ∧
    Later (prog mv gl) (init .main (⟨c0, inp⟩, {})) s' ∧ step (prog mv gl) s' = .done s' ∧
    ((WordE w ∧ s'.g.2 = { out := w.map .parsed ++ [.done], exit := some true }) ∨
      (¬ WordE w ∧ s'.g.2 = { out := w.map .parsed ++ [.exception .parser_error], exit := some false })) := by
  obtain ⟨-, -, -, ⟨w, o, h, -⟩, -⟩ := Big.total _ (tokens inp) (Nat.le_refl _)
  obtain ⟨s', l, d, g⟩ := Aux.main_run (mv := mv) (gl := gl) (c0 := c0) {} h
  refine ⟨w, s', h.longest, l, d, ?_⟩
  cases o with
  | some r => exact .inl ⟨h.sound, by rw [g]; simp [Aux.report, Aux.err]⟩
  | none => exact .inr ⟨h.not_word, by rw [g]; simp [Aux.report, Aux.err]⟩

/-- C41, inversion of control: the program with the coroutine and the same parser called directly, with a callback that prints, end with
the same output and exit status, for every input. -/
theorem C41_inversion (inp : List Byte) (c0 : Byte) : ∃ s1 s2, Later (prog mv gl) (init .main (⟨c0, inp⟩, {})) s1 ∧ step (prog mv gl) s1 = .done s1 ∧
    Later (prog mv gl) (init .plain (⟨c0, inp⟩, {})) s2 ∧ step (prog mv gl) s2 = .done s2 ∧ s1.g.2 = s2.g.2 := by
  obtain ⟨-, -, -, ⟨w, o, h, -⟩, -⟩ := Big.total _ (tokens inp) (Nat.le_refl _)
  obtain ⟨s1, l1, d1, g1⟩ := Aux.main_run (mv := mv) (gl := gl) (c0 := c0) {} h
  obtain ⟨s2, l2, d2, g2⟩ := Aux.plain_run (mv := mv) (gl := gl) (c0 := c0) {} h
  exact ⟨s1, s2, l1, d1, l2, d2, g1.trans g2.symm⟩

/-- C41, the language, as far as it holds: every word of the documented grammar is accepted, and passed on completely; and if the program
ends with success, then what was passed on is a word of the grammar, followed in the input by no operator.  (Missing: `P ---> E '\0'`, the
end of the input is not required: `C41_language_refuted`.) -/
theorem C41_language_partial (inp : List Byte) (c0 : Byte) : ∃ s', Later (prog mv gl) (init .main (⟨c0, inp⟩, {})) s' ∧
    step (prog mv gl) s' = .done s' ∧
    (WordE (tokens inp) → s'.g.2.exit = some true ∧ parsed s'.g.2 = tokens inp) ∧
    (s'.g.2.exit = some true → WordE (parsed s'.g.2) ∧ ∃ rest, tokens inp = parsed s'.g.2 ++ rest ∧
      ∀ x, rest.head? = some x → ¬ AddOp x ∧ ¬ MulOp x) := by
  obtain ⟨-, -, -, ⟨w, o, h, -⟩, -⟩ := Big.total _ (tokens inp) (Nat.le_refl _)
  obtain ⟨s', l, d, g⟩ := Aux.main_run (mv := mv) (gl := gl) (c0 := c0) {} h
  have hp : parsed s'.g.2 = w := by
    rw [g]; cases o <;> simp [Aux.report, Aux.err, parsed, List.filterMap_append, List.filterMap_map] <;> exact List.filterMap_some
  refine ⟨s', l, d, fun hw => ?_, fun he => ?_⟩
  · have h2 := Big.complete hw (r := []) (by simp)
    rw [List.append_nil] at h2
    obtain ⟨rfl, rfl⟩ := h2.det h
    exact ⟨by rw [g]; rfl, hp⟩
  · cases o with
    | none => rw [g] at he; simp [Aux.report, Aux.err] at he
    | some r =>
      rw [hp]
      have hw : WordE w := h.sound
      obtain ⟨r', e, hr⟩ := h.split
      cases hr _ rfl
      refine ⟨hw, r, e, fun x hx => ?_⟩
      obtain ⟨-, -, hmax⟩ := h.longest
      cases r with
      | nil => cases hx
      | cons y r =>
        cases hx
        have hlen : ¬ Viable (w ++ [x]) := fun hv => by have := hmax _ ⟨r, by rw [e]; simp⟩ hv; simp at this; omega
        exact ⟨fun ho => hlen ⟨[byte '0'], by simpa using WordE.more hw ho (.one zero_word)⟩,
          fun ho => hlen ⟨[byte '0'], by simpa using Big.not_word.mulE hw ho zero_word⟩⟩

/-- "1)" is not a word. -/
theorem not_word : ¬ WordE (bytes "1)") := by
  intro h
  have h1 : Big .e (bytes "1)") [byte '1'] (some [byte ')']) :=
    .e (w := [byte '1']) (v := []) (.t (w := [byte '1']) (v := []) (.digit (by unfold Digit; decide)) (.tStop (by rintro x ⟨⟩; exact paren_op.1)))
      (.eStop (by rintro x ⟨⟩; exact paren_op.2))
  have h2 := Big.complete h (r := []) (by simp)
  rw [List.append_nil] at h2
  exact absurd (h1.det h2).1 (by decide)

/-- The last part of C41 is false of the code: the program ends with success for an input that is not a word of the grammar, "1)". -/
theorem C41_language_refuted : ¬ ∀ inp : List Byte, ∃ s', Later (prog mv gl) (init .main (⟨0, inp⟩, {})) s' ∧ step (prog mv gl) s' = .done s' ∧
    (s'.g.2.exit = some true ↔ WordE (tokens inp)) := by
  intro h
  obtain ⟨s1, l1, d1, h1⟩ := h (bytes "1)")
  have hb : Big .e (tokens (bytes "1)")) [byte '1'] (some [byte ')']) :=
    .e (w := [byte '1']) (v := []) (.t (w := [byte '1']) (v := []) (.digit (by unfold Digit; decide)) (.tStop (by rintro x ⟨⟩; exact paren_op.1)))
      (.eStop (by rintro x ⟨⟩; exact paren_op.2))
  obtain ⟨s2, l2, d2, h2⟩ := Aux.main_run (mv := mv) (gl := gl) (c0 := 0) {} hb
  have := end_unique l1 l2 (by rw [d1]; simp) (by rw [d2]; simp)
  subst this
  exact not_word (h1.1 (by rw [h2]; rfl))

/-! Non-vacuity.  The theorems have no hypotheses; both outcomes occur, at every stage: the example's own input is a word; "(1+2)*3" is one;
white space does not count; for "1+" the parser accepts two bytes and fails at the end; for ")" it fails at once (the constructor throws). -/

example : WordE (tokens (bytes "1 + 1")) := by
  have h1 : WordS [byte '1'] := .digit (by unfold Digit; decide)
  exact .more (.one (.one h1)) (.inl rfl) (.one h1)

example : WordE (bytes "(1+2)*3") := by
  have h (c : Byte) (hc : Digit c) : WordT [c] := .one (.digit hc)
  have h1 : WordE (bytes "1+2") := .more (.one (h _ (by unfold Digit; decide))) (.inl rfl) (h _ (by unfold Digit; decide))
  exact .one (.more (w := bytes "(1+2)") (.one (.paren h1)) (.inl rfl) (.digit (by unfold Digit; decide)))

example : ∃ w, Longest (bytes "1+") w ∧ w = bytes "1+" ∧ ¬ WordE w := by
  have hb : Big .e (bytes "1+") (bytes "1+") none :=
    .e (w := [byte '1']) (v := [byte '+']) (.t (w := [byte '1']) (v := []) (.digit (by unfold Digit; decide)) (.tStop (by rintro x ⟨⟩; unfold MulOp; decide)))
      (.eLoopBad (.inl rfl) (.tBad (.bad (by simp))))
  exact ⟨_, hb.longest, rfl, hb.not_word⟩

example : Longest (bytes ")") [] ∧ ¬ WordE [] :=
  have hb : Big .e (bytes ")") [] none := .eBad (.tBad (.bad (by rintro x ⟨⟩; unfold Digit; decide)))
  ⟨hb.longest, hb.not_word⟩

end Verif.Parser
