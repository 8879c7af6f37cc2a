import Verif.ExCrew
import Verif.RobinRun

/-!
# Executing a scheduler whose tasks may fail (proof material for C73)
-/
namespace Verif.Crew
variable {V E : Type} {mv : V → V} {gl : Bool} {l0 : Pt V E} {g0 : Unit × List (Nat × Note V E)}

/-- what a caller makes of the end of a function -/
def after : Option E → Ctl (Pt V E) V E
  | none => .retn
  | some e => .raise (.user e)

theorem job_yields {hp : Nat} (t : Job V E) : ∀ {rest : List V} {r : Option E} (F : List (Frame (Pt V E) V E)), (∀ f ∈ F, Plain f) →
    Yields (B := List (Nat × Note V E)) (prog mv gl) hp () (after t.ends) F rest r →
    Yields (prog mv gl) hp () (.eval (.task hp t)) F (t.said ++ rest) r := by
  induction t with
  | ret => intro rest r F _ hF; exact .back (fun _ => rfl) hF
  | fail e => intro rest r F _ hF; exact .raise (fun _ => rfl) hF
  | say v t ih => intro rest r F hpl hF; exact .push (fun _ => rfl) hpl (ih F hpl hF)
  | sub t u iht ihu =>
    intro rest r F hpl hF
    refine .call (l1 := .task hp t) (l' := .task hp u) (fun _ => rfl) ?_
    have hpl' : ∀ f ∈ Frame.fnRet (.task hp u) :: F, Plain f := by simpa [Plain] using hpl
    cases he : t.ends with
    | none =>
      have hF' : Yields (B := List (Nat × Note V E)) (prog mv gl) hp () (after u.ends) F rest r := by simpa [Job.ends, he] using hF
      have := iht (rest := u.said ++ rest) (r := r) (.fnRet (.task hp u) :: F) hpl' (by rw [he]; exact .fnRet (ihu F hpl hF'))
      simpa [Job.said, he] using this
    | some e =>
      have hF' : Yields (B := List (Nat × Note V E)) (prog mv gl) hp () (.raise (.user e)) F rest r := by simpa [Job.ends, he, after] using hF
      have := iht (rest := rest) (r := r) (.fnRet (.task hp u) :: F) hpl' (by rw [he]; exact .fnThrow hF')
      simpa [Job.said, he] using this
  | obj o t ih =>
    intro rest r F hpl hF
    refine .obj (o := o) (l' := .task hp t) (fun _ => rfl) (ih (.gObj o :: F) (by simpa [Plain] using hpl) ?_)
    simp only [Job.ends] at hF
    cases he : t.ends with
    | none => rw [he] at hF; exact .objRet (fun _ => rfl) hF
    | some e => rw [he] at hF; exact .objThrow (fun _ => rfl) hF

abbrev S (V E : Type) := St (Pt V E) (Unit × List (Nat × Note V E)) V E
abbrev Fr (V E : Type) := List (Frame (Pt V E) V E)

/-- main, outside every call of the library, with the stack `F` -/
structure AtMain (s : S V E) (l : Pt V E) (F : Fr V E) (m : List (Nat × Note V E)) : Prop where
  ctl : s.ctl = .eval l
  g : s.g = ((), m)
  cur : s.cur = 0
  fr : s.fr = F
  base : s.base 0 = .main

/-- what a task is said to have -/
def Holds (mv : V → V) (gl : Bool) (s : S V E) : Option Nat → List V × Option E → Prop
  | some h, p => Has (prog mv gl) s h p.1 p.2
  | none, p => p = ([], none)

/-- the object at place `i` of `hs` has what is at place `i` of `st`, and no object is listed twice -/
structure Stock (mv : V → V) (gl : Bool) (s : S V E) (hs : List (Option Nat)) (st : List (List V × Option E)) : Prop where
  len : hs.length = st.length
  has : ∀ (i : Nat) (o : Option Nat) (p : List V × Option E), hs[i]? = some o → st[i]? = some p → Holds mv gl s o p
  inj : ∀ i j h : Nat, hs[i]? = some (some h) → hs[j]? = some (some h) → i = j

/-- no coroutine and no object has changed -/
structure Still (s s' : S V E) : Prop where
  hs : s'.hs = s.hs
  base : s'.base = s.base
  kind : s'.kind = s.kind
  va : s'.va = s.va
  cbs : s'.cbs = s.cbs
  fib : s'.fib = s.fib
  frames : ∀ d, d ≠ s.cur → s'.frames d = s.frames d
  cur : s'.cur = s.cur

theorem Holds.still {s s' : S V E} {o : Option Nat} {p : List V × Option E} (h : Holds mv gl s o p) (k : Still s s') : Holds mv gl s' o p := by
  cases o with
  | none => exact h
  | some q => exact Has.congr h k.hs k.base k.kind k.va k.cbs k.fib k.frames k.cur

theorem Stock.still {s s' : S V E} {hs : List (Option Nat)} {st : List (List V × Option E)} (hi : Stock mv gl s hs st) (k : Still s s') :
    Stock mv gl s' hs st :=
  ⟨hi.len, fun i o p h1 h2 => (hi.has i o p h1 h2).still k, hi.inj⟩

/-- a step of main that leaves the coroutines alone -/
theorem loc_main {s : S V E} {l l' : Pt V E} {F F' : Fr V E} {m m' : List (Nat × Note V E)} {ev : List (Ev V E)}
    (ha : AtMain s l F m) (hc : Local (prog mv gl) s ((), m') F' (.eval l') ev) :
    ∃ s', step (prog mv gl) s = .next s' ∧ AtMain s' l' F' m' ∧ Still s s' := by
  refine ⟨_, hc.fwd, ⟨rfl, rfl, ha.cur, by simp [St.fr], ha.base⟩, ⟨rfl, rfl, rfl, rfl, rfl, rfl, fun d hd => upd_off _ _ hd, rfl⟩⟩

theorem tau_main {s : S V E} {l l' : Pt V E} {F : Fr V E} {m m' : List (Nat × Note V E)}
    (ha : AtMain s l F m) (hc : (prog mv gl).code l ((), m) = .tau ((), m') l') :
    ∃ s', step (prog mv gl) s = .next s' ∧ AtMain s' l' F m' ∧ Still s s' :=
  loc_main (ev := []) ha (by have := Local.tau (P := prog mv gl) (s := s) (g := ((), m')) (l' := l') ha.ctl (by rw [ha.g]; exact hc); rw [ha.fr] at this; exact this)

/-- the exception is caught -/
theorem catch_main {s : S V E} {e : E} {f : E → Pt V E} {F : Fr V E} {m : List (Nat × Note V E)} {sw : Bool}
    (hx : s.ctl = .raise (.user e)) (hg : s.g = ((), m)) (hc : s.cur = 0) (hf : s.fr = .hdl sw f :: F) (hb : s.base 0 = .main) :
    ∃ s', step (prog mv gl) s = .next s' ∧ AtMain s' (f e) F m ∧ Still s s' := by
  refine ⟨_, (Local.rCatch (P := prog mv gl) hx hf).fwd, ⟨rfl, hg, hc, by simp [St.fr], hb⟩, ⟨rfl, rfl, rfl, rfl, rfl, rfl, fun d hd => upd_off _ _ hd, rfl⟩⟩

/-! ## One turn -/

theorem turn_none {hs : List (Option Nat)} {js : List Nat} {j : Nat} {m : List (Nat × Note V E)} {st : List (List V × Option E)} {s : S V E}
    (ha : AtMain s (.pick hs (j :: js)) [] m) (hi : Stock mv gl s hs st) (hj : ∀ h, hs[j]? ≠ some (some h)) :
    ∃ s', Later (prog mv gl) s s' ∧ AtMain s' (.pick hs js) [] m ∧ Stock mv gl s' hs st := by
  obtain ⟨s1, e1, a1, k1⟩ := tau_main (mv := mv) (gl := gl) (l' := .pick hs js) (m' := m) ha (by
    simp only [prog, code])
  exact ⟨s1, Later.step .refl e1, a1, hi.still k1⟩

theorem turn_end {hs : List (Option Nat)} {js : List Nat} {j h : Nat} {r : Option E} {m : List (Nat × Note V E)} {st : List (List V × Option E)} {s : S V E}
    (ha : AtMain s (.pick hs (j :: js)) [] m) (hi : Stock mv gl s hs st) (hj : hs[j]? = some (some h)) (hx : st[j]? = some ([], r)) :
    ∃ s', Later (prog mv gl) s s' ∧ AtMain s' (.pick hs js) [] m ∧ Stock mv gl s' hs st := by
  have hq : Has (prog mv gl) s h [] r := hi.has j (some h) _ hj hx
  have hr0 : r = none := by cases hq <;> rfl
  subst hr0
  obtain ⟨s1, l1, h1⟩ := op_begin_end (k := onIt fun i => .look hs js j i) hq ⟨_, ha.ctl, by
    simp only [prog, code, hj]⟩
  have x1 : s1.ctl = .eval (.look hs js j none) := by rw [h1]; rfl
  have k1 : Still s s1 := ⟨by rw [h1], by rw [h1], by rw [h1], by rw [h1], by rw [h1], by rw [h1], fun _ _ => by rw [h1], by rw [h1]⟩
  obtain ⟨s2, e2, a2, k2⟩ := tau_main (mv := mv) (gl := gl) (s := s1) (F := []) (m := m) (m' := m) (l' := .pick hs js)
    ⟨x1, by rw [h1]; exact ha.g, by rw [h1]; exact ha.cur, by rw [h1]; exact ha.fr, by rw [h1]; exact ha.base⟩ rfl
  exact ⟨s2, l1.step e2, a2, (hi.still k1).still k2⟩

theorem turn_value {hs : List (Option Nat)} {js : List Nat} {j h : Nat} {v : V} {ys : List V} {r : Option E} {m : List (Nat × Note V E)}
    {st : List (List V × Option E)} {s : S V E} (hr : Reach (prog mv gl) l0 g0 s)
    (ha : AtMain s (.pick hs (j :: js)) [] m) (hi : Stock mv gl s hs st) (hj : hs[j]? = some (some h)) (hx : st[j]? = some (v :: ys, r)) :
    ∃ s', Later (prog mv gl) s s' ∧ AtMain s' (.pick hs js) [] (m ++ (j, .said v) :: (fails ys r).map (Prod.mk j)) ∧
      Stock mv gl s' hs (st.set j (ys, left ys r)) := by
  have hq : Has (prog mv gl) s h (v :: ys) r := hi.has j (some h) _ hj hx
  cases hq with
  | ready hq =>
    rename_i c hp
    obtain ⟨s1, l1, h1⟩ := op_begin (k := onIt fun i => .look hs js j i) hq ⟨_, ha.ctl, by
      simp only [prog, code, hj]⟩
    have r1 := l1.reach hr
    have x1 : s1.ctl = .eval (.look hs js j (some h)) := by rw [h1]; rfl
    have q1 : Ready (prog mv gl) s1 h c hp () v ys r :=
      hq.congr (by rw [h1]) (by rw [h1]) (by rw [h1]) (by rw [h1]) (by rw [h1]) (by rw [h1]) (by rw [h1]) (by rw [h1])
    obtain ⟨s2, l2, h2⟩ := op_deref q1 ⟨_, x1, rfl⟩
    have r2 := l2.reach r1
    have h2' : s2 = { s with ctl := .eval (.put hs js j h v), log := s2.log } := by rw [h2, h1]; rfl
    have k2 : Still s s2 := ⟨by rw [h2'], by rw [h2'], by rw [h2'], by rw [h2'], by rw [h2'], by rw [h2'], fun _ _ => by rw [h2'], by rw [h2']⟩
    have a2 : AtMain s2 (.put hs js j h v) [] m :=
      ⟨by rw [h2'], by rw [h2']; exact ha.g, by rw [h2']; exact ha.cur, by rw [h2']; exact ha.fr, by rw [h2']; exact ha.base⟩
    obtain ⟨s3, e3, a3, k3⟩ := tau_main (mv := mv) (gl := gl) (l' := .next hs js j h) (m' := m ++ [(j, .said v)]) a2 rfl
    obtain ⟨s4, e4, a4, k4⟩ := loc_main (mv := mv) (gl := gl) (l' := .inc hs js h) (m' := m ++ [(j, .said v)]) (ev := [])
      (F' := [.hdl false fun e => .caught hs js j e]) a3
      (by have := Local.try_ (P := prog mv gl) (s := s3) a3.ctl (sw := false) (f := fun e => .caught hs js j e) (l' := .inc hs js h) rfl; rw [a3.g, a3.fr] at this; exact this)
    have r4 := (r2.step e3).step e4
    have i4 := ((hi.still k2).still k3).still k4
    have q4 : Ready (prog mv gl) s4 h c hp () v ys r := by
      have hne : c ≠ s.cur := hq.ne.symm
      refine hq.congr (by rw [k4.hs, k3.hs, k2.hs]) (by rw [k4.base, k3.base, k2.base]) (by rw [k4.kind, k3.kind, k2.kind]) (by rw [k4.va, k3.va, k2.va])
        (by rw [k4.cbs, k3.cbs, k2.cbs]) (by rw [k4.fib, k3.fib, k2.fib]) ?_ (by rw [k4.cur, k3.cur, k2.cur])
      rw [k4.frames c (by rw [k3.cur, k2.cur]; exact hne), k3.frames c (by rw [k2.cur]; exact hne), k2.frames c hne]
    obtain ⟨s5, _, l5, c5, f5, g5, -, k5, hres⟩ := op_next (b := m ++ [(j, .said v)]) (k := fun _ => .went hs js) r4 q4
      ⟨.inc hs js h, a4.ctl, rfl⟩ a4.g
    have r5 := l5.reach r4
    have hne : (0 : Nat) ≠ c := by have := q4.ne; rwa [a4.cur] at this
    have b5 : s5.base 0 = .main := by rw [k5.base 0 hne]; exact a4.base
    -- what the next state of the tasks is, once it is known what task `j` has
    have stock : ∀ s', Still s5 s' → Has (prog mv gl) s5 h ys (left ys r) → Stock mv gl s' hs (st.set j (ys, left ys r)) := by
      intro s' k' hh
      refine Stock.still (s := s5) ⟨by simpa using hi.len, fun i o p g1 g2 => ?_, hi.inj⟩ k'
      by_cases hij : i = j
      · subst hij
        obtain rfl : some h = o := by rw [hj] at g1; simpa using g1
        have hlt : i < st.length := by rw [← hi.len]; exact (List.getElem?_eq_some_iff.1 hj).1
        rw [List.getElem?_set_self hlt] at g2
        obtain rfl : (ys, left ys r) = p := by simpa using g2
        exact hh
      · rw [List.getElem?_set_ne (Ne.symm hij)] at g2
        have ho := i4.has i o p g1 g2
        cases o with
        | none => exact ho
        | some h' =>
          refine Has.keep (s := s4) r4 ho q4.idle ?_ k5 c5
          rintro rfl
          exact hij (hi.inj i j _ g1 hj)
    have l0 : Later (prog mv gl) s s5 := (((l1.trans l2).step e3).step e4).trans l5
    -- `}` of the try block
    have well : s5.ctl = .eval (.went hs js) → fails ys r = [] → Has (prog mv gl) s5 h ys (left ys r) →
        ∃ s', Later (prog mv gl) s s' ∧ AtMain s' (.pick hs js) [] (m ++ (j, .said v) :: (fails ys r).map (Prod.mk j)) ∧
          Stock mv gl s' hs (st.set j (ys, left ys r)) := by
      intro x5 hf hh
      have a5 : AtMain s5 (.went hs js) _ (m ++ [(j, .said v)]) := ⟨x5, g5, c5.trans a4.cur, f5.trans a4.fr, b5⟩
      obtain ⟨s6, e6, a6, k6⟩ := loc_main (mv := mv) (gl := gl) (l' := .pick hs js) (m' := m ++ [(j, .said v)]) (ev := []) (F' := []) a5
        (by have := Local.endTry (P := prog mv gl) (s := s5) a5.ctl (l' := .pick hs js) rfl a5.fr; rw [a5.g] at this; exact this)
      exact ⟨s6, l0.step e6, by rw [hf]; exact a6, stock s6 k6 hh⟩
    rcases hres with ⟨w, zs, rfl, x5, q5⟩ | ⟨rfl, rfl, x5, q5⟩ | ⟨e, rfl, rfl, x5, q5⟩
    · exact well x5 (by cases r <;> rfl) (.ready q5)
    · exact well x5 rfl (.spent q5)
    · obtain ⟨s6, e6, a6, k6⟩ := catch_main (mv := mv) (gl := gl) x5 g5 (c5.trans a4.cur) (f5.trans a4.fr) b5
      obtain ⟨s7, e7, a7, k7⟩ := tau_main (mv := mv) (gl := gl) (l' := .pick hs js) (m' := (m ++ [(j, .said v)]) ++ [(j, .failed e)]) a6 rfl
      exact ⟨s7, (l0.step e6).step e7, by simpa [fails] using a7, (stock s6 k6 (.spent q5)).still k7⟩

/-! ## The plan -/

theorem plan (js : List Nat) : ∀ (hs : List (Option Nat)) (st : List (List V × Option E)) (m : List (Nat × Note V E)) (s : S V E),
    Reach (prog mv gl) l0 g0 s → AtMain s (.pick hs js) [] m → Stock mv gl s hs st →
    ∃ s' st', Later (prog mv gl) s s' ∧ AtMain s' (.clean hs) [] (m ++ serve js st) ∧ Stock mv gl s' hs st' := by
  induction js with
  | nil =>
    intro hs st m s hr ha hi
    obtain ⟨s1, e1, a1, k1⟩ := tau_main (mv := mv) (gl := gl) (l' := .clean hs) (m' := m) ha rfl
    exact ⟨s1, st, Later.step .refl e1, by simpa [serve] using a1, hi.still k1⟩
  | cons j js ih =>
    intro hs st m s hr ha hi
    by_cases hj : ∃ h, hs[j]? = some (some h)
    · obtain ⟨h, hj⟩ := hj
      have hlt : j < st.length := by rw [← hi.len]; exact (List.getElem?_eq_some_iff.1 hj).1
      obtain ⟨⟨xs, r⟩, hx⟩ : ∃ p, st[j]? = some p := ⟨_, List.getElem?_eq_getElem hlt⟩
      cases xs with
      | nil =>
        obtain ⟨s1, l1, a1, i1⟩ := turn_end ha hi hj hx
        obtain ⟨s2, st', l2, a2, i2⟩ := ih hs st m s1 (l1.reach hr) a1 i1
        exact ⟨s2, st', l1.trans l2, by simpa [serve, hx] using a2, i2⟩
      | cons v ys =>
        obtain ⟨s1, l1, a1, i1⟩ := turn_value hr ha hi hj hx
        obtain ⟨s2, st', l2, a2, i2⟩ := ih hs _ _ s1 (l1.reach hr) a1 i1
        exact ⟨s2, st', l1.trans l2, by simpa [serve, hx] using a2, i2⟩
    · have hs0 : serve (j :: js) st = serve js st := by
        cases hx : st[j]? with
        | none => simp [serve, hx]
        | some p =>
          have hlt : j < hs.length := by rw [hi.len]; exact (List.getElem?_eq_some_iff.1 hx).1
          have ho := hi.has j hs[j] p (List.getElem?_eq_getElem hlt) hx
          cases hh : hs[j] with
          | none => rw [hh] at ho; obtain rfl : p = ([], none) := ho; simp [serve, hx]
          | some q => exact absurd ⟨q, by rw [List.getElem?_eq_getElem hlt, hh]⟩ hj
      obtain ⟨s1, l1, a1, i1⟩ := turn_none ha hi (fun h hh => hj ⟨h, hh⟩)
      obtain ⟨s2, st', l2, a2, i2⟩ := ih hs st m s1 (l1.reach hr) a1 i1
      exact ⟨s2, st', l1.trans l2, by rw [hs0]; exact a2, i2⟩

/-! ## The beginning and the end -/

theorem Stock.tail {s : S V E} {o : Option Nat} {hs : List (Option Nat)} {p : List V × Option E} {st : List (List V × Option E)}
    (hi : Stock mv gl s (o :: hs) (p :: st)) : Stock mv gl s hs st :=
  ⟨by simpa using hi.len, fun i h xs h1 h2 => hi.has (i + 1) h xs (by simpa using h1) (by simpa using h2),
    fun i j h h1 h2 => by simpa using hi.inj (i + 1) (j + 1) h (by simpa using h1) (by simpa using h2)⟩

theorem clean (hs : List (Option Nat)) : ∀ (st : List (List V × Option E)) (m : List (Nat × Note V E)) (s : S V E),
    Reach (prog mv gl) l0 g0 s → AtMain s (.clean hs) [] m → Stock mv gl s hs st →
    ∃ s', Later (prog mv gl) s s' ∧ step (prog mv gl) s' = .done s' ∧ s'.g = ((), m) := by
  induction hs with
  | nil =>
    intro st m s hr ha hi
    have e1 := (Local.ret (P := prog mv gl) ha.ctl rfl).fwd
    refine ⟨_, Later.step .refl e1, ?_, ha.g⟩
    simp [step, retStep, St.fr, ha.cur, ha.base, show s.frames 0 = [] by rw [← ha.cur]; exact ha.fr]
  | cons o hs ih =>
    intro st m s hr ha hi
    cases st with
    | nil => have := hi.len; simp at this
    | cons p st =>
    have it := hi.tail
    cases o with
    | none =>
      obtain ⟨s1, e1, a1, k1⟩ := tau_main (mv := mv) (gl := gl) (l' := .clean hs) (m' := m) ha rfl
      obtain ⟨s2, l2, e2, g2⟩ := ih st m s1 (hr.step e1) a1 (it.still k1)
      exact ⟨s2, (Later.step .refl e1).trans l2, e2, g2⟩
    | some h =>
    have hq : Has (prog mv gl) s h p.1 p.2 := hi.has 0 (some h) p rfl rfl
    have hn : ∀ (i h' : Nat), hs[i]? = some (some h') → h' ≠ h := by
      intro i h' hi' e
      subst e
      have := hi.inj (i + 1) 0 h' (by simpa using hi') rfl
      omega
    have idle : (∃ c hp, Idle s h c hp) ∨ s.hs h = some ⟨.pull, .val, none⟩ := by
      generalize p.1 = xs at hq
      generalize p.2 = r at hq
      cases hq with
      | ready q => exact .inl ⟨_, _, q.idle⟩
      | spent q => exact .inl ⟨_, _, q.idle⟩
      | empty q => exact .inr q
    rcases idle with ⟨c, hp, q⟩ | q
    · obtain ⟨s2, l2, x2, f2, g2, k2⟩ := op_drop_spares hr q (by rw [ha.ctl]; simp) (.api ha.ctl rfl) rfl
      rw [undone_id fun _ _ => rfl] at g2
      have e3 := (Local.dUsr (P := prog mv gl) x2 f2).fwd
      have h0 : (0 : Nat) ≠ c := by have := q.ne; rwa [ha.cur] at this
      obtain ⟨s4, l4, e4, g4⟩ := ih st m _ ((l2.reach hr).step e3)
        ⟨rfl, g2.trans ha.g, k2.cur.trans ha.cur, by show upd _ _ _ _ = _; rw [upd_at]; exact ha.fr, (k2.base 0 h0).trans ha.base⟩
        ⟨it.len, fun i o p' h1 h2 => by
          have ho := it.has i o p' h1 h2
          cases o with
          | none => exact ho
          | some h' =>
            exact (Has.spared hr ho q (hn i h' h1) k2).congr rfl rfl rfl rfl rfl rfl (fun d hd => upd_off _ _ hd) rfl, it.inj⟩
      exact ⟨s4, (l2.step e3).trans l4, e4, g4⟩
    · have e2 := reach_step hr (.nop (.api ha.ctl rfl) q (.inl rfl))
      have e3 := Local.fwd (P := prog mv gl) (.dUsr (s := { s with frames := upd s.frames s.cur (.usr (fun _ => .clean hs) :: s.fr), hs := upd s.hs h none, ctl := .deliver .unit }) rfl (upd_at ..))
      obtain ⟨s4, l4, e4, g4⟩ := ih st m _ ((hr.step e2).step e3)
        ⟨rfl, ha.g, ha.cur, by show upd _ _ _ _ = _; rw [upd_at]; exact ha.fr, ha.base⟩
        ⟨it.len, (fun i o p' h1 h2 => by
          have ho := it.has i o p' h1 h2
          cases o with
          | none => exact ho
          | some h' =>
            refine Has.same (s := s) ho (fun c hp g => ⟨fun _ => rfl, fun _ => rfl, rfl, rfl, rfl, ?_, ?_⟩) (upd_off _ _ (hn i h' h1)) rfl
            · show upd _ _ _ _ = _
              rw [upd_off _ _ g.ne.symm]
              exact upd_off _ _ g.ne.symm
            · refine upd_off _ _ ?_
              rintro rfl
              have := g.cnt
              rw [q] at this
              exact absurd this (by simp)), it.inj⟩
      exact ⟨s4, ((Later.step .refl e2).step e3).trans l4, e4, g4⟩

/-- an object more, or a place without an object -/
theorem Stock.snoc {s s' : S V E} {hs : List (Option Nat)} {st : List (List V × Option E)} {o : Option Nat} {p : List V × Option E}
    (hi : Stock mv gl s hs st) (hk : ∀ (i : Nat) (o : Option Nat) (p : List V × Option E), hs[i]? = some o → Holds mv gl s o p → Holds mv gl s' o p)
    (ho : Holds mv gl s' o p) (hn : ∀ i h : Nat, hs[i]? = some (some h) → o ≠ some h) : Stock mv gl s' (hs ++ [o]) (st ++ [p]) := by
  have split : ∀ (i : Nat) (o' : Option Nat), (hs ++ [o])[i]? = some o' → (hs[i]? = some o' ∧ i < hs.length) ∨ (i = hs.length ∧ o' = o) := by
    intro i h hh
    rcases Nat.lt_trichotomy i hs.length with hl | rfl | hl
    · rw [List.getElem?_append_left hl] at hh; exact .inl ⟨hh, hl⟩
    · simp at hh; exact .inr ⟨rfl, hh.symm⟩
    · rw [List.getElem?_eq_none (by simp; omega)] at hh; cases hh
  refine ⟨by simp [hi.len], fun i o' p' g1 g2 => ?_, fun i j h g1 g2 => ?_⟩
  · rcases split i o' g1 with ⟨g1, hl⟩ | ⟨rfl, rfl⟩
    · rw [List.getElem?_append_left (by rw [← hi.len]; exact hl)] at g2
      exact hk i o' p' g1 (hi.has i o' p' g1 g2)
    · rw [hi.len] at g2
      simp at g2
      subst g2
      exact ho
  · rcases split i _ g1 with ⟨g1, hl⟩ | ⟨rfl, e⟩ <;> rcases split j _ g2 with ⟨g2, hl'⟩ | ⟨rfl, e'⟩
    · exact hi.inj i j h g1 g2
    · exact absurd e'.symm (hn i h g1)
    · exact absurd e.symm (hn j h g2)
    · rfl

theorem spawn (js : List Nat) (ts : List (Job V E)) : ∀ (hs : List (Option Nat)) (st : List (List V × Option E)) (m : List (Nat × Note V E)) (s : S V E),
    Reach (prog mv gl) l0 g0 s → AtMain s (.spawn ts hs js) [] m → Stock mv gl s hs st →
    ∃ s' hs', Later (prog mv gl) s s' ∧ AtMain s' (.pick hs' js) [] (m ++ opening hs.length ts) ∧
      Stock mv gl s' hs' (st ++ ts.map fun t => (t.said, left t.said t.ends)) := by
  induction ts with
  | nil =>
    intro hs st m s hr ha hi
    obtain ⟨s1, e1, a1, k1⟩ := tau_main (mv := mv) (gl := gl) (l' := .pick hs js) (m' := m) ha rfl
    exact ⟨s1, hs, Later.step .refl e1, by simpa [opening] using a1, by simpa using hi.still k1⟩
  | cons t ts ih =>
    intro hs st m s0 hr0 ha0 hi0
    obtain ⟨s, e0, ha, k0⟩ := loc_main (mv := mv) (gl := gl) (l' := .make t ts hs js) (m' := m) (ev := [])
      (F' := [.hdl false fun e => .lost ts hs js e]) ha0
      (by have := Local.try_ (P := prog mv gl) (s := s0) ha0.ctl (sw := false) (f := fun e => .lost ts hs js e) (l' := .make t ts hs js) rfl
          rw [ha0.g, ha0.fr] at this; exact this)
    have hi := hi0.still k0
    have hr := hr0.step e0
    have hy : Yields (B := List (Nat × Note V E)) (prog mv gl) s.nh () (.eval (.task s.nh t)) [] t.said t.ends := by
      have := job_yields (mv := mv) (gl := gl) (hp := s.nh) t (rest := []) (r := t.ends) [] (by simp)
        (by cases he : t.ends with
          | none => exact .ret
          | some e => exact .throw)
      simpa using this
    obtain ⟨s1, _, l1, c1, f1, g1, b1, hres⟩ := op_mk (P := prog mv gl) (a := ()) (b := m) (k := onHandle fun h => .made ts hs js h) hr ⟨_, ha.ctl, rfl⟩ ha.g hy
    have r1 := l1.reach hr
    have h0 : (0 : Nat) ≠ s.nk := by
      have := (inv_reach hr).sched.lt_nk 0 (by rw [ha.base]; simp)
      omega
    have b0 : s1.base 0 = .main := (b1 0 h0).trans ha.base
    have old : ∀ {s'}, Keeps s.nk s.cur s s1 → Still s1 s' → ∀ (i : Nat) (o : Option Nat) (p : List V × Option E), hs[i]? = some o →
        Holds mv gl s o p → Holds mv gl s' o p := by
      intro s' K k' i o p _ ho
      refine Holds.still (s := s1) ?_ k'
      cases o with
      | none => exact ho
      | some h => exact Has.born hr ho K c1
    have hlt : ∀ i h : Nat, hs[i]? = some (some h) → h < s.nh := by
      intro i h hh
      have hl : i < st.length := by rw [← hi.len]; exact (List.getElem?_eq_some_iff.1 hh).1
      exact (inv_reach hr).hok.lt _ (Has.obj (hi.has i (some h) _ hh (List.getElem?_eq_getElem hl)))
    -- `}` of the try block
    have well : s1.ctl = .eval (.made ts hs js (s.nh + 1)) → fails t.said t.ends = [] → Has (prog mv gl) s1 (s.nh + 1) t.said (left t.said t.ends) →
        Keeps s.nk s.cur s s1 →
        ∃ s' hs', Later (prog mv gl) s0 s' ∧ AtMain s' (.pick hs' js) [] (m ++ opening hs.length (t :: ts)) ∧
          Stock mv gl s' hs' (st ++ (t :: ts).map fun t => (t.said, left t.said t.ends)) := by
      intro x1 hf hh K
      have a1 : AtMain s1 (.made ts hs js (s.nh + 1)) _ m := ⟨x1, g1, c1.trans ha.cur, f1.trans ha.fr, b0⟩
      obtain ⟨s2, e2, a2, k2⟩ := loc_main (mv := mv) (gl := gl) (l' := .spawn ts (hs ++ [some (s.nh + 1)]) js) (m' := m) (ev := []) (F' := []) a1
        (by have := Local.endTry (P := prog mv gl) (s := s1) a1.ctl (l' := .spawn ts (hs ++ [some (s.nh + 1)]) js) rfl a1.fr; rw [a1.g] at this; exact this)
      have hn : Holds mv gl s2 (some (s.nh + 1)) (t.said, left t.said t.ends) := Holds.still (s := s1) hh k2
      obtain ⟨s3, hs', l3, a3, i3⟩ := ih _ _ m s2 (r1.step e2) a2 (hi.snoc (old K k2) hn (fun i h hh e => by
        have := hlt i h hh
        simp only [Option.some.injEq] at e
        omega))
      exact ⟨s3, hs', (((Later.step .refl e0).trans l1).step e2).trans l3, by simpa [opening, hf] using a3, by simpa using i3⟩
    rcases hres with ⟨v, ys, hxs, x1, q1, K⟩ | ⟨hxs, hre, x1, q1, K⟩ | ⟨e, hxs, hre, x1, K⟩
    · exact well x1 (by rw [hxs]; cases t.ends <;> rfl) (by rw [hxs]; exact .ready q1) K
    · exact well x1 (by rw [hxs, hre]; rfl) (by rw [hxs]; exact .empty q1) K
    · obtain ⟨s2, e2, a2, k2⟩ := catch_main (mv := mv) (gl := gl) x1 g1 (c1.trans ha.cur) (f1.trans ha.fr) b0
      obtain ⟨s3, e3, a3, k3⟩ := tau_main (mv := mv) (gl := gl) (l' := .spawn ts (hs ++ [none]) js) (m' := m ++ [(hs.length, .failed e)]) a2 rfl
      obtain ⟨s4, hs', l4, a4, i4⟩ := ih _ _ _ s3 ((r1.step e2).step e3) a3
        ((hi.snoc (o := none) (p := (t.said, left t.said t.ends)) (old K k2) (by rw [hxs]; rfl) (fun _ _ _ => by simp)).still k3)
      exact ⟨s4, hs', ((((Later.step .refl e0).trans l1).step e2).step e3).trans l4, by simpa [opening, hxs, hre, fails] using a4, by simpa using i4⟩

end Verif.Crew
