import Verif.ExCursors
import Verif.SessionsRun

/-!
# Executing cursors that are opened, advanced, moved, exchanged and closed (proof material for C76)
-/
namespace Verif
section
variable {L B V E : Type} {P : Prog L (Unit × B) V E} {s s' : St L (Unit × B) V E} {h : Nat} {k : Res V → L} {l0 : L} {g0 : Unit × B} {r : Option E}

/-- the assignment -/
theorem op_moveAssign {d c : Nat} {x y : Option CbRef} (hc : Calls P s (.moveAssign d c) k) (hd : s.hs d = some ⟨.pull, .val, x⟩)
    (ho : s.hs c = some ⟨.pull, .val, y⟩) :
    ∃ s', Later P s s' ∧ s' = { s with
      ctl := .eval (k .unit), hs := upd (upd s.hs d (some ⟨.pull, .val, y⟩)) c (some ⟨.pull, .val, x⟩), log := s'.log } := by
  obtain ⟨l, h1, h2⟩ := hc
  have e1 : step P s = .next { s with
      frames := upd s.frames s.cur (.usr k :: s.fr), ctl := .deliver .unit
      hs := upd (upd s.hs d (some ⟨.pull, .val, y⟩)) c (some ⟨.pull, .val, x⟩) } := by
    simp [step, evalStep, h1, h2, apiStep, St.pushFr, St.setFr, hd, ho, St.withCtl]
  have e2 := Local.fwd (P := P) (.dUsr (s := { s with
      frames := upd s.frames s.cur (.usr k :: s.fr), ctl := .deliver .unit
      hs := upd (upd s.hs d (some ⟨.pull, .val, y⟩)) c (some ⟨.pull, .val, x⟩) }) rfl (upd_at ..))
  refine ⟨_, (Later.step .refl e1).step e2, ?_⟩
  simp [upd_upd, upd_self', St.fr]

theorem Has.pull {xs : List V} (hq : Has P s h xs r) : ∃ x, s.hs h = some ⟨.pull, .val, x⟩ := by
  cases hq with
  | ready q => exact ⟨_, q.obj⟩
  | spent q => exact ⟨_, q.obj⟩
  | empty q => exact ⟨_, q⟩

theorem Has.idle {xs : List V} (hq : Has P s h xs r) : (∃ c hp, Idle s h c hp) ∨ s.hs h = some ⟨.pull, .val, none⟩ := by
  cases hq with
  | ready q => exact .inl ⟨_, _, q.idle⟩
  | spent q => exact .inl ⟨_, _, q.idle⟩
  | empty q => exact .inr q

/-- only objects of pull coroutines, and objects that did not exist before, have changed -/
theorem Has.moved {h1 h2 : Nat} {xs : List V} (hr : Reach P l0 g0 s) (hq : Has P s h1 xs r)
    (e1 : ∀ i, i < s.nh → (∀ x, s.hs i ≠ some ⟨.pull, .val, x⟩) → s'.hs i = s.hs i) (e : s'.hs h2 = s.hs h1) (e2 : s'.base = s.base)
    (e3 : s'.kind = s.kind) (e4 : s'.va = s.va) (e5 : s'.cbs = s.cbs) (e6 : s'.fib = s.fib) (e7 : s'.frames = s.frames) (e8 : s'.cur = s.cur) :
    Has P s' h2 xs r := by
  refine hq.same (fun c hp hi => ⟨fun _ => by rw [e5], fun _ => by rw [e6], by rw [e2], by rw [e3], by rw [e4], by rw [e7], e1 _ ?_ ?_⟩) e e8
  · exact (inv_reach hr).hok.lt hp (by rw [hi.cnt]; simp)
  · intro x hx
    rw [hi.cnt] at hx
    cases hx

end

namespace Cursors
open Crew (Job Note fails left)
variable {V E : Type} {mv : V → V} {gl : Bool} {l0 : Pt V E} {g0 : Unit × List (Nat × Note V E)}

/-- what a caller makes of the end of a function -/
def after : Option E → Ctl (Pt V E) V E
  | none => .retn
  | some e => .raise (.user e)

theorem job_yields {hp : Nat} (t : Job V E) : ∀ {rest : List V} {r : Option E} (F : List (Frame (Pt V E) V E)), (∀ f ∈ F, Plain f) →
    Yields (B := List (Nat × Note V E)) (prog mv gl) hp () (after t.ends) F rest r →
    Yields (prog mv gl) hp () (.eval (.task hp t)) F (t.said ++ rest) r := by
  induction t with
  | ret => intro rest r F _ hF; exact .back (fun _ => rfl) hF
  | fail e => intro rest r F _ hF; exact .raise (fun _ => rfl) hF
  | say v t ih => intro rest r F hpl hF; exact .push (fun _ => rfl) hpl (ih F hpl hF)
  | sub t u iht ihu =>
    intro rest r F hpl hF
    refine .call (l1 := .task hp t) (l' := .task hp u) (fun _ => rfl) ?_
    have hpl' : ∀ f ∈ Frame.fnRet (.task hp u) :: F, Plain f := by simpa [Plain] using hpl
    cases he : t.ends with
    | none =>
      have hF' : Yields (B := List (Nat × Note V E)) (prog mv gl) hp () (after u.ends) F rest r := by simpa [Job.ends, he] using hF
      have := iht (rest := u.said ++ rest) (r := r) (.fnRet (.task hp u) :: F) hpl' (by rw [he]; exact .fnRet (ihu F hpl hF'))
      simpa [Job.said, he] using this
    | some e =>
      have hF' : Yields (B := List (Nat × Note V E)) (prog mv gl) hp () (.raise (.user e)) F rest r := by simpa [Job.ends, he, after] using hF
      have := iht (rest := rest) (r := r) (.fnRet (.task hp u) :: F) hpl' (by rw [he]; exact .fnThrow hF')
      simpa [Job.said, he] using this
  | obj o t ih =>
    intro rest r F hpl hF
    refine .obj (o := o) (l' := .task hp t) (fun _ => rfl) (ih (.gObj o :: F) (by simpa [Plain] using hpl) ?_)
    simp only [Job.ends] at hF
    cases he : t.ends with
    | none => rw [he] at hF; exact .objRet (fun _ => rfl) hF
    | some e => rw [he] at hF; exact .objThrow (fun _ => rfl) hF

abbrev S (V E : Type) := St (Pt V E) (Unit × List (Nat × Note V E)) V E
abbrev Fr (V E : Type) := List (Frame (Pt V E) V E)

/-- main, outside every call of the library, with the stack `F` -/
structure AtMain (s : S V E) (l : Pt V E) (F : Fr V E) (m : List (Nat × Note V E)) : Prop where
  ctl : s.ctl = .eval l
  g : s.g = ((), m)
  cur : s.cur = 0
  fr : s.fr = F
  base : s.base 0 = .main

/-- what a cursor is said to have -/
def Holds (mv : V → V) (gl : Bool) (s : S V E) : Option Nat → Option (List V × Option E) → Prop
  | some h, some p => Has (prog mv gl) s h p.1 p.2
  | none, none => True
  | _, _ => False

/-- the object at place `i` of `hs` has what is at place `i` of `st`, and no object is listed twice -/
structure Stock (mv : V → V) (gl : Bool) (s : S V E) (hs : List (Option Nat)) (st : List (Option (List V × Option E))) : Prop where
  len : hs.length = st.length
  has : ∀ (i : Nat) (o : Option Nat) (p : Option (List V × Option E)), hs[i]? = some o → st[i]? = some p → Holds mv gl s o p
  inj : ∀ i j h : Nat, hs[i]? = some (some h) → hs[j]? = some (some h) → i = j

/-- no coroutine and no object has changed -/
structure Still (s s' : S V E) : Prop where
  hs : s'.hs = s.hs
  base : s'.base = s.base
  kind : s'.kind = s.kind
  va : s'.va = s.va
  cbs : s'.cbs = s.cbs
  fib : s'.fib = s.fib
  frames : ∀ d, d ≠ s.cur → s'.frames d = s.frames d
  cur : s'.cur = s.cur

theorem Holds.still {s s' : S V E} {o : Option Nat} {p : Option (List V × Option E)} (h : Holds mv gl s o p) (k : Still s s') : Holds mv gl s' o p := by
  cases o with
  | none => cases p <;> exact h
  | some q =>
    cases p with
    | none => exact h
    | some p => exact Has.congr h k.hs k.base k.kind k.va k.cbs k.fib k.frames k.cur

theorem Stock.still {s s' : S V E} {hs : List (Option Nat)} {st : List (Option (List V × Option E))} (hi : Stock mv gl s hs st) (k : Still s s') :
    Stock mv gl s' hs st :=
  ⟨hi.len, fun i o p h1 h2 => (hi.has i o p h1 h2).still k, hi.inj⟩

/-- a step of main that leaves the coroutines alone -/
theorem loc_main {s : S V E} {l l' : Pt V E} {F F' : Fr V E} {m m' : List (Nat × Note V E)} {ev : List (Ev V E)}
    (ha : AtMain s l F m) (hc : Local (prog mv gl) s ((), m') F' (.eval l') ev) :
    ∃ s', step (prog mv gl) s = .next s' ∧ AtMain s' l' F' m' ∧ Still s s' := by
  refine ⟨_, hc.fwd, ⟨rfl, rfl, ha.cur, by simp [St.fr], ha.base⟩, ⟨rfl, rfl, rfl, rfl, rfl, rfl, fun d hd => upd_off _ _ hd, rfl⟩⟩

theorem tau_main {s : S V E} {l l' : Pt V E} {F : Fr V E} {m m' : List (Nat × Note V E)}
    (ha : AtMain s l F m) (hc : (prog mv gl).code l ((), m) = .tau ((), m') l') :
    ∃ s', step (prog mv gl) s = .next s' ∧ AtMain s' l' F m' ∧ Still s s' :=
  loc_main (ev := []) ha (by have := Local.tau (P := prog mv gl) (s := s) (g := ((), m')) (l' := l') ha.ctl (by rw [ha.g]; exact hc); rw [ha.fr] at this; exact this)

/-- the exception is caught -/
theorem catch_main {s : S V E} {e : E} {f : E → Pt V E} {F : Fr V E} {m : List (Nat × Note V E)} {sw : Bool}
    (hx : s.ctl = .raise (.user e)) (hg : s.g = ((), m)) (hc : s.cur = 0) (hf : s.fr = .hdl sw f :: F) (hb : s.base 0 = .main) :
    ∃ s', step (prog mv gl) s = .next s' ∧ AtMain s' (f e) F m ∧ Still s s' := by
  refine ⟨_, (Local.rCatch (P := prog mv gl) hx hf).fwd, ⟨rfl, hg, hc, by simp [St.fr], hb⟩, ⟨rfl, rfl, rfl, rfl, rfl, rfl, fun d hd => upd_off _ _ hd, rfl⟩⟩

theorem Holds.other {s s' : S V E} {h : Nat} {p : Option (List V × Option E)} (ho : Holds mv gl s (some h) p)
    (hk : ∀ xs r, Has (prog mv gl) s h xs r → Has (prog mv gl) s' h xs r) : Holds mv gl s' (some h) p := by
  cases p with
  | none => exact ho
  | some p => exact hk _ _ ho

/-- the coroutine of cursor `j` has been used, its object may have been replaced or destroyed -/
theorem Stock.set {s s' : S V E} {hs : List (Option Nat)} {st : List (Option (List V × Option E))} {j h : Nat} {p : Option (List V × Option E)}
    {h0 : Option Nat} (hi : Stock mv gl s hs st) (hj : hs[j]? = some (some h)) (hh : Holds mv gl s' h0 p)
    (hf : ∀ h1, h0 = some h1 → h1 = h ∨ ∀ i : Nat, hs[i]? ≠ some (some h1))
    (hk : ∀ (h' : Nat) p, (∃ i : Nat, hs[i]? = some (some h')) → h' ≠ h → Holds mv gl s (some h') p → Holds mv gl s' (some h') p) :
    Stock mv gl s' (hs.set j h0) (st.set j p) := by
  have hlt : j < hs.length := (List.getElem?_eq_some_iff.1 hj).1
  have hlt' : j < st.length := by rw [← hi.len]; exact hlt
  refine ⟨by simpa using hi.len, fun i o q g1 g2 => ?_, fun i i' h' g1 g2 => ?_⟩
  · by_cases hij : i = j
    · subst hij
      rw [List.getElem?_set_self hlt] at g1
      rw [List.getElem?_set_self hlt'] at g2
      obtain rfl : p = q := by simpa using g2
      obtain rfl : h0 = o := by simpa using g1
      exact hh
    · rw [List.getElem?_set_ne (Ne.symm hij)] at g1 g2
      have ho := hi.has i o q g1 g2
      cases o with
      | none => cases q <;> exact ho
      | some h' =>
        refine hk h' _ ⟨i, g1⟩ ?_ ho
        rintro rfl
        exact hij (hi.inj i j _ g1 hj)
  · have key : ∀ i : Nat, i ≠ j → hs[i]? = some (some h') → h0 = some h' → False := by
      intro i hn g e
      rcases hf h' e with rfl | hf
      · exact hn (hi.inj i j _ g hj)
      · exact hf i g
    by_cases hij : i = j <;> by_cases hij' : i' = j
    · rw [hij, hij']
    · subst hij
      rw [List.getElem?_set_self hlt] at g1
      rw [List.getElem?_set_ne (Ne.symm hij')] at g2
      exact (key i' hij' g2 (by simpa using g1)).elim
    · subst hij'
      rw [List.getElem?_set_self hlt] at g2
      rw [List.getElem?_set_ne (Ne.symm hij)] at g1
      exact (key i hij g1 (by simpa using g2)).elim
    · rw [List.getElem?_set_ne (Ne.symm hij)] at g1
      rw [List.getElem?_set_ne (Ne.symm hij')] at g2
      exact hi.inj i i' h' g1 g2

/-- the object stays where it is -/
theorem Stock.put {s s' : S V E} {hs : List (Option Nat)} {st : List (Option (List V × Option E))} {j h : Nat} {p : Option (List V × Option E)}
    (hi : Stock mv gl s hs st) (hj : hs[j]? = some (some h)) (hh : Holds mv gl s' (some h) p)
    (hk : ∀ (h' : Nat) p, h' ≠ h → Holds mv gl s (some h') p → Holds mv gl s' (some h') p) : Stock mv gl s' hs (st.set j p) := by
  have := hi.set (s' := s') (p := p) (h0 := some h) hj hh (by rintro h1 ⟨⟩; exact .inl rfl) (fun h' p _ => hk h' p)
  rwa [show hs.set j (some h) = hs by
    obtain ⟨hl, he⟩ := List.getElem?_eq_some_iff.1 hj
    rw [← he]; exact List.set_getElem_self hl] at this

/-! ## One turn -/

theorem turn_end {hs : List (Option Nat)} {cs : List (Cmd V E)} {j h : Nat} {r : Option E} {m : List (Nat × Note V E)} {st : List (Option (List V × Option E))} {s : S V E}
    (ha : AtMain s (.run hs (.next j :: cs)) [] m) (hi : Stock mv gl s hs st) (hj : hs[j]? = some (some h)) (hx : st[j]? = some (some ([], r))) :
    ∃ s', Later (prog mv gl) s s' ∧ AtMain s' (.run hs cs) [] m ∧ Stock mv gl s' hs st := by
  have hq : Has (prog mv gl) s h [] r := hi.has j (some h) _ hj hx
  have hr0 : r = none := by cases hq <;> rfl
  subst hr0
  obtain ⟨s1, l1, h1⟩ := op_begin_end (k := onIt fun i => .look hs cs j i) hq ⟨_, ha.ctl, by
    simp only [prog, code, hj]⟩
  have x1 : s1.ctl = .eval (.look hs cs j none) := by rw [h1]; rfl
  have k1 : Still s s1 := ⟨by rw [h1], by rw [h1], by rw [h1], by rw [h1], by rw [h1], by rw [h1], fun _ _ => by rw [h1], by rw [h1]⟩
  obtain ⟨s2, e2, a2, k2⟩ := tau_main (mv := mv) (gl := gl) (s := s1) (F := []) (m := m) (m' := m) (l' := .run hs cs)
    ⟨x1, by rw [h1]; exact ha.g, by rw [h1]; exact ha.cur, by rw [h1]; exact ha.fr, by rw [h1]; exact ha.base⟩ rfl
  exact ⟨s2, l1.step e2, a2, (hi.still k1).still k2⟩

theorem turn_value {hs : List (Option Nat)} {cs : List (Cmd V E)} {j h : Nat} {v : V} {ys : List V} {r : Option E} {m : List (Nat × Note V E)}
    {st : List (Option (List V × Option E))} {s : S V E} (hr : Reach (prog mv gl) l0 g0 s)
    (ha : AtMain s (.run hs (.next j :: cs)) [] m) (hi : Stock mv gl s hs st) (hj : hs[j]? = some (some h)) (hx : st[j]? = some (some (v :: ys, r))) :
    ∃ s', Later (prog mv gl) s s' ∧ AtMain s' (.run hs cs) [] (m ++ (j, .said v) :: (fails ys r).map (Prod.mk j)) ∧
      Stock mv gl s' hs (st.set j (some (ys, left ys r))) := by
  have hq : Has (prog mv gl) s h (v :: ys) r := hi.has j (some h) _ hj hx
  cases hq with
  | ready hq =>
    rename_i c hp
    obtain ⟨s1, l1, h1⟩ := op_begin (k := onIt fun i => .look hs cs j i) hq ⟨_, ha.ctl, by
      simp only [prog, code, hj]⟩
    have r1 := l1.reach hr
    have x1 : s1.ctl = .eval (.look hs cs j (some h)) := by rw [h1]; rfl
    have q1 : Ready (prog mv gl) s1 h c hp () v ys r :=
      hq.congr (by rw [h1]) (by rw [h1]) (by rw [h1]) (by rw [h1]) (by rw [h1]) (by rw [h1]) (by rw [h1]) (by rw [h1])
    obtain ⟨s2, l2, h2⟩ := op_deref q1 ⟨_, x1, rfl⟩
    have r2 := l2.reach r1
    have h2' : s2 = { s with ctl := .eval (.put hs cs j h v), log := s2.log } := by rw [h2, h1]; rfl
    have k2 : Still s s2 := ⟨by rw [h2'], by rw [h2'], by rw [h2'], by rw [h2'], by rw [h2'], by rw [h2'], fun _ _ => by rw [h2'], by rw [h2']⟩
    have a2 : AtMain s2 (.put hs cs j h v) [] m :=
      ⟨by rw [h2'], by rw [h2']; exact ha.g, by rw [h2']; exact ha.cur, by rw [h2']; exact ha.fr, by rw [h2']; exact ha.base⟩
    obtain ⟨s3, e3, a3, k3⟩ := tau_main (mv := mv) (gl := gl) (l' := .next hs cs j h) (m' := m ++ [(j, .said v)]) a2 rfl
    obtain ⟨s4, e4, a4, k4⟩ := loc_main (mv := mv) (gl := gl) (l' := .inc hs cs h) (m' := m ++ [(j, .said v)]) (ev := [])
      (F' := [.hdl false fun e => .caught hs cs j e]) a3
      (by have := Local.try_ (P := prog mv gl) (s := s3) a3.ctl (sw := false) (f := fun e => .caught hs cs j e) (l' := .inc hs cs h) rfl; rw [a3.g, a3.fr] at this; exact this)
    have r4 := (r2.step e3).step e4
    have i4 := ((hi.still k2).still k3).still k4
    have q4 : Ready (prog mv gl) s4 h c hp () v ys r := by
      have hne : c ≠ s.cur := hq.ne.symm
      refine hq.congr (by rw [k4.hs, k3.hs, k2.hs]) (by rw [k4.base, k3.base, k2.base]) (by rw [k4.kind, k3.kind, k2.kind]) (by rw [k4.va, k3.va, k2.va])
        (by rw [k4.cbs, k3.cbs, k2.cbs]) (by rw [k4.fib, k3.fib, k2.fib]) ?_ (by rw [k4.cur, k3.cur, k2.cur])
      rw [k4.frames c (by rw [k3.cur, k2.cur]; exact hne), k3.frames c (by rw [k2.cur]; exact hne), k2.frames c hne]
    obtain ⟨s5, _, l5, c5, f5, g5, -, k5, hres⟩ := op_next (b := m ++ [(j, .said v)]) (k := fun _ => .went hs cs) r4 q4
      ⟨.inc hs cs h, a4.ctl, rfl⟩ a4.g
    have r5 := l5.reach r4
    have hne : (0 : Nat) ≠ c := by have := q4.ne; rwa [a4.cur] at this
    have b5 : s5.base 0 = .main := by rw [k5.base 0 hne]; exact a4.base
    -- what the next state of the tasks is, once it is known what task `j` has
    have stock : ∀ s', Still s5 s' → Has (prog mv gl) s5 h ys (left ys r) → Stock mv gl s' hs (st.set j (some (ys, left ys r))) := by
      intro s' k' hh
      exact (i4.put (s' := s5) (p := some (ys, left ys r)) hj hh fun h' p hn ho => Holds.other ho fun xs r ho => ho.keep r4 q4.idle hn k5 c5).still k'
    have l0 : Later (prog mv gl) s s5 := (((l1.trans l2).step e3).step e4).trans l5
    -- `}` of the try block
    have well : s5.ctl = .eval (.went hs cs) → fails ys r = [] → Has (prog mv gl) s5 h ys (left ys r) →
        ∃ s', Later (prog mv gl) s s' ∧ AtMain s' (.run hs cs) [] (m ++ (j, .said v) :: (fails ys r).map (Prod.mk j)) ∧
          Stock mv gl s' hs (st.set j (some (ys, left ys r))) := by
      intro x5 hf hh
      have a5 : AtMain s5 (.went hs cs) _ (m ++ [(j, .said v)]) := ⟨x5, g5, c5.trans a4.cur, f5.trans a4.fr, b5⟩
      obtain ⟨s6, e6, a6, k6⟩ := loc_main (mv := mv) (gl := gl) (l' := .run hs cs) (m' := m ++ [(j, .said v)]) (ev := []) (F' := []) a5
        (by have := Local.endTry (P := prog mv gl) (s := s5) a5.ctl (l' := .run hs cs) rfl a5.fr; rw [a5.g] at this; exact this)
      exact ⟨s6, l0.step e6, by rw [hf]; exact a6, stock s6 k6 hh⟩
    rcases hres with ⟨w, zs, rfl, x5, q5⟩ | ⟨rfl, rfl, x5, q5⟩ | ⟨e, rfl, rfl, x5, q5⟩
    · exact well x5 (by cases r <;> rfl) (.ready q5)
    · exact well x5 rfl (.spent q5)
    · obtain ⟨s6, e6, a6, k6⟩ := catch_main (mv := mv) (gl := gl) x5 g5 (c5.trans a4.cur) (f5.trans a4.fr) b5
      obtain ⟨s7, e7, a7, k7⟩ := tau_main (mv := mv) (gl := gl) (l' := .run hs cs) (m' := (m ++ [(j, .said v)]) ++ [(j, .failed e)]) a6 rfl
      exact ⟨s7, (l0.step e6).step e7, by simpa [fails] using a7, (stock s6 k6 (.spent q5)).still k7⟩

variable {s : S V E} {hs : List (Option Nat)} {st : List (Option (List V × Option E))} {j h : Nat} {cs : List (Cmd V E)} {m : List (Nat × Note V E)}

theorem Stock.at_ {o : Option Nat} (hi : Stock mv gl s hs st) (hj : hs[j]? = some o) : ∃ p, st[j]? = some p ∧ Holds mv gl s o p := by
  have hlt : j < st.length := by rw [← hi.len]; exact (List.getElem?_eq_some_iff.1 hj).1
  exact ⟨_, List.getElem?_eq_getElem hlt, hi.has j o _ hj (List.getElem?_eq_getElem hlt)⟩

/-- the object of a cursor that exists -/
theorem Stock.obj (hi : Stock mv gl s hs st) (hj : hs[j]? = some (some h)) : ∃ xs r, st[j]? = some (some (xs, r)) ∧ Has (prog mv gl) s h xs r := by
  obtain ⟨p, hp, ho⟩ := hi.at_ hj
  cases p with
  | none => exact ho.elim
  | some p => exact ⟨p.1, p.2, hp, ho⟩

/-- a cursor without an object -/
theorem Stock.noObj (hi : Stock mv gl s hs st) (hj : ∀ h, hs[j]? ≠ some (some h)) (p : List V × Option E) : st[j]? ≠ some (some p) := by
  intro hx
  have hlt : j < hs.length := by rw [hi.len]; exact (List.getElem?_eq_some_iff.1 hx).1
  have ho := hi.has j hs[j] _ (List.getElem?_eq_getElem hlt) hx
  cases hh : hs[j] with
  | none => rw [hh] at ho; exact ho
  | some q => exact hj q (by rw [List.getElem?_eq_getElem hlt, hh])

/-! ## The other commands -/

/-- a coroutine is destroyed -/
theorem drop_main {l l' : Pt V E} (hr : Reach (prog mv gl) l0 g0 s) (ha : AtMain s l [] m)
    (hc : (prog mv gl).code l ((), m) = .api (.destroy h) fun _ => l') {xs : List V} {r : Option E} (hq : Has (prog mv gl) s h xs r) :
    ∃ s', Later (prog mv gl) s s' ∧ AtMain s' l' [] m ∧
      ∀ h' xs' r', h' ≠ h → Has (prog mv gl) s h' xs' r' → Has (prog mv gl) s' h' xs' r' := by
  have hc' : Calls (prog mv gl) s (.destroy h) fun _ => l' := ⟨l, ha.ctl, by rw [ha.g]; exact hc⟩
  rcases hq.idle with ⟨c, hp, q⟩ | q
  · obtain ⟨s2, l2, x2, f2, g2, k2⟩ := op_drop_spares hr q (by rw [ha.ctl]; simp) (.api ha.ctl (by rw [ha.g]; exact hc)) rfl
    rw [undone_id fun _ _ => rfl] at g2
    have e3 := (Local.dUsr (P := prog mv gl) x2 f2).fwd
    have h0 : (0 : Nat) ≠ c := by have := q.ne; rwa [ha.cur] at this
    exact ⟨_, l2.step e3,
      ⟨rfl, g2.trans ha.g, k2.cur.trans ha.cur, by show upd _ _ _ _ = _; rw [upd_at]; exact ha.fr, (k2.base 0 h0).trans ha.base⟩,
      fun h' xs' r' hn ho => (Has.spared hr ho q hn k2).congr rfl rfl rfl rfl rfl rfl (fun d hd => upd_off _ _ hd) rfl⟩
  · obtain ⟨s2, l2, h2⟩ := op_dropEmpty hc' q rfl
    refine ⟨s2, l2, ⟨by rw [h2], by rw [h2]; exact ha.g, by rw [h2]; exact ha.cur, by rw [h2]; exact ha.fr, by rw [h2]; exact ha.base⟩,
      fun h' xs' r' hn ho => ?_⟩
    refine ho.moved hr (fun i _ hi => ?_) ?_ (by rw [h2]) (by rw [h2]) (by rw [h2]) (by rw [h2]) (by rw [h2]) (by rw [h2]) (by rw [h2])
    · rw [h2]; exact upd_off _ _ (by rintro rfl; exact hi _ q)
    · rw [h2]; exact upd_off _ _ hn

theorem close_main (hr : Reach (prog mv gl) l0 g0 s) (ha : AtMain s (.run hs (.close j :: cs)) [] m) (hi : Stock mv gl s hs st)
    (hj : hs[j]? = some (some h)) :
    ∃ s', Later (prog mv gl) s s' ∧ AtMain s' (.run (hs.set j none) cs) [] m ∧ Stock mv gl s' (hs.set j none) (st.set j none) := by
  obtain ⟨xs, r, -, hq⟩ := hi.obj hj
  obtain ⟨s1, l1, a1, k1⟩ := drop_main (l' := .run (hs.set j none) cs) hr ha (by simp only [prog, code, hj]) hq
  exact ⟨s1, l1, a1, hi.set hj trivial (by simp) fun h' p _ hn ho => ho.other fun xs r ho => k1 _ _ _ hn ho⟩

theorem move_main (hr : Reach (prog mv gl) l0 g0 s) (ha : AtMain s (.run hs (.move j :: cs)) [] m) (hi : Stock mv gl s hs st)
    (hj : hs[j]? = some (some h)) :
    ∃ s', Later (prog mv gl) s s' ∧ AtMain s' (.run (hs.set j (some s.nh)) cs) [] m ∧ Stock mv gl s' (hs.set j (some s.nh)) st := by
  obtain ⟨xs, r, hx, hq⟩ := hi.obj hj
  obtain ⟨x, ho⟩ := hq.pull
  obtain ⟨s1, l1, h1⟩ := op_moveCtor (P := prog mv gl) (k := onHandle fun h' => .moved hs cs j h h') ⟨_, ha.ctl, by simp only [prog, code, hj]⟩ ho
  have hlt : h < s.nh := (inv_reach hr).hok.lt h (by rw [ho]; simp)
  have x1 : s1.ctl = .eval (.moved hs cs j h s.nh) := by rw [h1]; rfl
  have o1 : s1.hs h = some ⟨.pull, .val, none⟩ := by rw [h1]; show upd _ _ _ _ = _; rw [upd_off _ _ (by omega), upd_at]
  obtain ⟨s2, l2, h2⟩ := op_dropEmpty (P := prog mv gl) (s := s1) (k := fun _ => .run (hs.set j (some s.nh)) cs) ⟨_, x1, rfl⟩ o1 rfl
  have e2 : s2 = { s with
      ctl := .eval (.run (hs.set j (some s.nh)) cs)
      hs := upd (upd (upd s.hs h (some ⟨.pull, .val, none⟩)) s.nh (some ⟨.pull, .val, x⟩)) h none
      nh := s.nh + 1, log := s2.log } := by rw [h2, h1]
  have key : ∀ {h1 h2 : Nat} {xs : List V} {r : Option E}, Has (prog mv gl) s h1 xs r → s2.hs h2 = s.hs h1 → Has (prog mv gl) s2 h2 xs r := by
    intro h1 h2 xs r hq e
    refine hq.moved hr (fun i hl hi => ?_) e (by rw [e2]) (by rw [e2]) (by rw [e2]) (by rw [e2]) (by rw [e2]) (by rw [e2]) (by rw [e2])
    have hn : i ≠ h := by rintro rfl; exact hi _ ho
    rw [e2]; show upd _ _ _ _ = _
    rw [upd_off _ _ hn, upd_off _ _ (by omega), upd_off _ _ hn]
  refine ⟨s2, l1.trans l2, ⟨by rw [e2], by rw [e2]; exact ha.g, by rw [e2]; exact ha.cur, by rw [e2]; exact ha.fr, by rw [e2]; exact ha.base⟩, ?_⟩
  have hst : st.set j (some (xs, r)) = st := by
    obtain ⟨hl, he⟩ := List.getElem?_eq_some_iff.1 hx
    rw [← he]; exact List.set_getElem_self hl
  rw [← hst]
  refine hi.set hj (key hq ?_) (fun h1 e => .inr fun i hh => ?_) fun h' p _ hn hp => hp.other fun xs r hp => key hp ?_
  · rw [e2, ho]; show upd _ _ _ _ = _
    rw [upd_off _ _ (by omega), upd_at]
  · obtain rfl : s.nh = h1 := by simpa using e
    obtain ⟨xs', r', -, hq'⟩ := hi.obj hh
    have := (inv_reach hr).hok.lt _ hq'.obj
    omega
  · have := (inv_reach hr).hok.lt _ hp.obj
    rw [e2]; show upd _ _ _ _ = _
    rw [upd_off _ _ hn, upd_off _ _ (by omega), upd_off _ _ hn]

theorem assign_main {i d c : Nat} {p q : List V × Option E} (hr : Reach (prog mv gl) l0 g0 s) (ha : AtMain s (.run hs (.assign i j :: cs)) [] m)
    (hi : Stock mv gl s hs st) (hd : hs[i]? = some (some d)) (hc : hs[j]? = some (some c)) (hp : st[i]? = some (some p)) (hq : st[j]? = some (some q)) :
    ∃ s', Later (prog mv gl) s s' ∧ AtMain s' (.run hs cs) [] m ∧ Stock mv gl s' hs ((st.set i (some q)).set j (some p)) := by
  have qd : Has (prog mv gl) s d p.1 p.2 := hi.has i _ _ hd hp
  have qc : Has (prog mv gl) s c q.1 q.2 := hi.has j _ _ hc hq
  obtain ⟨x, od⟩ := qd.pull
  obtain ⟨y, oc⟩ := qc.pull
  obtain ⟨s1, l1, h1⟩ := op_moveAssign (P := prog mv gl) (k := fun _ => .run hs cs) ⟨_, ha.ctl, by simp only [prog, code, hd, hc]⟩ od oc
  have key : ∀ {h1 h2 : Nat} {xs : List V} {r : Option E}, Has (prog mv gl) s h1 xs r → s1.hs h2 = s.hs h1 → Has (prog mv gl) s1 h2 xs r := by
    intro h1' h2 xs r hq e
    refine hq.moved hr (fun k hl hk => ?_) e (by rw [h1]) (by rw [h1]) (by rw [h1]) (by rw [h1]) (by rw [h1]) (by rw [h1]) (by rw [h1])
    rw [h1]; show upd _ _ _ _ = _
    rw [upd_off _ _ (by rintro rfl; exact hk _ oc), upd_off _ _ (by rintro rfl; exact hk _ od)]
  have li : i < st.length := (List.getElem?_eq_some_iff.1 hp).1
  have lj : j < st.length := (List.getElem?_eq_some_iff.1 hq).1
  refine ⟨s1, l1, ⟨by rw [h1], by rw [h1]; exact ha.g, by rw [h1]; exact ha.cur, by rw [h1]; exact ha.fr, by rw [h1]; exact ha.base⟩,
    by simpa using hi.len, fun k o u g1 g2 => ?_, hi.inj⟩
  by_cases hkj : k = j
  · subst hkj
    rw [List.getElem?_set_self (by simpa using lj)] at g2
    obtain rfl : some p = u := by simpa using g2
    obtain rfl : some c = o := by rw [hc] at g1; simpa using g1
    exact key (h2 := c) qd (by rw [h1, od]; exact upd_at ..)
  · rw [List.getElem?_set_ne (Ne.symm hkj)] at g2
    by_cases hki : k = i
    · subst hki
      rw [List.getElem?_set_self li] at g2
      obtain rfl : some q = u := by simpa using g2
      obtain rfl : some d = o := by rw [hd] at g1; simpa using g1
      have hn : d ≠ c := by rintro rfl; exact hkj (hi.inj k j _ hd hc)
      exact key (h2 := d) qc (by rw [h1, oc]; show upd _ _ _ _ = _; rw [upd_off _ _ hn, upd_at])
    · rw [List.getElem?_set_ne (Ne.symm hki)] at g2
      have ho := hi.has k o u g1 g2
      cases o with
      | none => cases u <;> exact ho
      | some h' =>
        have n1 : h' ≠ c := by rintro rfl; exact hkj (hi.inj k j _ g1 hc)
        have n2 : h' ≠ d := by rintro rfl; exact hki (hi.inj k i _ g1 hd)
        exact ho.other fun xs r ho => key ho (by rw [h1]; show upd _ _ _ _ = _; rw [upd_off _ _ n1, upd_off _ _ n2])

theorem Stock.tail {s : S V E} {o : Option Nat} {hs : List (Option Nat)} {p : Option (List V × Option E)} {st : List (Option (List V × Option E))}
    (hi : Stock mv gl s (o :: hs) (p :: st)) : Stock mv gl s hs st :=
  ⟨by simpa using hi.len, fun i h xs h1 h2 => hi.has (i + 1) h xs (by simpa using h1) (by simpa using h2),
    fun i j h h1 h2 => by simpa using hi.inj (i + 1) (j + 1) h (by simpa using h1) (by simpa using h2)⟩

/-- an object more, or a place without an object -/
theorem Stock.snoc {s s' : S V E} {hs : List (Option Nat)} {st : List (Option (List V × Option E))} {o : Option Nat} {p : Option (List V × Option E)}
    (hi : Stock mv gl s hs st) (hk : ∀ (i : Nat) (o : Option Nat) (p : Option (List V × Option E)), hs[i]? = some o → Holds mv gl s o p → Holds mv gl s' o p)
    (ho : Holds mv gl s' o p) (hn : ∀ i h : Nat, hs[i]? = some (some h) → o ≠ some h) : Stock mv gl s' (hs ++ [o]) (st ++ [p]) := by
  have split : ∀ (i : Nat) (o' : Option Nat), (hs ++ [o])[i]? = some o' → (hs[i]? = some o' ∧ i < hs.length) ∨ (i = hs.length ∧ o' = o) := by
    intro i h hh
    rcases Nat.lt_trichotomy i hs.length with hl | rfl | hl
    · rw [List.getElem?_append_left hl] at hh; exact .inl ⟨hh, hl⟩
    · simp at hh; exact .inr ⟨rfl, hh.symm⟩
    · rw [List.getElem?_eq_none (by simp; omega)] at hh; cases hh
  refine ⟨by simp [hi.len], fun i o' p' g1 g2 => ?_, fun i j h g1 g2 => ?_⟩
  · rcases split i o' g1 with ⟨g1, hl⟩ | ⟨rfl, rfl⟩
    · rw [List.getElem?_append_left (by rw [← hi.len]; exact hl)] at g2
      exact hk i o' p' g1 (hi.has i o' p' g1 g2)
    · rw [hi.len] at g2
      simp at g2
      subst g2
      exact ho
  · rcases split i _ g1 with ⟨g1, hl⟩ | ⟨rfl, e⟩ <;> rcases split j _ g2 with ⟨g2, hl'⟩ | ⟨rfl, e'⟩
    · exact hi.inj i j h g1 g2
    · exact absurd e'.symm (hn i h g1)
    · exact absurd e.symm (hn j h g2)
    · rfl

/-- a new cursor -/
theorem open_main {t : Job V E} {s0 : S V E} (hr0 : Reach (prog mv gl) l0 g0 s0) (ha0 : AtMain s0 (.run hs (.open_ t :: cs)) [] m) (hi0 : Stock mv gl s0 hs st) :
    ∃ s' hs', Later (prog mv gl) s0 s' ∧ AtMain s' (.run hs' cs) [] (m ++ (fails t.said t.ends).map (Prod.mk st.length)) ∧
      Stock mv gl s' hs' (st ++ [born t.said t.ends]) := by
  obtain ⟨s, e0, ha, k0⟩ := loc_main (mv := mv) (gl := gl) (l' := .make t hs cs) (m' := m) (ev := [])
    (F' := [.hdl false fun e => .lost hs cs e]) ha0
    (by have := Local.try_ (P := prog mv gl) (s := s0) ha0.ctl (sw := false) (f := fun e => .lost hs cs e) (l' := .make t hs cs) rfl
        rw [ha0.g, ha0.fr] at this; exact this)
  have hi := hi0.still k0
  have hr := hr0.step e0
  have hy : Yields (B := List (Nat × Note V E)) (prog mv gl) s.nh () (.eval (.task s.nh t)) [] t.said t.ends := by
    have := job_yields (mv := mv) (gl := gl) (hp := s.nh) t (rest := []) (r := t.ends) [] (by simp)
      (by cases he : t.ends with
        | none => exact .ret
        | some e => exact .throw)
    simpa using this
  obtain ⟨s1, _, l1, c1, f1, g1, b1, hres⟩ := op_mk (P := prog mv gl) (a := ()) (b := m) (k := onHandle fun h => .made hs cs h) hr ⟨_, ha.ctl, rfl⟩ ha.g hy
  have r1 := l1.reach hr
  have h0 : (0 : Nat) ≠ s.nk := by
    have := (inv_reach hr).sched.lt_nk 0 (by rw [ha.base]; simp)
    omega
  have b0 : s1.base 0 = .main := (b1 0 h0).trans ha.base
  have old : ∀ {s'}, Keeps s.nk s.cur s s1 → Still s1 s' → ∀ (i : Nat) (o : Option Nat) (p : Option (List V × Option E)), hs[i]? = some o →
      Holds mv gl s o p → Holds mv gl s' o p := by
    intro s' K k' i o p _ ho
    refine Holds.still (s := s1) ?_ k'
    cases o with
    | none => cases p <;> exact ho
    | some h => exact ho.other fun xs r ho => ho.born hr K c1
  have hlt : ∀ i h : Nat, hs[i]? = some (some h) → h < s.nh := by
    intro i h hh
    obtain ⟨xs, r, -, hq⟩ := hi.obj hh
    exact (inv_reach hr).hok.lt _ hq.obj
  -- `}` of the try block
  have well : s1.ctl = .eval (.made hs cs (s.nh + 1)) → fails t.said t.ends = [] → born t.said t.ends = some (t.said, left t.said t.ends) →
      Has (prog mv gl) s1 (s.nh + 1) t.said (left t.said t.ends) → Keeps s.nk s.cur s s1 →
      ∃ s' hs', Later (prog mv gl) s0 s' ∧ AtMain s' (.run hs' cs) [] (m ++ (fails t.said t.ends).map (Prod.mk st.length)) ∧
        Stock mv gl s' hs' (st ++ [born t.said t.ends]) := by
    intro x1 hf hb hh K
    have a1 : AtMain s1 (.made hs cs (s.nh + 1)) _ m := ⟨x1, g1, c1.trans ha.cur, f1.trans ha.fr, b0⟩
    obtain ⟨s2, e2, a2, k2⟩ := loc_main (mv := mv) (gl := gl) (l' := .run (hs ++ [some (s.nh + 1)]) cs) (m' := m) (ev := []) (F' := []) a1
      (by have := Local.endTry (P := prog mv gl) (s := s1) a1.ctl (l' := .run (hs ++ [some (s.nh + 1)]) cs) rfl a1.fr; rw [a1.g] at this; exact this)
    have hn : Holds mv gl s2 (some (s.nh + 1)) (some (t.said, left t.said t.ends)) := Holds.still (s := s1) hh k2
    exact ⟨s2, _, ((Later.step .refl e0).trans l1).step e2, by simpa [hf] using a2, by
      rw [hb]
      exact hi.snoc (old K k2) hn (fun i h hh e => by
        have := hlt i h hh
        simp only [Option.some.injEq] at e
        omega)⟩
  rcases hres with ⟨v, ys, hxs, x1, q1, K⟩ | ⟨hxs, hre, x1, q1, K⟩ | ⟨e, hxs, hre, x1, K⟩
  · exact well x1 (by rw [hxs]; cases t.ends <;> rfl) (by rw [hxs]; cases t.ends <;> rfl) (by rw [hxs]; exact .ready q1) K
  · exact well x1 (by rw [hxs, hre]; rfl) (by rw [hxs, hre]; rfl) (by rw [hxs]; exact .empty q1) K
  · obtain ⟨s2, e2, a2, k2⟩ := catch_main (mv := mv) (gl := gl) x1 g1 (c1.trans ha.cur) (f1.trans ha.fr) b0
    obtain ⟨s3, e3, a3, k3⟩ := tau_main (mv := mv) (gl := gl) (l' := .run (hs ++ [none]) cs) (m' := m ++ [(hs.length, .failed e)]) a2 rfl
    exact ⟨s3, _, (((Later.step .refl e0).trans l1).step e2).step e3, by simpa [hxs, hre, fails, ← hi.len] using a3, by
      rw [hxs, hre]
      exact (hi.snoc (o := none) (p := none) (old K k2) trivial (fun _ _ _ => by simp)).still k3⟩

/-! ## The end -/

theorem clean (hs : List (Option Nat)) : ∀ (st : List (Option (List V × Option E))) (m : List (Nat × Note V E)) (s : S V E),
    Reach (prog mv gl) l0 g0 s → AtMain s (.clean hs) [] m → Stock mv gl s hs st →
    ∃ s', Later (prog mv gl) s s' ∧ step (prog mv gl) s' = .done s' ∧ s'.g = ((), m) := by
  induction hs with
  | nil =>
    intro st m s hr ha hi
    have e1 := (Local.ret (P := prog mv gl) ha.ctl rfl).fwd
    refine ⟨_, Later.step .refl e1, ?_, ha.g⟩
    simp [step, retStep, St.fr, ha.cur, ha.base, show s.frames 0 = [] by rw [← ha.cur]; exact ha.fr]
  | cons o hs ih =>
    intro st m s hr ha hi
    cases st with
    | nil => have := hi.len; simp at this
    | cons p st =>
    have it := hi.tail
    cases o with
    | none =>
      obtain ⟨s1, e1, a1, k1⟩ := tau_main (mv := mv) (gl := gl) (l' := .clean hs) (m' := m) ha rfl
      obtain ⟨s2, l2, e2, g2⟩ := ih st m s1 (hr.step e1) a1 (it.still k1)
      exact ⟨s2, (Later.step .refl e1).trans l2, e2, g2⟩
    | some h =>
      obtain ⟨xs, r, -, hq⟩ := hi.obj (j := 0) rfl
      obtain ⟨s1, l1, a1, k1⟩ := drop_main (l' := .clean hs) hr ha rfl hq
      obtain ⟨s2, l2, e2, g2⟩ := ih st m s1 (l1.reach hr) a1 ⟨it.len, fun i o p' h1 h2 => by
        have ho := it.has i o p' h1 h2
        cases o with
        | none => cases p' <;> exact ho
        | some h' =>
          refine ho.other fun xs r ho => k1 _ _ _ ?_ ho
          rintro rfl
          have := hi.inj (i + 1) 0 h' (by simpa using h1) rfl
          omega, it.inj⟩
      exact ⟨s2, l1.trans l2, e2, g2⟩

theorem run (cs : List (Cmd V E)) : ∀ (hs : List (Option Nat)) (st : List (Option (List V × Option E))) (m : List (Nat × Note V E)) (s : S V E),
    Reach (prog mv gl) l0 g0 s → AtMain s (.run hs cs) [] m → Stock mv gl s hs st →
    ∃ s', Later (prog mv gl) s s' ∧ step (prog mv gl) s' = .done s' ∧ s'.g = ((), m ++ serve cs st) := by
  induction cs with
  | nil =>
    intro hs st m s hr ha hi
    obtain ⟨s1, e1, a1, k1⟩ := tau_main (mv := mv) (gl := gl) (l' := .clean hs) (m' := m) ha rfl
    obtain ⟨s2, l2, e2, g2⟩ := clean hs st m s1 (hr.step e1) a1 (hi.still k1)
    exact ⟨s2, (Later.step .refl e1).trans l2, e2, by simpa [serve] using g2⟩
  | cons c cs ih =>
    intro hs st m s hr ha hi
    -- once the command has been carried out
    have next : ∀ {s1 : S V E} {hs1 : List (Option Nat)} {st1 : List (Option (List V × Option E))} {n : List (Nat × Note V E)},
        Later (prog mv gl) s s1 → AtMain s1 (.run hs1 cs) [] (m ++ n) → Stock mv gl s1 hs1 st1 → serve (c :: cs) st = n ++ serve cs st1 →
        ∃ s', Later (prog mv gl) s s' ∧ step (prog mv gl) s' = .done s' ∧ s'.g = ((), m ++ serve (c :: cs) st) := by
      intro s1 hs1 st1 n l1 a1 i1 e
      obtain ⟨s2, l2, e2, g2⟩ := ih hs1 st1 _ s1 (l1.reach hr) a1 i1
      exact ⟨s2, l1.trans l2, e2, by rw [g2, e, List.append_assoc]⟩
    -- the command is skipped
    have skip : (prog mv gl).code (.run hs (c :: cs)) ((), m) = .tau ((), m) (.run hs cs) → serve (c :: cs) st = serve cs st →
        ∃ s', Later (prog mv gl) s s' ∧ step (prog mv gl) s' = .done s' ∧ s'.g = ((), m ++ serve (c :: cs) st) := by
      intro hc he
      obtain ⟨s1, e1, a1, k1⟩ := tau_main (mv := mv) (gl := gl) (l' := .run hs cs) (m' := m) ha hc
      exact next (n := []) (Later.step .refl e1) (by simpa using a1) (hi.still k1) (by simpa using he)
    -- the object of a cursor
    have look : ∀ j : Nat, (∃ h, hs[j]? = some (some h)) ∨ (hs[j]? = none ∨ hs[j]? = some none) := by
      intro j
      rcases hs[j]? with _ | _ | h
      · exact .inr (.inl rfl)
      · exact .inr (.inr rfl)
      · exact .inl ⟨h, rfl⟩
    have none_ : ∀ j : Nat, (hs[j]? = none ∨ hs[j]? = some none) → ∀ p, st[j]? ≠ some (some p) := by
      intro j hj p
      refine hi.noObj (fun h hh => ?_) p
      rcases hj with hj | hj <;> rw [hj] at hh <;> cases hh
    cases c with
    | open_ t =>
      obtain ⟨s1, hs1, l1, a1, i1⟩ := open_main hr ha hi
      exact next l1 a1 i1 rfl
    | next j =>
      rcases look j with ⟨h, hj⟩ | hj
      · obtain ⟨xs, r, hx, -⟩ := hi.obj hj
        cases xs with
        | nil =>
          obtain ⟨s1, l1, a1, i1⟩ := turn_end ha hi hj hx
          exact next (n := []) l1 (by simpa using a1) i1 (by simp [serve, hx])
        | cons v ys =>
          obtain ⟨s1, l1, a1, i1⟩ := turn_value hr ha hi hj hx
          exact next l1 a1 i1 (by simp [serve, hx])
      · refine skip (by rcases hj with hj | hj <;> simp only [prog, code, hj]) ?_
        have := none_ j hj
        rcases hx : st[j]? with _ | _ | p
        · simp [serve, hx]
        · simp [serve, hx]
        · exact absurd hx (this p)
    | move j =>
      rcases look j with ⟨h, hj⟩ | hj
      · obtain ⟨s1, l1, a1, i1⟩ := move_main hr ha hi hj
        exact next (n := []) l1 (by simpa using a1) i1 rfl
      · exact skip (by rcases hj with hj | hj <;> simp only [prog, code, hj]) rfl
    | assign i j =>
      rcases look i with ⟨d, hd⟩ | hd
      · obtain ⟨xs, r, hx, -⟩ := hi.obj hd
        rcases look j with ⟨c, hc⟩ | hc
        · obtain ⟨ys, r', hy, -⟩ := hi.obj hc
          obtain ⟨s1, l1, a1, i1⟩ := assign_main hr ha hi hd hc hx hy
          exact next (n := []) l1 (by simpa using a1) i1 (by simp [serve, hx, hy])
        · refine skip (by rcases hc with hc | hc <;> simp only [prog, code, hd, hc]) ?_
          have := none_ j hc
          rcases hy : st[j]? with _ | _ | p
          · simp [serve, hx, hy]
          · simp [serve, hx, hy]
          · exact absurd hy (this p)
      · refine skip (by rcases hd with hd | hd <;> simp only [prog, code, hd]) ?_
        have := none_ i hd
        rcases hx : st[i]? with _ | _ | p
        · simp [serve, hx]
        · simp [serve, hx]
        · exact absurd hx (this p)
    | close j =>
      rcases look j with ⟨h, hj⟩ | hj
      · obtain ⟨s1, l1, a1, i1⟩ := close_main hr ha hi hj
        exact next (n := []) l1 (by simpa using a1) i1 rfl
      · refine skip (by rcases hj with hj | hj <;> simp only [prog, code, hj]) ?_
        have := none_ j hj
        have hst : st.set j none = st := by
          rcases hx : st[j]? with _ | _ | p
          · exact List.set_eq_of_length_le (List.getElem?_eq_none_iff.1 hx)
          · obtain ⟨hl, he⟩ := List.getElem?_eq_some_iff.1 hx
            rw [← he]; exact List.set_getElem_self hl
          · exact absurd hx (this p)
        rw [serve, hst]

end Cursors
end Verif
