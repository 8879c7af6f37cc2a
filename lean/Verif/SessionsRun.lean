import Verif.ExSessions
import Verif.EventsRun

/-!
# Executing sessions that are opened, served, moved and closed (proof material for C75)
-/
namespace Verif
section
variable {L B V E : Type} {P : Prog L (Unit × B) V E} {s : St L (Unit × B) V E} {h : Nat} {k : Res V → L} {hd : Handle}
  {l0 : L} {g0 : Unit × B} {p : Option (Nat → L → List (Frame L V E) → Prop)}

/-- the move constructor -/
theorem op_moveCtor (hc : Calls P s (.moveCtor h) k) (ho : s.hs h = some hd) :
    ∃ s', Later P s s' ∧ s' = { s with
      ctl := .eval (k (.handle s.nh)), hs := upd (upd s.hs h (some { hd with cb := none })) s.nh (some hd), nh := s.nh + 1, log := s'.log } := by
  obtain ⟨l, h1, h2⟩ := hc
  have e1 : step P s = .next { s with
      frames := upd s.frames s.cur (.usr k :: s.fr), ctl := .deliver (.handle s.nh)
      hs := upd (upd s.hs h (some { hd with cb := none })) s.nh (some hd), nh := s.nh + 1 } := by
    simp [step, evalStep, h1, h2, apiStep, St.pushFr, St.setFr, ho, newHandle, St.withCtl]
  have e2 := Local.fwd (P := P) (.dUsr (s := { s with
      frames := upd s.frames s.cur (.usr k :: s.fr), ctl := .deliver (.handle s.nh)
      hs := upd (upd s.hs h (some { hd with cb := none })) s.nh (some hd), nh := s.nh + 1 }) rfl (upd_at ..))
  refine ⟨_, (Later.step .refl e1).step e2, ?_⟩
  simp [upd_upd, upd_self', St.fr]

/-- the destructor of an empty object -/
theorem op_dropEmpty (hc : Calls P s (.destroy h) k) (ho : s.hs h = some hd) (hn : hd.cb = none) :
    ∃ s', Later P s s' ∧ s' = { s with ctl := .eval (k .unit), hs := upd s.hs h none, log := s'.log } := by
  obtain ⟨l, h1, h2⟩ := hc
  have e1 : step P s = .next { s with frames := upd s.frames s.cur (.usr k :: s.fr), ctl := .deliver .unit, hs := upd s.hs h none } := by
    simp [step, evalStep, h1, h2, apiStep, St.pushFr, St.setFr, ho, destroyHandle, hn, St.withCtl]
  have e2 := Local.fwd (P := P) (.dUsr (s := { s with frames := upd s.frames s.cur (.usr k :: s.fr), ctl := .deliver .unit, hs := upd s.hs h none })
    rfl (upd_at ..))
  refine ⟨_, (Later.step .refl e1).step e2, ?_⟩
  simp [upd_upd, upd_self', St.fr]

/-- the coroutine object `h` has been moved to `s.nh`, and destroyed -/
theorem Hears.moved {s' : St L (Unit × B) V E} {h1 h2 : Nat} (hr : Reach P l0 g0 s) (hq : Hears s h1 p) (hobj : ∃ r, s.hs h = some ⟨.push, .val, some ⟨r, .own⟩⟩)
    (e1 : ∀ i, i ≠ h → i ≠ s.nh → s'.hs i = s.hs i) (e : s'.hs h2 = s.hs h1) (e2 : s'.base = s.base) (e3 : s'.kind = s.kind) (e4 : s'.va = s.va)
    (e5 : s'.cbs = s.cbs) (e6 : s'.fib = s.fib) (e7 : s'.frames = s.frames) (e8 : s'.cur = s.cur) : Hears s' h2 p := by
  refine hq.same (fun c hp hi => ⟨fun _ => by rw [e5], fun _ => by rw [e6], by rw [e2], by rw [e3], by rw [e4], by rw [e7], e1 _ ?_ ?_⟩) e e8
  · rintro rfl
    obtain ⟨r, ho⟩ := hobj
    rw [hi.cnt] at ho
    cases ho
  · have := (inv_reach hr).hok.lt hp (by rw [hi.cnt]; simp)
    omega

end

namespace Sessions
open Events (React)
variable {Q V E : Type} {δ : Q → V → React Q E} {mv : V → V} {gl : Bool} {l0 : Pt Q V E} {g0 : Unit × List (Nat × Note V E)}

abbrev S (Q V E : Type) := St (Pt Q V E) (Unit × List (Nat × Note V E)) V E
abbrev Fr (Q V E : Type) := List (Frame (Pt Q V E) V E)

/-! ## The sessions -/

/-- the calls session `j` is in when it holds the objects `os` -/
def calls (j : Nat) : List Nat → Fr Q V E
  | [] => []
  | o :: os => .gObj (Nat.pair j o) :: .fnRet .leave :: calls j os

theorem calls_plain (j : Nat) (os : List Nat) : ∀ f ∈ (calls j os : Fr Q V E), Plain f := by
  induction os with
  | nil => simp [calls]
  | cons o os ih => simpa [calls, Plain] using ih

theorem calls_locals (j : Nat) (os : List Nat) : locals (calls j os : Fr Q V E) = os.map (Nat.pair j) := by
  induction os with
  | nil => rfl
  | cons o os ih => simpa [calls, locals] using ih

/-- the notes of the destructors -/
theorem undone_notes (j : Nat) (os : List Nat) : ∀ m : List (Nat × Note V E),
    undone (prog δ mv gl) (os.map (Nat.pair j)) ((), m) = ((), m ++ os.map fun o => (j, .freed o)) := by
  induction os with
  | nil => intro m; simp [undone]
  | cons o os ih =>
    intro m
    have := ih (m ++ [(j, .freed o)])
    simp only [undone] at this
    simp [undone, prog] at this ⊢
    exact this

theorem leaves {j hp : Nat} {v : V} (os : List Nat) : ∀ m : List (Nat × Note V E),
    Takes (prog δ mv gl) hp ((), m) v .retn (calls j os) ((), m ++ os.map fun o => (j, .freed o)) (.ends none) := by
  induction os with
  | nil => intro m; simpa [calls] using Takes.ret
  | cons o os ih =>
    intro m
    refine .objRet (.fnRet (.back rfl ?_))
    have := ih (m ++ [(j, .freed o)])
    simpa [prog] using this

theorem raises {j hp : Nat} {v : V} {e : E} (os : List Nat) : ∀ m : List (Nat × Note V E),
    Takes (prog δ mv gl) hp ((), m) v (.raise (.user e)) (calls j os) ((), m ++ os.map fun o => (j, .freed o)) (.ends (some e)) := by
  induction os with
  | nil => intro m; simpa [calls] using Takes.throw
  | cons o os ih =>
    intro m
    refine .objThrow (.fnThrow ?_)
    have := ih (m ++ [(j, .freed o)])
    simpa [prog] using this

/-- session `j` waits in the state `q` and holds the objects `os` -/
def Waits (j : Nat) (p : Q × List Nat) (hp : Nat) (l : Pt Q V E) (F : Fr Q V E) : Prop := l = .wake hp j p.1 ∧ F = calls j p.2

theorem takes {hp j : Nat} {q : Q} {os : List Nat} {m : List (Nat × Note V E)} {v : V} :
    match δ q v with
    | .again q' => Takes (prog δ mv gl) hp ((), m) v (.eval (.wake hp j q)) (calls j os) ((), m ++ [(j, .heard v)]) (.asks (.wake hp j q') (calls j os))
    | .deep o q' => Takes (prog δ mv gl) hp ((), m) v (.eval (.wake hp j q)) (calls j os) ((), m ++ [(j, .heard v), (j, .held o)])
        (.asks (.wake hp j q') (calls j (o :: os)))
    | .quit => Takes (prog δ mv gl) hp ((), m) v (.eval (.wake hp j q)) (calls j os) ((), m ++ [(j, .heard v)] ++ os.map fun o => (j, .freed o)) (.ends none)
    | .fail e => Takes (prog δ mv gl) hp ((), m) v (.eval (.wake hp j q)) (calls j os) ((), m ++ [(j, .heard v)] ++ os.map fun o => (j, .freed o))
        (.ends (some e)) := by
  have first : ∀ g' st, Takes (prog δ mv gl) hp ((), m ++ [(j, .heard v)]) (mv v) (.eval (.act hp j (δ q v))) (calls j os) g' st →
      Takes (prog δ mv gl) hp ((), m) v (.eval (.wake hp j q)) (calls j os) g' st := fun g' st ht =>
    .get (k := onVal fun v => .got hp j q v) rfl (.tau (l' := .act hp j (δ q v)) (g1 := ((), m ++ [(j, .heard v)])) rfl ht)
  cases hd : δ q v with
  | again q' =>
    rw [hd] at first
    exact first _ _ (Takes.askOp (P := prog δ mv gl) (l := .act hp j (.again q')) (k := fun _ => Pt.wake hp j q') rfl)
  | deep o q' =>
    rw [hd] at first
    refine first _ _ (.call (l1 := .sub hp j o q') (l' := .leave) rfl (.obj (o := Nat.pair j o) (l' := .kept hp j o q') rfl
      (.tau (l' := .ask hp j q') (g1 := ((), m ++ [(j, .heard v)] ++ [(j, .held o)])) rfl ?_)))
    have := Takes.askOp (P := prog δ mv gl) (hp := hp) (g := ((), m ++ [(j, .heard v)] ++ [(j, .held o)])) (v := mv v) (l := .ask hp j q')
      (F := calls j (o :: os)) (k := fun _ => .wake hp j q') rfl
    simpa [calls] using this
  | quit => rw [hd] at first; exact first _ _ (.back rfl (leaves os _))
  | fail e => rw [hd] at first; exact first _ _ (.raise rfl (raises os _))

/-! ## Main -/

/-- main, outside every call of the library, with the stack `F` -/
structure AtMain (s : S Q V E) (l : Pt Q V E) (F : Fr Q V E) (m : List (Nat × Note V E)) : Prop where
  ctl : s.ctl = .eval l
  g : s.g = ((), m)
  cur : s.cur = 0
  fr : s.fr = F
  base : s.base 0 = .main

/-- the object at place `i` of `hs` is in the state at place `i` of `st`, and no object is listed twice -/
structure Stock (s : S Q V E) (hs : List (Option Nat)) (st : List (Option (Q × List Nat))) : Prop where
  len : hs.length = st.length
  has : ∀ (i h : Nat) (o : Option (Q × List Nat)), hs[i]? = some (some h) → st[i]? = some o → Hears s h (o.map (Waits i))
  gone : ∀ i : Nat, hs[i]? = some none → st[i]? = some none
  inj : ∀ i j h : Nat, hs[i]? = some (some h) → hs[j]? = some (some h) → i = j

/-- no coroutine and no object has changed -/
structure Still (s s' : S Q V E) : Prop where
  hs : s'.hs = s.hs
  base : s'.base = s.base
  kind : s'.kind = s.kind
  va : s'.va = s.va
  cbs : s'.cbs = s.cbs
  fib : s'.fib = s.fib
  frames : ∀ d, d ≠ s.cur → s'.frames d = s.frames d
  cur : s'.cur = s.cur

theorem Still.hears {s s' : S Q V E} {h : Nat} {p : Option (Nat → Pt Q V E → Fr Q V E → Prop)} (k : Still s s') (hq : Hears s h p) : Hears s' h p :=
  hq.congr k.hs k.base k.kind k.va k.cbs k.fib k.frames k.cur

theorem Stock.still {s s' : S Q V E} {hs : List (Option Nat)} {st : List (Option (Q × List Nat))} (hi : Stock s hs st) (k : Still s s') : Stock s' hs st :=
  ⟨hi.len, fun i o p h1 h2 => k.hears (hi.has i o p h1 h2), hi.gone, hi.inj⟩

/-- a step of main that leaves the coroutines alone -/
theorem loc_main {s : S Q V E} {l l' : Pt Q V E} {F F' : Fr Q V E} {m m' : List (Nat × Note V E)} {ev : List (Ev V E)}
    (ha : AtMain s l F m) (hc : Local (prog δ mv gl) s ((), m') F' (.eval l') ev) :
    ∃ s', step (prog δ mv gl) s = .next s' ∧ AtMain s' l' F' m' ∧ Still s s' := by
  refine ⟨_, hc.fwd, ⟨rfl, rfl, ha.cur, by simp [St.fr], ha.base⟩, ⟨rfl, rfl, rfl, rfl, rfl, rfl, fun d hd => upd_off _ _ hd, rfl⟩⟩

theorem tau_main {s : S Q V E} {l l' : Pt Q V E} {F : Fr Q V E} {m m' : List (Nat × Note V E)}
    (ha : AtMain s l F m) (hc : (prog δ mv gl).code l ((), m) = .tau ((), m') l') :
    ∃ s', step (prog δ mv gl) s = .next s' ∧ AtMain s' l' F m' ∧ Still s s' :=
  loc_main (ev := []) ha (by have := Local.tau (P := prog δ mv gl) (s := s) (g := ((), m')) (l' := l') ha.ctl (by rw [ha.g]; exact hc); rw [ha.fr] at this; exact this)

/-- the exception is caught -/
theorem catch_main {s : S Q V E} {e : E} {f : E → Pt Q V E} {F : Fr Q V E} {m : List (Nat × Note V E)} {sw : Bool}
    (hx : s.ctl = .raise (.user e)) (hg : s.g = ((), m)) (hc : s.cur = 0) (hf : s.fr = .hdl sw f :: F) (hb : s.base 0 = .main) :
    ∃ s', step (prog δ mv gl) s = .next s' ∧ AtMain s' (f e) F m ∧ Still s s' := by
  refine ⟨_, (Local.rCatch (P := prog δ mv gl) hx hf).fwd, ⟨rfl, hg, hc, by simp [St.fr], hb⟩, ⟨rfl, rfl, rfl, rfl, rfl, rfl, fun d hd => upd_off _ _ hd, rfl⟩⟩

variable {s : S Q V E} {hs : List (Option Nat)} {st : List (Option (Q × List Nat))} {j h : Nat} {v : V} {cs : List (Cmd Q V)} {m : List (Nat × Note V E)}

/-- `if ( sink)` -/
theorem bool_main {o : Option (Q × List Nat)}
    (ha : AtMain s (.run hs (.send j v :: cs)) [] m) (hi : Stock s hs st) (hj : hs[j]? = some (some h)) (hx : st[j]? = some o) :
    ∃ s', Later (prog δ mv gl) s s' ∧ AtMain s' (.check hs cs j h v o.isSome) [] m ∧ Still s s' := by
  obtain ⟨s1, l1, h1⟩ := (hi.has j h o hj hx).bool (P := prog δ mv gl) (k := onBool fun b => .check hs cs j h v b) ⟨_, ha.ctl, by
    simp only [prog, code, hj]⟩
  refine ⟨s1, l1, ⟨?_, by rw [h1]; exact ha.g, by rw [h1]; exact ha.cur, by rw [h1]; exact ha.fr, by rw [h1]; exact ha.base⟩,
    ⟨by rw [h1], by rw [h1], by rw [h1], by rw [h1], by rw [h1], by rw [h1], fun _ _ => by rw [h1], by rw [h1]⟩⟩
  rw [h1]
  cases o <;> rfl

/-- the coroutine of session `j` has been used, its object may have been replaced or destroyed -/
theorem Stock.set {s' : S Q V E} {o : Option (Q × List Nat)} {h0 : Option Nat}
    (hi : Stock s hs st) (hj : hs[j]? = some (some h)) (hg : h0 = none → o = none) (hh : ∀ h1, h0 = some h1 → Hears s' h1 (o.map (Waits j)))
    (hf : ∀ h1, h0 = some h1 → h1 = h ∨ ∀ i : Nat, hs[i]? ≠ some (some h1))
    (hk : ∀ (h' : Nat) p, (∃ i : Nat, hs[i]? = some (some h')) → h' ≠ h → Hears s h' p → Hears s' h' p) : Stock s' (hs.set j h0) (st.set j o) := by
  have hlt : j < hs.length := (List.getElem?_eq_some_iff.1 hj).1
  have hlt' : j < st.length := by rw [← hi.len]; exact hlt
  refine ⟨by simpa using hi.len, fun i h' p g1 g2 => ?_, fun i g1 => ?_, fun i i' h' g1 g2 => ?_⟩
  · by_cases hij : i = j
    · subst hij
      rw [List.getElem?_set_self hlt] at g1
      rw [List.getElem?_set_self hlt'] at g2
      obtain rfl : o = p := by simpa using g2
      exact hh h' (by simpa using g1)
    · rw [List.getElem?_set_ne (Ne.symm hij)] at g1 g2
      refine hk h' _ ⟨i, g1⟩ ?_ (hi.has i h' p g1 g2)
      rintro rfl
      exact hij (hi.inj i j _ g1 hj)
  · by_cases hij : i = j
    · subst hij
      rw [List.getElem?_set_self hlt] at g1
      rw [List.getElem?_set_self hlt', hg (by simpa using g1)]
    · rw [List.getElem?_set_ne (Ne.symm hij)] at g1 ⊢
      exact hi.gone i g1
  · have key : ∀ i : Nat, i ≠ j → hs[i]? = some (some h') → h0 = some h' → False := by
      intro i hn g e
      rcases hf h' e with rfl | hf
      · exact hn (hi.inj i j _ g hj)
      · exact hf i g
    by_cases hij : i = j <;> by_cases hij' : i' = j
    · rw [hij, hij']
    · subst hij
      rw [List.getElem?_set_self hlt] at g1
      rw [List.getElem?_set_ne (Ne.symm hij')] at g2
      exact (key i' hij' g2 (by simpa using g1)).elim
    · subst hij'
      rw [List.getElem?_set_self hlt] at g2
      rw [List.getElem?_set_ne (Ne.symm hij)] at g1
      exact (key i hij g1 (by simpa using g2)).elim
    · rw [List.getElem?_set_ne (Ne.symm hij)] at g1
      rw [List.getElem?_set_ne (Ne.symm hij')] at g2
      exact hi.inj i i' h' g1 g2

/-- the object stays where it is -/
theorem Stock.put {s' : S Q V E} {o : Option (Q × List Nat)} (hi : Stock s hs st) (hj : hs[j]? = some (some h)) (hh : Hears s' h (o.map (Waits j)))
    (hk : ∀ (h' : Nat) p, h' ≠ h → Hears s h' p → Hears s' h' p) : Stock s' hs (st.set j o) := by
  have := hi.set (s' := s') (o := o) (h0 := some h) hj (by simp) (by rintro h1 ⟨⟩; exact hh) (by rintro h1 ⟨⟩; exact .inl rfl) (fun h' p _ => hk h' p)
  rwa [show hs.set j (some h) = hs by
    obtain ⟨hl, he⟩ := List.getElem?_eq_some_iff.1 hj
    rw [← he]; exact List.set_getElem_self hl] at this

/-- an event for a session that has ended -/
theorem send_lost (ha : AtMain s (.run hs (.send j v :: cs)) [] m) (hi : Stock s hs st) (hx : st[j]? = some none) :
    ∃ s', Later (prog δ mv gl) s s' ∧ AtMain s' (.run hs cs) [] (m ++ [(j, .lost v)]) ∧ Stock s' hs st := by
  have hlt : j < hs.length := by rw [hi.len]; exact (List.getElem?_eq_some_iff.1 hx).1
  cases hj : hs[j]? with
  | none => exact absurd (List.getElem?_eq_none_iff.1 hj) (by omega)
  | some o =>
    cases o with
    | none =>
      obtain ⟨s2, e2, a2, k2⟩ := tau_main (δ := δ) (mv := mv) (gl := gl) (l' := .run hs cs) (m' := m ++ [(j, .lost v)]) ha (by simp only [prog, code, hj])
      exact ⟨s2, Later.step .refl e2, a2, hi.still k2⟩
    | some h =>
      obtain ⟨s1, l1, a1, k1⟩ := bool_main (δ := δ) (mv := mv) (gl := gl) ha hi hj hx
      obtain ⟨s2, e2, a2, k2⟩ := tau_main (δ := δ) (mv := mv) (gl := gl) (l' := .run hs cs) (m' := m ++ [(j, .lost v)]) a1 rfl
      exact ⟨s2, l1.step e2, a2, (hi.still k1).still k2⟩

/-- the object of a session that has not ended -/
theorem Stock.obj {p : Q × List Nat} (hi : Stock s hs st) (hx : st[j]? = some (some p)) : ∃ h, hs[j]? = some (some h) := by
  have hlt : j < hs.length := by rw [hi.len]; exact (List.getElem?_eq_some_iff.1 hx).1
  cases hj : hs[j]? with
  | none => exact absurd (List.getElem?_eq_none_iff.1 hj) (by omega)
  | some o =>
    cases o with
    | none => have := hi.gone j hj; rw [hx] at this; cases this
    | some h => exact ⟨h, rfl⟩

/-- an event for a session that waits -/
theorem send_heard {q : Q} {os : List Nat} (hr : Reach (prog δ mv gl) l0 g0 s) (ha : AtMain s (.run hs (.send j v :: cs)) [] m) (hi : Stock s hs st)
    (hx : st[j]? = some (some (q, os))) :
    ∃ s', Later (prog δ mv gl) s s' ∧
      match δ q v with
      | .again q' => AtMain s' (.run hs cs) [] (m ++ [(j, .heard v)]) ∧ Stock s' hs (st.set j (some (q', os)))
      | .deep o q' => AtMain s' (.run hs cs) [] (m ++ [(j, .heard v), (j, .held o)]) ∧ Stock s' hs (st.set j (some (q', o :: os)))
      | .quit => AtMain s' (.run hs cs) [] (m ++ [(j, .heard v)] ++ os.map fun o => (j, .freed o)) ∧ Stock s' hs (st.set j none)
      | .fail e => AtMain s' (.run hs cs) [] (m ++ [(j, .heard v)] ++ (os.map fun o => (j, .freed o)) ++ [(j, .failed e)]) ∧ Stock s' hs (st.set j none) := by
  obtain ⟨h, hj⟩ := hi.obj hx
  obtain ⟨s1, l1, a1, k1⟩ := bool_main (δ := δ) (mv := mv) (gl := gl) ha hi hj hx
  obtain ⟨s2, e2, a2, k2⟩ := loc_main (δ := δ) (mv := mv) (gl := gl) (l' := .send hs cs h v) (m' := m) (ev := [])
    (F' := [.hdl false fun e => .caught hs cs j e]) a1
    (by have := Local.try_ (P := prog δ mv gl) (s := s1) a1.ctl (sw := false) (f := fun e => .caught hs cs j e) (l' := .send hs cs h v) rfl
        rw [a1.g, a1.fr] at this; exact this)
  have r2 := (l1.reach hr).step e2
  have i2 := (hi.still k1).still k2
  have hq : Hears s2 h (some (Waits j (q, os))) := i2.has j h (some (q, os)) hj hx
  have l2 := l1.step e2
  cases hq with
  | @sink c hp l F _ hq hF hw =>
    obtain ⟨rfl, rfl⟩ := hw
    have ht := takes (δ := δ) (mv := mv) (gl := gl) (hp := hp) (j := j) (q := q) (os := os) (m := m) (v := v)
    have hid := hq.idle hF
    have push := fun g' st' (ht : Takes (prog δ mv gl) hp s2.g v (.eval (.wake hp j q)) (calls j os) g' st') =>
      op_push (P := prog δ mv gl) (w := v) (k := fun _ => .went hs cs) r2 hq ⟨.send hs cs h v, a2.ctl, rfl⟩ .op .copy ht
    have keep : ∀ s3, Keeps c s2.cur s2 s3 → s3.cur = s2.cur → ∀ s4, Still s3 s4 → ∀ (h' : Nat) p, h' ≠ h → Hears s2 h' p → Hears s4 h' p :=
      fun s3 k3 c3 s4 k4 h' p hn hh => k4.hears (hh.keep r2 hid hn k3 c3)
    have hne : (0 : Nat) ≠ c := by have := hid.ne; rwa [a2.cur] at this
    have well : ∀ s3 m' (o : Option (Q × List Nat)), Later (prog δ mv gl) s2 s3 → s3.ctl = .eval (.went hs cs) → s3.g = ((), m') → s3.cur = s2.cur → s3.fr = s2.fr →
        Keeps c s2.cur s2 s3 → Hears s3 h (o.map (Waits j)) →
        ∃ s', Later (prog δ mv gl) s s' ∧ AtMain s' (.run hs cs) [] m' ∧ Stock s' hs (st.set j o) := by
      intro s3 m' o l3 x3 g3 c3 f3 k3 hh
      have a3 : AtMain s3 (.went hs cs) _ m' := ⟨x3, g3, c3.trans a2.cur, f3.trans a2.fr, (k3.base 0 hne).trans a2.base⟩
      obtain ⟨s4, e4, a4, k4⟩ := loc_main (δ := δ) (mv := mv) (gl := gl) (l' := .run hs cs) (m' := m') (ev := []) (F' := []) a3
        (by have := Local.endTry (P := prog δ mv gl) (s := s3) a3.ctl (l' := .run hs cs) rfl a3.fr; rw [a3.g] at this; exact this)
      exact ⟨s4, (l2.trans l3).step e4, a4, i2.put hj (k4.hears hh) (keep s3 k3 c3 s4 k4)⟩
    cases hd : δ q v with
    | again q' =>
      rw [hd] at ht
      obtain ⟨s3, l3, c3, f3, g3, -, k3, _, -, x3, q3⟩ := push _ _ (by rw [a2.g]; exact ht)
      exact well s3 _ (some (q', os)) l3 x3 g3 c3 f3 k3 (.sink q3 (calls_plain _ _) ⟨rfl, rfl⟩)
    | deep o q' =>
      rw [hd] at ht
      obtain ⟨s3, l3, c3, f3, g3, -, k3, _, -, x3, q3⟩ := push _ _ (by rw [a2.g]; exact ht)
      exact well s3 _ (some (q', o :: os)) l3 x3 g3 c3 f3 k3 (.sink q3 (calls_plain _ _) ⟨rfl, rfl⟩)
    | quit =>
      rw [hd] at ht
      obtain ⟨s3, l3, c3, f3, g3, -, k3, _, -, x3, q3⟩ := push _ _ (by rw [a2.g]; exact ht)
      exact well s3 _ none l3 x3 g3 c3 f3 k3 (.spent q3)
    | fail e =>
      rw [hd] at ht
      obtain ⟨s3, l3, c3, f3, g3, -, k3, x3, q3⟩ := push _ _ (by rw [a2.g]; exact ht)
      obtain ⟨s4, e4, a4, k4⟩ := catch_main (δ := δ) (mv := mv) (gl := gl) x3 g3 (c3.trans a2.cur) (f3.trans a2.fr) ((k3.base 0 hne).trans a2.base)
      obtain ⟨s5, e5, a5, k5⟩ := tau_main (δ := δ) (mv := mv) (gl := gl) (l' := .run hs cs) (m' := _ ++ [(j, .failed e)]) a4 rfl
      have hh : Hears s3 h (Option.map (Waits j) (none : Option (Q × List Nat))) := .spent q3
      exact ⟨s5, ((l2.trans l3).step e4).step e5, a5, (i2.put hj (k4.hears hh) (keep s3 k3 c3 s4 k4)).still k5⟩

/-- a coroutine is destroyed -/
theorem drop_main {l : Pt Q V E} {l' : Pt Q V E} {o : Option (Q × List Nat)} (hr : Reach (prog δ mv gl) l0 g0 s) (ha : AtMain s l [] m)
    (hc : (prog δ mv gl).code l ((), m) = .api (.destroy h) fun _ => l') (hq : Hears s h (o.map (Waits j))) :
    ∃ s', Later (prog δ mv gl) s s' ∧ AtMain s' l' [] (m ++ (o.elim [] Prod.snd).map fun x => (j, .freed x)) ∧
      ∀ (h' : Nat) p, h' ≠ h → Hears s h' p → Hears s' h' p := by
  have hl : ∃ c hp, PIdle s h c hp ∧ locals (s.frames c) = (o.elim [] Prod.snd).map (Nat.pair j) := by
    cases o with
    | none =>
      cases hq with
      | @spent c hp x hq => exact ⟨c, hp, hq.idle, by rw [hq.over.frames]; rfl⟩
    | some p =>
      cases hq with
      | @sink c hp l F _ hq hF hw => exact ⟨c, hp, hq.idle hF, by rw [hq.hungry.objs, hw.2, calls_locals]; rfl⟩
  obtain ⟨c, hp, q, hl⟩ := hl
  obtain ⟨s2, l2, -, x2, f2, g2, -, k2⟩ := op_dropPush_spares hr q (by rw [ha.ctl]; simp) (.api ha.ctl (by rw [ha.g]; exact hc)) rfl
  rw [hl, ha.g, undone_notes] at g2
  have e3 := (Local.dUsr (P := prog δ mv gl) x2 f2).fwd
  have h0 : (0 : Nat) ≠ c := by have := q.ne; rwa [ha.cur] at this
  refine ⟨_, l2.step e3, ⟨rfl, g2, k2.cur.trans ha.cur, by show upd _ _ _ _ = _; rw [upd_at]; exact ha.fr, (k2.base 0 h0).trans ha.base⟩, ?_⟩
  intro h' p hn hh
  exact (hh.spared hr q hn k2).congr rfl rfl rfl rfl rfl rfl (fun d hd => upd_off _ _ hd) rfl

/-- a coroutine object is moved -/
theorem move_main (hr : Reach (prog δ mv gl) l0 g0 s) (ha : AtMain s (.run hs (.move j :: cs)) [] m) (hi : Stock s hs st) (hj : hs[j]? = some (some h)) :
    ∃ s', Later (prog δ mv gl) s s' ∧ AtMain s' (.run (hs.set j (some s.nh)) cs) [] m ∧ Stock s' (hs.set j (some s.nh)) st := by
  have hlt : j < st.length := by rw [← hi.len]; exact (List.getElem?_eq_some_iff.1 hj).1
  have hx : st[j]? = some st[j] := List.getElem?_eq_getElem hlt
  have hq := hi.has j h _ hj hx
  obtain ⟨c, hp, q⟩ := hq.idle
  have hnh : ∀ i, s.hs i ≠ none → i ≠ s.nh := fun i hi => by have := (inv_reach hr).hok.lt i hi; omega
  have hh : h ≠ s.nh := hnh h (by rw [q.obj]; simp)
  obtain ⟨s1, l1, h1⟩ := op_moveCtor (P := prog δ mv gl) (k := onHandle fun h' => .moved hs cs j h h') ⟨_, ha.ctl, by simp only [prog, code, hj]⟩ q.obj
  have o1 : s1.hs h = some ⟨.push, .val, none⟩ := by rw [h1]; simp [upd, hh]
  obtain ⟨s2, l2, h2⟩ := op_dropEmpty (P := prog δ mv gl) (k := fun _ => .run (hs.set j (some s.nh)) cs)
    ⟨.moved hs cs j h s.nh, by rw [h1]; rfl, rfl⟩ o1 rfl
  have other : ∀ i, i ≠ h → i ≠ s.nh → s2.hs i = s.hs i := by
    intro i n1 n2; rw [h2, h1]; simp [upd, n1, n2]
  have self : s2.hs s.nh = s.hs h := by rw [h2, h1]; simp [upd, hh.symm, q.obj]
  refine ⟨s2, l1.trans l2, ⟨by rw [h2], by rw [h2, h1]; exact ha.g, by rw [h2, h1]; exact ha.cur, by rw [h2, h1]; exact ha.fr, by rw [h2, h1]; exact ha.base⟩, ?_⟩
  have mv' : ∀ (h1' h2' : Nat) p, Hears s h1' p → s2.hs h2' = s.hs h1' → Hears s2 h2' p := fun h1' h2' p hp he =>
    hp.moved hr ⟨c, q.obj⟩ other he (by rw [h2, h1]) (by rw [h2, h1]) (by rw [h2, h1]) (by rw [h2, h1]) (by rw [h2, h1]) (by rw [h2, h1]) (by rw [h2, h1])
  have := hi.set (s' := s2) (o := st[j]) (h0 := some s.nh) hj (by simp) (by rintro h1 ⟨⟩; exact mv' _ _ _ hq self)
    (by
      rintro h1 ⟨⟩
      refine .inr fun i hi' => ?_
      have hl : i < st.length := by rw [← hi.len]; exact (List.getElem?_eq_some_iff.1 hi').1
      obtain ⟨_, _, q'⟩ := (hi.has i s.nh _ hi' (List.getElem?_eq_getElem hl)).idle
      exact hnh s.nh (by rw [q'.obj]; simp) rfl)
    (fun h' p _ hn hh' => mv' h' h' p hh' (by
      obtain ⟨_, _, q'⟩ := hh'.idle
      exact other h' hn (hnh h' (by rw [q'.obj]; simp))))
  rwa [List.set_getElem_self hlt] at this

/-- a new session -/
theorem open_main {q : Q} (hr : Reach (prog δ mv gl) l0 g0 s) (ha : AtMain s (.run hs (.open_ q :: cs)) [] m) (hi : Stock s hs st) :
    ∃ s' hs', Later (prog δ mv gl) s s' ∧ AtMain s' (.run hs' cs) [] m ∧ Stock s' hs' (st ++ [some (q, [])]) := by
  obtain ⟨s1, l1, c1, f1, g1, n1, K, x1, q1⟩ := op_mkPush (P := prog δ mv gl) (k := onHandle fun h => .run (hs ++ [some h]) cs) hr ⟨_, ha.ctl, rfl⟩
  have h0 : (0 : Nat) ≠ s.nk := by
    have := (inv_reach hr).sched.lt_nk 0 (by rw [ha.base]; simp)
    omega
  have hlt : ∀ i h : Nat, hs[i]? = some (some h) → h < s.nh := by
    intro i h hh
    have hl : i < st.length := by rw [← hi.len]; exact (List.getElem?_eq_some_iff.1 hh).1
    obtain ⟨_, _, hq⟩ := (hi.has i h _ hh (List.getElem?_eq_getElem hl)).idle
    exact (inv_reach hr).hok.lt _ (by rw [hq.obj]; simp)
  have split : ∀ (i : Nat) (o : Option Nat), (hs ++ [some (s.nh + 1)])[i]? = some o → (hs[i]? = some o ∧ i < hs.length) ∨ (i = hs.length ∧ o = some (s.nh + 1)) := by
    intro i h hh
    rcases Nat.lt_trichotomy i hs.length with hl | rfl | hl
    · rw [List.getElem?_append_left hl] at hh; exact .inl ⟨hh, hl⟩
    · simp at hh; exact .inr ⟨rfl, hh.symm⟩
    · rw [List.getElem?_eq_none (by simp; omega)] at hh; cases hh
  have i1 : Stock s1 (hs ++ [some (s.nh + 1)]) (st ++ [some (q, [])]) := by
    refine ⟨by simp [hi.len], fun i h o g1 g2 => ?_, fun i g1 => ?_, fun i j h g1 g2 => ?_⟩
    · rcases split i _ g1 with ⟨g1, hl⟩ | ⟨rfl, e⟩
      · rw [List.getElem?_append_left (by rw [← hi.len]; exact hl)] at g2
        exact (hi.has i h o g1 g2).born hr K c1
      · cases e
        rw [hi.len] at g2
        simp at g2
        subst g2
        exact .sink q1 (by simp) ⟨rfl, rfl⟩
    · rcases split i _ g1 with ⟨g1, hl⟩ | ⟨rfl, e⟩
      · rw [List.getElem?_append_left (by rw [← hi.len]; exact hl)]
        exact hi.gone i g1
      · cases e
    · rcases split i _ g1 with ⟨g1, hl⟩ | ⟨rfl, e⟩ <;> rcases split j _ g2 with ⟨g2, hl'⟩ | ⟨rfl, e'⟩
      · exact hi.inj i j h g1 g2
      · have := hlt i h g1; cases e'; omega
      · have := hlt j h g2; cases e; omega
      · rfl
  exact ⟨s1, _, l1, ⟨x1, g1.trans ha.g, c1.trans ha.cur, f1.trans ha.fr, (K.base 0 h0).trans ha.base⟩, i1⟩

theorem clean (hs : List (Option Nat)) : ∀ (n : Nat) (st : List (Option (Q × List Nat))) (m : List (Nat × Note V E)) (s : S Q V E),
    Reach (prog δ mv gl) l0 g0 s → AtMain s (.clean hs) [] m → hs.length = st.length →
    (∀ (i h : Nat) (o : Option (Q × List Nat)), hs[i]? = some (some h) → st[i]? = some o → Hears s h (o.map (Waits (n + i)))) →
    (∀ i : Nat, hs[i]? = some none → st[i]? = some none) →
    (∀ i j h : Nat, hs[i]? = some (some h) → hs[j]? = some (some h) → i = j) →
    ∃ s', Later (prog δ mv gl) s s' ∧ step (prog δ mv gl) s' = .done s' ∧ s'.g = ((), m ++ finale n st) := by
  induction hs with
  | nil =>
    intro n st m s hr ha hl hi hg hj
    have e1 := (Local.ret (P := prog δ mv gl) ha.ctl rfl).fwd
    obtain rfl : st = [] := List.length_eq_zero_iff.1 hl.symm
    refine ⟨_, Later.step .refl e1, ?_, by simpa [finale] using ha.g⟩
    simp [step, retStep, St.fr, ha.cur, ha.base, show s.frames 0 = [] by rw [← ha.cur]; exact ha.fr]
  | cons h hs ih =>
    intro n st m s hr ha hl hi hg hj
    obtain ⟨o, st, rfl⟩ : ∃ o st', st = o :: st' := by cases st with
      | nil => simp at hl
      | cons o st => exact ⟨o, st, rfl⟩
    have sub : ∀ {s' : S Q V E}, (∀ (i h' : Nat) p, hs[i]? = some (some h') → Hears s h' p → Hears s' h' p) →
        ∀ (i h : Nat) (o : Option (Q × List Nat)), hs[i]? = some (some h) → st[i]? = some o → Hears s' h (o.map (Waits (n + 1 + i))) := by
      intro s' k i h' o h1 h2
      have := k i h' _ h1 (hi (i + 1) h' o (by simpa using h1) (by simpa using h2))
      rwa [show n + 1 + i = n + (i + 1) by omega]
    have hg' : ∀ i : Nat, hs[i]? = some none → st[i]? = some none := fun i h1 => by simpa using hg (i + 1) (by simpa using h1)
    have hj' : ∀ i j h : Nat, hs[i]? = some (some h) → hs[j]? = some (some h) → i = j :=
      fun i j h' h1 h2 => by simpa using hj (i + 1) (j + 1) h' (by simpa using h1) (by simpa using h2)
    cases h with
    | none =>
      obtain rfl : o = none := by have := hg 0 rfl; simpa using this
      obtain ⟨s1, e1, a1, k1⟩ := tau_main (δ := δ) (mv := mv) (gl := gl) (l' := .clean hs) (m' := m) ha rfl
      obtain ⟨s2, l2, e2, g2⟩ := ih (n + 1) st m s1 (hr.step e1) a1 (by simpa using hl) (sub fun _ _ _ _ => k1.hears) hg' hj'
      exact ⟨s2, (Later.step .refl e1).trans l2, e2, by simpa [finale] using g2⟩
    | some h =>
      obtain ⟨s1, l1, a1, k1⟩ := drop_main (j := n) (l' := .clean hs) (h := h) (o := o) hr ha rfl (hi 0 h o rfl rfl)
      obtain ⟨s2, l2, e2, g2⟩ := ih (n + 1) st _ s1 (l1.reach hr) a1 (by simpa using hl) (sub fun i h' p h1 => k1 h' p (by
        rintro rfl
        have := hj (i + 1) 0 h' (by simpa using h1) rfl
        omega)) hg' hj'
      refine ⟨s2, l1.trans l2, e2, ?_⟩
      rw [g2]
      cases o <;> simp [finale]

theorem run (cs : List (Cmd Q V)) : ∀ (hs : List (Option Nat)) (st : List (Option (Q × List Nat))) (m : List (Nat × Note V E)) (s : S Q V E),
    Reach (prog δ mv gl) l0 g0 s → AtMain s (.run hs cs) [] m → Stock s hs st →
    ∃ s', Later (prog δ mv gl) s s' ∧ step (prog δ mv gl) s' = .done s' ∧ s'.g = ((), m ++ serve δ cs st) := by
  induction cs with
  | nil =>
    intro hs st m s hr ha hi
    obtain ⟨s1, e1, a1, k1⟩ := tau_main (δ := δ) (mv := mv) (gl := gl) (l' := .clean hs) (m' := m) ha rfl
    have i1 := hi.still k1
    obtain ⟨s2, l2, e2, g2⟩ := clean hs 0 st m s1 (hr.step e1) a1 i1.len (by simpa using i1.has) i1.gone i1.inj
    exact ⟨s2, (Later.step .refl e1).trans l2, e2, g2⟩
  | cons c cs ih =>
    intro hs st m s hr ha hi
    have skip : (prog δ mv gl).code (.run hs (c :: cs)) ((), m) = .tau ((), m) (.run hs cs) → serve (E := E) δ (c :: cs) st = serve δ cs st →
        ∃ s', Later (prog δ mv gl) s s' ∧ step (prog δ mv gl) s' = .done s' ∧ s'.g = ((), m ++ serve δ (c :: cs) st) := by
      intro hc he
      obtain ⟨s1, e1, a1, k1⟩ := tau_main (δ := δ) (mv := mv) (gl := gl) (l' := .run hs cs) (m' := m) ha hc
      obtain ⟨s2, l2, e2, g2⟩ := ih hs st m s1 (hr.step e1) a1 (hi.still k1)
      exact ⟨s2, (Later.step .refl e1).trans l2, e2, by rw [g2, he]⟩
    have beyond : ∀ {j : Nat}, hs[j]? = none → st[j]? = none := by
      intro j hj
      rw [List.getElem?_eq_none_iff] at hj ⊢
      rw [← hi.len]; exact hj
    cases c with
    | open_ q =>
      obtain ⟨s1, hs', l1, a1, i1⟩ := open_main hr ha hi
      obtain ⟨s2, l2, e2, g2⟩ := ih hs' _ m s1 (l1.reach hr) a1 i1
      exact ⟨s2, l1.trans l2, e2, g2⟩
    | move j =>
      cases hj : hs[j]? with
      | none => exact skip (by simp only [prog, code, hj]) rfl
      | some o =>
        cases o with
        | none => exact skip (by simp only [prog, code, hj]) rfl
        | some h =>
          obtain ⟨s1, l1, a1, i1⟩ := move_main hr ha hi hj
          obtain ⟨s2, l2, e2, g2⟩ := ih _ _ m s1 (l1.reach hr) a1 i1
          exact ⟨s2, l1.trans l2, e2, g2⟩
    | close j =>
      cases hj : hs[j]? with
      | none => exact skip (by simp only [prog, code, hj]) (by simp only [serve, beyond hj])
      | some o =>
        cases o with
        | none => exact skip (by simp only [prog, code, hj]) (by simp only [serve, hi.gone j hj])
        | some h =>
          have hlt : j < st.length := by rw [← hi.len]; exact (List.getElem?_eq_some_iff.1 hj).1
          obtain ⟨o, hx⟩ : ∃ o, st[j]? = some o := ⟨_, List.getElem?_eq_getElem hlt⟩
          obtain ⟨s1, l1, a1, k1⟩ := drop_main (j := j) (l' := .run (hs.set j none) cs) (h := h) (o := o) hr ha (by simp only [prog, code, hj]) (hi.has j h o hj hx)
          have i1 : Stock s1 (hs.set j none) (st.set j none) := hi.set hj (fun _ => rfl) (by simp) (by simp) (fun h' p _ => k1 h' p)
          obtain ⟨s2, l2, e2, g2⟩ := ih _ _ _ s1 (l1.reach hr) a1 i1
          refine ⟨s2, l1.trans l2, e2, ?_⟩
          rw [g2]
          cases o with
          | none =>
            have : st.set j none = st := by
              obtain ⟨hl, he⟩ := List.getElem?_eq_some_iff.1 hx
              rw [← he]; exact List.set_getElem_self hl
            simp [serve, hx, this]
          | some p => simp [serve, hx]
    | send j v =>
      cases hx : st[j]? with
      | none =>
        have hj : hs[j]? = none := by
          rw [List.getElem?_eq_none_iff] at hx ⊢
          rw [hi.len]; exact hx
        exact skip (by simp only [prog, code, hj]) (by simp only [serve, hx])
      | some o =>
        cases o with
        | none =>
          obtain ⟨s1, l1, a1, i1⟩ := send_lost (δ := δ) (mv := mv) (gl := gl) ha hi hx
          obtain ⟨s2, l2, e2, g2⟩ := ih hs st _ s1 (l1.reach hr) a1 i1
          exact ⟨s2, l1.trans l2, e2, by simp [g2, serve, hx]⟩
        | some p =>
          obtain ⟨q, os⟩ := p
          obtain ⟨s1, l1, h1⟩ := send_heard hr ha hi hx
          cases hd : δ q v with
          | again q' | deep o q' | quit | fail e =>
            rw [hd] at h1
            obtain ⟨s2, l2, e2, g2⟩ := ih hs _ _ s1 (l1.reach hr) h1.1 h1.2
            exact ⟨s2, l1.trans l2, e2, by simp [g2, serve, hx, hd]⟩

end Sessions
end Verif
