import Verif.ExServe
import Verif.RobinRun

/-!
# Executing a scheduler that follows any plan (proof material for C72)
-/
namespace Verif.Serve
variable {V E : Type} {mv : V → V} {gl : Bool} {l0 : Pt V} {g0 : Unit × List (Nat × V)}

theorem task_yields {hp : Nat} (t : Robin.Task V) : ∀ {rest : List V} {r : Option E} (F : List (Frame (Pt V) V E)), (∀ f ∈ F, Plain f) →
    Yields (B := List (Nat × V)) (prog mv gl) hp () .retn F rest r → Yields (prog mv gl) hp () (.eval (.task hp t)) F (t.said ++ rest) r := by
  induction t with
  | ret => intro rest r F _ hF; exact .back (fun _ => rfl) hF
  | say v t ih => intro rest r F hpl hF; exact .push (fun _ => rfl) hpl (ih F hpl hF)
  | sub t u iht ihu =>
    intro rest r F hpl hF
    have := iht (.fnRet (.task hp u) :: F) (by simpa [Plain] using hpl) (.fnRet (ihu F hpl hF))
    exact .call (fun _ => rfl) (by simpa [Robin.Task.said] using this)
  | obj o t ih =>
    intro rest r F hpl hF
    exact .obj (fun _ => rfl) (ih (.gObj o :: F) (by simpa [Plain] using hpl) (.objRet (fun _ => rfl) hF))

/-- main, outside every call -/
structure AtMain (s : St (Pt V) (Unit × List (Nat × V)) V E) (l : Pt V) (m : List (Nat × V)) : Prop where
  ctl : s.ctl = .eval l
  g : s.g = ((), m)
  cur : s.cur = 0
  fr : s.fr = []
  base : s.base 0 = .main

/-- the object at place `i` of `hs` has what is at place `i` of `xss`, and no object is listed twice -/
structure Stock (mv : V → V) (gl : Bool) (s : St (Pt V) (Unit × List (Nat × V)) V E) (hs : List Nat) (xss : List (List V)) : Prop where
  len : hs.length = xss.length
  has : ∀ (i h : Nat) (xs : List V), hs[i]? = some h → xss[i]? = some xs → Has (prog mv gl) s h xs none
  inj : ∀ i j h : Nat, hs[i]? = some h → hs[j]? = some h → i = j

theorem Stock.congr {s s' : St (Pt V) (Unit × List (Nat × V)) V E} {hs : List Nat} {xss : List (List V)} (hi : Stock mv gl s hs xss)
    (e1 : s'.hs = s.hs) (e2 : s'.base = s.base) (e3 : s'.kind = s.kind) (e4 : s'.va = s.va) (e5 : s'.cbs = s.cbs) (e6 : s'.fib = s.fib)
    (e7 : ∀ d, d ≠ s.cur → s'.frames d = s.frames d) (e8 : s'.cur = s.cur) : Stock mv gl s' hs xss :=
  ⟨hi.len, fun i h xs h1 h2 => (hi.has i h xs h1 h2).congr e1 e2 e3 e4 e5 e6 e7 e8, hi.inj⟩

/-- an internal step of main -/
theorem tau_main {s : St (Pt V) (Unit × List (Nat × V)) V E} {l l' : Pt V} {m m' : List (Nat × V)} {hs : List Nat} {xss : List (List V)}
    (ha : AtMain s l m) (hi : Stock mv gl s hs xss) (hc : (prog (E := E) mv gl).code l ((), m) = .tau ((), m') l') :
    ∃ s', step (prog mv gl) s = .next s' ∧ AtMain s' l' m' ∧ Stock mv gl s' hs xss := by
  have e1 := tau_step (P := prog mv gl) ha.ctl (g := ((), m')) (l' := l') (by rw [ha.g]; exact hc)
  exact ⟨_, e1, ⟨rfl, rfl, ha.cur, ha.fr, ha.base⟩, hi.congr rfl rfl rfl rfl rfl rfl (fun _ _ => rfl) rfl⟩

/-! ## One turn -/

theorem turn_end {hs js : List Nat} {j h : Nat} {m : List (Nat × V)} {xss : List (List V)} {s : St (Pt V) (Unit × List (Nat × V)) V E}
    (ha : AtMain s (.pick hs (j :: js)) m) (hi : Stock mv gl s hs xss) (hj : hs[j]? = some h) (hx : xss[j]? = some []) :
    ∃ s', Later (prog mv gl) s s' ∧ AtMain s' (.pick hs js) m ∧ Stock mv gl s' hs xss := by
  obtain ⟨s1, l1, h1⟩ := op_begin_end (k := onIt fun i => .look hs js j i) (hi.has j h [] hj hx) ⟨_, ha.ctl, by
    simp only [prog, code, hj]⟩
  have x1 : s1.ctl = .eval (.look hs js j none) := by rw [h1]; rfl
  obtain ⟨s2, e2, a2, i2⟩ := tau_main (mv := mv) (gl := gl) (s := s1) (hs := hs) (xss := xss) (m := m) (m' := m) (l' := .pick hs js)
    ⟨x1, by rw [h1]; exact ha.g, by rw [h1]; exact ha.cur, by rw [h1]; exact ha.fr, by rw [h1]; exact ha.base⟩
    (hi.congr (by rw [h1]) (by rw [h1]) (by rw [h1]) (by rw [h1]) (by rw [h1]) (by rw [h1]) (fun _ _ => by rw [h1]) (by rw [h1])) rfl
  exact ⟨s2, l1.step e2, a2, i2⟩

theorem turn_value {hs js : List Nat} {j h : Nat} {v : V} {ys : List V} {m : List (Nat × V)} {xss : List (List V)}
    {s : St (Pt V) (Unit × List (Nat × V)) V E} (hr : Reach (prog mv gl) l0 g0 s)
    (ha : AtMain s (.pick hs (j :: js)) m) (hi : Stock mv gl s hs xss) (hj : hs[j]? = some h) (hx : xss[j]? = some (v :: ys)) :
    ∃ s', Later (prog mv gl) s s' ∧ AtMain s' (.pick hs js) (m ++ [(j, v)]) ∧ Stock mv gl s' hs (xss.set j ys) := by
  cases hi.has j h _ hj hx with
  | ready hq =>
    rename_i c hp
    obtain ⟨s1, l1, h1⟩ := op_begin (k := onIt fun i => .look hs js j i) hq ⟨_, ha.ctl, by
      simp only [prog, code, hj]⟩
    have r1 := l1.reach hr
    have x1 : s1.ctl = .eval (.look hs js j (some h)) := by rw [h1]; rfl
    have q1 : Ready (prog mv gl) s1 h c hp () v ys none :=
      hq.congr (by rw [h1]) (by rw [h1]) (by rw [h1]) (by rw [h1]) (by rw [h1]) (by rw [h1]) (by rw [h1]) (by rw [h1])
    obtain ⟨s2, l2, h2⟩ := op_deref q1 ⟨_, x1, rfl⟩
    have r2 := l2.reach r1
    have h2' : s2 = { s with ctl := .eval (.put hs js j h v), log := s2.log } := by rw [h2, h1]; rfl
    have e3 := tau_step (P := prog mv gl) (s := s2) (l := .put hs js j h v) (g := ((), m ++ [(j, v)])) (l' := .next hs js h) (by rw [h2'])
      (by rw [h2']; simp only [ha.g]; rfl)
    have r3 := r2.step e3
    generalize h3 : ({ s2 with ctl := _, g := _ } : St (Pt V) (Unit × List (Nat × V)) V E) = s3 at e3 r3
    have h3' : s3 = { s with ctl := .eval (.next hs js h), g := ((), m ++ [(j, v)]), log := s2.log } := by rw [← h3, h2']
    have i3 : Stock mv gl s3 hs xss :=
      hi.congr (by rw [h3']) (by rw [h3']) (by rw [h3']) (by rw [h3']) (by rw [h3']) (by rw [h3']) (fun _ _ => by rw [h3']) (by rw [h3'])
    have q3 : Ready (prog mv gl) s3 h c hp () v ys none :=
      hq.congr (by rw [h3']) (by rw [h3']) (by rw [h3']) (by rw [h3']) (by rw [h3']) (by rw [h3']) (by rw [h3']) (by rw [h3'])
    obtain ⟨s4, _, l4, c4, f4, g4, -, k4, hres⟩ := op_next (b := m ++ [(j, v)]) (k := fun _ => .pick hs js) r3 q3
      ⟨.next hs js h, by rw [h3'], rfl⟩ (by rw [h3'])
    have c3 : s3.cur = 0 := by rw [h3']; exact ha.cur
    have hne : (0 : Nat) ≠ c := by have := q3.ne; rwa [c3] at this
    have hb : s4.base 0 = .main := by rw [k4.base 0 hne, h3']; exact ha.base
    have hf : s4.fr = [] := by rw [f4, h3']; exact ha.fr
    have hx' : s4.ctl = .eval (.pick hs js) ∧ Has (prog mv gl) s4 h ys none := by
      rcases hres with ⟨w, zs, rfl, x4, q4⟩ | ⟨rfl, -, x4, q4⟩ | ⟨_, -, h, -⟩
      · exact ⟨x4, .ready q4⟩
      · exact ⟨x4, .spent q4⟩
      · cases h
    refine ⟨s4, ((l1.trans l2).step e3).trans l4, ⟨hx'.1, g4, c4.trans c3, hf, hb⟩, ⟨by simpa using hi.len, fun i h' xs g1 g2 => ?_, hi.inj⟩⟩
    by_cases hij : i = j
    · subst hij
      obtain rfl : h' = h := by rw [hj] at g1; simpa using g1.symm
      have hlt : i < xss.length := by rw [← hi.len]; exact (List.getElem?_eq_some_iff.1 hj).1
      rw [List.getElem?_set_self hlt] at g2
      obtain rfl : ys = xs := by simpa using g2
      exact hx'.2
    · rw [List.getElem?_set_ne (Ne.symm hij)] at g2
      refine (i3.has i h' xs g1 g2).keep r3 q3.idle ?_ k4 c4
      rintro rfl
      exact hij (hi.inj i j _ g1 hj)

/-! ## The plan -/

theorem plan (js : List Nat) : ∀ (hs : List Nat) (xss : List (List V)) (m : List (Nat × V)) (s : St (Pt V) (Unit × List (Nat × V)) V E),
    Reach (prog mv gl) l0 g0 s → AtMain s (.pick hs js) m → Stock mv gl s hs xss →
    ∃ s' xss', Later (prog mv gl) s s' ∧ AtMain s' (.clean hs) (m ++ serve js xss) ∧ Stock mv gl s' hs xss' := by
  induction js with
  | nil =>
    intro hs xss m s hr ha hi
    obtain ⟨s1, e1, a1, i1⟩ := tau_main (l' := .clean hs) (m' := m) ha hi rfl
    exact ⟨s1, xss, Later.step .refl e1, by simpa [serve] using a1, i1⟩
  | cons j js ih =>
    intro hs xss m s hr ha hi
    cases hj : hs[j]? with
    | none =>
      have hx : xss[j]? = none := by
        rw [List.getElem?_eq_none_iff] at hj ⊢
        rw [← hi.len]; exact hj
      obtain ⟨s1, e1, a1, i1⟩ := tau_main (l' := .pick hs js) (m' := m) ha hi (by simp only [prog, code, hj])
      obtain ⟨s2, xss', l2, a2, i2⟩ := ih hs xss m s1 (hr.step e1) a1 i1
      exact ⟨s2, xss', (Later.step .refl e1).trans l2, by simpa [serve, hx] using a2, i2⟩
    | some h =>
      have hlt : j < xss.length := by rw [← hi.len]; exact (List.getElem?_eq_some_iff.1 hj).1
      obtain ⟨xs, hx⟩ : ∃ xs, xss[j]? = some xs := ⟨_, List.getElem?_eq_getElem hlt⟩
      cases xs with
      | nil =>
        obtain ⟨s1, l1, a1, i1⟩ := turn_end ha hi hj hx
        obtain ⟨s2, xss', l2, a2, i2⟩ := ih hs xss m s1 (l1.reach hr) a1 i1
        exact ⟨s2, xss', l1.trans l2, by simpa [serve, hx] using a2, i2⟩
      | cons v ys =>
        obtain ⟨s1, l1, a1, i1⟩ := turn_value hr ha hi hj hx
        obtain ⟨s2, xss', l2, a2, i2⟩ := ih hs (xss.set j ys) (m ++ [(j, v)]) s1 (l1.reach hr) a1 i1
        exact ⟨s2, xss', l1.trans l2, by simpa [serve, hx] using a2, i2⟩

/-! ## The beginning and the end -/

theorem Stock.tail {s : St (Pt V) (Unit × List (Nat × V)) V E} {h : Nat} {hs : List Nat} {xs : List V} {xss : List (List V)}
    (hi : Stock mv gl s (h :: hs) (xs :: xss)) : Stock mv gl s hs xss :=
  ⟨by simpa using hi.len, fun i h xs h1 h2 => hi.has (i + 1) h xs (by simpa using h1) (by simpa using h2),
    fun i j h h1 h2 => by simpa using hi.inj (i + 1) (j + 1) h (by simpa using h1) (by simpa using h2)⟩

theorem clean (hs : List Nat) : ∀ (xss : List (List V)) (m : List (Nat × V)) (s : St (Pt V) (Unit × List (Nat × V)) V E),
    Reach (prog mv gl) l0 g0 s → AtMain s (.clean hs) m → Stock mv gl s hs xss →
    ∃ s', Later (prog mv gl) s s' ∧ step (prog mv gl) s' = .done s' ∧ s'.g = ((), m) := by
  induction hs with
  | nil =>
    intro xss m s hr ha hi
    have e1 := (Local.ret (P := prog mv gl) ha.ctl rfl).fwd
    refine ⟨_, Later.step .refl e1, ?_, ha.g⟩
    simp [step, retStep, St.fr, ha.cur, ha.base, show s.frames 0 = [] by rw [← ha.cur]; exact ha.fr]
  | cons h hs ih =>
    intro xss m s hr ha hi
    cases xss with
    | nil => have := hi.len; simp at this
    | cons xs xss =>
    have hq := hi.has 0 h xs rfl rfl
    have hn : ∀ (i h' : Nat), hs[i]? = some h' → h' ≠ h := by
      intro i h' hi' e
      subst e
      have := hi.inj (i + 1) 0 h' (by simpa using hi') rfl
      omega
    have idle : (∃ c hp, Idle s h c hp) ∨ s.hs h = some ⟨.pull, .val, none⟩ := by
      cases hq with
      | ready q => exact .inl ⟨_, _, q.idle⟩
      | spent q => exact .inl ⟨_, _, q.idle⟩
      | empty q => exact .inr q
    have it := hi.tail
    rcases idle with ⟨c, hp, q⟩ | q
    · obtain ⟨s2, l2, x2, f2, g2, k2⟩ := op_drop_spares hr q (by rw [ha.ctl]; simp) (.api ha.ctl rfl) rfl
      rw [undone_id fun _ _ => rfl] at g2
      have e3 := (Local.dUsr (P := prog mv gl) x2 f2).fwd
      have h0 : (0 : Nat) ≠ c := by have := q.ne; rwa [ha.cur] at this
      obtain ⟨s4, l4, e4, g4⟩ := ih xss m _ ((l2.reach hr).step e3)
        ⟨rfl, g2.trans ha.g, k2.cur.trans ha.cur, by show upd _ _ _ _ = _; rw [upd_at]; exact ha.fr, (k2.base 0 h0).trans ha.base⟩
        ⟨it.len, fun i h' xs' h1 h2 => ((it.has i h' xs' h1 h2).spared hr q (hn i h' h1) k2).congr rfl rfl rfl rfl rfl rfl
          (fun d hd => upd_off _ _ hd) rfl, it.inj⟩
      exact ⟨s4, (l2.step e3).trans l4, e4, g4⟩
    · have e2 := reach_step hr (.nop (.api ha.ctl rfl) q (.inl rfl))
      have e3 := Local.fwd (P := prog mv gl) (.dUsr (s := { s with frames := upd s.frames s.cur (.usr (fun _ => .clean hs) :: s.fr), hs := upd s.hs h none, ctl := .deliver .unit }) rfl (upd_at ..))
      obtain ⟨s4, l4, e4, g4⟩ := ih xss m _ ((hr.step e2).step e3)
        ⟨rfl, ha.g, ha.cur, by show upd _ _ _ _ = _; rw [upd_at]; exact ha.fr, ha.base⟩
        ⟨it.len, fun i h' xs' h1 h2 => (it.has i h' xs' h1 h2).same (fun c hp g => ⟨fun _ => rfl, fun _ => rfl, rfl, rfl, rfl, by
            show upd _ _ _ _ = _
            rw [upd_off _ _ g.ne.symm]
            exact upd_off _ _ g.ne.symm, by
            refine upd_off _ _ ?_
            rintro rfl
            have := g.cnt
            rw [q] at this
            cases this⟩) (upd_off _ _ (hn i h' h1)) rfl, it.inj⟩
      exact ⟨s4, ((Later.step .refl e2).step e3).trans l4, e4, g4⟩

theorem spawn (js : List Nat) (ts : List (Robin.Task V)) : ∀ (hs : List Nat) (xss : List (List V)) (s : St (Pt V) (Unit × List (Nat × V)) V E),
    Reach (prog mv gl) l0 g0 s → AtMain s (.spawn ts hs js) [] → Stock mv gl s hs xss →
    ∃ s' hs', Later (prog mv gl) s s' ∧ AtMain s' (.pick hs' js) [] ∧ Stock mv gl s' hs' (xss ++ ts.map Robin.Task.said) := by
  induction ts with
  | nil =>
    intro hs xss s hr ha hi
    obtain ⟨s1, e1, a1, i1⟩ := tau_main (l' := .pick hs js) (m' := []) ha hi rfl
    exact ⟨s1, hs, Later.step .refl e1, a1, by simpa using i1⟩
  | cons t ts ih =>
    intro hs xss s hr ha hi
    obtain ⟨s1, _, l1, c1, f1, g1, b1, hres⟩ := op_mk (P := prog mv gl) (a := ()) (b := []) hr ⟨_, ha.ctl, rfl⟩ ha.g
      (by have := task_yields (mv := mv) (gl := gl) (E := E) (hp := s.nh) t (rest := []) (r := none) [] (by simp) .ret; simpa using this)
    have r1 := l1.reach hr
    have h0 : (0 : Nat) ≠ s.nk := by
      have := (inv_reach hr).sched.lt_nk 0 (by rw [ha.base]; simp)
      omega
    obtain ⟨x1, q1, k1⟩ : s1.ctl = .eval (.spawn ts (hs ++ [s.nh + 1]) js) ∧ Has (prog mv gl) s1 (s.nh + 1) t.said none ∧
        Keeps s.nk s.cur s s1 := by
      rcases hres with ⟨v, ys, hxs, x1, q1, k1⟩ | ⟨hxs, -, x1, q1, k1⟩ | ⟨_, -, h, -⟩
      · exact ⟨x1, hxs ▸ .ready q1, k1⟩
      · exact ⟨x1, hxs ▸ .empty q1, k1⟩
      · cases h
    have hlt : ∀ i h : Nat, hs[i]? = some h → h < s.nh := by
      intro i h hh
      have hl : i < xss.length := by rw [← hi.len]; exact (List.getElem?_eq_some_iff.1 hh).1
      exact (inv_reach hr).hok.lt _ (hi.has i h _ hh (List.getElem?_eq_getElem hl)).obj
    have split : ∀ i h : Nat, (hs ++ [s.nh + 1])[i]? = some h → (hs[i]? = some h ∧ i < hs.length) ∨ (i = hs.length ∧ h = s.nh + 1) := by
      intro i h hh
      rcases Nat.lt_trichotomy i hs.length with hl | rfl | hl
      · rw [List.getElem?_append_left hl] at hh; exact .inl ⟨hh, hl⟩
      · simp at hh; exact .inr ⟨rfl, hh.symm⟩
      · rw [List.getElem?_eq_none (by simp; omega)] at hh; cases hh
    have i1 : Stock mv gl s1 (hs ++ [s.nh + 1]) (xss ++ [t.said]) := by
      refine ⟨by simp [hi.len], fun i h xs g1 g2 => ?_, fun i j h g1 g2 => ?_⟩
      · rcases split i h g1 with ⟨g1, hl⟩ | ⟨rfl, rfl⟩
        · rw [List.getElem?_append_left (by rw [← hi.len]; exact hl)] at g2
          exact (hi.has i h xs g1 g2).born hr k1 c1
        · rw [hi.len] at g2
          simp at g2
          subst g2
          exact q1
      · rcases split i h g1 with ⟨g1, hl⟩ | ⟨rfl, rfl⟩ <;> rcases split j _ g2 with ⟨g2, hl'⟩ | ⟨rfl, e⟩
        · exact hi.inj i j h g1 g2
        · have := hlt i h g1; omega
        · have := hlt j _ g2; omega
        · rfl
    obtain ⟨s2, hs', l2, a2, i2⟩ := ih (hs ++ [s.nh + 1]) (xss ++ [t.said]) s1 r1
      ⟨x1, g1, c1.trans ha.cur, f1.trans ha.fr, (b1 0 h0).trans ha.base⟩ i1
    exact ⟨s2, hs', l1.trans l2, a2, by simpa using i2⟩

end Verif.Serve
