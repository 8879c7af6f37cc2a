import Verif.ExRobin
import Verif.Produce

/-!
# Executing the round-robin scheduler (proof material for C71)
-/
namespace Verif
variable {L B V E : Type} {P : Prog L (Unit × B) V E} {s s' : St L (Unit × B) V E} {h c hp : Nat} {l0 : L} {g0 : Unit × B} {k : Res V → L} {r : Option E}

/-- `h` is the object of a coroutine from which `xs` will be read before it ends as `r` says. -/
inductive Has (P : Prog L (Unit × B) V E) (s : St L (Unit × B) V E) (h : Nat) : List V → Option E → Prop
  | ready {c hp : Nat} {v : V} {ys : List V} {r : Option E} : Ready P s h c hp () v ys r → Has P s h (v :: ys) r
  | spent {c hp : Nat} {r : Option E} : Spent s h c hp r → Has P s h [] none
  | empty : s.hs h = some ⟨.pull, .val, none⟩ → Has P s h [] none

theorem Has.obj {xs : List V} (hq : Has P s h xs r) : s.hs h ≠ none := by
  cases hq with
  | ready hq => rw [hq.obj]; simp
  | spent hq => rw [hq.obj]; simp
  | empty hq => rw [hq]; simp

/-- nothing of coroutine `c` and of its object has changed -/
structure Same (c hp : Nat) (s s' : St L (Unit × B) V E) : Prop where
  cbs : ∀ sd, s'.cbs ⟨c, sd⟩ = s.cbs ⟨c, sd⟩
  fib : ∀ sd, s'.fib (.cb ⟨c, sd⟩) = s.fib (.cb ⟨c, sd⟩)
  base : s'.base c = s.base c
  kind : s'.kind c = s.kind c
  va : s'.va c = s.va c
  frames : s'.frames c = s.frames c
  hp : s'.hs hp = s.hs hp

theorem Ready.same {v : V} {ys : List V} {h' : Nat} (hq : Ready P s h c hp () v ys r) (hk : Same c hp s s') (hh : s'.hs h' = s.hs h)
    (hc : s'.cur = s.cur) : Ready P s' h' c hp () v ys r := by
  obtain ⟨⟨⟨n1, n2, n3, n4, n5, n6, n7, n8, n9, n10, n11, n12⟩, hfs, hval, hlive, k', F, hfc, hpl, hy⟩, hobj, hfo, hne⟩ := hq
  obtain ⟨cb, fb, a1, a2, a3, a4, a5⟩ := hk
  refine ⟨⟨⟨?_, ?_, ?_, ?_, ?_, ?_, ?_, ?_, ?_, ?_, ?_, ?_⟩, ?_, ?_, ?_, k', F, ?_, hpl, hy⟩, ?_, ?_, ?_⟩
  · rw [a5]; exact n1
  · rw [a1]; exact n2
  · rw [a2]; exact n3
  · rw [a3]; exact n4
  · rw [cb]; exact n5
  · rw [cb]; exact n6
  · rw [cb]; exact n7
  · rw [cb]; exact n8
  · rw [cb]; exact n9
  · rw [cb]; exact n10
  · rw [cb]; exact n11
  · rw [cb]; exact n12
  · rw [fb]; exact hfs
  · rw [cb]; exact hval
  · rw [cb]; exact hlive
  · rw [a4]; exact hfc
  · rw [hh]; exact hobj
  · rw [fb]; exact hfo
  · rw [hc]; exact hne

theorem Spent.same {h' : Nat} (hq : Spent s h c hp r) (hk : Same c hp s s') (hh : s'.hs h' = s.hs h) (hc : s'.cur = s.cur) : Spent s' h' c hp r := by
  obtain ⟨ho, hobj, hfo, hne⟩ := hq
  exact ⟨ho.congr hk.hp hk.base hk.kind hk.va hk.cbs hk.frames (hk.fib .syn), hh.trans hobj, hk.fib .own ▸ hfo, hc ▸ hne⟩

theorem Has.same {xs : List V} {h' : Nat} (hq : Has P s h xs r) (hk : ∀ c hp, Idle s h c hp → Same c hp s s') (hh : s'.hs h' = s.hs h)
    (hc : s'.cur = s.cur) : Has P s' h' xs r := by
  cases hq with
  | ready hq => exact .ready (hq.same (hk _ _ hq.idle) hh hc)
  | spent hq => exact .spent (hq.same (hk _ _ hq.idle) hh hc)
  | empty hq => exact .empty (hh.trans hq)

/-- a step that changes neither coroutines nor objects -/
theorem Has.congr {xs : List V} (hq : Has P s h xs r) (e1 : s'.hs = s.hs) (e2 : s'.base = s.base) (e3 : s'.kind = s.kind) (e4 : s'.va = s.va)
    (e5 : s'.cbs = s.cbs) (e6 : s'.fib = s.fib) (e7 : ∀ d, d ≠ s.cur → s'.frames d = s.frames d) (e8 : s'.cur = s.cur) : Has P s' h xs r :=
  hq.same (fun c _ hi => ⟨fun _ => by rw [e5], fun _ => by rw [e6], by rw [e2], by rw [e3], by rw [e4], e7 c hi.ne.symm, by rw [e1]⟩) (by rw [e1]) e8

/-- two objects do not share a coroutine -/
theorem Idle.apart {h' c' hp' : Nat} (hr : Reach P l0 g0 s) (h1 : Idle s h c hp) (h2 : Idle s h' c' hp') (hn : h ≠ h') : c ≠ c' := by
  rintro rfl
  exact hn ((inv_reach hr).hok.uniq _ _ _ _ _ h1.obj h2.obj rfl rfl)

/-- a coroutine keeps what it has while another one runs -/
theorem Has.keep {xs : List V} {h' c' hp' : Nat} (hr : Reach P l0 g0 s) (hq : Has P s h xs r) (hi : Idle s h' c' hp') (hn : h ≠ h')
    (hk : Keeps c' s.cur s s') (hc : s'.cur = s.cur) : Has P s' h xs r := by
  have hlt : ∀ q, s.hs q ≠ none → s'.hs q = s.hs q := fun q hq => hk.hs q ((inv_reach hr).hok.lt q hq)
  refine hq.same (fun c hp h1 => ?_) ?_ hc
  · have hd := h1.apart hr hi hn
    exact ⟨fun sd => hk.cbs _ hd, fun sd => hk.fib _ hd, hk.base _ hd, hk.kind _ hd, hk.va _ hd, hk.frames _ hd h1.ne.symm,
      hlt _ (by rw [h1.cnt]; simp)⟩
  · exact hlt _ hq.obj

/-- … while a new one is constructed -/
theorem Has.born {xs : List V} (hr : Reach P l0 g0 s) (hq : Has P s h xs r) (hk : Keeps s.nk s.cur s s') (hc : s'.cur = s.cur) : Has P s' h xs r := by
  have hlt : ∀ q, s.hs q ≠ none → s'.hs q = s.hs q := fun q hq => hk.hs q ((inv_reach hr).hok.lt q hq)
  refine hq.same (fun c hp h1 => ?_) ?_ hc
  · have hd : c ≠ s.nk := by
      have : s.base c ≠ .none := by rcases h1.body with ⟨h, -⟩ | ⟨h, -⟩ <;> rw [h] <;> simp
      have := (inv_reach hr).sched.lt_nk c this
      omega
    exact ⟨fun sd => hk.cbs _ hd, fun sd => hk.fib _ hd, hk.base _ hd, hk.kind _ hd, hk.va _ hd, hk.frames _ hd h1.ne.symm,
      hlt _ (by rw [h1.cnt]; simp)⟩
  · exact hlt _ hq.obj

/-- … while another one is destroyed -/
theorem Has.spared {xs : List V} {h' c' hp' : Nat} (hr : Reach P l0 g0 s) (hq : Has P s h xs r) (hi : Idle s h' c' hp') (hn : h ≠ h')
    (hk : Spares c' h' hp' s s') : Has P s' h xs r := by
  have hh : h ≠ hp' := by
    rintro rfl
    have := hi.cnt
    cases hq with
    | ready hq => rw [hq.obj] at this; cases this
    | spent hq => rw [hq.obj] at this; cases this
    | empty hq => rw [hq] at this; cases this
  refine hq.same (fun c hp h1 => ?_) (hk.hs _ hn hh) hk.cur
  have hd := h1.apart hr hi hn
  have e1 : hp ≠ h' := by rintro rfl; have := h1.cnt; rw [hi.obj] at this; cases this
  have e2 : hp ≠ hp' := by
    rintro rfl
    have := h1.cnt
    rw [hi.cnt] at this
    simp only [Option.some.injEq, Handle.mk.injEq, CbRef.mk.injEq] at this
    exact hd this.2.2.1.symm
  exact ⟨fun sd => hk.cbs _ hd, fun sd => hk.fib _ hd, hk.base _ hd, hk.kind _, hk.va _, hk.frames _ hd h1.ne.symm, hk.hs _ e1 e2⟩

/-- `begin()` on a coroutine that has ended -/
theorem op_begin_end (hq : Has P s h [] none) (hc : Calls P s (.itBegin h) k) :
    ∃ s', Later P s s' ∧ s' = { s with ctl := .eval (k (.it none)), log := s'.log } := by
  obtain ⟨l, h1, h2⟩ := hc
  obtain ⟨hd, ho, ht, hv, hb⟩ : ∃ hd, s.hs h = some hd ∧ hd.ty = .pull ∧ hd.va ≠ .void ∧ handleBool s h = .ok false := by
    cases hq with
    | spent hq => exact ⟨_, hq.obj, rfl, by simp, by unfold handleBool; simp only [hq.obj, hq.over.ownA, if_true, hq.over.valid']⟩
    | empty hq => exact ⟨_, hq, rfl, by simp, by unfold handleBool; simp only [hq]⟩
  have e1 := (Local.itBeginPull h1 h2 ho ht hv hb).fwd
  have e2 := Local.fwd (P := P) (.dUsr (s := { s with g := s.g, frames := upd s.frames s.cur (.usr k :: s.fr), ctl := .deliver (.it (if false = true then some h else none)), log := [] ++ s.log }) rfl (upd_at ..))
  refine ⟨_, (Later.step .refl e1).step e2, ?_⟩
  simp [upd_upd, upd_self', St.fr]

namespace Robin
variable {V E : Type} {mv : V → V} {gl : Bool} {l0 : Pt V} {g0 : Unit × List V}

/-! ## The tasks -/

theorem task_yields {hp : Nat} (t : Task V) : ∀ {rest : List V} {r : Option E} (F : List (Frame (Pt V) V E)), (∀ f ∈ F, Plain f) →
    Yields (B := List V) (prog mv gl) hp () .retn F rest r → Yields (prog mv gl) hp () (.eval (.task hp t)) F (t.said ++ rest) r := by
  induction t with
  | ret => intro rest r F _ hF; exact .back (fun _ => rfl) hF
  | say v t ih => intro rest r F hpl hF; exact .push (fun _ => rfl) hpl (ih F hpl hF)
  | sub t u iht ihu =>
    intro rest r F hpl hF
    have := iht (.fnRet (.task hp u) :: F) (by simpa [Plain] using hpl) (.fnRet (ihu F hpl hF))
    exact .call (fun _ => rfl) (by simpa [Task.said] using this)
  | obj o t ih =>
    intro rest r F hpl hF
    exact .obj (fun _ => rfl) (ih (.gObj o :: F) (by simpa [Plain] using hpl) (.objRet (fun _ => rfl) hF))

/-! ## One turn -/

/-- main, outside every call -/
structure AtMain (s : St (Pt V) (Unit × List V) V E) (l : Pt V) (m : List V) : Prop where
  ctl : s.ctl = .eval l
  g : s.g = ((), m)
  cur : s.cur = 0
  fr : s.fr = []
  base : s.base 0 = .main

abbrev Item (V : Type) := Nat × List V

/-- every object has what it is said to have, and no object is listed twice -/
structure Stock (mv : V → V) (gl : Bool) (s : St (Pt V) (Unit × List V) V E) (items : List (Item V)) : Prop where
  has : ∀ it ∈ items, Has (prog mv gl) s it.1 it.2 none
  nodup : (items.map Prod.fst).Nodup

theorem turn_end {D T : List Nat} {h : Nat} {m : List V} {items : List (Item V)} {s : St (Pt V) (Unit × List V) V E}
    (hr : Reach (prog mv gl) l0 g0 s) (ha : AtMain s (.round D (h :: T)) m) (hq : Has (prog mv gl) s h [] none)
    (hi : Stock mv gl s items) (hn : ∀ it ∈ items, it.1 ≠ h) :
    ∃ s', Later (prog mv gl) s s' ∧ AtMain s' (.round D T) m ∧ Stock mv gl s' items := by
  obtain ⟨s1, l1, h1⟩ := op_begin_end (k := onIt fun i => .look D T h i) hq ⟨_, ha.ctl, by cases D <;> rfl⟩
  have r1 := l1.reach hr
  have x1 : s1.ctl = .eval (.look D T h none) := by rw [h1]; rfl
  have same : ∀ {h' : Nat} {xs : List V}, Has (prog mv gl) s h' xs none → Has (prog mv gl) s1 h' xs none := fun hq =>
    hq.congr (by rw [h1]) (by rw [h1]) (by rw [h1]) (by rw [h1]) (by rw [h1]) (by rw [h1]) (fun _ _ => by rw [h1]) (by rw [h1])
  have c1 : s1.cur = 0 := by rw [h1]; exact ha.cur
  have b1 : s1.base 0 = .main := by rw [h1]; exact ha.base
  have f1 : s1.fr = [] := by rw [h1]; exact ha.fr
  have g1 : s1.g = ((), m) := by rw [h1]; exact ha.g
  cases same hq with
  | spent q1 =>
    obtain ⟨s2, l2, x2, f2, g2, k2⟩ := op_drop_spares r1 q1.idle (by rw [x1]; simp) (.api x1 rfl) rfl
    rw [undone_id fun _ _ => rfl] at g2
    have e3 := (Local.dUsr (P := prog mv gl) x2 f2).fwd
    refine ⟨_, (l1.trans l2).step e3, ⟨rfl, g2.trans g1, k2.cur.trans c1, ?_, ?_⟩, ⟨fun it hit => ?_, hi.nodup⟩⟩
    · show upd _ _ _ _ = _
      rw [upd_at]; exact f1
    · have : (0 : Nat) ≠ _ := c1 ▸ q1.ne
      exact (k2.base 0 this).trans b1
    · exact ((same (hi.has it hit)).spared r1 q1.idle (hn it hit) k2).congr rfl rfl rfl rfl rfl rfl (fun d hd => upd_off _ _ hd) rfl
  | empty q1 =>
    have e2 := reach_step r1 (.nop (.api x1 rfl) q1 (.inl rfl))
    have e3 := Local.fwd (P := prog mv gl) (.dUsr (s := { s1 with frames := upd s1.frames s1.cur (.usr (fun _ => .round D T) :: s1.fr), hs := upd s1.hs h none, ctl := .deliver .unit }) rfl (upd_at ..))
    refine ⟨_, (l1.step e2).step e3, ⟨rfl, g1, c1, ?_, b1⟩, ⟨fun it hit => ?_, hi.nodup⟩⟩
    · show upd _ _ _ _ = _
      rw [upd_at]; exact f1
    · refine (same (hi.has it hit)).same (fun c hp h2 => ⟨fun _ => rfl, fun _ => rfl, rfl, rfl, rfl, ?_, ?_⟩) ?_ rfl
      · show upd _ _ _ _ = _
        rw [upd_off _ _ h2.ne.symm]
        exact upd_off _ _ h2.ne.symm
      · refine upd_off _ _ ?_
        rintro rfl
        have := h2.cnt
        rw [q1] at this
        cases this
      · exact upd_off _ _ (hn it hit)

theorem turn_value {D T : List Nat} {h : Nat} {v : V} {ys m : List V} {items : List (Item V)} {s : St (Pt V) (Unit × List V) V E}
    (hr : Reach (prog mv gl) l0 g0 s) (ha : AtMain s (.round D (h :: T)) m) (hq : Has (prog mv gl) s h (v :: ys) none)
    (hi : Stock mv gl s items) (hn : ∀ it ∈ items, it.1 ≠ h) :
    ∃ s', Later (prog mv gl) s s' ∧ AtMain s' (.round (D ++ [h]) T) (m ++ [v]) ∧ Stock mv gl s' items ∧ Has (prog mv gl) s' h ys none := by
  cases hq with
  | ready hq =>
    rename_i c hp
    obtain ⟨s1, l1, h1⟩ := op_begin (k := onIt fun i => .look D T h i) hq ⟨_, ha.ctl, by cases D <;> rfl⟩
    have r1 := l1.reach hr
    have x1 : s1.ctl = .eval (.look D T h (some h)) := by rw [h1]; rfl
    have q1 : Ready (prog mv gl) s1 h c hp () v ys none :=
      hq.congr (by rw [h1]) (by rw [h1]) (by rw [h1]) (by rw [h1]) (by rw [h1]) (by rw [h1]) (by rw [h1]) (by rw [h1])
    obtain ⟨s2, l2, h2⟩ := op_deref q1 ⟨_, x1, rfl⟩
    have r2 := l2.reach r1
    have h2' : s2 = { s with ctl := .eval (.put D T h h v), log := s2.log } := by rw [h2, h1]; rfl
    have e3 := tau_step (P := prog mv gl) (s := s2) (l := .put D T h h v) (g := ((), m ++ [v])) (l' := .next D T h h) (by rw [h2'])
      (by rw [h2']; simp only [ha.g]; rfl)
    have r3 := r2.step e3
    generalize h3 : ({ s2 with ctl := _, g := _ } : St (Pt V) (Unit × List V) V E) = s3 at e3 r3
    have h3' : s3 = { s with ctl := .eval (.next D T h h), g := ((), m ++ [v]), log := s2.log } := by rw [← h3, h2']
    have same : ∀ {h' : Nat} {xs : List V}, Has (prog mv gl) s h' xs none → Has (prog mv gl) s3 h' xs none := fun hq =>
      hq.congr (by rw [h3']) (by rw [h3']) (by rw [h3']) (by rw [h3']) (by rw [h3']) (by rw [h3']) (fun _ _ => by rw [h3']) (by rw [h3'])
    have q3 : Ready (prog mv gl) s3 h c hp () v ys none :=
      hq.congr (by rw [h3']) (by rw [h3']) (by rw [h3']) (by rw [h3']) (by rw [h3']) (by rw [h3']) (by rw [h3']) (by rw [h3'])
    obtain ⟨s4, _, l4, c4, f4, g4, -, k4, hres⟩ := op_next (b := m ++ [v]) (k := fun _ => .round (D ++ [h]) T) r3 q3
      ⟨.next D T h h, by rw [h3'], rfl⟩ (by rw [h3'])
    have c3 : s3.cur = 0 := by rw [h3']; exact ha.cur
    have hne : (0 : Nat) ≠ c := by have := q3.ne; rwa [c3] at this
    have hb : s4.base 0 = .main := by rw [k4.base 0 hne, h3']; exact ha.base
    have hf : s4.fr = [] := by rw [f4, h3']; exact ha.fr
    have hx : s4.ctl = .eval (.round (D ++ [h]) T) ∧ Has (prog mv gl) s4 h ys none := by
      rcases hres with ⟨w, zs, rfl, x4, q4⟩ | ⟨rfl, -, x4, q4⟩ | ⟨_, -, h, -⟩
      · exact ⟨x4, .ready q4⟩
      · exact ⟨x4, .spent q4⟩
      · cases h
    exact ⟨s4, ((l1.trans l2).step e3).trans l4, ⟨hx.1, g4, c4.trans c3, hf, hb⟩,
      ⟨fun it hit => (same (hi.has it hit)).keep r3 q3.idle (hn it hit) k4 c4, hi.nodup⟩, hx.2⟩

/-! ## One round -/

/-- what remains of the tasks that have not ended -/
def rest (items : List (Item V)) : List (Item V) := items.filterMap fun it => match it.2 with | [] => none | _ :: ys => some (it.1, ys)

/-- what is read -/
def heads (items : List (Item V)) : List V := items.filterMap fun it => it.2.head?

theorem pass (todo : List (Item V)) : ∀ (done : List (Item V)) (m : List V) (s : St (Pt V) (Unit × List V) V E),
    Reach (prog mv gl) l0 g0 s → AtMain s (.round (done.map Prod.fst) (todo.map Prod.fst)) m → Stock mv gl s (done ++ todo) →
    ∃ s', Later (prog mv gl) s s' ∧ AtMain s' (.round ((done ++ rest todo).map Prod.fst) []) (m ++ heads todo) ∧
      Stock mv gl s' (done ++ rest todo) := by
  induction todo with
  | nil =>
    intro done m s hr ha hi
    exact ⟨s, .refl, by simpa [rest, heads] using ha, by simpa [rest] using hi⟩
  | cons it todo ih =>
    intro done m s hr ha hi
    obtain ⟨h, xs⟩ := it
    have hq := hi.has (h, xs) (by simp)
    have hnd := hi.nodup
    simp only [List.map_append, List.map_cons] at hnd
    have hn : ∀ it ∈ done ++ todo, it.1 ≠ h := by
      intro it hit he
      have hp : (h :: (done.map Prod.fst ++ todo.map Prod.fst)).Nodup := (List.perm_middle.nodup_iff).1 hnd
      refine (List.nodup_cons.1 hp).1 ?_
      rw [← List.map_append]
      exact he ▸ List.mem_map_of_mem hit
    have hi' : Stock mv gl s (done ++ todo) := by
      refine ⟨fun it hit => hi.has it ?_, ?_⟩
      · rcases List.mem_append.1 hit with h | h <;> simp [h]
      · have hp : (h :: (done.map Prod.fst ++ todo.map Prod.fst)).Nodup := (List.perm_middle.nodup_iff).1 hnd
        rw [List.map_append]
        exact (List.nodup_cons.1 hp).2
    cases xs with
    | nil =>
      obtain ⟨s1, l1, a1, i1⟩ := turn_end hr ha hq hi' hn
      obtain ⟨s2, l2, a2, i2⟩ := ih done m s1 (l1.reach hr) a1 i1
      exact ⟨s2, l1.trans l2, by simpa [rest, heads, List.filterMap_cons] using a2, by simpa [rest, List.filterMap_cons] using i2⟩
    | cons v ys =>
      obtain ⟨s1, l1, a1, i1, q1⟩ := turn_value hr ha hq hi' hn
      have i1' : Stock mv gl s1 ((done ++ [(h, ys)]) ++ todo) := by
        refine ⟨fun it hit => ?_, ?_⟩
        · simp only [List.append_assoc, List.mem_append, List.mem_cons, List.not_mem_nil, or_false] at hit
          rcases hit with h | rfl | h
          · exact i1.has it (by simp [h])
          · exact q1
          · exact i1.has it (by simp [h])
        · simpa using hnd
      obtain ⟨s2, l2, a2, i2⟩ := ih (done ++ [(h, ys)]) (m ++ [v]) s1 (l1.reach hr) (by simpa using a1) i1'
      exact ⟨s2, l1.trans l2, by simpa [rest, heads] using a2, by simpa [rest] using i2⟩

/-! ## All rounds -/

theorem heads_column (items : List (Item V)) : heads items = column 0 (items.map Prod.snd) := by
  induction items with
  | nil => rfl
  | cons it items ih =>
    obtain ⟨h, xs⟩ := it
    cases xs <;> simp_all [heads, column, List.filterMap_cons]

theorem rest_column (i : Nat) (items : List (Item V)) : column (i + 1) (items.map Prod.snd) = column i ((rest items).map Prod.snd) := by
  induction items with
  | nil => rfl
  | cons it items ih =>
    obtain ⟨h, xs⟩ := it
    cases xs with
    | nil => simpa [rest, column] using ih
    | cons v ys =>
      simp only [column, List.map_cons, rest, List.filterMap_cons, List.getElem?_cons_succ] at ih ⊢
      rw [ih]

theorem rest_len {n : Nat} {items : List (Item V)} (h : ∀ it ∈ items, it.2.length ≤ n + 1) : ∀ it ∈ rest items, it.2.length ≤ n := by
  intro it hit
  obtain ⟨⟨h', xs⟩, h1, h2⟩ := List.mem_filterMap.1 hit
  have := h _ h1
  cases xs with
  | nil => cases h2
  | cons v ys => simp only [Option.some.injEq] at h2; subst h2; simpa using this

theorem stop_step {s : St (Pt V) (Unit × List V) V E} {m : List V} (ha : AtMain s (.round [] []) m) :
    ∃ s', Later (prog mv gl) s s' ∧ step (prog mv gl) s' = .done s' ∧ s'.g = ((), m) := by
  have e1 := (Local.ret (P := prog mv gl) ha.ctl rfl).fwd
  refine ⟨_, Later.step .refl e1, ?_, ha.g⟩
  simp [step, retStep, St.fr, ha.cur, ha.base, show s.frames 0 = [] by rw [← ha.cur]; exact ha.fr]

theorem rounds (n : Nat) : ∀ (items : List (Item V)) (m : List V) (s : St (Pt V) (Unit × List V) V E),
    Reach (prog mv gl) l0 g0 s → AtMain s (.round [] (items.map Prod.fst)) m → Stock mv gl s items → (∀ it ∈ items, it.2.length ≤ n) →
    ∃ s', Later (prog mv gl) s s' ∧ step (prog mv gl) s' = .done s' ∧
      s'.g = ((), m ++ (List.range n).flatMap fun i => column i (items.map Prod.snd)) := by
  induction n with
  | zero =>
    intro items m s hr ha hi hl
    obtain ⟨s1, l1, a1, i1⟩ := pass items [] m s hr ha hi
    have h1 : rest items = [] := by
      refine List.filterMap_eq_nil_iff.2 fun it hit => ?_
      have := hl it hit
      rw [List.eq_nil_of_length_eq_zero (Nat.le_zero.1 this)]
    have h2 : heads items = [] := by
      refine List.filterMap_eq_nil_iff.2 fun it hit => ?_
      have := hl it hit
      rw [List.eq_nil_of_length_eq_zero (Nat.le_zero.1 this)]
      rfl
    rw [h1, h2] at a1
    obtain ⟨s2, l2, e2, g2⟩ := stop_step a1
    exact ⟨s2, l1.trans l2, e2, by simpa using g2⟩
  | succ n ih =>
    intro items m s hr ha hi hl
    obtain ⟨s1, l1, a1, i1⟩ := pass items [] m s hr ha hi
    have hout : m ++ heads items ++ ((List.range n).flatMap fun i => column i ((rest items).map Prod.snd)) =
        m ++ (List.range (n + 1)).flatMap fun i => column i (items.map Prod.snd) := by
      rw [List.range_succ_eq_map, List.flatMap_cons, heads_column, List.flatMap_map, List.append_assoc]
      simp only [rest_column, Nat.succ_eq_add_one]
    rw [← hout]
    simp only [List.nil_append] at a1 i1
    cases hrest : rest items with
    | nil =>
      rw [hrest] at a1
      obtain ⟨s2, l2, e2, g2⟩ := stop_step a1
      refine ⟨s2, l1.trans l2, e2, ?_⟩
      rw [g2]
      simp [column]
    | cons it its =>
      have e2 := tau_step (P := prog mv gl) a1.ctl (g := s1.g) (l' := .round [] ((rest items).map Prod.fst)) (by rw [hrest]; rfl)
      obtain ⟨s3, l3, e3, g3⟩ := ih (rest items) (m ++ heads items) _ ((l1.reach hr).step e2) ⟨rfl, a1.g, a1.cur, a1.fr, a1.base⟩
        ⟨fun it hit => (i1.has it hit).congr rfl rfl rfl rfl rfl rfl (fun _ _ => rfl) rfl, i1.nodup⟩ (rest_len hl)
      exact ⟨s3, (l1.step e2).trans l3, e3, by rw [g3, hrest]⟩

/-! ## Making the coroutines -/

theorem spawn (ts : List (Task V)) : ∀ (items : List (Item V)) (s : St (Pt V) (Unit × List V) V E),
    Reach (prog mv gl) l0 g0 s → AtMain s (.spawn ts (items.map Prod.fst)) [] → Stock mv gl s items →
    ∃ s' items', Later (prog mv gl) s s' ∧ AtMain s' (.round [] (items'.map Prod.fst)) [] ∧ Stock mv gl s' items' ∧
      items'.map Prod.snd = items.map Prod.snd ++ ts.map Task.said := by
  induction ts with
  | nil =>
    intro items s hr ha hi
    have e1 := tau_step (P := prog mv gl) ha.ctl (g := s.g) (l' := .round [] (items.map Prod.fst)) rfl
    exact ⟨_, items, Later.step .refl e1, ⟨rfl, ha.g, ha.cur, ha.fr, ha.base⟩,
      ⟨fun it hit => (hi.has it hit).congr rfl rfl rfl rfl rfl rfl (fun _ _ => rfl) rfl, hi.nodup⟩, by simp⟩
  | cons t ts ih =>
    intro items s hr ha hi
    obtain ⟨s1, _, l1, c1, f1, g1, b1, hres⟩ := op_mk (P := prog mv gl) (a := ()) (b := []) hr ⟨_, ha.ctl, rfl⟩ ha.g
      (by have := task_yields (mv := mv) (gl := gl) (E := E) (hp := s.nh) t (rest := []) (r := none) [] (by simp) .ret; simpa using this)
    have r1 := l1.reach hr
    have h0 : (0 : Nat) ≠ s.nk := by
      have := (inv_reach hr).sched.lt_nk 0 (by rw [ha.base]; simp)
      omega
    obtain ⟨x1, q1, k1⟩ : s1.ctl = .eval (.spawn ts (items.map Prod.fst ++ [s.nh + 1])) ∧ Has (prog mv gl) s1 (s.nh + 1) t.said none ∧
        Keeps s.nk s.cur s s1 := by
      rcases hres with ⟨v, ys, hxs, x1, q1, k1⟩ | ⟨hxs, -, x1, q1, k1⟩ | ⟨_, -, h, -⟩
      · exact ⟨x1, hxs ▸ .ready q1, k1⟩
      · exact ⟨x1, hxs ▸ .empty q1, k1⟩
      · cases h
    have hlt : ∀ it ∈ items, it.1 < s.nh := by
      intro it hit
      exact (inv_reach hr).hok.lt _ (hi.has it hit).obj
    have i1 : Stock mv gl s1 (items ++ [(s.nh + 1, t.said)]) := by
      refine ⟨fun it hit => ?_, ?_⟩
      · rcases List.mem_append.1 hit with h | h
        · exact (hi.has it h).born hr k1 c1
        · simp only [List.mem_cons, List.not_mem_nil, or_false] at h
          subst h
          exact q1
      · rw [List.map_append, List.nodup_append]
        refine ⟨hi.nodup, by simp, ?_⟩
        intro a ha' b hb
        obtain ⟨it, hit, rfl⟩ := List.mem_map.1 ha'
        simp only [List.map_cons, List.map_nil, List.mem_cons, List.not_mem_nil, or_false] at hb
        have := hlt it hit
        omega
    obtain ⟨s2, items', l2, a2, i2, h2⟩ := ih (items ++ [(s.nh + 1, t.said)]) s1 r1
      ⟨by simpa using x1, g1, c1.trans ha.cur, f1.trans ha.fr, (b1 0 h0).trans ha.base⟩ i1
    exact ⟨s2, items', l1.trans l2, a2, i2, by rw [h2]; simp⟩

end Robin
end Verif
