import Verif.ExEvents
import Verif.Consume
import Verif.RobinRun

/-!
# Executing an event loop (proof material for C74)
-/
namespace Verif
section
variable {L B V E : Type} {P : Prog L (Unit × B) V E} {s s' : St L (Unit × B) V E} {h c hp : Nat} {l0 : L} {g0 : Unit × B} {k : Res V → L} {x : Option E}
  {l : L} {F : List (Frame L V E)}

theorem Sink.same {h' : Nat} (hq : Sink s h c hp l F) (hk : Same c hp s s') (hh : s'.hs h' = s.hs h) (hc : s'.cur = s.cur) : Sink s' h' c hp l F := by
  obtain ⟨⟨⟨n1, n2, n3, n4, n5, n6, n7, n8, n9, n10, n11⟩, hfs, hsl, hbd⟩, hobj, hfo, hne⟩ := hq
  obtain ⟨cb, fb, a1, a2, a3, a4, a5⟩ := hk
  refine ⟨⟨⟨?_, ?_, ?_, ?_, ?_, ?_, ?_, ?_, ?_, ?_, ?_⟩, ?_, ?_, ?_⟩, ?_, ?_, ?_⟩
  · rw [a5]; exact n1
  · rw [a2]; exact n2
  · rw [a3]; exact n3
  all_goals try rw [cb]
  · exact n4
  · exact n5
  · exact n6
  · exact n7
  · exact n8
  · exact n9
  · exact n10
  · exact n11
  · rw [fb]; exact hfs
  · exact hsl
  · rw [a1, a4]; exact hbd
  · rw [hh]; exact hobj
  · rw [fb]; exact hfo
  · rw [hc]; exact hne

theorem PSpent.same {h' : Nat} (hq : PSpent s h c hp x) (hk : Same c hp s s') (hh : s'.hs h' = s.hs h) (hc : s'.cur = s.cur) : PSpent s' h' c hp x := by
  obtain ⟨⟨n1, n2, n3, n4, n5, n6, n7, n8, n9, n10, n11⟩, hobj, hfo, hne⟩ := hq
  obtain ⟨cb, fb, a1, a2, a3, a4, a5⟩ := hk
  refine ⟨⟨?_, ?_, ?_, ?_, ?_, ?_, ?_, ?_, ?_, ?_, ?_⟩, ?_, ?_, ?_⟩
  · rw [a5]; exact n1
  · rw [a1]; exact n2
  · rw [a4]; exact n3
  · rw [a2]; exact n4
  · rw [a3]; exact n5
  all_goals try rw [cb]
  · exact n6
  · exact n7
  · exact n8
  · exact n9
  · exact n10
  · rw [fb]; exact n11
  · rw [hh]; exact hobj
  · rw [fb]; exact hfo
  · rw [hc]; exact hne

/-- `h` is the object of a push coroutine that waits at a place of which `p` holds (`p` may depend on the counterpart object), or has ended. -/
inductive Hears (s : St L (Unit × B) V E) (h : Nat) : Option (Nat → L → List (Frame L V E) → Prop) → Prop
  | sink {c hp : Nat} {l : L} {F : List (Frame L V E)} {p : Nat → L → List (Frame L V E) → Prop} : Sink s h c hp l F → (∀ f ∈ F, Plain f) → p hp l F → Hears s h (some p)
  | spent {c hp : Nat} {x : Option E} : PSpent s h c hp x → Hears s h none

variable {p : Option (Nat → L → List (Frame L V E) → Prop)}

theorem Hears.idle (hq : Hears s h p) : ∃ c hp, PIdle s h c hp := by
  cases hq with
  | sink hq hF _ => exact ⟨_, _, hq.idle hF⟩
  | spent hq => exact ⟨_, _, hq.idle⟩

theorem Hears.same {h' : Nat} (hq : Hears s h p) (hk : ∀ c hp, PIdle s h c hp → Same c hp s s') (hh : s'.hs h' = s.hs h)
    (hc : s'.cur = s.cur) : Hears s' h' p := by
  cases hq with
  | sink hq hF hp => exact .sink (hq.same (hk _ _ (hq.idle hF)) hh hc) hF hp
  | spent hq => exact .spent (hq.same (hk _ _ hq.idle) hh hc)

/-- a step that changes neither coroutines nor objects -/
theorem Hears.congr (hq : Hears s h p) (e1 : s'.hs = s.hs) (e2 : s'.base = s.base) (e3 : s'.kind = s.kind) (e4 : s'.va = s.va)
    (e5 : s'.cbs = s.cbs) (e6 : s'.fib = s.fib) (e7 : ∀ d, d ≠ s.cur → s'.frames d = s.frames d) (e8 : s'.cur = s.cur) : Hears s' h p :=
  hq.same (fun c _ hi => ⟨fun _ => by rw [e5], fun _ => by rw [e6], by rw [e2], by rw [e3], by rw [e4], e7 c hi.ne.symm, by rw [e1]⟩) (by rw [e1]) e8

theorem PIdle.apart {h' c' hp' : Nat} (hr : Reach P l0 g0 s) (h1 : PIdle s h c hp) (h2 : PIdle s h' c' hp') (hn : h ≠ h') : c ≠ c' := by
  rintro rfl
  exact hn ((inv_reach hr).hok.uniq _ _ _ _ _ h1.obj h2.obj rfl rfl)

/-- a coroutine is as it was while another one runs -/
theorem Hears.keep {h' c' hp' : Nat} (hr : Reach P l0 g0 s) (hq : Hears s h p) (hi : PIdle s h' c' hp') (hn : h ≠ h')
    (hk : Keeps c' s.cur s s') (hc : s'.cur = s.cur) : Hears s' h p := by
  have hlt : ∀ q, s.hs q ≠ none → s'.hs q = s.hs q := fun q hq => hk.hs q ((inv_reach hr).hok.lt q hq)
  refine hq.same (fun c hp h1 => ?_) ?_ hc
  · have hd := h1.apart hr hi hn
    exact ⟨fun sd => hk.cbs _ hd, fun sd => hk.fib _ hd, hk.base _ hd, hk.kind _ hd, hk.va _ hd, hk.frames _ hd h1.ne.symm,
      hlt _ (by rw [h1.cnt]; simp)⟩
  · obtain ⟨_, _, hi⟩ := hq.idle
    exact hlt _ (by rw [hi.obj]; simp)

/-- … while a new one is constructed -/
theorem Hears.born (hr : Reach P l0 g0 s) (hq : Hears s h p) (hk : Keeps s.nk s.cur s s') (hc : s'.cur = s.cur) : Hears s' h p := by
  have hlt : ∀ q, s.hs q ≠ none → s'.hs q = s.hs q := fun q hq => hk.hs q ((inv_reach hr).hok.lt q hq)
  refine hq.same (fun c hp h1 => ?_) ?_ hc
  · have hd : c ≠ s.nk := by
      have : s.base c ≠ .none := by rcases h1.body with ⟨h, -⟩ | ⟨_, h, -⟩ | ⟨h, -⟩ <;> rw [h] <;> simp
      have := (inv_reach hr).sched.lt_nk c this
      omega
    exact ⟨fun sd => hk.cbs _ hd, fun sd => hk.fib _ hd, hk.base _ hd, hk.kind _ hd, hk.va _ hd, hk.frames _ hd h1.ne.symm,
      hlt _ (by rw [h1.cnt]; simp)⟩
  · obtain ⟨_, _, hi⟩ := hq.idle
    exact hlt _ (by rw [hi.obj]; simp)

/-- … while another one is destroyed -/
theorem Hears.spared {h' c' hp' : Nat} (hr : Reach P l0 g0 s) (hq : Hears s h p) (hi : PIdle s h' c' hp') (hn : h ≠ h')
    (hk : Spares c' h' hp' s s') : Hears s' h p := by
  have hh : h ≠ hp' := by
    rintro rfl
    obtain ⟨_, _, h1⟩ := hq.idle
    have := hi.cnt
    rw [h1.obj] at this
    cases this
  refine hq.same (fun c hp h1 => ?_) (hk.hs _ hn hh) hk.cur
  have hd := h1.apart hr hi hn
  have e1 : hp ≠ h' := by rintro rfl; have := h1.cnt; rw [hi.obj] at this; cases this
  have e2 : hp ≠ hp' := by
    rintro rfl
    have := h1.cnt
    rw [hi.cnt] at this
    simp only [Option.some.injEq, Handle.mk.injEq, CbRef.mk.injEq] at this
    exact hd this.2.2.1.symm
  exact ⟨fun sd => hk.cbs _ hd, fun sd => hk.fib _ hd, hk.base _ hd, hk.kind _, hk.va _, hk.frames _ hd h1.ne.symm, hk.hs _ e1 e2⟩

/-- `operator bool` -/
theorem Hears.bool (hq : Hears s h p) (hc : Calls P s (.valid h) k) :
    ∃ s', Later P s s' ∧ s' = { s with ctl := .eval (k (.bool p.isSome)), log := s'.log } := by
  obtain ⟨l, h1, h2⟩ := hc
  have hb : handleBool s h = .ok p.isSome := by
    cases hq with
    | sink hq _ _ => unfold handleBool; simp [hq.obj, hq.hungry.chan.ownA, hq.valid]
    | spent hq => unfold handleBool; simp [hq.obj, hq.over.ownA, hq.invalid]
  have e1 := (Local.valid h1 h2 hb).fwd
  have e2 := Local.fwd (P := P) (.dUsr (s := { s with g := s.g, frames := upd s.frames s.cur (.usr k :: s.fr), ctl := .deliver (.bool p.isSome), log := [] ++ s.log }) rfl (upd_at ..))
  refine ⟨_, (Later.step .refl e1).step e2, ?_⟩
  simp [upd_upd, upd_self', St.fr]

end

namespace Events
variable {Q V E : Type} {δ : Q → V → React Q E} {mv : V → V} {gl : Bool} {l0 : Pt Q V E} {g0 : Unit × List (Nat × Note V E)}

abbrev S (Q V E : Type) := St (Pt Q V E) (Unit × List (Nat × Note V E)) V E
abbrev Fr (Q V E : Type) := List (Frame (Pt Q V E) V E)

/-! ## The handlers -/

/-- the calls a handler may be in -/
inductive Deep : Fr Q V E → Prop
  | nil : Deep []
  | cons {o : Nat} {F : Fr Q V E} : Deep F → Deep (.gObj o :: .fnRet .leave :: F)

theorem Deep.plain {F : Fr Q V E} (h : Deep F) : ∀ f ∈ F, Plain f := by
  induction h with
  | nil => simp
  | cons _ ih => simpa [Plain] using ih

theorem Deep.ret {F : Fr Q V E} (h : Deep F) {hp : Nat} {g : Unit × List (Nat × Note V E)} {v : V} :
    Takes (prog δ mv gl) hp g v .retn F g (.ends none) := by
  induction h with
  | nil => exact .ret
  | cons _ ih => exact .objRet (.fnRet (.back rfl ih))

theorem Deep.raise {F : Fr Q V E} (h : Deep F) {hp : Nat} {g : Unit × List (Nat × Note V E)} {v : V} {e : E} :
    Takes (prog δ mv gl) hp g v (.raise (.user e)) F g (.ends (some e)) := by
  induction h with
  | nil => exact .throw
  | cons _ ih => exact .objThrow (.fnThrow ih)

/-- handler `j` waits in the state `q` -/
def Waits (j : Nat) (q : Q) (hp : Nat) (l : Pt Q V E) (F : Fr Q V E) : Prop := l = .wake hp j q ∧ Deep F

theorem takes {F : Fr Q V E} (h : Deep F) {hp j : Nat} {q : Q} {m : List (Nat × Note V E)} {v : V} :
    match δ q v with
    | .again q' | .deep _ q' => ∃ l F', Takes (prog δ mv gl) hp ((), m) v (.eval (.wake hp j q)) F ((), m ++ [(j, .heard v)]) (.asks l F') ∧ Waits j q' hp l F'
    | .quit => Takes (prog δ mv gl) hp ((), m) v (.eval (.wake hp j q)) F ((), m ++ [(j, .heard v)]) (.ends none)
    | .fail e => Takes (prog δ mv gl) hp ((), m) v (.eval (.wake hp j q)) F ((), m ++ [(j, .heard v)]) (.ends (some e)) := by
  have first : ∀ st, Takes (prog δ mv gl) hp ((), m ++ [(j, .heard v)]) (mv v) (.eval (.act hp j (δ q v))) F ((), m ++ [(j, .heard v)]) st →
      Takes (prog δ mv gl) hp ((), m) v (.eval (.wake hp j q)) F ((), m ++ [(j, .heard v)]) st := fun st ht =>
    .get (k := onVal fun v => .got hp j q v) rfl (.tau (l' := .act hp j (δ q v)) (g1 := ((), m ++ [(j, .heard v)])) rfl ht)
  cases hd : δ q v with
  | again q' =>
    rw [hd] at first
    exact ⟨_, _, first _ (.askOp (k := fun _ => .wake hp j q') rfl), rfl, h⟩
  | deep o q' =>
    rw [hd] at first
    exact ⟨_, _, first _ (.call (l1 := .sub hp j o q') (l' := .leave) rfl (.obj (o := o) (l' := .ask hp j q') rfl
      (.askOp (k := fun _ => .wake hp j q') rfl))), rfl, h.cons⟩
  | quit => rw [hd] at first; exact first _ (.back rfl h.ret)
  | fail e => rw [hd] at first; exact first _ (.raise rfl h.raise)

/-! ## The event loop -/

/-- main, outside every call of the library, with the stack `F` -/
structure AtMain (s : S Q V E) (l : Pt Q V E) (F : Fr Q V E) (m : List (Nat × Note V E)) : Prop where
  ctl : s.ctl = .eval l
  g : s.g = ((), m)
  cur : s.cur = 0
  fr : s.fr = F
  base : s.base 0 = .main

/-- the object at place `i` of `hs` is in the state at place `i` of `st`, and no object is listed twice -/
structure Stock (s : S Q V E) (hs : List Nat) (st : List (Option Q)) : Prop where
  len : hs.length = st.length
  has : ∀ (i h : Nat) (o : Option Q), hs[i]? = some h → st[i]? = some o → Hears s h (o.map (Waits i))
  inj : ∀ i j h : Nat, hs[i]? = some h → hs[j]? = some h → i = j

/-- no coroutine and no object has changed -/
structure Still (s s' : S Q V E) : Prop where
  hs : s'.hs = s.hs
  base : s'.base = s.base
  kind : s'.kind = s.kind
  va : s'.va = s.va
  cbs : s'.cbs = s.cbs
  fib : s'.fib = s.fib
  frames : ∀ d, d ≠ s.cur → s'.frames d = s.frames d
  cur : s'.cur = s.cur

theorem Stock.still {s s' : S Q V E} {hs : List Nat} {st : List (Option Q)} (hi : Stock s hs st) (k : Still s s') : Stock s' hs st :=
  ⟨hi.len, fun i o p h1 h2 => (hi.has i o p h1 h2).congr k.hs k.base k.kind k.va k.cbs k.fib k.frames k.cur, hi.inj⟩

/-- a step of main that leaves the coroutines alone -/
theorem loc_main {s : S Q V E} {l l' : Pt Q V E} {F F' : Fr Q V E} {m m' : List (Nat × Note V E)} {ev : List (Ev V E)}
    (ha : AtMain s l F m) (hc : Local (prog δ mv gl) s ((), m') F' (.eval l') ev) :
    ∃ s', step (prog δ mv gl) s = .next s' ∧ AtMain s' l' F' m' ∧ Still s s' := by
  refine ⟨_, hc.fwd, ⟨rfl, rfl, ha.cur, by simp [St.fr], ha.base⟩, ⟨rfl, rfl, rfl, rfl, rfl, rfl, fun d hd => upd_off _ _ hd, rfl⟩⟩

theorem tau_main {s : S Q V E} {l l' : Pt Q V E} {F : Fr Q V E} {m m' : List (Nat × Note V E)}
    (ha : AtMain s l F m) (hc : (prog δ mv gl).code l ((), m) = .tau ((), m') l') :
    ∃ s', step (prog δ mv gl) s = .next s' ∧ AtMain s' l' F m' ∧ Still s s' :=
  loc_main (ev := []) ha (by have := Local.tau (P := prog δ mv gl) (s := s) (g := ((), m')) (l' := l') ha.ctl (by rw [ha.g]; exact hc); rw [ha.fr] at this; exact this)

/-- the exception is caught -/
theorem catch_main {s : S Q V E} {e : E} {f : E → Pt Q V E} {F : Fr Q V E} {m : List (Nat × Note V E)} {sw : Bool}
    (hx : s.ctl = .raise (.user e)) (hg : s.g = ((), m)) (hc : s.cur = 0) (hf : s.fr = .hdl sw f :: F) (hb : s.base 0 = .main) :
    ∃ s', step (prog δ mv gl) s = .next s' ∧ AtMain s' (f e) F m ∧ Still s s' := by
  refine ⟨_, (Local.rCatch (P := prog δ mv gl) hx hf).fwd, ⟨rfl, hg, hc, by simp [St.fr], hb⟩, ⟨rfl, rfl, rfl, rfl, rfl, rfl, fun d hd => upd_off _ _ hd, rfl⟩⟩

/-- `if ( sink)` -/
theorem bool_main {s : S Q V E} {hs : List Nat} {st : List (Option Q)} {j h : Nat} {o : Option Q} {v : V} {es : List (Nat × V)} {m : List (Nat × Note V E)}
    (ha : AtMain s (.pick hs ((j, v) :: es)) [] m) (hi : Stock s hs st) (hj : hs[j]? = some h) (hx : st[j]? = some o) :
    ∃ s', Later (prog δ mv gl) s s' ∧ AtMain s' (.check hs es j h v o.isSome) [] m ∧ Still s s' := by
  obtain ⟨s1, l1, h1⟩ := (hi.has j h o hj hx).bool (P := prog δ mv gl) (k := onBool fun b => .check hs es j h v b) ⟨_, ha.ctl, by
    simp only [prog, code, hj]⟩
  refine ⟨s1, l1, ⟨?_, by rw [h1]; exact ha.g, by rw [h1]; exact ha.cur, by rw [h1]; exact ha.fr, by rw [h1]; exact ha.base⟩,
    ⟨by rw [h1], by rw [h1], by rw [h1], by rw [h1], by rw [h1], by rw [h1], fun _ _ => by rw [h1], by rw [h1]⟩⟩
  rw [h1]
  cases o <;> rfl

theorem Stock.set {s : S Q V E} {hs : List Nat} {st : List (Option Q)} {j : Nat} {s' : S Q V E} {o : Option Q} {h : Nat}
    (hi : Stock s hs st) (hj : hs[j]? = some h) (hh : Hears s' h (o.map (Waits j)))
    (hk : ∀ (h' : Nat) p, h' ≠ h → Hears s h' p → Hears s' h' p) : Stock s' hs (st.set j o) := by
  refine ⟨by simpa using hi.len, fun i h' p g1 g2 => ?_, hi.inj⟩
  by_cases hij : i = j
  · subst hij
    obtain rfl : h = h' := by rw [hj] at g1; simpa using g1
    have hlt : i < st.length := by rw [← hi.len]; exact (List.getElem?_eq_some_iff.1 hj).1
    rw [List.getElem?_set_self hlt] at g2
    obtain rfl : o = p := by simpa using g2
    exact hh
  · rw [List.getElem?_set_ne (Ne.symm hij)] at g2
    refine hk h' _ ?_ (hi.has i h' p g1 g2)
    rintro rfl
    exact hij (hi.inj i j _ g1 hj)

/-- an event for a handler that has ended -/
theorem event_lost {s : S Q V E} {hs : List Nat} {st : List (Option Q)} {j h : Nat} {v : V} {es : List (Nat × V)} {m : List (Nat × Note V E)}
    (ha : AtMain s (.pick hs ((j, v) :: es)) [] m) (hi : Stock s hs st) (hj : hs[j]? = some h) (hx : st[j]? = some none) :
    ∃ s', Later (prog δ mv gl) s s' ∧ AtMain s' (.pick hs es) [] (m ++ [(j, .lost v)]) ∧ Stock s' hs st := by
  obtain ⟨s1, l1, a1, k1⟩ := bool_main (δ := δ) (mv := mv) (gl := gl) ha hi hj hx
  obtain ⟨s2, e2, a2, k2⟩ := tau_main (δ := δ) (mv := mv) (gl := gl) (l' := .pick hs es) (m' := m ++ [(j, .lost v)]) a1 rfl
  exact ⟨s2, l1.step e2, a2, (hi.still k1).still k2⟩

/-- an event for a handler that waits -/
theorem event_heard {s : S Q V E} {hs : List Nat} {st : List (Option Q)} {j h : Nat} {v : V} {q : Q} {es : List (Nat × V)} {m : List (Nat × Note V E)}
    (hr : Reach (prog δ mv gl) l0 g0 s) (ha : AtMain s (.pick hs ((j, v) :: es)) [] m) (hi : Stock s hs st) (hj : hs[j]? = some h)
    (hx : st[j]? = some (some q)) :
    ∃ s', Later (prog δ mv gl) s s' ∧
      match δ q v with
      | .again q' | .deep _ q' => AtMain s' (.pick hs es) [] (m ++ [(j, .heard v)]) ∧ Stock s' hs (st.set j (some q'))
      | .quit => AtMain s' (.pick hs es) [] (m ++ [(j, .heard v)]) ∧ Stock s' hs (st.set j none)
      | .fail e => AtMain s' (.pick hs es) [] (m ++ [(j, .heard v), (j, .failed e)]) ∧ Stock s' hs (st.set j none) := by
  obtain ⟨s1, l1, a1, k1⟩ := bool_main (δ := δ) (mv := mv) (gl := gl) ha hi hj hx
  obtain ⟨s2, e2, a2, k2⟩ := loc_main (δ := δ) (mv := mv) (gl := gl) (l' := .send hs es h v) (m' := m) (ev := [])
    (F' := [.hdl false fun e => .caught hs es j e]) a1
    (by have := Local.try_ (P := prog δ mv gl) (s := s1) a1.ctl (sw := false) (f := fun e => .caught hs es j e) (l' := .send hs es h v) rfl
        rw [a1.g, a1.fr] at this; exact this)
  have r2 := (l1.reach hr).step e2
  have i2 := (hi.still k1).still k2
  have hq : Hears s2 h (some (Waits j q)) := i2.has j h (some q) hj hx
  have l2 := l1.step e2
  cases hq with
  | @sink c hp l F _ hq hF hw =>
    obtain ⟨rfl, hD⟩ := hw
    have ht := takes (δ := δ) (mv := mv) (gl := gl) hD (hp := hp) (j := j) (q := q) (m := m) (v := v)
    have hid := hq.idle hF
    -- the push
    have push := fun g' st' (ht : Takes (prog δ mv gl) hp s2.g v (.eval (.wake hp j q)) F g' st') =>
      op_push (P := prog δ mv gl) (w := v) (k := fun _ => .went hs es) r2 hq ⟨.send hs es h v, a2.ctl, rfl⟩ .op .copy ht
    have keep : ∀ s3, Keeps c s2.cur s2 s3 → s3.cur = s2.cur → ∀ s4, Still s3 s4 → ∀ (h' : Nat) p, h' ≠ h → Hears s2 h' p → Hears s4 h' p := by
      intro s3 k3 c3 s4 k4 h' p hn hh
      exact (hh.keep r2 hid hn k3 c3).congr k4.hs k4.base k4.kind k4.va k4.cbs k4.fib k4.frames k4.cur
    have hne : (0 : Nat) ≠ c := by have := hid.ne; rwa [a2.cur] at this
    -- `}` of the try block
    have well : ∀ s3 m' (o : Option Q), Later (prog δ mv gl) s2 s3 → s3.ctl = .eval (.went hs es) → s3.g = ((), m') → s3.cur = s2.cur → s3.fr = s2.fr →
        Keeps c s2.cur s2 s3 → Hears s3 h (o.map (Waits j)) →
        ∃ s', Later (prog δ mv gl) s s' ∧ AtMain s' (.pick hs es) [] m' ∧ Stock s' hs (st.set j o) := by
      intro s3 m' o l3 x3 g3 c3 f3 k3 hh
      have a3 : AtMain s3 (.went hs es) _ m' := ⟨x3, g3, c3.trans a2.cur, f3.trans a2.fr, (k3.base 0 hne).trans a2.base⟩
      obtain ⟨s4, e4, a4, k4⟩ := loc_main (δ := δ) (mv := mv) (gl := gl) (l' := .pick hs es) (m' := m') (ev := []) (F' := []) a3
        (by have := Local.endTry (P := prog δ mv gl) (s := s3) a3.ctl (l' := .pick hs es) rfl a3.fr; rw [a3.g] at this; exact this)
      exact ⟨s4, (l2.trans l3).step e4, a4, i2.set hj (hh.congr k4.hs k4.base k4.kind k4.va k4.cbs k4.fib k4.frames k4.cur) (keep s3 k3 c3 s4 k4)⟩
    have again : ∀ q', (∃ l F', Takes (prog δ mv gl) hp ((), m) v (.eval (.wake hp j q)) F ((), m ++ [(j, .heard v)]) (.asks l F') ∧ Waits j q' hp l F') →
        ∃ s', Later (prog δ mv gl) s s' ∧ AtMain s' (.pick hs es) [] (m ++ [(j, .heard v)]) ∧ Stock s' hs (st.set j (some q')) := by
      rintro q' ⟨l, F', ht, hw⟩
      obtain ⟨s3, l3, c3, f3, g3, -, k3, _, -, x3, q3⟩ := push _ _ (by rw [a2.g]; exact ht)
      exact well s3 _ (some q') l3 x3 g3 c3 f3 k3 (.sink q3 hw.2.plain hw)
    cases hd : δ q v with
    | again q' => rw [hd] at ht; exact again q' ht
    | deep o q' => rw [hd] at ht; exact again q' ht
    | quit =>
      rw [hd] at ht
      obtain ⟨s3, l3, c3, f3, g3, -, k3, _, -, x3, q3⟩ := push _ _ (by rw [a2.g]; exact ht)
      exact well s3 _ none l3 x3 g3 c3 f3 k3 (.spent q3)
    | fail e =>
      rw [hd] at ht
      obtain ⟨s3, l3, c3, f3, g3, -, k3, x3, q3⟩ := push _ _ (by rw [a2.g]; exact ht)
      obtain ⟨s4, e4, a4, k4⟩ := catch_main (δ := δ) (mv := mv) (gl := gl) x3 g3 (c3.trans a2.cur) (f3.trans a2.fr) ((k3.base 0 hne).trans a2.base)
      obtain ⟨s5, e5, a5, k5⟩ := tau_main (δ := δ) (mv := mv) (gl := gl) (l' := .pick hs es) (m' := (m ++ [(j, .heard v)]) ++ [(j, .failed e)]) a4 rfl
      have hh : Hears s3 h (Option.map (Waits j) (none : Option Q)) := .spent q3
      exact ⟨s5, ((l2.trans l3).step e4).step e5, by simpa using a5,
        (i2.set hj (hh.congr k4.hs k4.base k4.kind k4.va k4.cbs k4.fib k4.frames k4.cur) (keep s3 k3 c3 s4 k4)).still k5⟩

theorem events (es : List (Nat × V)) : ∀ (hs : List Nat) (st : List (Option Q)) (m : List (Nat × Note V E)) (s : S Q V E),
    Reach (prog δ mv gl) l0 g0 s → AtMain s (.pick hs es) [] m → Stock s hs st →
    ∃ s' st', Later (prog δ mv gl) s s' ∧ AtMain s' (.clean hs) [] (m ++ dispatch δ es st) ∧ Stock s' hs st' := by
  induction es with
  | nil =>
    intro hs st m s hr ha hi
    obtain ⟨s1, e1, a1, k1⟩ := tau_main (δ := δ) (mv := mv) (gl := gl) (l' := .clean hs) (m' := m) ha rfl
    exact ⟨s1, st, Later.step .refl e1, by simpa [dispatch] using a1, hi.still k1⟩
  | cons ev es ih =>
    obtain ⟨j, v⟩ := ev
    intro hs st m s hr ha hi
    cases hj : hs[j]? with
    | none =>
      have hx : st[j]? = none := by
        rw [List.getElem?_eq_none_iff] at hj ⊢
        rw [← hi.len]; exact hj
      obtain ⟨s1, e1, a1, k1⟩ := tau_main (δ := δ) (mv := mv) (gl := gl) (l' := .pick hs es) (m' := m) ha (by simp only [prog, code, hj])
      obtain ⟨s2, st', l2, a2, i2⟩ := ih hs st m s1 (hr.step e1) a1 (hi.still k1)
      exact ⟨s2, st', (Later.step .refl e1).trans l2, by simpa [dispatch, hx] using a2, i2⟩
    | some h =>
      have hlt : j < st.length := by rw [← hi.len]; exact (List.getElem?_eq_some_iff.1 hj).1
      obtain ⟨o, hx⟩ : ∃ o, st[j]? = some o := ⟨_, List.getElem?_eq_getElem hlt⟩
      cases o with
      | none =>
        obtain ⟨s1, l1, a1, i1⟩ := event_lost (δ := δ) (mv := mv) (gl := gl) ha hi hj hx
        obtain ⟨s2, st', l2, a2, i2⟩ := ih hs st _ s1 (l1.reach hr) a1 i1
        exact ⟨s2, st', l1.trans l2, by simpa [dispatch, hx] using a2, i2⟩
      | some q =>
        obtain ⟨s1, l1, h1⟩ := event_heard hr ha hi hj hx
        cases hd : δ q v with
        | again q' | deep o q' | quit | fail e =>
          rw [hd] at h1
          obtain ⟨s2, st', l2, a2, i2⟩ := ih hs _ _ s1 (l1.reach hr) h1.1 h1.2
          exact ⟨s2, st', l1.trans l2, by simpa [dispatch, hx, hd] using a2, i2⟩

theorem Stock.tail {s : S Q V E} {h : Nat} {hs : List Nat} {o : Option Q} {st : List (Option Q)} (hi : Stock s (h :: hs) (o :: st)) :
    hs.length = st.length ∧ (∀ (i h : Nat), hs[i]? = some h → ∃ p, Hears s h p) ∧ ∀ i j h : Nat, hs[i]? = some h → hs[j]? = some h → i = j := by
  refine ⟨by simpa using hi.len, fun i h' h1 => ?_, fun i j h h1 h2 => by simpa using hi.inj (i + 1) (j + 1) h (by simpa using h1) (by simpa using h2)⟩
  have hl : i < st.length := by have := hi.len; simp at this; rw [← this]; exact (List.getElem?_eq_some_iff.1 h1).1
  exact ⟨_, hi.has (i + 1) h' st[i] (by simpa using h1) (by simpa using List.getElem?_eq_getElem hl)⟩

theorem clean (hs : List Nat) : ∀ (m : List (Nat × Note V E)) (s : S Q V E),
    Reach (prog δ mv gl) l0 g0 s → AtMain s (.clean hs) [] m → (∀ (i h : Nat), hs[i]? = some h → ∃ p, Hears s h p) →
    (∀ i j h : Nat, hs[i]? = some h → hs[j]? = some h → i = j) →
    ∃ s', Later (prog δ mv gl) s s' ∧ step (prog δ mv gl) s' = .done s' ∧ s'.g = ((), m) := by
  induction hs with
  | nil =>
    intro m s hr ha hi hj
    have e1 := (Local.ret (P := prog δ mv gl) ha.ctl rfl).fwd
    refine ⟨_, Later.step .refl e1, ?_, ha.g⟩
    simp [step, retStep, St.fr, ha.cur, ha.base, show s.frames 0 = [] by rw [← ha.cur]; exact ha.fr]
  | cons h hs ih =>
    intro m s hr ha hi hj
    obtain ⟨p, hq⟩ := hi 0 h rfl
    obtain ⟨c, hp, q⟩ := hq.idle
    have hn : ∀ (i h' : Nat), hs[i]? = some h' → h' ≠ h := by
      intro i h' hi' e
      subst e
      have := hj (i + 1) 0 h' (by simpa using hi') rfl
      omega
    obtain ⟨s2, l2, -, x2, f2, g2, -, k2⟩ := op_dropPush_spares hr q (by rw [ha.ctl]; simp) (.api ha.ctl rfl) rfl
    rw [undone_id fun _ _ => rfl] at g2
    have e3 := (Local.dUsr (P := prog δ mv gl) x2 f2).fwd
    have h0 : (0 : Nat) ≠ c := by have := q.ne; rwa [ha.cur] at this
    obtain ⟨s4, l4, e4, g4⟩ := ih m _ ((l2.reach hr).step e3)
      ⟨rfl, g2.trans ha.g, k2.cur.trans ha.cur, by show upd _ _ _ _ = _; rw [upd_at]; exact ha.fr, (k2.base 0 h0).trans ha.base⟩
      (fun i h' h1 => by
        obtain ⟨p', hp'⟩ := hi (i + 1) h' (by simpa using h1)
        exact ⟨p', (hp'.spared hr q (hn i h' h1) k2).congr rfl rfl rfl rfl rfl rfl (fun d hd => upd_off _ _ hd) rfl⟩)
      (fun i j h' h1 h2 => by simpa using hj (i + 1) (j + 1) h' (by simpa using h1) (by simpa using h2))
    exact ⟨s4, (l2.step e3).trans l4, e4, g4⟩

theorem spawn (es : List (Nat × V)) (qs : List Q) : ∀ (hs : List Nat) (st : List (Option Q)) (m : List (Nat × Note V E)) (s : S Q V E),
    Reach (prog δ mv gl) l0 g0 s → AtMain s (.spawn qs hs es) [] m → Stock s hs st →
    ∃ s' hs', Later (prog δ mv gl) s s' ∧ AtMain s' (.pick hs' es) [] m ∧ Stock s' hs' (st ++ qs.map some) := by
  induction qs with
  | nil =>
    intro hs st m s hr ha hi
    obtain ⟨s1, e1, a1, k1⟩ := tau_main (δ := δ) (mv := mv) (gl := gl) (l' := .pick hs es) (m' := m) ha rfl
    exact ⟨s1, hs, Later.step .refl e1, a1, by simpa using hi.still k1⟩
  | cons q qs ih =>
    intro hs st m s hr ha hi
    obtain ⟨s1, l1, c1, f1, g1, n1, K, x1, q1⟩ := op_mkPush (P := prog δ mv gl) (k := onHandle fun h => .spawn qs (hs ++ [h]) es) hr ⟨_, ha.ctl, rfl⟩
    have h0 : (0 : Nat) ≠ s.nk := by
      have := (inv_reach hr).sched.lt_nk 0 (by rw [ha.base]; simp)
      omega
    have hlt : ∀ i h : Nat, hs[i]? = some h → h < s.nh := by
      intro i h hh
      have hl : i < st.length := by rw [← hi.len]; exact (List.getElem?_eq_some_iff.1 hh).1
      obtain ⟨_, _, hq⟩ := (hi.has i h _ hh (List.getElem?_eq_getElem hl)).idle
      exact (inv_reach hr).hok.lt _ (by rw [hq.obj]; simp)
    have split : ∀ i h : Nat, (hs ++ [s.nh + 1])[i]? = some h → (hs[i]? = some h ∧ i < hs.length) ∨ (i = hs.length ∧ h = s.nh + 1) := by
      intro i h hh
      rcases Nat.lt_trichotomy i hs.length with hl | rfl | hl
      · rw [List.getElem?_append_left hl] at hh; exact .inl ⟨hh, hl⟩
      · simp at hh; exact .inr ⟨rfl, hh.symm⟩
      · rw [List.getElem?_eq_none (by simp; omega)] at hh; cases hh
    have i1 : Stock s1 (hs ++ [s.nh + 1]) (st ++ [some q]) := by
      refine ⟨by simp [hi.len], fun i h o g1 g2 => ?_, fun i j h g1 g2 => ?_⟩
      · rcases split i h g1 with ⟨g1, hl⟩ | ⟨rfl, rfl⟩
        · rw [List.getElem?_append_left (by rw [← hi.len]; exact hl)] at g2
          exact (hi.has i h o g1 g2).born hr K c1
        · rw [hi.len] at g2
          simp at g2
          subst g2
          exact .sink q1 (by simp) ⟨rfl, .nil⟩
      · rcases split i h g1 with ⟨g1, hl⟩ | ⟨rfl, rfl⟩ <;> rcases split j _ g2 with ⟨g2, hl'⟩ | ⟨rfl, e⟩
        · exact hi.inj i j h g1 g2
        · have := hlt i h g1; omega
        · have := hlt j _ g2; omega
        · rfl
    obtain ⟨s2, hs', l2, a2, i2⟩ := ih (hs ++ [s.nh + 1]) (st ++ [some q]) m s1 (l1.reach hr)
      ⟨x1, g1.trans ha.g, c1.trans ha.cur, f1.trans ha.fr, (K.base 0 h0).trans ha.base⟩ i1
    exact ⟨s2, hs', l1.trans l2, a2, by simpa using i2⟩

end Events
end Verif
