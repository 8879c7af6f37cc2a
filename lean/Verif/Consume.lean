import Verif.Produce

/-!
# Executing a consumer together with the code that feeds it

Proof material for the examples that use push coroutines (C48 to C50): a big-step description of what the function of a push coroutine does
with one value, and its execution by the machine.
-/
namespace Verif
variable {L G V E : Type}

/-- The saved stack of the function of push coroutine `c` that has asked for the next value through its counterpart object `hp`; where, and
with which stack, it continues. -/
inductive Asked (c hp : Nat) : List (Frame L V E) → L → List (Frame L V E) → Prop
  | op {k : Res V → L} {F : List (Frame L V E)} : Asked c hp (.asg ⟨c, .syn⟩ :: .usr k :: F) (k .unit) F
  | it {k : Res V → L} {F : List (Frame L V E)} : Asked c hp (.asg ⟨c, .syn⟩ :: .fetch hp :: .usr k :: F) (k (.it (some hp))) F

/-- How the function of a push coroutine gives control back: it asks for the next value, or it ends. -/
inductive Stop (L V E : Type)
  | asks (l : L) (F : List (Frame L V E))
  | ends (x : Option E)

/-- The function of a push coroutine, whose counterpart object is `hp`, is in the situation `x` with the stack `F` and memory `g`; the value
stored for it is `v`.  It gives control back as `st` says, with memory `g'`. -/
inductive Takes (P : Prog L G V E) (hp : Nat) : G → V → Ctl L V E → List (Frame L V E) → G → Stop L V E → Prop
  | loc {g g1 g' : G} {v : V} {x x1 : Ctl L V E} {F F1 : List (Frame L V E)} {st : Stop L V E} :
      (∀ s : St L G V E, s.g = g → s.ctl = x → s.fr = F → ∃ evs, Local P s g1 F1 x1 evs) →
      Takes P hp g1 v x1 F1 g' st → Takes P hp g v x F g' st
  | get {g g' : G} {v : V} {l : L} {k : Res V → L} {F : List (Frame L V E)} {st : Stop L V E} :
      P.code l g = .api (.get hp) k → Takes P hp g (P.mv v) (.eval (k (.val v))) F g' st → Takes P hp g v (.eval l) F g' st
  | deref {g g' : G} {v : V} {l : L} {k : Res V → L} {F : List (Frame L V E)} {st : Stop L V E} :
      P.code l g = .api (.itDeref (some hp)) k → Takes P hp g v (.eval (k (.val v))) F g' st → Takes P hp g v (.eval l) F g' st
  | start {g g' : G} {v : V} {l : L} {k : Res V → L} {F : List (Frame L V E)} {st : Stop L V E} :
      P.code l g = .api (.itBegin hp) k → Takes P hp g v (.eval (k (.it (some hp)))) F g' st → Takes P hp g v (.eval l) F g' st
  | bool {g g' : G} {v : V} {l : L} {k : Res V → L} {F : List (Frame L V E)} {st : Stop L V E} :
      P.code l g = .api (.valid hp) k → Takes P hp g v (.eval (k (.bool true))) F g' st → Takes P hp g v (.eval l) F g' st
  | bang {g g' : G} {v : V} {l : L} {k : Res V → L} {F : List (Frame L V E)} {st : Stop L V E} :
      P.code l g = .api (.bang hp) k → Takes P hp g v (.eval (k (.bool false))) F g' st → Takes P hp g v (.eval l) F g' st
  | askOp {g : G} {v : V} {l : L} {k : Res V → L} {F : List (Frame L V E)} :
      P.code l g = .api (.resume hp) k → Takes P hp g v (.eval l) F g (.asks (k .unit) F)
  | askIt {g : G} {v : V} {l : L} {k : Res V → L} {F : List (Frame L V E)} :
      P.code l g = .api (.itNext (some hp)) k → Takes P hp g v (.eval l) F g (.asks (k (.it (some hp))) F)
  | ret {g : G} {v : V} : Takes P hp g v .retn [] g (.ends none)
  | throw {g : G} {v : V} {e : E} : Takes P hp g v (.raise (.user e)) [] g (.ends (some e))

section
variable {P : Prog L G V E} {hp o : Nat} {g g1 g' : G} {v : V} {st : Stop L V E} {l l' l1 : L} {F : List (Frame L V E)} {e : E}

theorem Takes.tau (hc : P.code l g = .tau g1 l') (hy : Takes P hp g1 v (.eval l') F g' st) : Takes P hp g v (.eval l) F g' st :=
  .loc (fun s hg hx hf => ⟨[], hf ▸ .tau hx (hg ▸ hc)⟩) hy

theorem Takes.obj (hc : P.code l g = .newObj o l') (hy : Takes P hp g v (.eval l') (.gObj o :: F) g' st) : Takes P hp g v (.eval l) F g' st :=
  .loc (fun s hg hx hf => ⟨[.octor s.cur o], by rw [← hf, ← hg]; exact .newObj hx (hg ▸ hc)⟩) hy

theorem Takes.back (hc : P.code l g = .ret) (hy : Takes P hp g v .retn F g' st) : Takes P hp g v (.eval l) F g' st :=
  .loc (fun s hg hx hf => ⟨[], by rw [← hf, ← hg]; exact .ret hx (hg ▸ hc)⟩) hy

theorem Takes.raise (hc : P.code l g = .throw e) (hy : Takes P hp g v (.raise (.user e)) F g' st) : Takes P hp g v (.eval l) F g' st :=
  .loc (fun s hg hx hf => ⟨[], by rw [← hf, ← hg]; exact .throw hx (hg ▸ hc)⟩) hy

theorem Takes.call (hc : P.code l g = .call l1 l') (hy : Takes P hp g v (.eval l1) (.fnRet l' :: F) g' st) : Takes P hp g v (.eval l) F g' st :=
  .loc (fun s hg hx hf => ⟨[], by rw [← hf, ← hg]; exact .call hx (hg ▸ hc)⟩) hy

theorem Takes.fnRet (hy : Takes P hp g v (.eval l) F g' st) : Takes P hp g v .retn (.fnRet l :: F) g' st :=
  .loc (fun s hg hx hf => ⟨[], by rw [← hg]; exact .tFnRet hx hf⟩) hy

theorem Takes.objRet (hy : Takes P hp (P.dtor o g) v .retn F g' st) : Takes P hp g v .retn (.gObj o :: F) g' st :=
  .loc (fun s hg hx hf => ⟨[.odtor s.cur o], by rw [← hg]; exact .tObj hx hf⟩) hy

theorem Takes.fnThrow (hy : Takes P hp g v (.raise (.user e)) F g' st) : Takes P hp g v (.raise (.user e)) (.fnRet l :: F) g' st :=
  .loc (fun s hg hx hf => ⟨[], by rw [← hg]; exact .rFnRet hx hf⟩) hy

theorem Takes.objThrow (hy : Takes P hp (P.dtor o g) v (.raise (.user e)) F g' st) : Takes P hp g v (.raise (.user e)) (.gObj o :: F) g' st :=
  .loc (fun s hg hx hf => ⟨[.odtor s.cur o], by rw [← hg]; exact .rObj hx hf⟩) hy

end

/-- The parts of push coroutine `c` that stay as they are until its function ends. -/
structure PChan (s : St L G V E) (c hp : Nat) : Prop where
  cnt : s.hs hp = some ⟨.pull, .val, some ⟨c, .syn⟩⟩
  kind : s.kind c = .push
  va : s.va c = .val
  ownA : (s.cbs ⟨c, .own⟩).life = .alive
  ownO : (s.cbs ⟨c, .own⟩).other = some ⟨c, .syn⟩
  ownX : (s.cbs ⟨c, .own⟩).except = none
  ownS : (s.cbs ⟨c, .own⟩).state = StateT.unwind
  synA : (s.cbs ⟨c, .syn⟩).life = .alive
  synO : (s.cbs ⟨c, .syn⟩).other = some ⟨c, .own⟩
  synX : (s.cbs ⟨c, .syn⟩).except = none
  synS : (s.cbs ⟨c, .syn⟩).state = StateT.none

/-- Push coroutine `c` runs on behalf of context `m`; the value `v` is stored for it. -/
structure PAwake (s : St L G V E) (c hp m : Nat) (v : V) : Prop where
  chan : PChan s c hp
  base : s.base c = .inFn hp
  cur : s.cur = c
  ne : m ≠ c
  fs : s.fib (.cb ⟨c, .syn⟩) = some m
  fo : s.fib (.cb ⟨c, .own⟩) = none
  valid : (s.cbs ⟨c, .syn⟩).bvalid = true
  live : (s.cbs ⟨c, .syn⟩).slot = .live v

/-- Push coroutine `c` is suspended; given a value it continues at `l` with the stack `F`. -/
structure Hungry (s : St L G V E) (c hp : Nat) (l : L) (F : List (Frame L V E)) : Prop where
  chan : PChan s c hp
  fs : s.fib (.cb ⟨c, .syn⟩) = none
  slot : (s.cbs ⟨c, .syn⟩).bvalid = true → ∃ w, (s.cbs ⟨c, .syn⟩).slot = .live w
  body : (∃ fn, s.base c = .pushEntry hp fn ∧ s.frames c = [] ∧ l = fn hp ∧ F = []) ∨ (s.base c = .inFn hp ∧ Asked c hp (s.frames c) l F)

/-- The function of push coroutine `c` has ended. -/
structure POver (s : St L G V E) (c hp : Nat) (x : Option E) : Prop where
  cnt : s.hs hp = some ⟨.pull, .val, some ⟨c, .syn⟩⟩
  base : s.base c = .final hp
  frames : s.frames c = []
  kind : s.kind c = .push
  va : s.va c = .val
  ownA : (s.cbs ⟨c, .own⟩).life = .alive
  ownX : (s.cbs ⟨c, .own⟩).except = x
  ownS : (s.cbs ⟨c, .own⟩).state = StateT.or StateT.unwind StateT.complete
  slot : (s.cbs ⟨c, .syn⟩).bvalid = true → ∃ w, (s.cbs ⟨c, .syn⟩).slot = .live w
  synA : (s.cbs ⟨c, .syn⟩).life = .alive
  fs : s.fib (.cb ⟨c, .syn⟩) = none

/-- How coroutine `c` is after it has given control back as `st` says. -/
def Stopped (s : St L G V E) (c hp : Nat) : Stop L V E → Prop
  | .asks l F => Hungry s c hp l F
  | .ends x => POver s c hp x

/-- Control has just come back from coroutine `c` to context `m`. -/
structure PBack (s : St L G V E) (c m : Nat) : Prop where
  cur : s.cur = m
  ne : m ≠ c
  ctl : s.ctl = .recv
  air : s.fib .air = some c
  fo : s.fib (.cb ⟨c, .own⟩) = none

variable {P : Prog L G V E} {l0 : L} {g0 g g' : G} {s s' : St L G V E} {c hp m h : Nat} {v w : V} {k : Res V → L} {x : Ctl L V E}
  {F : List (Frame L V E)} {l : L} {st : Stop L V E}

theorem PChan.congr (h : PChan s c hp) (e1 : s'.hs = s.hs) (e3 : s'.kind c = s.kind c) (e4 : s'.va c = s.va c)
    (e5 : ∀ sd, s'.cbs ⟨c, sd⟩ = s.cbs ⟨c, sd⟩) : PChan s' c hp := by
  obtain ⟨h1, h2, h3, h4, h5, h6, h7, h8, h9, h10, h11⟩ := h
  constructor <;> simp_all

theorem PAwake.valid' (hw : PAwake s c hp m v) : cbValid s ⟨c, .syn⟩ = true := by
  unfold cbValid
  dsimp only
  rw [hw.chan.kind, hw.chan.synO, hw.chan.synS, hw.chan.va, hw.valid]
  rfl

/-- a local step of the running consumer -/
theorem PAwake.loc {g1 : G} {F1 : List (Frame L V E)} {x1 : Ctl L V E} {evs : List (Ev V E)} (hw : PAwake s c hp m v)
    : PAwake { s with g := g1, frames := upd s.frames s.cur F1, ctl := x1, log := evs ++ s.log } c hp m v :=
  ⟨hw.chan.congr rfl rfl rfl fun _ => rfl, hw.base, hw.cur, hw.ne, hw.fs, hw.fo, hw.valid, hw.live⟩

/-- the consumer asks for the next value -/
theorem ask_awake {op : Op L V E} {post : List (Frame L V E)} (hr : Reach P l0 g0 s) (hw : PAwake s c hp m v) (hx : s.ctl = .eval l)
    (hf : s.frames c = F) (hc : P.code l s.g = .api op k) (hop : PullCall op hp post)
    {l' : L} (ha : Asked c hp (.asg ⟨c, .syn⟩ :: (post ++ .usr k :: F)) l' F) :
    ∃ s', step P s = .next s' ∧ PBack s' c m ∧ s'.frames m = s.frames m ∧ s'.g = s.g ∧ Hungry s' c hp l' F ∧ s'.nh = s.nh ∧ Keeps c m s s' := by
  obtain ⟨hch, hbase, hcur, hne, hfs, hfo, hval, hlive⟩ := hw
  have hfr : s.fr = F := by unfold St.fr; rw [hcur, hf]
  have st := reach_step hr (Step.pull hx hc hop hch.cnt rfl rfl hch.synA hfs)
  rw [← hfr] at ha
  refine ⟨_, st, ⟨rfl, hne, rfl, ?_, ?_⟩, ?_, rfl, ⟨hch.congr rfl rfl rfl fun _ => rfl, ?_, fun _ => ⟨_, hlive⟩, .inr ⟨hbase, ?_⟩⟩, rfl,
    ⟨fun _ _ => rfl, ?_, fun _ _ => rfl, fun _ _ => rfl, fun _ _ => rfl, ?_, fun _ _ => rfl, Nat.le_refl _, Nat.le_refl _⟩⟩
  all_goals clear st hr hop hc
  any_goals (show Asked _ _ _ _ _; simpa [upd, hcur, hfr] using ha)
  any_goals (intro q hq; have := off_co (sd := .own) (q := q) hq; have := off_co (sd := .syn) (q := q) hq)
  all_goals simp_all [upd]

/-- the function of the consumer ends -/
theorem end_awake {r : Option E} (hr : Reach P l0 g0 s) (hw : PAwake s c hp m v)
    (hx : (s.ctl = .retn ∧ r = none) ∨ (∃ e, s.ctl = .raise (.user e) ∧ r = some e)) (hf : s.frames c = []) :
    ∃ s', step P s = .next s' ∧ PBack s' c m ∧ s'.frames m = s.frames m ∧ s'.g = s.g ∧ POver s' c hp r ∧ s'.nh = s.nh ∧ Keeps c m s s' := by
  obtain ⟨hch, hbase, hcur, hne, hfs, hfo, hval, hlive⟩ := hw
  have hfr : s.fr = [] := by unfold St.fr; rw [hcur, hf]
  have st := reach_step hr (Step.fin (h := hp) (t := m) (x := r) hx hfr (hcur ▸ hbase) (hcur ▸ hch.ownA) (hcur ▸ hfs))
  refine ⟨_, st, ⟨rfl, hne, rfl, ?_, ?_⟩, rfl, rfl, ⟨hch.cnt, ?_, hf, hch.kind, hch.va, ?_, ?_, ?_, ?_, ?_, ?_⟩, rfl, ⟨?_, ?_, ?_, fun _ _ => rfl,
    fun _ _ => rfl, fun _ _ _ => rfl, fun _ _ => rfl, Nat.le_refl _, Nat.le_refl _⟩⟩
  all_goals obtain ⟨h1, h2, h3, h4, h5, h6, h7, h8, h9, h10, h11⟩ := hch
  all_goals clear st hr hx
  all_goals dsimp only
  any_goals (intro q hq; have := off_co (sd := .own) (q := q) hq; have := off_co (sd := .syn) (q := q) hq)
  all_goals simp_all [upd]

/-- the consumer runs until it gives control back -/
theorem consume (ht : Takes P hp g v x F g' st) : ∀ {s : St L G V E}, Reach P l0 g0 s → PAwake s c hp m v → s.g = g → s.ctl = x → s.frames c = F →
    ∃ s', Later P s s' ∧ PBack s' c m ∧ s'.frames m = s.frames m ∧ s'.g = g' ∧ Stopped s' c hp st ∧ s'.nh = s.nh ∧ Keeps c m s s' := by
  have call2 : ∀ {s : St L G V E} {k : Res V → L} {r : Res V} {F : List (Frame L V E)} {evs : List (Ev V E)} {v : V},
      PAwake s c hp m v → s.frames c = F →
      step P s = .next { s with g := s.g, frames := upd s.frames s.cur (.usr k :: s.fr), ctl := .deliver r, log := evs ++ s.log } →
      ∃ s1, Later P s s1 ∧ PAwake s1 c hp m v ∧ s1.g = s.g ∧ s1.ctl = .eval (k r) ∧ s1.frames c = F ∧ s1.frames m = s.frames m ∧
        s1.nh = s.nh ∧ Keeps c m s s1 := by
    intro s k r F evs v hw hf e1
    have e2 := Local.fwd (P := P) (.dUsr (s := { s with g := s.g, frames := upd s.frames s.cur (.usr k :: s.fr), ctl := .deliver r, log := evs ++ s.log }) rfl (upd_at ..))
    refine ⟨_, (Later.step .refl e1).step e2, hw.loc.loc, rfl, rfl, ?_, ?_, rfl, (local_keeps rfl (.inl hw.cur)).trans (local_keeps rfl (.inl hw.cur))⟩
    · simp [St.fr, upd, hw.cur, hf]
    · simp [upd, hw.cur, hw.ne]
  induction ht with
  | loc hloc _ ih =>
    intro s hr hw hg hx hf
    obtain ⟨evs, hl⟩ := hloc s hg hx (by unfold St.fr; rw [hw.cur, hf])
    obtain ⟨s', h2, h3, h4, h5, h6, h7, h8⟩ := ih (hr.step hl.fwd) hw.loc rfl rfl (by show upd _ _ _ _ = _; rw [hw.cur, upd_at])
    exact ⟨s', (Later.step .refl hl.fwd).trans h2, h3, h4.trans (upd_off _ _ (by rw [hw.cur]; exact hw.ne)), h5, h6, h7,
      (local_keeps rfl (.inl hw.cur)).trans h8⟩
  | @get g g' v l k F st hc _ ih =>
    intro s hr hw hg hx hf
    have hb : readSlot s hp = .ok (⟨c, .syn⟩, v) := by
      unfold readSlot
      simp [hw.chan.cnt, hw.chan.synA, hw.live]
    have e1 := reach_step hr (.get hx (hg ▸ hc) hb)
    generalize hs1 : ({ s with frames := _, ctl := _, log := _, cbs := _ } : St L G V E) = s1 at e1
    have c1 : s1.cur = c := by subst hs1; exact hw.cur
    have f1 : s1.fr = .usr k :: F := by subst hs1; simp [St.fr, hw.cur, hf]
    have e2 := (Local.dUsr (P := P) (r := .val v) (by subst hs1; rfl) f1).fwd
    have w1 : PAwake s1 c hp m (P.mv v) := by
      obtain ⟨⟨h1, h2, h3, h4, h5, h6, h7, h8, h9, h10, h11⟩, n1, n2, n3, n4, n5, n6, n7⟩ := hw
      subst hs1
      clear e1 e2 hr ih
      refine ⟨⟨?_, ?_, ?_, ?_, ?_, ?_, ?_, ?_, ?_, ?_, ?_⟩, ?_, ?_, ?_, ?_, ?_, ?_, ?_⟩ <;> simp_all [upd]
    have k1 : Keeps c m s s1 := by
      subst hs1
      refine ⟨fun q hq => upd_off _ _ (off_co hq), fun _ _ => rfl, fun _ _ => rfl, fun _ _ => rfl, fun _ _ => rfl, fun d hd _ => ?_, fun _ _ => rfl, Nat.le_refl _, Nat.le_refl _⟩
      exact upd_off _ _ (by rw [hw.cur]; exact hd)
    obtain ⟨s', h2, h3, h4, h5, h6, h7, h8⟩ := ih ((hr.step e1).step e2) w1.loc (by subst hs1; exact hg) rfl (by show upd _ _ _ _ = _; rw [c1, upd_at])
    refine ⟨s', ((Later.step .refl e1).step e2).trans h2, h3, h4.trans ?_, h5, h6, h7.trans ?_, (k1.trans (local_keeps rfl (.inl c1))).trans h8⟩
    · show upd _ _ _ _ = _
      rw [upd_off _ _ (by rw [c1]; exact hw.ne)]
      subst hs1
      exact upd_off _ _ (by rw [hw.cur]; exact hw.ne)
    · subst hs1; rfl
  | @deref g g' v l k F st hc _ ih =>
    intro s hr hw hg hx hf
    have hb : readSlot s hp = .ok (⟨c, .syn⟩, v) := by
      unfold readSlot
      simp [hw.chan.cnt, hw.chan.synA, hw.live]
    obtain ⟨s1, l1, w1, g1, x1, f1, m1, n1, k1⟩ := call2 hw hf (Local.itDeref hx (hg ▸ hc) hb).fwd
    obtain ⟨s', h2, h3, h4, h5, h6, h7, h8⟩ := ih (l1.reach hr) w1 (g1.trans hg) x1 f1
    exact ⟨s', l1.trans h2, h3, h4.trans m1, h5, h6, h7.trans n1, k1.trans h8⟩
  | @start g g' v l k F st hc _ ih =>
    intro s hr hw hg hx hf
    have hb : handleBool s hp = .ok true := by
      unfold handleBool
      simp only [hw.chan.cnt, hw.chan.synA, if_true, hw.valid']
    obtain ⟨s1, l1, w1, g1, x1, f1, m1, n1, k1⟩ := call2 hw hf (Local.itBeginPull hx (hg ▸ hc) hw.chan.cnt rfl (by simp) hb).fwd
    obtain ⟨s', h2, h3, h4, h5, h6, h7, h8⟩ := ih (l1.reach hr) w1 (g1.trans hg) x1 f1
    exact ⟨s', l1.trans h2, h3, h4.trans m1, h5, h6, h7.trans n1, k1.trans h8⟩
  | @bool g g' v l k F st hc _ ih =>
    intro s hr hw hg hx hf
    have hb : handleBool s hp = .ok true := by
      unfold handleBool
      simp only [hw.chan.cnt, hw.chan.synA, if_true, hw.valid']
    obtain ⟨s1, l1, w1, g1, x1, f1, m1, n1, k1⟩ := call2 hw hf (Local.valid hx (hg ▸ hc) hb).fwd
    obtain ⟨s', h2, h3, h4, h5, h6, h7, h8⟩ := ih (l1.reach hr) w1 (g1.trans hg) x1 f1
    exact ⟨s', l1.trans h2, h3, h4.trans m1, h5, h6, h7.trans n1, k1.trans h8⟩
  | @bang g g' v l k F st hc _ ih =>
    intro s hr hw hg hx hf
    have hb : handleBang s hp = .ok false := by
      unfold handleBang
      simp [hw.chan.cnt, hw.chan.synA, hw.valid']
    obtain ⟨s1, l1, w1, g1, x1, f1, m1, n1, k1⟩ := call2 hw hf (Local.bang hx (hg ▸ hc) hb).fwd
    obtain ⟨s', h2, h3, h4, h5, h6, h7, h8⟩ := ih (l1.reach hr) w1 (g1.trans hg) x1 f1
    exact ⟨s', l1.trans h2, h3, h4.trans m1, h5, h6, h7.trans n1, k1.trans h8⟩
  | askOp hc =>
    intro s hr hw hg hx hf
    obtain ⟨s', e1, h3, h4, h5, h6, h7, h8⟩ := ask_awake hr hw hx hf (hg ▸ hc) .op .op
    exact ⟨s', .step .refl e1, h3, h4, h5.trans hg, h6, h7, h8⟩
  | askIt hc =>
    intro s hr hw hg hx hf
    obtain ⟨s', e1, h3, h4, h5, h6, h7, h8⟩ := ask_awake hr hw hx hf (hg ▸ hc) .it .it
    exact ⟨s', .step .refl e1, h3, h4, h5.trans hg, h6, h7, h8⟩
  | ret =>
    intro s hr hw hg hx hf
    obtain ⟨s', e1, h3, h4, h5, h6, h7, h8⟩ := end_awake (r := none) hr hw (.inl ⟨hx, rfl⟩) hf
    exact ⟨s', .step .refl e1, h3, h4, h5.trans hg, h6, h7, h8⟩
  | @throw _ _ e =>
    intro s hr hw hg hx hf
    obtain ⟨s', e1, h3, h4, h5, h6, h7, h8⟩ := end_awake (r := some e) hr hw (.inr ⟨e, hx, rfl⟩) hf
    exact ⟨s', .step .refl e1, h3, h4, h5.trans hg, h6, h7, h8⟩

/-! ## What the code that feeds it sees -/

/-- `h` is the object of the suspended push coroutine `c`. -/
structure Sink (s : St L G V E) (h c hp : Nat) (l : L) (F : List (Frame L V E)) : Prop where
  hungry : Hungry s c hp l F
  obj : s.hs h = some ⟨.push, .val, some ⟨c, .own⟩⟩
  fo : s.fib (.cb ⟨c, .own⟩) = some c
  ne : s.cur ≠ c

/-- … of one whose function has ended. -/
structure PSpent (s : St L G V E) (h c hp : Nat) (x : Option E) : Prop where
  over : POver s c hp x
  obj : s.hs h = some ⟨.push, .val, some ⟨c, .own⟩⟩
  fo : s.fib (.cb ⟨c, .own⟩) = some c
  ne : s.cur ≠ c

/-- the value transferred by an argument, and what is left in it -/
inductive Carries (mv : V → V) : PushArg V E → V → V → Prop
  | copy {v : V} : Carries mv (.copy v) v v
  | move {v : V} : Carries mv (.move v) v (mv v)

/-- a value is pushed: the consumer is entered -/
theorem feed_wake {op : Op L V E} {a : PushArg V E} {post : Option V → List (Frame L V E)} (hr : Reach P l0 g0 s) (hq : Sink s h c hp l F)
    (hc : Calls P s op k) (hop : PushCall op h a post) (hv : Carries P.mv a v w) :
    ∃ s', Later P s s' ∧ PAwake s' c hp s.cur v ∧ s'.frames s.cur = .asg ⟨c, .own⟩ :: (post (some w) ++ .usr k :: s.fr) ∧ s'.g = s.g ∧
      s'.ctl = .eval l ∧ s'.frames c = F ∧ s'.nh = s.nh ∧ s'.hs = s.hs ∧ Keeps c s.cur s s' := by
  obtain ⟨l1, h1, h2⟩ := hc
  obtain ⟨⟨hch, hfs, hslot, hbody⟩, hobj, hfo, hne⟩ := hq
  obtain ⟨evs, hset⟩ : ∃ evs, SetOk P.mv (s.va c) (s.cbs ⟨c, .syn⟩) c a { s.cbs ⟨c, .syn⟩ with slot := .live v, bvalid := true } evs (some w) := by
    cases hb : (s.cbs ⟨c, .syn⟩).bvalid with
    | false => cases hv with
      | copy => exact ⟨_, .copy0 hch.va rfl hb⟩
      | move => exact ⟨_, .move0 hch.va rfl hb⟩
    | true =>
      obtain ⟨u, hu⟩ := hslot hb
      cases hv with
      | copy => exact ⟨_, .copy1 hch.va rfl hb hu⟩
      | move => exact ⟨_, .move1 hch.va rfl hb hu⟩
  have e1 := reach_step hr (Step.push (r := ⟨c, .own⟩) h1 h2 hop hobj rfl rfl hch.ownA hch.ownO hch.synA hset hfo)
  have hK : ∀ lg, Keeps c s.cur s { s with frames := upd s.frames s.cur (.asg ⟨c, .own⟩ :: (post (some w) ++ .usr k :: s.fr)), ctl := .recv, cur := c, cbs := upd s.cbs ⟨c, .syn⟩ { s.cbs ⟨c, .syn⟩ with slot := .live v, bvalid := true }, fib := upd (upd s.fib (.cb ⟨c, .own⟩) none) .air (some s.cur), log := lg } := by
    intro lg
    refine ⟨?_, ?_, fun _ _ => rfl, fun _ _ => rfl, fun _ _ => rfl, fun d _ hd => upd_off _ _ hd, fun _ _ => rfl, Nat.le_refl _, Nat.le_refl _⟩
    all_goals (intro q hq; have := off_co (sd := .own) hq; have := off_co (sd := .syn) hq; simp_all [upd])
  have hK := hK (.jump ⟨c, .own⟩ s.cur c :: (evs ++ s.log))
  dsimp only [CbRef.partner, Side.flip] at e1
  generalize hs1 : ({ s with frames := _, ctl := _, cur := _, cbs := _, fib := _, log := _ } : St L G V E) = s1 at e1 hK
  have r1 := hr.step e1
  have c1 : s1.cur = c := by subst hs1; rfl
  have ch1 : PChan s1 c hp := by
    obtain ⟨n1, n2, n3, n4, n5, n6, n7, n8, n9, n10, n11⟩ := hch
    subst hs1
    clear e1 hK hr r1
    constructor <;> simp_all [upd]
  have air1 : s1.fib .air = some s.cur := by subst hs1; simp [upd]
  have fs1 : s1.fib (.cb ⟨c, .syn⟩) = none := by subst hs1; simp [upd, hfs]
  have fo1 : s1.fib (.cb ⟨c, .own⟩) = none := by subst hs1; simp [upd]
  have fm1 : s1.frames s.cur = .asg ⟨c, .own⟩ :: (post (some w) ++ .usr k :: s.fr) := by subst hs1; simp
  have fc1 : s1.frames c = s.frames c := by subst hs1; simp [upd, Ne.symm hne]
  have b1 : s1.base = s.base := by subst hs1; rfl
  have v1 : (s1.cbs ⟨c, .syn⟩).bvalid = true ∧ (s1.cbs ⟨c, .syn⟩).slot = .live v := by subst hs1; simp
  have g1 : s1.g = s.g := by subst hs1; rfl
  have x1 : s1.ctl = .recv := by subst hs1; rfl
  have n1 : s1.nh = s.nh ∧ s1.hs = s.hs := by subst hs1; exact ⟨rfl, rfl⟩
  clear hs1
  rcases hbody with ⟨fn, hb, hf, rfl, rfl⟩ | ⟨hb, ha⟩
  · have e2 := reach_step r1 (.startPush (h := hp) (fn := fn) (u := s.cur) x1 (by unfold St.fr; rw [c1, fc1, hf]) (by rw [c1, b1, hb]) (c1 ▸ ch1.ownA) air1 (c1 ▸ fs1))
    refine ⟨_, (Later.step .refl e1).step e2, ⟨ch1.congr rfl rfl rfl fun _ => rfl, ?_, c1, hne, ?_, ?_, v1.1, v1.2⟩, fm1, g1, rfl, fc1.trans hf, n1.1, n1.2, hK.trans ⟨fun _ _ => rfl, ?_, ?_, fun _ _ => rfl, fun _ _ => rfl, fun _ _ _ => rfl, fun _ _ => rfl, Nat.le_refl _, Nat.le_refl _⟩⟩
    · simp [upd, c1]
    · simp [upd, c1]
    · simp [upd, c1, fo1]
    · intro q hq; have := off_co (sd := .syn) hq; simp_all [upd]
    · intro q hq; simp_all [upd]
  · have hcore : ∀ post' : List (Frame L V E), s.frames c = .asg ⟨c, .syn⟩ :: post' →
        ∃ s2, step P s1 = .next s2 ∧ PAwake s2 c hp s.cur v ∧ s2.frames s.cur = s1.frames s.cur ∧ s2.frames c = post' ∧ s2.g = s.g ∧ s2.ctl = .deliver .unit ∧
          s2.nh = s.nh ∧ s2.hs = s.hs ∧ Keeps c s.cur s1 s2 := by
      intro post' hp'
      have e2 := reach_step r1 (.asg (r := ⟨c, .syn⟩) (u := s.cur) x1 (by unfold St.fr; rw [c1, fc1, hp']) ch1.synA fs1 air1 ch1.synX)
      refine ⟨_, e2, ⟨ch1.congr rfl rfl rfl fun _ => rfl, b1 ▸ hb, c1, hne, ?_, ?_, v1.1, v1.2⟩, ?_, ?_, g1, rfl, n1.1, n1.2, ⟨fun _ _ => rfl, ?_, fun _ _ => rfl, fun _ _ => rfl, fun _ _ => rfl, ?_, fun _ _ => rfl, Nat.le_refl _, Nat.le_refl _⟩⟩
      · simp [upd]
      · simp [upd, fo1]
      · simp [upd, c1, hne]
      · simp [c1]
      · intro q hq; have := off_co (sd := .syn) hq; simp_all [upd]
      · intro q hq _; simp_all [upd]
    generalize hfc : s.frames c = fc at ha hcore
    cases ha with
    | @op k' _ =>
      obtain ⟨s2, e2, w2, fm2, fc2, g2, x2, n2, o2, k2⟩ := hcore _ rfl
      have e3 := (Local.dUsr (P := P) x2 (by unfold St.fr; rw [w2.cur, fc2])).fwd
      refine ⟨_, ((Later.step .refl e1).step e2).step e3, w2.loc, ?_, g2, rfl, ?_, n2, o2, (hK.trans k2).trans (local_keeps rfl (.inl w2.cur))⟩
      · show upd _ _ _ _ = _
        rw [upd_off _ _ (by rw [w2.cur]; exact hne), fm2, fm1]
      · show upd _ _ _ _ = _
        rw [w2.cur, upd_at]
    | @it k' _ =>
      obtain ⟨s2, e2, w2, fm2, fc2, g2, x2, n2, o2, k2⟩ := hcore _ rfl
      have hb' : handleBang s2 hp = .ok false := by
        unfold handleBang
        simp [w2.chan.cnt, w2.chan.synA, w2.valid']
      have e3 := (Local.dFetch (P := P) x2 (by unfold St.fr; rw [w2.cur, fc2]) hb').fwd
      have e4 := Local.fwd (P := P) (.dUsr (s := { s2 with g := s2.g, frames := upd s2.frames s2.cur (.usr k' :: F), ctl := .deliver (.it (some hp)), log := [] ++ s2.log }) rfl (upd_at ..))
      refine ⟨_, (((Later.step .refl e1).step e2).step e3).step e4, w2.loc.loc, ?_, g2, rfl, ?_, n2, o2, ((hK.trans k2).trans (local_keeps rfl (.inl w2.cur))).trans (local_keeps rfl (.inl w2.cur))⟩
      · simp [upd, w2.cur, hne, fm2, fm1]
      · simp [upd, w2.cur]

theorem Hungry.congr (hq : Hungry s c hp l F) (e1 : s'.hs = s.hs) (e2 : s'.base c = s.base c) (e3 : s'.kind c = s.kind c) (e4 : s'.va c = s.va c)
    (e5 : ∀ sd, s'.cbs ⟨c, sd⟩ = s.cbs ⟨c, sd⟩) (e6 : s'.fib (.cb ⟨c, .syn⟩) = s.fib (.cb ⟨c, .syn⟩)) (e7 : s'.frames c = s.frames c) :
    Hungry s' c hp l F :=
  ⟨hq.chan.congr e1 e3 e4 e5, e6.trans hq.fs, by rw [e5]; exact hq.slot, by rw [e2, e7]; exact hq.body⟩

theorem POver.congr {x : Option E} (h : POver s c hp x) (e1 : s'.hs = s.hs) (e2 : s'.base c = s.base c) (e3 : s'.kind c = s.kind c) (e4 : s'.va c = s.va c)
    (e5 : ∀ sd, s'.cbs ⟨c, sd⟩ = s.cbs ⟨c, sd⟩) (e6 : s'.fib (.cb ⟨c, .syn⟩) = s.fib (.cb ⟨c, .syn⟩)) (e7 : s'.frames c = s.frames c) : POver s' c hp x := by
  obtain ⟨h1, h2, h3, h4, h5, h6, h7, h8, h9, h10, h11⟩ := h
  constructor <;> simp_all

/-- a local step of the code that feeds the coroutine -/
theorem Sink.loc {g1 : G} {F1 : List (Frame L V E)} {x1 : Ctl L V E} {lg : List (Ev V E)} (hq : Sink s h c hp l F) :
    Sink { s with g := g1, frames := upd s.frames s.cur F1, ctl := x1, log := lg } h c hp l F :=
  ⟨hq.hungry.congr rfl rfl rfl rfl (fun _ => rfl) rfl (upd_off _ _ (Ne.symm hq.ne)), hq.obj, hq.fo, hq.ne⟩

theorem PSpent.loc {g1 : G} {F1 : List (Frame L V E)} {x1 : Ctl L V E} {lg : List (Ev V E)} {x : Option E} (hq : PSpent s h c hp x) :
    PSpent { s with g := g1, frames := upd s.frames s.cur F1, ctl := x1, log := lg } h c hp x :=
  ⟨hq.over.congr rfl rfl rfl rfl (fun _ => rfl) rfl (upd_off _ _ (Ne.symm hq.ne)), hq.obj, hq.fo, hq.ne⟩

theorem Sink.valid (hq : Sink s h c hp l F) : cbValid s ⟨c, .own⟩ = true := by
  unfold cbValid
  dsimp only
  rw [hq.hungry.chan.kind, hq.hungry.chan.ownS]
  rfl

theorem PSpent.invalid {x : Option E} (hq : PSpent s h c hp x) : cbValid s ⟨c, .own⟩ = false := by
  unfold cbValid
  dsimp only
  rw [hq.over.kind, hq.over.ownS]
  rfl

theorem here_keeps {g1 : G} {F1 : List (Frame L V E)} {x1 : Ctl L V E} {lg : List (Ev V E)} (hc : s.cur = m) :
    Keeps c m s { s with g := g1, frames := upd s.frames s.cur F1, ctl := x1, log := lg } :=
  ⟨fun _ _ => rfl, fun _ _ => rfl, fun _ _ => rfl, fun _ _ => rfl, fun _ _ => rfl, fun _ _ hd => upd_off _ _ (by rw [hc]; exact hd), fun _ _ => rfl,
    Nat.le_refl _, Nat.le_refl _⟩

/-- control after the coroutine-function has ended -/
def endCtl (x : Option E) : Ctl L V E :=
  match x with
  | none => .deliver .unit
  | some e => .raise (.user e)

/-- control has come back: the assignment to the fiber -/
theorem land_asks {T : List (Frame L V E)} (hr : Reach P l0 g0 s) (hb : PBack s c m) (hd : Hungry s c hp l F)
    (hf : s.frames m = .asg ⟨c, .own⟩ :: T) (ho : s.hs h = some ⟨.push, .val, some ⟨c, .own⟩⟩) :
    ∃ s', step P s = .next s' ∧ s'.cur = m ∧ s'.ctl = .deliver .unit ∧ s'.fr = T ∧ s'.g = s.g ∧ Sink s' h c hp l F ∧ s'.nh = s.nh ∧ Keeps c m s s' := by
  obtain ⟨hcur, hne, hctl, hair, hfo⟩ := hb
  have hfr : s.fr = .asg ⟨c, .own⟩ :: T := by unfold St.fr; rw [hcur, hf]
  have e1 := reach_step hr (Step.asg hctl hfr hd.chan.ownA hfo hair hd.chan.ownX)
  refine ⟨_, e1, hcur, rfl, ?_, rfl, ⟨hd.congr rfl rfl rfl rfl (fun _ => rfl) ?_ ?_, ho, ?_, ?_⟩, rfl,
    ⟨fun _ _ => rfl, ?_, fun _ _ => rfl, fun _ _ => rfl, fun _ _ => rfl, ?_, fun _ _ => rfl, Nat.le_refl _, Nat.le_refl _⟩⟩
  all_goals clear e1 hr
  any_goals (intro q hq; have := off_co (sd := .own) (q := q) hq)
  all_goals simp_all [upd, St.fr, Ne.symm hne]

theorem land_over {T : List (Frame L V E)} {x : Option E} (hr : Reach P l0 g0 s) (hb : PBack s c m) (hd : POver s c hp x)
    (hf : s.frames m = .asg ⟨c, .own⟩ :: T) (ho : s.hs h = some ⟨.push, .val, some ⟨c, .own⟩⟩) :
    ∃ s', step P s = .next s' ∧ s'.cur = m ∧ s'.ctl = endCtl x ∧ s'.fr = T ∧ s'.g = s.g ∧
      PSpent s' h c hp x ∧ s'.nh = s.nh ∧ Keeps c m s s' := by
  obtain ⟨hcur, hne, hctl, hair, hfo⟩ := hb
  have hfr : s.fr = .asg ⟨c, .own⟩ :: T := by unfold St.fr; rw [hcur, hf]
  have : ∃ lg, step P s = .next { s with frames := upd s.frames s.cur T, ctl := endCtl x, fib := upd (upd s.fib (.cb ⟨c, .own⟩) (some c)) .air none, log := lg } := by
    cases x with
    | none => exact ⟨s.log, reach_step hr (Step.asg hctl hfr hd.ownA hfo hair hd.ownX)⟩
    | some e => exact ⟨_, reach_step hr (Step.asgThrow hctl hfr hd.ownA hfo hair hd.ownX)⟩
  obtain ⟨lg, e1⟩ := this
  refine ⟨_, e1, hcur, rfl, ?_, rfl, ⟨hd.congr rfl rfl rfl rfl (fun _ => rfl) ?_ ?_, ho, ?_, ?_⟩, rfl,
    ⟨fun _ _ => rfl, ?_, fun _ _ => rfl, fun _ _ => rfl, fun _ _ => rfl, ?_, fun _ _ => rfl, Nat.le_refl _, Nat.le_refl _⟩⟩
  all_goals clear e1 hr
  any_goals (intro q hq; have := off_co (sd := .own) (q := q) hq)
  all_goals simp_all [upd, St.fr, Ne.symm hne]

/-- What a push returns: the argument as it was left, or the iterator. -/
inductive PushRes (h : Nat) (w : V) (ended : Bool) : Op L V E → Res V → Prop
  | op {a : PushArg V E} : PushRes h w ended (.push h a) (.val w)
  | it {a : PushArg V E} : PushRes h w ended (.itPut (some h) a) (.it (if ended then none else some h))

/-- pushing a value into a suspended push coroutine -/
theorem op_push {op : Op L V E} {a : PushArg V E} {post : Option V → List (Frame L V E)} (hr : Reach P l0 g0 s) (hq : Sink s h c hp l F)
    (hc : Calls P s op k) (hop : PushCall op h a post) (hv : Carries P.mv a v w) (ht : Takes P hp s.g v (.eval l) F g' st) :
    ∃ s', Later P s s' ∧ s'.cur = s.cur ∧ s'.fr = s.fr ∧ s'.g = g' ∧ s'.nh = s.nh ∧ Keeps c s.cur s s' ∧
      match st with
      | .asks l' F' => ∃ r, PushRes h w false op r ∧ s'.ctl = .eval (k r) ∧ Sink s' h c hp l' F'
      | .ends none => ∃ r, PushRes h w true op r ∧ s'.ctl = .eval (k r) ∧ PSpent s' h c hp none
      | .ends (some e) => s'.ctl = .raise (.user e) ∧ PSpent s' h c hp (some e) := by
  have hlt : h < s.nh := (inv_reach hr).hok.lt h (by rw [hq.obj]; simp)
  obtain ⟨s1, l1, hw, hfm, hg1, hx, hfc, hn1, hhs, k1⟩ := feed_wake hr hq hc hop hv
  have r1 := l1.reach hr
  obtain ⟨s2, l2, hb, hf2, hg2, hst, hn2, k2⟩ := consume ht r1 hw hg1 hx hfc
  have r2 := l2.reach r1
  have ho2 : s2.hs h = some ⟨.push, .val, some ⟨c, .own⟩⟩ := (k2.hs h (by omega)).trans (hhs ▸ hq.obj)
  -- the remaining frames of the call
  have fin : ∀ (ended : Bool) (s3 : St L G V E), s3.cur = s.cur → s3.ctl = .deliver .unit → s3.fr = post (some w) ++ .usr k :: s.fr →
      handleBang s3 h = .ok ended → ∃ s4 r lg, Later P s3 s4 ∧ PushRes h w ended op r ∧
        s4 = { s3 with frames := upd s3.frames s3.cur s.fr, ctl := .eval (k r), log := lg } := by
    intro ended s3 c3 x3 f3 hbang
    cases hop with
    | op =>
      have e4 := (Local.dResid (P := P) x3 f3).fwd
      have e5 := Local.fwd (P := P) (.dUsr (s := { s3 with g := s3.g, frames := upd s3.frames s3.cur (.usr k :: s.fr), ctl := .deliver (.val w), log := [] ++ s3.log }) rfl (upd_at ..))
      exact ⟨_, _, s3.log, (Later.step .refl e4).step e5, .op, by simp [upd_upd]⟩
    | it _ =>
      have e4 := (Local.dPfetch (P := P) x3 f3 hbang).fwd
      have e5 := Local.fwd (P := P) (.dUsr (s := { s3 with g := s3.g, frames := upd s3.frames s3.cur (.usr k :: s.fr), ctl := .deliver (.it (if ended then none else some h)), log := [] ++ s3.log }) rfl (upd_at ..))
      exact ⟨_, _, s3.log, (Later.step .refl e4).step e5, .it, by simp [upd_upd]⟩
  cases st with
  | asks l' F' =>
    obtain ⟨s3, e3, c3, x3, f3, g3, q3, n3, k3⟩ := land_asks r2 hb hst (hf2.trans hfm) ho2
    obtain ⟨s4, r, lg, l4, hres, h4⟩ := fin false s3 c3 x3 f3 (by unfold handleBang; simp [q3.obj, q3.hungry.chan.ownA, q3.valid])
    refine ⟨s4, ((l1.trans l2).step e3).trans l4, ?_, ?_, ?_, ?_, ((k1.trans k2).trans k3).trans ?_, r, hres, ?_, ?_⟩
    all_goals subst h4
    · exact c3
    · simp [St.fr]
    · exact g3.trans hg2
    · show s3.nh = _; omega
    · exact here_keeps c3
    · rfl
    · exact q3.loc
  | ends x =>
    obtain ⟨s3, e3, c3, x3, f3, g3, q3, n3, k3⟩ := land_over r2 hb hst (hf2.trans hfm) ho2
    cases x with
    | none =>
      obtain ⟨s4, r, lg, l4, hres, h4⟩ := fin true s3 c3 x3 f3 (by unfold handleBang; simp [q3.obj, q3.over.ownA, q3.invalid])
      refine ⟨s4, ((l1.trans l2).step e3).trans l4, ?_, ?_, ?_, ?_, ((k1.trans k2).trans k3).trans ?_, r, hres, ?_, ?_⟩
      all_goals subst h4
      · exact c3
      · simp [St.fr]
      · exact g3.trans hg2
      · show s3.nh = _; omega
      · exact here_keeps c3
      · rfl
      · exact q3.loc
    | some e =>
      replace x3 : s3.ctl = .raise (.user e) := x3
      have : ∃ s4 lg, Later P s3 s4 ∧ s4 = { s3 with frames := upd s3.frames s3.cur s.fr, log := lg } := by
        have tail : ∀ s5 : St L G V E, s5.ctl = .raise (.user e) → s5.fr = .usr k :: s.fr → step P s5 = .next { s5 with frames := upd s5.frames s5.cur s.fr, log := .exc s5.cur e :: s5.log } := by
          intro s5 x5 f5
          rw [(Local.rUsrU (P := P) x5 f5).fwd]
          simp [x5]
        cases hop with
        | op =>
          have e4 := (Local.rResid (P := P) x3 f3).fwd
          have e5 := tail { s3 with g := s3.g, frames := upd s3.frames s3.cur (.usr k :: s.fr), ctl := .raise (.user e), log := [] ++ s3.log } rfl (upd_at ..)
          exact ⟨_, .exc s3.cur e :: s3.log, (Later.step .refl e4).step e5, by simp [upd_upd, x3]⟩
        | it _ =>
          have e4 := (Local.rPfetch (P := P) x3 f3).fwd
          have e5 := tail { s3 with g := s3.g, frames := upd s3.frames s3.cur (.usr k :: s.fr), ctl := .raise (.user e), log := [] ++ s3.log } rfl (upd_at ..)
          exact ⟨_, .exc s3.cur e :: s3.log, (Later.step .refl e4).step e5, by simp [upd_upd, x3]⟩
      obtain ⟨s4, lg, l4, h4⟩ := this
      refine ⟨s4, ((l1.trans l2).step e3).trans l4, ?_, ?_, ?_, ?_, ((k1.trans k2).trans k3).trans ?_, ?_, ?_⟩
      all_goals subst h4
      · exact c3
      · simp [St.fr]
      · exact g3.trans hg2
      · show s3.nh = _; omega
      · exact here_keeps c3
      · exact x3
      · exact PSpent.loc q3

/-- the constructor of a push coroutine -/
theorem op_mkPush {fn : Nat → L} (hr : Reach P l0 g0 s) (hc : Calls P s (.mk .push .val .ok fn) k) :
    ∃ s', Later P s s' ∧ s'.cur = s.cur ∧ s'.fr = s.fr ∧ s'.g = s.g ∧ s'.nh = s.nh + 2 ∧ Keeps s.nk s.cur s s' ∧
      s'.ctl = .eval (k (.handle (s.nh + 1))) ∧ Sink s' (s.nh + 1) s.nk s.nh (fn s.nh) [] := by
  obtain ⟨l, h1, h2⟩ := hc
  have hi := inv_reach hr
  have hnb : s.base s.nk = .none := by
    cases hb : s.base s.nk with
    | none => rfl
    | _ => have := hi.sched.lt_nk s.nk (by rw [hb]; simp); omega
  have hne : s.cur ≠ s.nk := fun e => hi.sched.cur_live (e ▸ hnb)
  have hfn := hi.sched.dead_frames _ hnb
  have hfo : s.fib (.cb ⟨s.nk, .own⟩) = none := by
    cases hf : s.fib (.cb ⟨s.nk, .own⟩) with
    | none => rfl
    | some t => exact absurd (hi.cb.full_alive _ _ hf) (hi.cb.none_life _ .own hnb).1
  have e1 := reach_step hr (.mk h1 h2)
  generalize hs1 : ({ s with frames := _, ctl := _, cur := _, nk := _, stk := _, kind := _, va := _, fnObj := _, base := _, cbs := _, fib := _, log := _ } : St L G V E) = s1 at e1
  have r1 := hr.step e1
  have f1 : s1.fr = [] := by subst hs1; simp [St.fr, upd, Ne.symm hne, hfn]
  have c1 : s1.cur = s.nk := by subst hs1; rfl
  have e2 := reach_step r1 (.enterPush (fn := fn) (u := s.cur) (by subst hs1; rfl) f1 (by rw [c1]; subst hs1; simp [upd]) (by rw [c1]; subst hs1; simp [upd])
    (by rw [c1]; subst hs1; simp [upd]) (by subst hs1; simp [upd]))
  have n1 : s1.nh = s.nh := by subst hs1; rfl
  generalize hs2 : ({ s1 with fib := _, cbs := _, hs := _, nh := _, base := _, cur := _, ctl := _, log := _ } : St L G V E) = s2 at e2
  have r2 := r1.step e2
  have f2 : s2.fr = .pushCtor s.nk :: .usr k :: s.fr := by subst hs2 hs1; simp [St.fr, upd, ctorFrame]
  have e3 := reach_step r2 (.pushCtor (k := s.nk) (u := s.nk) (by subst hs2; rfl) f2 (by subst hs2 hs1; simp [upd]) (by subst hs2 hs1; simp [upd])
    (by subst hs2 hs1; simp [upd, hfo]) (by subst hs2 hs1; simp [upd]))
  generalize hs3 : ({ s2 with frames := _, ctl := _, fib := _, hs := _, nh := _ } : St L G V E) = s3 at e3
  have f3 : s3.fr = .usr k :: s.fr := by subst hs3; simp [St.fr]
  have n2 : s2.nh = s.nh + 1 := by subst hs2; simp [n1]
  have e4 := (Local.dUsr (P := P) (r := .handle (s.nh + 1)) (by subst hs3; simp [n2]) f3).fwd
  have hhp : s.nh ≠ s2.nh := by omega
  refine ⟨_, (((Later.step .refl e1).step e2).step e3).step e4, ?_, ?_, ?_, ?_, ⟨?_, ?_, ?_, ?_, ?_, ?_, ?_, ?_, ?_⟩, rfl,
    ⟨⟨⟨?_, ?_, ?_, ?_, ?_, ?_, ?_, ?_, ?_, ?_, ?_⟩, ?_, ?_, .inl ⟨fn, ?_, ?_, rfl, rfl⟩⟩, ?_, ?_, ?_⟩⟩
  all_goals subst hs3
  all_goals subst hs2
  all_goals subst hs1
  all_goals clear e1 e2 e3 e4 hr r1 r2 hi
  case refine_11 =>
    intro q hq
    simp only [upd] at *
    rw [if_neg (by omega), if_neg (by omega)]
  any_goals (intro q hq; have := off_co (sd := .own) (q := q) hq; have := off_co (sd := .syn) (q := q) hq)
  case refine_12 => simp only [upd] at *; omega
  all_goals simp_all [upd, synCb, ctorFrame, St.fr, Ne.symm hne]

/-- the local objects of a suspended push coroutine -/
theorem Hungry.objs (hq : Hungry s c hp l F) : locals (s.frames c) = locals F := by
  rcases hq.body with ⟨fn, -, h2, -, rfl⟩ | ⟨-, h2⟩
  · rw [h2]
  · generalize s.frames c = T at h2
    cases h2 <;> simp [locals]

/-- `begin( sink)` -/
theorem op_beginPush (hq : Sink s h c hp l F) (hc : Calls P s (.itBegin h) k) :
    ∃ s', Later P s s' ∧ s' = { s with ctl := .eval (k (.it (some h))), log := s'.log } ∧ Sink s' h c hp l F := by
  obtain ⟨l, h1, h2⟩ := hc
  have e1 := (Local.itBeginPush h1 h2 hq.obj rfl (by simp)).fwd
  have e2 := Local.fwd (P := P) (.dUsr (s := { s with g := s.g, frames := upd s.frames s.cur (.usr k :: s.fr), ctl := .deliver (.it (some h)), log := [] ++ s.log }) rfl (upd_at ..))
  refine ⟨_, (Later.step .refl e1).step e2, ?_, hq.loc.loc⟩
  simp [St.fr, upd_upd, upd_self']

/-- internal computation of the code that feeds the coroutine -/
theorem Sink.tau {g1 : G} {x1 : Ctl L V E} (hq : Sink s h c hp l F) : Sink { s with ctl := x1, g := g1 } h c hp l F :=
  ⟨hq.hungry.congr rfl rfl rfl rfl (fun _ => rfl) rfl rfl, hq.obj, hq.fo, hq.ne⟩

theorem PSpent.tau {g1 : G} {x1 : Ctl L V E} {x : Option E} (hq : PSpent s h c hp x) : PSpent { s with ctl := x1, g := g1 } h c hp x :=
  ⟨hq.over.congr rfl rfl rfl rfl (fun _ => rfl) rfl rfl, hq.obj, hq.fo, hq.ne⟩

/-- a push coroutine is made, and becomes a local -/
theorem op_localPush {fn : Nat → L} {l' : L} (hr : Reach P l0 g0 s) (hc : Calls P s (.mk .push .val .ok fn) k)
    (hk : P.code (k (.handle (s.nh + 1))) s.g = .guard (s.nh + 1) l') :
    ∃ s', Later P s s' ∧ s'.cur = s.cur ∧ s'.fr = .gCoro (s.nh + 1) :: s.fr ∧ s'.g = s.g ∧ s'.nh = s.nh + 2 ∧ Keeps s.nk s.cur s s' ∧
      s'.ctl = .eval l' ∧ Sink s' (s.nh + 1) s.nk s.nh (fn s.nh) [] := by
  obtain ⟨s1, l1, c1, f1, g1, n1, k1, x1, q1⟩ := op_mkPush hr hc
  have e2 := (Local.guard (P := P) x1 (g1 ▸ hk)).fwd
  refine ⟨_, l1.step e2, c1, ?_, g1, n1, k1.trans (local_keeps rfl (.inr c1)), rfl, q1.loc⟩
  unfold St.fr at f1 ⊢
  simp [f1]

/-! ## Destruction -/

/-- A push coroutine that has ended, has not begun, or is suspended with plain frames only; and its object `h`. -/
structure PIdle (s : St L G V E) (h c hp : Nat) : Prop where
  obj : s.hs h = some ⟨.push, .val, some ⟨c, .own⟩⟩
  fo : s.fib (.cb ⟨c, .own⟩) = some c
  ne : s.cur ≠ c
  cnt : s.hs hp = some ⟨.pull, .val, some ⟨c, .syn⟩⟩
  kind : s.kind c = .push
  va : s.va c = .val
  ownA : (s.cbs ⟨c, .own⟩).life = .alive
  slot : (s.cbs ⟨c, .syn⟩).bvalid = true → ∃ w, (s.cbs ⟨c, .syn⟩).slot = .live w
  synA : (s.cbs ⟨c, .syn⟩).life = .alive
  fs : s.fib (.cb ⟨c, .syn⟩) = none
  body : (s.base c = .final hp ∧ s.frames c = []) ∨ (∃ fn, s.base c = .pushEntry hp fn ∧ s.frames c = []) ∨
    (s.base c = .inFn hp ∧ ∃ l F, Asked c hp (s.frames c) l F ∧ ∀ f ∈ F, Plain f)

theorem Sink.idle (hq : Sink s h c hp l F) (hF : ∀ f ∈ F, Plain f) : PIdle s h c hp := by
  obtain ⟨⟨hch, hfs, hslot, hbody⟩, hobj, hfo, hne⟩ := hq
  refine ⟨hobj, hfo, hne, hch.cnt, hch.kind, hch.va, hch.ownA, hslot, hch.synA, hfs, .inr ?_⟩
  rcases hbody with ⟨fn, h1, h2, -, -⟩ | ⟨h1, h2⟩
  · exact .inl ⟨fn, h1, h2⟩
  · exact .inr ⟨h1, l, F, h2, hF⟩

theorem PSpent.idle {x : Option E} (hq : PSpent s h c hp x) : PIdle s h c hp := by
  obtain ⟨⟨o1, o2, o3, o4, o5, o6, o7, o8, o9, o10, o11⟩, ho, hfo, hne⟩ := hq
  exact ⟨ho, hfo, hne, o1, o4, o5, o6, o9, o10, o11, .inl ⟨o2, o3⟩⟩

/-- unwinding the stack of a suspended push coroutine -/
theorem strip_asked {T : List (Frame L V E)} (ha : Asked c hp T l F) (hF : ∀ f ∈ F, Plain f) (s : St L G V E) (x1 : s.ctl = .raise .forced)
    (hf : s.fr = T) : ∃ s' log, Later P s s' ∧ s' = { s with g := undone P (locals T) s.g, frames := upd s.frames s.cur [], log := log } := by
  cases ha with
  | @op k _ =>
    have e2 := (Local.rAsg (P := P) x1 hf).fwd
    have e4 := Local.fwd (P := P) (.rUsrF (s := { s with g := s.g, frames := upd s.frames s.cur (.usr k :: F), ctl := .raise .forced, log := [] ++ s.log }) rfl (upd_at ..))
    simp only [upd_upd] at e4
    obtain ⟨s5, log, l5, h5⟩ := strip (P := P) F hF { s with g := s.g, frames := upd s.frames s.cur F, ctl := .raise .forced, log := [] ++ ([] ++ s.log) } rfl (upd_at ..)
    refine ⟨s5, log, ((Later.step .refl e2).step e4).trans l5, ?_⟩
    rw [h5]
    simp [upd_upd, x1, locals]
  | @it k _ =>
    have e2 := (Local.rAsg (P := P) x1 hf).fwd
    have e3 := Local.fwd (P := P) (.rFetch (s := { s with g := s.g, frames := upd s.frames s.cur (.fetch hp :: .usr k :: F), ctl := .raise .forced, log := [] ++ s.log }) rfl (upd_at ..))
    simp only [upd_upd] at e3
    have e4 := Local.fwd (P := P) (.rUsrF (s := { s with g := s.g, frames := upd s.frames s.cur (.usr k :: F), ctl := .raise .forced, log := [] ++ ([] ++ s.log) }) rfl (upd_at ..))
    simp only [upd_upd] at e4
    obtain ⟨s5, log, l5, h5⟩ := strip (P := P) F hF { s with g := s.g, frames := upd s.frames s.cur F, ctl := .raise .forced, log := [] ++ ([] ++ ([] ++ s.log)) } rfl (upd_at ..)
    refine ⟨s5, log, (((Later.step .refl e2).step e3).step e4).trans l5, ?_⟩
    rw [h5]
    simp [upd_upd, x1, locals]

/-- the unwinding has reached the end of the stack of `c` -/
theorem pteardown_tail {fs : List (Frame L V E)} (r1 : Reach P l0 g0 s) (c1 : s.cur = c) (x1 : s.ctl = .raise .forced) (f1 : s.fr = [])
    (hb : s.base c = .final hp ∨ (∃ fn, s.base c = .pushEntry hp fn) ∨ s.base c = .inFn hp) (hcnt : s.hs hp = some ⟨.pull, .val, some ⟨c, .syn⟩⟩)
    (hkd : s.kind c = .push) (hva : s.va c = .val) (hslot : (s.cbs ⟨c, .syn⟩).bvalid = true → ∃ w, (s.cbs ⟨c, .syn⟩).slot = .live w)
    (hown : (s.cbs ⟨c, .own⟩).life = .dead) (hsyn : (s.cbs ⟨c, .syn⟩).life = .alive) (hfs : s.fib (.cb ⟨c, .syn⟩) = none)
    (hair : s.fib .air = none) (hbk : s.fib (.back c) = some m) (hne : m ≠ c) (hfm : s.frames m = .wait :: fs) :
    ∃ s', Later P s s' ∧ s'.cur = m ∧ s'.ctl = .deliver .unit ∧ s'.frames m = fs ∧ (s'.frames c = [] ∧ s'.stk c = .freed) ∧
      Leaves c hp { s with frames := upd s.frames m fs } s' := by
  have e2 : ∃ fo log, step P s = .next { s with base := upd s.base c .lamA, fnObj := fo, log := log, hs := upd s.hs hp none, ctl := .deliver .unit } := by
    rcases hb with hb | ⟨fn, hb⟩ | hb
    · refine ⟨s.fnObj, s.log, ?_⟩
      have := reach_step r1 (.nop (.unwFinal (h := hp) x1 f1 (c1 ▸ hb)) hcnt (.inr ⟨c, rfl, hsyn⟩))
      rw [this, c1]
    · refine ⟨s.fnObj, s.log, ?_⟩
      have := reach_step r1 (.nop (.unwEntry (h := hp) x1 f1 (c1 ▸ hb)) hcnt (.inr ⟨c, rfl, hsyn⟩))
      rw [this, c1]
    · refine ⟨upd s.fnObj c .gone, .fnDtor c :: s.log, ?_⟩
      have := reach_step r1 (.nop (.unwFn (h := hp) x1 f1 (c1 ▸ hb)) hcnt (.inr ⟨c, rfl, hsyn⟩))
      rw [this, c1]
  obtain ⟨fo, log, e2⟩ := e2
  generalize hs2 : ({ s with base := _, fnObj := _, log := _, hs := _, ctl := _ } : St L G V E) = s2 at e2
  have r2 := r1.step e2
  have f2 : s2.fr = [] := by subst hs2; exact f1
  have c2 : s2.cur = c := by subst hs2; exact c1
  have fs2 : s2.fib (.cb ⟨s2.cur, .syn⟩) = none := by rw [c2]; subst hs2; simp [hfs]
  have hdt : ∃ sl evs, Dtor (s2.kind s2.cur) (s2.va s2.cur) (s2.cbs ⟨s2.cur, .syn⟩) ⟨s2.cur, .syn⟩ sl evs := by
    rw [c2]
    subst hs2
    cases hb : (s.cbs ⟨c, .syn⟩).bvalid with
    | false => exact ⟨_, _, .skip fun h => by rw [hb] at h; cases h.2.2⟩
    | true => obtain ⟨w, hw⟩ := hslot hb; exact ⟨_, _, .val (by rw [hkd]; rfl) hva hb hw⟩
  obtain ⟨sl, evs, hdt⟩ := hdt
  have hdy := Dying.syn (P := P) (r := .unit) (by subst hs2; rfl) f2 (by rw [c2]; subst hs2; simp [upd]) hdt
  rw [fs2] at hdy
  have e3 := reach_step r2 (.dropNone hdy)
  dsimp only at e3
  generalize hs3 : ({ s2 with base := _, fib := _, cbs := _, log := _, ctl := _ } : St L G V E) = s3 at e3
  have r3 := r2.step e3
  have f3 : s3.fr = [] := by subst hs3; exact f2
  have c3 : s3.cur = c := by subst hs3; exact c2
  have e4 := reach_step r3 (.exit (r := .unit) (b := m) (by subst hs3; rfl) f3 (by rw [c3]; subst hs3; simp [upd, c2])
    (by rw [c3]; subst hs3 hs2; simp [upd, hbk]) (by rw [c3]; subst hs3 hs2; simp [upd, hown]))
  generalize hs4 : ({ s3 with fnObj := _, fib := _, base := _, cbs := _, frames := _, stk := _, cur := _, ctl := _, log := _ } : St L G V E) = s4 at e4
  have r4 := r3.step e4
  have c4 : s4.cur = m := by subst hs4; rfl
  have f4 : s4.fr = .wait :: fs := by subst hs4 hs3 hs2; simp [St.fr, upd, c1, hne, hfm]
  have e5 := reach_step r4 (.wait (by subst hs4; rfl) f4 (by subst hs4 hs3 hs2; simp [upd, hair]))
  refine ⟨_, (((Later.step .refl e2).step e3).step e4).step e5, c4, rfl, ?_, ?_, ⟨?_, ?_, ?_, ?_, ?_, ?_, ?_, ?_, ?_, ?_⟩⟩
  all_goals subst hs4 hs3 hs2
  all_goals clear e2 e3 e4 e5 r1 r2 r3 r4 hdy hdt f2 c2 fs2 f3 c3 c4 f4
  · simp
  · simp [upd, c1, Ne.symm hne]
  · intro q hq
    have h1 := off_co (sd := .syn) hq
    have h2 := off_co (sd := .own) hq
    simp [upd, freeCbs, c1, h1, h2]
  · intro q hq
    have h1 := off_co (sd := .syn) hq
    simp [upd, c1, h1]
  · intro q hq; simp [upd, c1, hq]
  · rfl
  · rfl
  · intro i hi
    by_cases h1 : i = m
    · subst h1; simp [upd]
    · simp [upd, h1, hi, c1]
  · intro q hq; simp [upd, hq]
  · rfl
  · rfl
  · rfl

/-- the destructor of the object of an idle push coroutine, and what it spares -/
theorem op_dropPush_spares {s1 : St L G V E} (hr : Reach P l0 g0 s) (hq : PIdle s h c hp) (hc : s.ctl ≠ .recv) (hsc : Scope P s h s1)
    {fs : List (Frame L V E)} (h1 : s1 = { s with frames := upd s.frames s.cur fs }) :
    ∃ s', Later P s s' ∧ s'.cur = s.cur ∧ s'.ctl = .deliver .unit ∧ s'.fr = fs ∧ s'.g = undone P (locals (s.frames c)) s.g ∧
      ((∀ d, d ≠ c → s'.base d = s.base d) ∧ s'.frames c = [] ∧ s'.stk c = .freed) ∧ Spares c h hp s s' := by
  obtain ⟨ho, hfo, hne, o1, o4, o5, o6, o10, o11, o12, hbody⟩ := hq
  have hair := (inv_reach hr).airNone hc
  have hhp : hp ≠ h := by rintro rfl; rw [o1] at ho; cases ho
  have hdt : Dtor (s1.kind c) (s1.va c) (s1.cbs ⟨c, .own⟩) ⟨c, .own⟩ (s1.cbs ⟨c, .own⟩).slot [] := by
    subst h1
    refine .skip ?_
    rintro ⟨h, -⟩
    dsimp only at h
    rw [o4] at h
    cases h
  have hdy := Dying.handle hsc (by subst h1; exact ho) rfl (by subst h1; exact o6) hdt
  have hf1 : s1.fib (.cb ⟨c, .own⟩) = some c := by subst h1; exact hfo
  rw [hf1] at hdy
  subst h1
  have e1 := reach_step hr (.dropSome hdy)
  dsimp only at e1
  generalize hs1 : ({ s with frames := _, ctl := _, cur := _, fib := _, log := _, hs := _, cbs := _ } : St L G V E) = s1 at e1
  have r1 := hr.step e1
  have c1 : s1.cur = c := by subst hs1; rfl
  have x1 : s1.ctl = .raise .forced := by subst hs1; rfl
  have hfc : s1.fr = s.frames c := by subst hs1; simp [St.fr, upd, Ne.symm hne]
  obtain ⟨s2, log, l2, h2, hb2⟩ : ∃ s2 log, Later P s1 s2 ∧
      s2 = { s1 with g := undone P (locals (s.frames c)) s1.g, frames := upd s1.frames s1.cur [], log := log } ∧
      (s.base c = .final hp ∨ (∃ fn, s.base c = .pushEntry hp fn) ∨ s.base c = .inFn hp) := by
    rcases hbody with ⟨hb, hf⟩ | ⟨fn, hb, hf⟩ | ⟨hb, l, F, ha, hF⟩
    · obtain ⟨s2, log, a, b⟩ := strip (P := P) [] (by simp) s1 x1 (hfc.trans hf)
      exact ⟨s2, log, a, by rw [hf]; exact b, .inl hb⟩
    · obtain ⟨s2, log, a, b⟩ := strip (P := P) [] (by simp) s1 x1 (hfc.trans hf)
      exact ⟨s2, log, a, by rw [hf]; exact b, .inr (.inl ⟨fn, hb⟩)⟩
    · obtain ⟨s2, log, a, b⟩ := strip_asked (P := P) ha hF s1 x1 hfc
      exact ⟨s2, log, a, b, .inr (.inr hb)⟩
  have r2 := l2.reach r1
  have hm2 : s2.frames s.cur = .wait :: fs := by subst h2 hs1; simp [upd, hne, St.fr]
  obtain ⟨s3, l3, c3, x3, f3, v2, v3⟩ := pteardown_tail (hp := hp) (m := s.cur) (c := c) r2 (by subst h2; exact c1) (by subst h2; exact x1) (by subst h2; simp [St.fr])
    (by subst h2 hs1; exact hb2) (by subst h2 hs1; simp [upd, hhp, o1]) (by subst h2 hs1; exact o4) (by subst h2 hs1; exact o5)
    (by subst h2 hs1; simpa [upd] using o10)
    (by subst h2 hs1; simp [upd]) (by subst h2 hs1; simp [upd, o11])
    (by subst h2 hs1; simp [upd, o12]) (by subst h2 hs1; simp [upd, hair]) (by subst h2 hs1; simp [upd]) hne hm2
  refine ⟨s3, ((Later.step .refl e1).trans l2).trans l3, c3, x3, by unfold St.fr; rw [c3, f3], ?_, ⟨?_, v2⟩, ⟨?_, ?_, ?_, ?_, ?_, ?_, ?_, c3⟩⟩
  · rw [v3.g]; subst h2 hs1; rfl
  · intro d hd
    rw [v3.base d hd]; subst h2 hs1; rfl
  · intro q hq; rw [v3.cbs q hq]; subst h2 hs1; simp [upd, off_co (sd := .own) hq]
  · intro q hq; rw [v3.fib q hq]; subst h2 hs1; simp [upd, off_co (sd := .own) hq]
  · intro d hd; rw [v3.base d hd]; subst h2 hs1; rfl
  · intro d; rw [v3.kind]; subst h2 hs1; rfl
  · intro d; rw [v3.va]; subst h2 hs1; rfl
  · intro d h1 h3; rw [v3.frames d h1]; subst h2 hs1; simp [upd, h1, h3]
  · intro q h1 h3; rw [v3.hs q h3]; subst h2 hs1; simp [upd, h1]

/-- the destructor of the object of an idle push coroutine -/
theorem op_dropPush {s1 : St L G V E} (hr : Reach P l0 g0 s) (hq : PIdle s h c hp) (hc : s.ctl ≠ .recv) (hsc : Scope P s h s1)
    {fs : List (Frame L V E)} (h1 : s1 = { s with frames := upd s.frames s.cur fs }) :
    ∃ s', Later P s s' ∧ s'.cur = s.cur ∧ s'.ctl = .deliver .unit ∧ s'.fr = fs ∧ s'.g = undone P (locals (s.frames c)) s.g ∧
      (∀ d, d ≠ c → s'.base d = s.base d) ∧ s'.frames c = [] ∧ s'.stk c = .freed := by
  obtain ⟨s', a, b, d, e, f, i, -⟩ := op_dropPush_spares hr hq hc hsc h1
  exact ⟨s', a, b, d, e, f, i⟩

/-- every state of a run comes before its end -/
theorem later_end {a b : St L G V E} (ha : Later P s a) (hb : Later P s b) (ea : ∀ x, step P a ≠ .next x) : Later P b a := by
  induction hb with
  | refl => exact ha
  | step _ e ih =>
    rcases later_head ih e with h | h
    · subst h; exact absurd e (ea _)
    · exact h

/-- `main` returns, and its only local is the object of an idle push coroutine: the program ends -/
theorem main_end (hr : Reach P l0 g0 s) (hq : PIdle s h c hp) (hx : s.ctl = .eval l) (hc : P.code l s.g = .ret) (hf : s.fr = [.gCoro h])
    (h0 : s.cur = 0) (hb : s.base 0 = .main) :
    ∃ s', Later P s s' ∧ step P s' = .done s' ∧ s'.g = undone P (locals (s.frames c)) s.g ∧ s'.frames c = [] ∧ s'.stk c = .freed := by
  have e1 := (Local.ret (P := P) hx hc).fwd
  have i1 : PIdle { s with g := s.g, frames := upd s.frames s.cur s.fr, ctl := .retn, log := [] ++ s.log } h c hp := by
    obtain ⟨h1, h2, h3, h4, h5, h6, h7, h8, h9, h10, h11⟩ := hq
    exact ⟨h1, h2, h3, h4, h5, h6, h7, h8, h9, h10, by simpa [St.fr, upd_self'] using h11⟩
  obtain ⟨s2, l2, c2, x2, f2, g2, b2, fc2, st2⟩ := op_dropPush (hr.step e1) i1 (by simp) (.ret rfl ((upd_at ..).trans hf)) rfl
  have hne : c ≠ 0 := h0 ▸ hq.ne.symm
  have c2' : s2.cur = 0 := c2.trans h0
  have e3 := (Local.dCRet (P := P) x2 f2).fwd
  refine ⟨_, ((Later.step .refl e1).trans l2).step e3, ?_, g2.trans (by simp [St.fr, upd_self']), ?_, st2⟩
  · have hb2 : s2.base 0 = .main := (b2 0 hne.symm).trans hb
    simp [step, retStep, St.fr, c2', hb2]
  · show upd _ _ _ _ = _
    rw [upd_off _ _ (by rw [c2']; exact hne)]
    exact fc2

end Verif
