import Verif.Back
import Verif.Mem

/-!
# Executing a generator together with its consumer

Proof material for the examples (C40, C41): a big-step description of what a coroutine-function pushes, and its execution by the machine.
User memory is a pair `A × B`: `A` belongs to the coroutine-function, `B` to the consumer.
-/
namespace Verif
variable {L A B V E : Type}

/-- A frame of an ordinary function call, or a local object. -/
def Plain (f : Frame L V E) : Prop := (∃ l, f = .fnRet l) ∨ ∃ o, f = .gObj o

/-- The coroutine-function, whose counterpart object is `hp`, is in the situation `x` with the stack `F` and memory `a`; it pushes `xs`
and then returns (`none`) or throws. -/
inductive Yields (P : Prog L (A × B) V E) (hp : Nat) : A → Ctl L V E → List (Frame L V E) → List V → Option E → Prop
  | loc {a a' : A} {x x' : Ctl L V E} {F F' : List (Frame L V E)} {xs : List V} {r : Option E} :
      (∀ (s : St L (A × B) V E) b, s.g = (a, b) → s.ctl = x → s.fr = F → ∃ evs, Local P s (a', b) F' x' evs) →
      Yields P hp a' x' F' xs r → Yields P hp a x F xs r
  | push {a : A} {l : L} {k : Res V → L} {F : List (Frame L V E)} {v : V} {xs : List V} {r : Option E} :
      (∀ b, P.code l (a, b) = .api (.push hp (.copy v)) k) → (∀ f ∈ F, Plain f) → Yields P hp a (.eval (k (.val v))) F xs r →
      Yields P hp a (.eval l) F (v :: xs) r
  | ret {a : A} : Yields P hp a .retn [] [] none
  | throw {a : A} {e : E} : Yields P hp a (.raise (.user e)) [] [] (some e)

section
variable {P : Prog L (A × B) V E} {hp o : Nat} {a a' : A} {xs : List V} {r : Option E} {l l' l1 : L} {F : List (Frame L V E)} {e : E}

theorem Yields.tau (hc : ∀ b, P.code l (a, b) = .tau (a', b) l') (hy : Yields P hp a' (.eval l') F xs r) : Yields P hp a (.eval l) F xs r :=
  .loc (fun s b hg hx hf => ⟨[], hf ▸ .tau hx (hg ▸ hc b)⟩) hy

theorem Yields.call (hc : ∀ b, P.code l (a, b) = .call l1 l') (hy : Yields P hp a (.eval l1) (.fnRet l' :: F) xs r) :
    Yields P hp a (.eval l) F xs r :=
  .loc (fun s b hg hx hf => ⟨[], by rw [← hf, ← hg]; exact .call hx (hg ▸ hc b)⟩) hy

theorem Yields.back (hc : ∀ b, P.code l (a, b) = .ret) (hy : Yields P hp a .retn F xs r) : Yields P hp a (.eval l) F xs r :=
  .loc (fun s b hg hx hf => ⟨[], by rw [← hf, ← hg]; exact .ret hx (hg ▸ hc b)⟩) hy

theorem Yields.raise (hc : ∀ b, P.code l (a, b) = .throw e) (hy : Yields P hp a (.raise (.user e)) F xs r) : Yields P hp a (.eval l) F xs r :=
  .loc (fun s b hg hx hf => ⟨[], by rw [← hf, ← hg]; exact .throw hx (hg ▸ hc b)⟩) hy

theorem Yields.obj (hc : ∀ b, P.code l (a, b) = .newObj o l') (hy : Yields P hp a (.eval l') (.gObj o :: F) xs r) :
    Yields P hp a (.eval l) F xs r :=
  .loc (fun s b hg hx hf => ⟨[.octor s.cur o], by rw [← hf, ← hg]; exact .newObj hx (hg ▸ hc b)⟩) hy

theorem Yields.fnRet (hy : Yields P hp a (.eval l) F xs r) : Yields P hp a .retn (.fnRet l :: F) xs r :=
  .loc (fun s b hg hx hf => ⟨[], by rw [← hg]; exact .tFnRet hx hf⟩) hy

theorem Yields.objRet (hd : ∀ b, P.dtor o (a, b) = (a', b)) (hy : Yields P hp a' .retn F xs r) : Yields P hp a .retn (.gObj o :: F) xs r :=
  .loc (fun s b hg hx hf => ⟨[.odtor s.cur o], by rw [← hd b, ← hg]; exact .tObj hx hf⟩) hy

theorem Yields.fnThrow (hy : Yields P hp a (.raise (.user e)) F xs r) : Yields P hp a (.raise (.user e)) (.fnRet l :: F) xs r :=
  .loc (fun s b hg hx hf => ⟨[], by rw [← hg]; exact .rFnRet hx hf⟩) hy

theorem Yields.objThrow (hd : ∀ b, P.dtor o (a, b) = (a', b)) (hy : Yields P hp a' (.raise (.user e)) F xs r) :
    Yields P hp a (.raise (.user e)) (.gObj o :: F) xs r :=
  .loc (fun s b hg hx hf => ⟨[.odtor s.cur o], by rw [← hd b, ← hg]; exact .rObj hx hf⟩) hy

end

/-- The parts of coroutine `c` that stay as they are while its function runs. -/
structure Chan (s : St L (A × B) V E) (c hp : Nat) : Prop where
  cnt : s.hs hp = some ⟨.push, .val, some ⟨c, .syn⟩⟩
  base : s.base c = .inFn hp
  kind : s.kind c = .pull
  va : s.va c = .val
  ownA : (s.cbs ⟨c, .own⟩).life = .alive
  ownO : (s.cbs ⟨c, .own⟩).other = some ⟨c, .syn⟩
  ownX : (s.cbs ⟨c, .own⟩).except = none
  ownS : (s.cbs ⟨c, .own⟩).state = StateT.unwind
  slot : (s.cbs ⟨c, .own⟩).bvalid = true → ∃ w, (s.cbs ⟨c, .own⟩).slot = .live w
  synA : (s.cbs ⟨c, .syn⟩).life = .alive
  synO : (s.cbs ⟨c, .syn⟩).other = some ⟨c, .own⟩
  synX : (s.cbs ⟨c, .syn⟩).except = none

/-- Nothing of other coroutines than `c`, and of other contexts than `c` and `m`, has changed; objects that existed are the same. -/
structure Keeps {G : Type} (c m : Nat) (s s' : St L G V E) : Prop where
  cbs : ∀ r : CbRef, r.co ≠ c → s'.cbs r = s.cbs r
  fib : ∀ r : CbRef, r.co ≠ c → s'.fib (.cb r) = s.fib (.cb r)
  base : ∀ d, d ≠ c → s'.base d = s.base d
  kind : ∀ d, d ≠ c → s'.kind d = s.kind d
  va : ∀ d, d ≠ c → s'.va d = s.va d
  frames : ∀ d, d ≠ c → d ≠ m → s'.frames d = s.frames d
  hs : ∀ h, h < s.nh → s'.hs h = s.hs h
  nh : s.nh ≤ s'.nh
  nk : s.nk ≤ s'.nk

theorem Keeps.refl {G : Type} {c m : Nat} {s : St L G V E} : Keeps c m s s :=
  ⟨fun _ _ => rfl, fun _ _ => rfl, fun _ _ => rfl, fun _ _ => rfl, fun _ _ => rfl, fun _ _ _ => rfl, fun _ _ => rfl, Nat.le_refl _, Nat.le_refl _⟩

theorem Keeps.trans {G : Type} {c m : Nat} {s s1 s2 : St L G V E} (h : Keeps c m s s1) (h' : Keeps c m s1 s2) : Keeps c m s s2 :=
  ⟨fun r hr => (h'.cbs r hr).trans (h.cbs r hr), fun r hr => (h'.fib r hr).trans (h.fib r hr), fun r hr => (h'.base r hr).trans (h.base r hr),
    fun r hr => (h'.kind r hr).trans (h.kind r hr), fun r hr => (h'.va r hr).trans (h.va r hr),
    fun r hr hm => (h'.frames r hr hm).trans (h.frames r hr hm), fun x hx => (h'.hs x (Nat.lt_of_lt_of_le hx h.nh)).trans (h.hs x hx),
    Nat.le_trans h.nh h'.nh, Nat.le_trans h.nk h'.nk⟩

/-- Coroutine `c` runs on behalf of context `m`. -/
structure Awake (s : St L (A × B) V E) (c hp m : Nat) : Prop where
  chan : Chan s c hp
  cur : s.cur = c
  ne : m ≠ c
  fs : s.fib (.cb ⟨c, .syn⟩) = some m
  fo : s.fib (.cb ⟨c, .own⟩) = none

/-- Coroutine `c` is suspended after pushing `v`; it will push `xs` and end as `r` says. -/
structure Dozing (P : Prog L (A × B) V E) (s : St L (A × B) V E) (c hp : Nat) (a : A) (v : V) (xs : List V) (r : Option E) : Prop where
  chan : Chan s c hp
  fs : s.fib (.cb ⟨c, .syn⟩) = none
  valid : (s.cbs ⟨c, .own⟩).bvalid = true
  live : (s.cbs ⟨c, .own⟩).slot = .live v
  rest : ∃ k F, s.frames c = .asg ⟨c, .syn⟩ :: .resid v :: .usr k :: F ∧ (∀ f ∈ F, Plain f) ∧ Yields P hp a (.eval (k (.val v))) F xs r

/-- Control has just come back from coroutine `c` to context `m`. -/
structure Back (s : St L (A × B) V E) (c m : Nat) : Prop where
  cur : s.cur = m
  ne : m ≠ c
  ctl : s.ctl = .recv
  air : s.fib .air = some c
  fo : s.fib (.cb ⟨c, .own⟩) = none

/-- The function of coroutine `c` has ended. -/
structure Over (s : St L (A × B) V E) (c hp : Nat) (r : Option E) : Prop where
  cnt : s.hs hp = some ⟨.push, .val, some ⟨c, .syn⟩⟩
  base : s.base c = .final hp
  frames : s.frames c = []
  kind : s.kind c = .pull
  va : s.va c = .val
  ownA : (s.cbs ⟨c, .own⟩).life = .alive
  ownO : (s.cbs ⟨c, .own⟩).other = some ⟨c, .syn⟩
  ownX : (s.cbs ⟨c, .own⟩).except = r
  ownS : (s.cbs ⟨c, .own⟩).state = StateT.or StateT.unwind StateT.complete
  slot : (s.cbs ⟨c, .own⟩).bvalid = true → ∃ w, (s.cbs ⟨c, .own⟩).slot = .live w
  synA : (s.cbs ⟨c, .syn⟩).life = .alive
  fs : s.fib (.cb ⟨c, .syn⟩) = none

variable {P : Prog L (A × B) V E} {l0 : L} {g0 : A × B} {s s' : St L (A × B) V E} {c hp m h : Nat} {a : A} {b : B} {v w : V} {xs : List V}
  {r : Option E} {k : Res V → L} {x : Ctl L V E} {F : List (Frame L V E)}

theorem Chan.congr (h : Chan s c hp) (e1 : s'.hs = s.hs) (e2 : s'.base c = s.base c) (e3 : s'.kind c = s.kind c) (e4 : s'.va c = s.va c)
    (e5 : ∀ sd, s'.cbs ⟨c, sd⟩ = s.cbs ⟨c, sd⟩) : Chan s' c hp := by
  obtain ⟨h1, h2, h3, h4, h5, h6, h7, h8, h9, h10, h11, h12⟩ := h
  constructor <;> simp_all

/-- a local step of context `i` -/
theorem local_keeps {G : Type} {s : St L G V E} {i : Nat} {g : G} {fs : List (Frame L V E)} {evs : List (Ev V E)} (hi : i = s.cur) (hm : s.cur = c ∨ s.cur = m) :
    Keeps c m s { s with g := g, frames := upd s.frames s.cur fs, ctl := x, log := evs ++ s.log } := by
  refine ⟨fun _ _ => rfl, fun _ _ => rfl, fun _ _ => rfl, fun _ _ => rfl, fun _ _ => rfl, fun d hd hm' => ?_, fun _ _ => rfl, Nat.le_refl _, Nat.le_refl _⟩
  refine upd_off _ _ ?_
  rintro rfl
  rcases hm with h | h
  · exact hd h
  · exact hm' h

theorem off_co {q : CbRef} {sd : Side} (h : q.co ≠ c) : q ≠ ⟨c, sd⟩ := fun e => h (by rw [e])

/-- the function of an awake coroutine pushes -/
theorem push_awake {l : L} (hr : Reach P l0 g0 s) (hw : Awake s c hp m) (hg : s.g = (a, b)) (hx : s.ctl = .eval l) (hf : s.frames c = F)
    (hc : P.code l (a, b) = .api (.push hp (.copy v)) k) (hpl : ∀ f ∈ F, Plain f) (hy : Yields P hp a (.eval (k (.val v))) F xs r) :
    ∃ s', step P s = .next s' ∧ Back s' c m ∧ s'.frames m = s.frames m ∧ s'.g = (a, b) ∧ Dozing P s' c hp a v xs r ∧
      s'.nh = s.nh ∧ Keeps c m s s' := by
  obtain ⟨hch, hcur, hne, hfs, hfo⟩ := hw
  obtain ⟨evs, hset⟩ : ∃ evs, SetOk P.mv (s.va c) (s.cbs ⟨c, .own⟩) c (.copy v : PushArg V E)
      { s.cbs ⟨c, .own⟩ with slot := .live v, bvalid := true } evs (some v) := by
    cases hb : (s.cbs ⟨c, .own⟩).bvalid with
    | false => exact ⟨_, .copy0 hch.va rfl hb⟩
    | true => obtain ⟨w, hw⟩ := hch.slot hb; exact ⟨_, .copy1 hch.va rfl hb hw⟩
  have hfr : s.fr = F := by unfold St.fr; rw [hcur, hf]
  have st := reach_step hr (Step.push (r := ⟨c, .syn⟩) hx (hg ▸ hc) .op hch.cnt rfl rfl hch.synA hch.synO hch.ownA hset hfs)
  refine ⟨_, st, ⟨rfl, hne, rfl, ?_, ?_⟩, ?_, hg, ⟨⟨hch.cnt, hch.base, hch.kind, hch.va, ?_, ?_, ?_, ?_, ?_, ?_, ?_, ?_⟩, ?_, ?_, ?_,
    k, F, ?_, hpl, hy⟩, rfl, ⟨?_, ?_, fun _ _ => rfl, fun _ _ => rfl, fun _ _ => rfl, ?_, fun _ _ => rfl, Nat.le_refl _, Nat.le_refl _⟩⟩
  all_goals obtain ⟨h1, h2, h3, h4, h5, h6, h7, h8, h9, h10, h11, h12⟩ := hch
  all_goals clear st hset hr hy hpl
  all_goals dsimp only [CbRef.partner, Side.flip]
  any_goals (intro q hq; have := off_co (sd := .own) hq; have := off_co (sd := .syn) hq)
  all_goals simp_all [upd]

/-- the function of an awake coroutine ends -/
theorem fin_awake (hr : Reach P l0 g0 s) (hw : Awake s c hp m) (hg : s.g = (a, b))
    (hx : (s.ctl = .retn ∧ r = none) ∨ (∃ e, s.ctl = .raise (.user e) ∧ r = some e)) (hf : s.frames c = []) :
    ∃ s', step P s = .next s' ∧ Back s' c m ∧ s'.frames m = s.frames m ∧ s'.g = (a, b) ∧ Over s' c hp r ∧ s'.nh = s.nh ∧ Keeps c m s s' := by
  obtain ⟨hch, hcur, hne, hfs, hfo⟩ := hw
  have hfr : s.fr = [] := by unfold St.fr; rw [hcur, hf]
  have st := reach_step hr (Step.fin (h := hp) (t := m) (x := r) hx hfr (hcur ▸ hch.base) (hcur ▸ hch.ownA) (hcur ▸ hfs))
  refine ⟨_, st, ⟨rfl, hne, rfl, ?_, ?_⟩, rfl, hg, ⟨hch.cnt, ?_, hf, hch.kind, hch.va, ?_, ?_, ?_, ?_, ?_, ?_, ?_⟩, rfl, ⟨?_, ?_, ?_, fun _ _ => rfl, fun _ _ => rfl,
    fun _ _ _ => rfl, fun _ _ => rfl, Nat.le_refl _, Nat.le_refl _⟩⟩
  all_goals obtain ⟨h1, h2, h3, h4, h5, h6, h7, h8, h9, h10, h11, h12⟩ := hch
  all_goals clear st hr hx
  all_goals dsimp only
  any_goals (intro q hq; have := off_co (sd := .own) (q := q) hq; have := off_co (sd := .syn) (q := q) hq)
  all_goals simp_all [upd]

theorem produce (hr : Reach P l0 g0 s) (hw : Awake s c hp m) (hg : s.g = (a, b)) (hx : s.ctl = x) (hf : s.frames c = F)
    (hy : Yields P hp a x F xs r) :
    (∃ s' a' v ys, xs = v :: ys ∧ Later P s s' ∧ Back s' c m ∧ s'.frames m = s.frames m ∧ s'.g = (a', b) ∧ Dozing P s' c hp a' v ys r ∧
      s'.nh = s.nh ∧ Keeps c m s s') ∨
    (∃ s' a', xs = [] ∧ Later P s s' ∧ Back s' c m ∧ s'.frames m = s.frames m ∧ s'.g = (a', b) ∧ Over s' c hp r ∧ s'.nh = s.nh ∧ Keeps c m s s') := by
  induction hy generalizing s with
  | loc hloc _ ih =>
    obtain ⟨evs, hl⟩ := hloc s b hg hx (by unfold St.fr; rw [hw.cur, hf])
    have e1 := hl.fwd
    have hfr : ∀ {fs : List (Frame L V E)}, upd s.frames s.cur fs m = s.frames m := upd_off _ _ (by rw [hw.cur]; exact hw.ne)
    rcases ih (hr.step e1) ⟨hw.chan.congr rfl rfl rfl rfl fun _ => rfl, hw.cur, hw.ne, hw.fs, hw.fo⟩ rfl rfl (by
      show upd _ _ _ _ = _
      rw [hw.cur, upd_at]) with ⟨s', a', v, ys, h1, h2, h3, h4, h5, h6, h7, h8⟩ | ⟨s', a', h1, h2, h3, h4, h5, h6, h7, h8⟩
    · exact .inl ⟨s', a', v, ys, h1, (Later.step .refl e1).trans h2, h3, h4.trans hfr, h5, h6, h7, (local_keeps rfl (.inl hw.cur)).trans h8⟩
    · exact .inr ⟨s', a', h1, (Later.step .refl e1).trans h2, h3, h4.trans hfr, h5, h6, h7, (local_keeps rfl (.inl hw.cur)).trans h8⟩
  | @push a l k F v xs r hcode hpl hrest ih =>
    obtain ⟨s', e1, h3, h4, h5, h6, h7, h8⟩ := push_awake hr hw hg hx hf (hcode b) hpl hrest
    exact .inl ⟨s', a, v, xs, rfl, .step .refl e1, h3, h4, h5, h6, h7, h8⟩
  | @ret a =>
    obtain ⟨s', e1, h3, h4, h5, h6, h7, h8⟩ := fin_awake (r := none) hr hw hg (.inl ⟨hx, rfl⟩) hf
    exact .inr ⟨s', a, rfl, .step .refl e1, h3, h4, h5, h6, h7, h8⟩
  | @throw a e =>
    obtain ⟨s', e1, h3, h4, h5, h6, h7, h8⟩ := fin_awake (r := some e) hr hw hg (.inr ⟨e, hx, rfl⟩) hf
    exact .inr ⟨s', a, rfl, .step .refl e1, h3, h4, h5, h6, h7, h8⟩

/-! ## What the consumer sees -/

/-- `h` is the object through which the dozing coroutine `c` is read. -/
structure Ready (P : Prog L (A × B) V E) (s : St L (A × B) V E) (h c hp : Nat) (a : A) (v : V) (xs : List V) (r : Option E) : Prop where
  doze : Dozing P s c hp a v xs r
  obj : s.hs h = some ⟨.pull, .val, some ⟨c, .own⟩⟩
  fo : s.fib (.cb ⟨c, .own⟩) = some c
  ne : s.cur ≠ c

theorem has_unwind : StateT.has StateT.unwind StateT.complete = false := rfl
theorem has_complete : StateT.has (StateT.or StateT.unwind StateT.complete) StateT.complete = true := rfl

theorem Dozing.valid' (hd : Dozing P s c hp a v xs r) : cbValid s ⟨c, .own⟩ = true := by
  unfold cbValid
  dsimp only
  rw [hd.chan.kind, hd.chan.ownO, hd.chan.ownS, hd.chan.va, hd.valid, has_unwind]
  rfl

theorem Over.valid' (hd : Over s c hp r) : cbValid s ⟨c, .own⟩ = false := by
  unfold cbValid
  dsimp only
  rw [hd.kind, hd.ownO, hd.ownS, has_complete]
  rfl

/-- the iterator of a ready coroutine -/
theorem op_begin (hq : Ready P s h c hp a v xs r) (hc : Calls P s (.itBegin h) k) :
    ∃ s', Later P s s' ∧ s' = { s with ctl := .eval (k (.it (some h))), log := s'.log } := by
  obtain ⟨l, h1, h2⟩ := hc
  have hb : handleBool s h = .ok true := by
    unfold handleBool
    simp only [hq.obj, hq.doze.chan.ownA, if_true, hq.doze.valid']
  have e1 := (Local.itBeginPull h1 h2 hq.obj rfl (by simp) hb).fwd
  have e2 := Local.fwd (P := P) (.dUsr (s := { s with g := s.g, frames := upd s.frames s.cur (.usr k :: s.fr), ctl := .deliver (.it (if true = true then some h else none)), log := [] ++ s.log }) rfl (upd_at ..))
  refine ⟨_, (Later.step .refl e1).step e2, ?_⟩
  simp [upd_upd, upd_self', St.fr]

theorem op_deref (hq : Ready P s h c hp a v xs r) (hc : Calls P s (.itDeref (some h)) k) :
    ∃ s', Later P s s' ∧ s' = { s with ctl := .eval (k (.val v)), log := s'.log } := by
  obtain ⟨l, h1, h2⟩ := hc
  have hb : readSlot s h = .ok (⟨c, .own⟩, v) := by
    unfold readSlot
    simp [hq.obj, hq.doze.chan.ownA, hq.doze.live]
  have e1 := (Local.itDeref h1 h2 hb).fwd
  have e2 := Local.fwd (P := P) (.dUsr (s := { s with g := s.g, frames := upd s.frames s.cur (.usr k :: s.fr), ctl := .deliver (.val v), log := [.peeked c v] ++ s.log }) rfl (upd_at ..))
  refine ⟨_, (Later.step .refl e1).step e2, ?_⟩
  simp [upd_upd, upd_self', St.fr]

/-- a local step, forgetting everything but what it changes -/
theorem loc_step {g : A × B} {fs : List (Frame L V E)} {evs : List (Ev V E)} (hl : Local P s g fs x evs) :
    ∃ s', step P s = .next s' ∧ s'.cur = s.cur ∧ s'.ctl = x ∧ s'.g = g ∧ s'.frames = upd s.frames s.cur fs ∧
      s' = { s with g := g, frames := s'.frames, ctl := x, log := s'.log } := ⟨_, hl.fwd, rfl, rfl, rfl, rfl, rfl⟩

/-- `++it`: the coroutine is entered -/
theorem wake (hr : Reach P l0 g0 s) (hq : Ready P s h c hp a v xs r) (hc : Calls P s (.itNext (some h)) k) (hg : s.g = (a, b)) :
    ∃ s' y F, Later P s s' ∧ Awake s' c hp s.cur ∧ s'.frames s.cur = .asg ⟨c, .own⟩ :: .fetch h :: .usr k :: s.fr ∧ s'.g = (a, b) ∧
      s'.ctl = y ∧ s'.frames c = F ∧ Yields P hp a y F xs r ∧ s'.nh = s.nh ∧ s'.hs = s.hs ∧ Keeps c s.cur s s' := by
  obtain ⟨l, h1, h2⟩ := hc
  obtain ⟨⟨hch, hfs, hval, hlive, k', F, hfc, hpl, hy⟩, hobj, hfo, hne⟩ := hq
  have e1 := reach_step hr (Step.pull h1 h2 .it hobj rfl rfl hch.ownA hfo)
  generalize hs1 : ({ s with frames := _, ctl := _, cur := _, fib := _, log := _ } : St L (A × B) V E) = s1 at e1
  have r1 := hr.step e1
  have hfr1 : s1.fr = .asg ⟨c, .syn⟩ :: .resid v :: .usr k' :: F := by subst hs1; simp [St.fr, upd, Ne.symm hne, hfc]
  have e2 := reach_step r1 (Step.asg (r := ⟨c, .syn⟩) (u := s.cur) (by subst hs1; rfl) hfr1 (by subst hs1; exact hch.synA)
    (by subst hs1; simp [upd, hfs]) (by subst hs1; simp [upd]) (by subst hs1; exact hch.synX))
  generalize hs2 : ({ s1 with frames := _, ctl := _, fib := _ } : St L (A × B) V E) = s2 at e2
  have hfr2 : s2.fr = .resid v :: .usr k' :: F := by subst hs2; simp [St.fr]
  have e3 := (Local.dResid (P := P) (r := .unit) (by subst hs2; rfl) hfr2).fwd
  generalize hs3 : ({ s2 with g := _, frames := _, ctl := _, log := _ } : St L (A × B) V E) = s3 at e3
  have hfr3 : s3.fr = .usr k' :: F := by subst hs3; simp [St.fr]
  have e4 := (Local.dUsr (P := P) (r := .val v) (by subst hs3; rfl) hfr3).fwd
  have hc1 : s1.cur = c := by subst hs1; rfl
  have hc2 : s2.cur = c := by subst hs2; exact hc1
  have hc3 : s3.cur = c := by subst hs3; exact hc2
  refine ⟨_, .eval (k' (.val v)), F, (((Later.step .refl e1).step e2).step e3).step e4, ⟨hch.congr ?_ ?_ ?_ ?_ ?_, hc3, hne, ?_, ?_⟩, ?_, ?_, rfl, ?_, hy, ?_, ?_,
    ⟨?_, ?_, ?_, ?_, ?_, ?_, ?_, ?_, ?_⟩⟩
  all_goals subst hs3 hs2 hs1
  all_goals clear e1 e2 e3 e4 hr r1 hy hpl
  any_goals (intro q hq; have := off_co (sd := .own) (q := q) hq; have := off_co (sd := .syn) (q := q) hq)
  all_goals simp_all [upd]

/-- control comes back with a value -/
theorem back_some {ys : List V} (hr : Reach P l0 g0 s) (hb : Back s c m) (hd : Dozing P s c hp a w ys r)
    (hf : s.frames m = .asg ⟨c, .own⟩ :: .fetch h :: .usr k :: F) (ho : s.hs h = some ⟨.pull, .val, some ⟨c, .own⟩⟩) :
    ∃ s', Later P s s' ∧ s'.cur = m ∧ s'.ctl = .eval (k (.it (some h))) ∧ s'.fr = F ∧ s'.g = s.g ∧ Ready P s' h c hp a w ys r ∧
      s'.nh = s.nh ∧ Keeps c m s s' := by
  obtain ⟨hcur, hne, hctl, hair, hfo⟩ := hb
  have hfr : s.fr = .asg ⟨c, .own⟩ :: .fetch h :: .usr k :: F := by unfold St.fr; rw [hcur, hf]
  have e1 := reach_step hr (Step.asg hctl hfr hd.chan.ownA hfo hair hd.chan.ownX)
  generalize hs1 : ({ s with frames := _, ctl := _, fib := _ } : St L (A × B) V E) = s1 at e1
  have hfr1 : s1.fr = .fetch h :: .usr k :: F := by subst hs1; simp [St.fr]
  have hbang : handleBang s1 h = .ok false := by
    have hv : cbValid s1 ⟨c, .own⟩ = true := by subst hs1; exact hd.valid'
    have hl : (s1.cbs ⟨c, .own⟩).life = .alive := by subst hs1; exact hd.chan.ownA
    have ho : s1.hs h = some ⟨.pull, .val, some ⟨c, .own⟩⟩ := by subst hs1; exact ho
    unfold handleBang
    simp [ho, hl, hv]
  have e2 := (Local.dFetch (P := P) (r := .unit) (by subst hs1; rfl) hfr1 hbang).fwd
  generalize hs2 : ({ s1 with g := _, frames := _, ctl := _, log := _ } : St L (A × B) V E) = s2 at e2
  have hfr2 : s2.fr = .usr k :: F := by subst hs2; simp [St.fr]
  have e3 := (Local.dUsr (P := P) (r := .it (some h)) (by subst hs2; rfl) hfr2).fwd
  have hc1 : s1.cur = m := by subst hs1; exact hcur
  have hc2 : s2.cur = m := by subst hs2; exact hc1
  obtain ⟨hch, hfs, hval, hlive, k', F', hfc, hpl, hy⟩ := hd
  refine ⟨_, ((Later.step .refl e1).step e2).step e3, hc2, rfl, ?_, ?_, ⟨⟨hch.congr ?_ ?_ ?_ ?_ ?_, ?_, ?_, ?_, k', F', ?_, hpl, hy⟩, ?_, ?_, ?_⟩, ?_,
    ⟨?_, ?_, ?_, ?_, ?_, ?_, ?_, ?_, ?_⟩⟩
  all_goals subst hs2 hs1
  all_goals clear e1 e2 e3 hr hy hbang hpl
  any_goals (intro q hq; have := off_co (sd := .own) (q := q) hq; have := off_co (sd := .syn) (q := q) hq)
  all_goals simp_all [upd, St.fr, Ne.symm hne]

/-- A coroutine whose function has ended, and its object. -/
structure Spent (s : St L (A × B) V E) (h c hp : Nat) (r : Option E) : Prop where
  over : Over s c hp r
  obj : s.hs h = some ⟨.pull, .val, some ⟨c, .own⟩⟩
  fo : s.fib (.cb ⟨c, .own⟩) = some c
  ne : s.cur ≠ c

theorem Over.congr (h : Over s c hp r) (e1 : s'.hs hp = s.hs hp) (e2 : s'.base c = s.base c) (e3 : s'.kind c = s.kind c) (e4 : s'.va c = s.va c)
    (e5 : ∀ sd, s'.cbs ⟨c, sd⟩ = s.cbs ⟨c, sd⟩) (e6 : s'.frames c = s.frames c) (e7 : s'.fib (.cb ⟨c, .syn⟩) = s.fib (.cb ⟨c, .syn⟩)) :
    Over s' c hp r := by
  obtain ⟨h1, h2, h3, h4, h5, h6, h7, h8, h9, h10, h11, h12⟩ := h
  constructor <;> simp_all

/-- control comes back without a value: the iterator becomes the end iterator -/
theorem back_none (hr : Reach P l0 g0 s) (hb : Back s c m) (hd : Over s c hp none)
    (hf : s.frames m = .asg ⟨c, .own⟩ :: .fetch h :: .usr k :: F) (ho : s.hs h = some ⟨.pull, .val, some ⟨c, .own⟩⟩) :
    ∃ s', Later P s s' ∧ s'.cur = m ∧ s'.ctl = .eval (k (.it none)) ∧ s'.fr = F ∧ s'.g = s.g ∧ Spent s' h c hp none ∧
      s'.nh = s.nh ∧ Keeps c m s s' := by
  obtain ⟨hcur, hne, hctl, hair, hfo⟩ := hb
  have hfr : s.fr = .asg ⟨c, .own⟩ :: .fetch h :: .usr k :: F := by unfold St.fr; rw [hcur, hf]
  have e1 := reach_step hr (Step.asg hctl hfr hd.ownA hfo hair hd.ownX)
  generalize hs1 : ({ s with frames := _, ctl := _, fib := _ } : St L (A × B) V E) = s1 at e1
  have hfr1 : s1.fr = .fetch h :: .usr k :: F := by subst hs1; simp [St.fr]
  have hbang : handleBang s1 h = .ok true := by
    have hv : cbValid s1 ⟨c, .own⟩ = false := by subst hs1; exact hd.valid'
    have hl : (s1.cbs ⟨c, .own⟩).life = .alive := by subst hs1; exact hd.ownA
    have ho : s1.hs h = some ⟨.pull, .val, some ⟨c, .own⟩⟩ := by subst hs1; exact ho
    unfold handleBang
    simp [ho, hl, hv]
  have e2 := (Local.dFetch (P := P) (r := .unit) (by subst hs1; rfl) hfr1 hbang).fwd
  generalize hs2 : ({ s1 with g := _, frames := _, ctl := _, log := _ } : St L (A × B) V E) = s2 at e2
  have hfr2 : s2.fr = .usr k :: F := by subst hs2; simp [St.fr]
  have e3 := (Local.dUsr (P := P) (r := .it none) (by subst hs2; rfl) hfr2).fwd
  have hc1 : s1.cur = m := by subst hs1; exact hcur
  have hc2 : s2.cur = m := by subst hs2; exact hc1
  refine ⟨_, ((Later.step .refl e1).step e2).step e3, hc2, rfl, ?_, ?_, ⟨hd.congr ?_ ?_ ?_ ?_ ?_ ?_ ?_, ?_, ?_, ?_⟩, ?_,
    ⟨?_, ?_, ?_, ?_, ?_, ?_, ?_, ?_, ?_⟩⟩
  all_goals subst hs2 hs1
  all_goals clear e1 e2 e3 hr hbang
  any_goals (intro q hq; have := off_co (sd := .own) (q := q) hq; have := off_co (sd := .syn) (q := q) hq)
  all_goals simp_all [upd, St.fr, Ne.symm hne]

/-- control comes back with an exception -/
theorem back_throw {e : E} (hr : Reach P l0 g0 s) (hb : Back s c m) (hd : Over s c hp (some e))
    (hf : s.frames m = .asg ⟨c, .own⟩ :: .fetch h :: .usr k :: F) (ho : s.hs h = some ⟨.pull, .val, some ⟨c, .own⟩⟩) :
    ∃ s', Later P s s' ∧ s'.cur = m ∧ s'.ctl = .raise (.user e) ∧ s'.fr = F ∧ s'.g = s.g ∧ Spent s' h c hp (some e) ∧
      s'.nh = s.nh ∧ Keeps c m s s' := by
  obtain ⟨hcur, hne, hctl, hair, hfo⟩ := hb
  have hfr : s.fr = .asg ⟨c, .own⟩ :: .fetch h :: .usr k :: F := by unfold St.fr; rw [hcur, hf]
  have e1 := reach_step hr (Step.asgThrow hctl hfr hd.ownA hfo hair hd.ownX)
  generalize hs1 : ({ s with frames := _, ctl := _, fib := _, log := _ } : St L (A × B) V E) = s1 at e1
  have hfr1 : s1.fr = .fetch h :: .usr k :: F := by subst hs1; simp [St.fr]
  have e2 := (Local.rFetch (P := P) (x := .user e) (by subst hs1; rfl) hfr1).fwd
  generalize hs2 : ({ s1 with g := _, frames := _, ctl := _, log := _ } : St L (A × B) V E) = s2 at e2
  have hfr2 : s2.fr = .usr k :: F := by subst hs2; simp [St.fr]
  have e3 := (Local.rUsrU (P := P) (e := e) (by subst hs2; rfl) hfr2).fwd
  have hc1 : s1.cur = m := by subst hs1; exact hcur
  have hc2 : s2.cur = m := by subst hs2; exact hc1
  refine ⟨_, ((Later.step .refl e1).step e2).step e3, hc2, rfl, ?_, ?_, ⟨hd.congr ?_ ?_ ?_ ?_ ?_ ?_ ?_, ?_, ?_, ?_⟩, ?_,
    ⟨?_, ?_, ?_, ?_, ?_, ?_, ?_, ?_, ?_⟩⟩
  all_goals subst hs2 hs1
  all_goals clear e1 e2 e3 hr
  any_goals (intro q hq; have := off_co (sd := .own) (q := q) hq; have := off_co (sd := .syn) (q := q) hq)
  all_goals simp_all [upd, St.fr, Ne.symm hne]

/-- `++it` on a ready coroutine -/
theorem op_next (hr : Reach P l0 g0 s) (hq : Ready P s h c hp a v xs r) (hc : Calls P s (.itNext (some h)) k) (hg : s.g = (a, b)) :
    ∃ s' a', Later P s s' ∧ s'.cur = s.cur ∧ s'.fr = s.fr ∧ s'.g = (a', b) ∧ s'.nh = s.nh ∧ Keeps c s.cur s s' ∧
      ((∃ w ys, xs = w :: ys ∧ s'.ctl = .eval (k (.it (some h))) ∧ Ready P s' h c hp a' w ys r) ∨
        (xs = [] ∧ r = none ∧ s'.ctl = .eval (k (.it none)) ∧ Spent s' h c hp none) ∨
        (∃ e, xs = [] ∧ r = some e ∧ s'.ctl = .raise (.user e) ∧ Spent s' h c hp (some e))) := by
  have hlt : h < s.nh := (inv_reach hr).hok.lt h (by rw [hq.obj]; simp)
  obtain ⟨s1, y, F, l1, hw, hfm, hg1, hx, hfc, hy, hn1, hhs, k1⟩ := wake hr hq hc hg
  rcases produce (l1.reach hr) hw hg1 hx hfc hy with ⟨s2, a', w, ys, rfl, l2, hb, hf2, hg2, hd, hn2, k2⟩ | ⟨s2, a', rfl, l2, hb, hf2, hg2, hd, hn2, k2⟩
  · obtain ⟨s3, l3, h1, h2, h3, h4, h5, h6, h7⟩ := back_some (l2.reach (l1.reach hr)) hb hd (hf2.trans hfm)
      ((k2.hs h (by omega)).trans (hhs ▸ hq.obj))
    exact ⟨s3, a', (l1.trans l2).trans l3, h1, h3, h4.trans hg2, by omega, (k1.trans k2).trans h7, .inl ⟨w, ys, rfl, h2, h5⟩⟩
  · cases r with
    | none =>
      obtain ⟨s3, l3, h1, h2, h3, h4, h5, h6, h7⟩ := back_none (l2.reach (l1.reach hr)) hb hd (hf2.trans hfm)
        ((k2.hs h (by omega)).trans (hhs ▸ hq.obj))
      exact ⟨s3, a', (l1.trans l2).trans l3, h1, h3, h4.trans hg2, by omega, (k1.trans k2).trans h7, .inr (.inl ⟨rfl, rfl, h2, h5⟩)⟩
    | some e =>
      obtain ⟨s3, l3, h1, h2, h3, h4, h5, h6, h7⟩ := back_throw (l2.reach (l1.reach hr)) hb hd (hf2.trans hfm)
        ((k2.hs h (by omega)).trans (hhs ▸ hq.obj))
      exact ⟨s3, a', (l1.trans l2).trans l3, h1, h3, h4.trans hg2, by omega, (k1.trans k2).trans h7, .inr (.inr ⟨e, rfl, rfl, h2, h5⟩)⟩

theorem Ready.congr (hq : Ready P s h c hp a v xs r) (e1 : s'.hs = s.hs) (e2 : s'.base = s.base) (e3 : s'.kind = s.kind) (e4 : s'.va = s.va)
    (e5 : s'.cbs = s.cbs) (e6 : s'.fib = s.fib) (e7 : s'.frames c = s.frames c) (e8 : s'.cur = s.cur) : Ready P s' h c hp a v xs r := by
  obtain ⟨⟨hch, hfs, hval, hlive, k', F, hfc, hpl, hy⟩, hobj, hfo, hne⟩ := hq
  exact ⟨⟨hch.congr e1 (by rw [e2]) (by rw [e3]) (by rw [e4]) (fun _ => by rw [e5]), by rw [e6]; exact hfs, by rw [e5]; exact hval,
    by rw [e5]; exact hlive, k', F, by rw [e7]; exact hfc, hpl, hy⟩, by rw [e1]; exact hobj, by rw [e6]; exact hfo, by rw [e8]; exact hne⟩

/-- a ready coroutine stays ready while another one runs -/
theorem Ready.keep {d m : Nat} (hr : Reach P l0 g0 s) (hq : Ready P s h c hp a v xs r) (hk : Keeps d m s s') (h1 : c ≠ d) (h2 : c ≠ m)
    (h3 : s'.cur = s.cur) : Ready P s' h c hp a v xs r := by
  obtain ⟨⟨hch, hfs, hval, hlive, k', F, hfc, hpl, hy⟩, hobj, hfo, hne⟩ := hq
  have hlt : h < s.nh := (inv_reach hr).hok.lt h (by rw [hobj]; simp)
  have hlp : hp < s.nh := (inv_reach hr).hok.lt hp (by rw [hch.cnt]; simp)
  obtain ⟨n1, n2, n3, n4, n5, n6, n7, n8, n9, n10, n11, n12⟩ := hch
  have cb : ∀ sd, s'.cbs ⟨c, sd⟩ = s.cbs ⟨c, sd⟩ := fun sd => hk.cbs ⟨c, sd⟩ h1
  have fb : ∀ sd, s'.fib (.cb ⟨c, sd⟩) = s.fib (.cb ⟨c, sd⟩) := fun sd => hk.fib ⟨c, sd⟩ h1
  refine ⟨⟨⟨?_, ?_, ?_, ?_, ?_, ?_, ?_, ?_, ?_, ?_, ?_, ?_⟩, ?_, ?_, ?_, k', F, ?_, hpl, hy⟩, ?_, ?_, ?_⟩
  · rw [hk.hs _ hlp]; exact n1
  · rw [hk.base _ h1]; exact n2
  · rw [hk.kind _ h1]; exact n3
  · rw [hk.va _ h1]; exact n4
  · rw [cb]; exact n5
  · rw [cb]; exact n6
  · rw [cb]; exact n7
  · rw [cb]; exact n8
  · rw [cb]; exact n9
  · rw [cb]; exact n10
  · rw [cb]; exact n11
  · rw [cb]; exact n12
  · rw [fb]; exact hfs
  · rw [cb]; exact hval
  · rw [cb]; exact hlive
  · rw [hk.frames _ h1 h2]; exact hfc
  · rw [hk.hs _ hlt]; exact hobj
  · rw [fb]; exact hfo
  · rw [h3]; exact hne

/-- internal computation -/
theorem tau_step {G : Type} {P : Prog L G V E} {s : St L G V E} {l l' : L} {g : G} (hx : s.ctl = .eval l) (hc : P.code l s.g = .tau g l') :
    step P s = .next { s with ctl := .eval l', g := g } := by
  rw [(Local.tau hx hc).fwd]
  simp [St.fr, upd_self']

/-! ## Construction and destruction -/

/-- The own control block of coroutine `c` is dead, and its fiber is about to be destroyed by context `m`. -/
structure Husk (s : St L (A × B) V E) (c hp m : Nat) : Prop where
  cur : s.cur = m
  ne : m ≠ c
  cnt : s.hs hp = some ⟨.push, .val, some ⟨c, .syn⟩⟩
  kind : s.kind c = .pull
  ownD : (s.cbs ⟨c, .own⟩).life = .dead
  synA : (s.cbs ⟨c, .syn⟩).life = .alive
  fs : s.fib (.cb ⟨c, .syn⟩) = none
  air : s.fib .air = none
  body : (s.base c = .final hp ∧ s.frames c = []) ∨
    (s.base c = .inFn hp ∧ ∃ v k F, s.frames c = .asg ⟨c, .syn⟩ :: .resid v :: .usr k :: F ∧ ∀ f ∈ F, Plain f)

/-- Nothing of other coroutines than `c` has changed, and no other object than `hp`. -/
structure Leaves {G : Type} (c hp : Nat) (s s' : St L G V E) : Prop where
  cbs : ∀ r : CbRef, r.co ≠ c → s'.cbs r = s.cbs r
  fib : ∀ r : CbRef, r.co ≠ c → s'.fib (.cb r) = s.fib (.cb r)
  base : ∀ d, d ≠ c → s'.base d = s.base d
  kind : s'.kind = s.kind
  va : s'.va = s.va
  frames : ∀ d, d ≠ c → s'.frames d = s.frames d
  hs : ∀ q, q ≠ hp → s'.hs q = s.hs q
  nh : s'.nh = s.nh
  g : s'.g = s.g
  nk : s'.nk = s.nk

/-- forced unwinding of plain frames -/
theorem strip {G : Type} {P : Prog L G V E} (F : List (Frame L V E)) (hF : ∀ f ∈ F, Plain f) : ∀ s : St L G V E, s.ctl = .raise .forced → s.fr = F →
    ∃ s' log, Later P s s' ∧ s' = { s with g := undone P (locals F) s.g, frames := upd s.frames s.cur [], log := log } := by
  induction F with
  | nil =>
    intro s _ hf
    refine ⟨s, s.log, .refl, ?_⟩
    have hu : upd s.frames s.cur [] = s.frames := by
      rw [show ([] : List (Frame L V E)) = s.frames s.cur from hf.symm]
      simp [upd_self']
    rw [hu]
    rfl
  | cons f F ih =>
    intro s hx hf
    have : ∃ g evs, Local P s g F (.raise .forced) evs ∧ undone P (locals (f :: F)) s.g = undone P (locals F) g := by
      rcases hF f (List.mem_cons_self ..) with ⟨l, rfl⟩ | ⟨o, rfl⟩
      · exact ⟨_, _, .rFnRet hx hf, rfl⟩
      · exact ⟨_, _, .rObj hx hf, rfl⟩
    obtain ⟨g1, evs, hl, hg1⟩ := this
    have e1 := hl.fwd
    obtain ⟨s', log, l1, h1⟩ := ih (fun f hf => hF f (List.mem_cons_of_mem _ hf))
      { s with g := g1, frames := upd s.frames s.cur F, ctl := .raise .forced, log := evs ++ s.log } rfl (by simp [St.fr])
    refine ⟨s', log, (Later.step .refl e1).trans l1, ?_⟩
    rw [h1, hg1]
    simp [upd_upd, hx]

/-- the unwinding has reached the end of the stack of `c` -/
theorem teardown_tail {fs : List (Frame L V E)} (r1 : Reach P l0 g0 s) (c1 : s.cur = c) (x1 : s.ctl = .raise .forced) (f1 : s.fr = [])
    (hb : s.base c = .final hp ∨ s.base c = .inFn hp) (hcnt : s.hs hp = some ⟨.push, .val, some ⟨c, .syn⟩⟩) (hkd : s.kind c = .pull)
    (hown : (s.cbs ⟨c, .own⟩).life = .dead) (hsyn : (s.cbs ⟨c, .syn⟩).life = .alive) (hfs : s.fib (.cb ⟨c, .syn⟩) = none)
    (hair : s.fib .air = none) (hbk : s.fib (.back c) = some m) (hne : m ≠ c) (hfm : s.frames m = .wait :: fs) :
    ∃ s', Later P s s' ∧ s'.cur = m ∧ s'.ctl = .deliver .unit ∧ s'.frames m = fs ∧
      Leaves c hp { s with frames := upd s.frames m fs } s' := by
  have e2 : ∃ fo log, step P s = .next { s with base := upd s.base c .lamA, fnObj := fo, log := log, hs := upd s.hs hp none, ctl := .deliver .unit } := by
    rcases hb with hb | hb
    · refine ⟨s.fnObj, s.log, ?_⟩
      have := reach_step r1 (.nop (.unwFinal (h := hp) x1 f1 (c1 ▸ hb)) hcnt (.inr ⟨c, rfl, hsyn⟩))
      rw [this, c1]
    · refine ⟨upd s.fnObj c .gone, .fnDtor c :: s.log, ?_⟩
      have := reach_step r1 (.nop (.unwFn (h := hp) x1 f1 (c1 ▸ hb)) hcnt (.inr ⟨c, rfl, hsyn⟩))
      rw [this, c1]
  obtain ⟨fo, log, e2⟩ := e2
  generalize hs2 : ({ s with base := _, fnObj := _, log := _, hs := _, ctl := _ } : St L (A × B) V E) = s2 at e2
  have r2 := r1.step e2
  have f2 : s2.fr = [] := by subst hs2; exact f1
  have c2 : s2.cur = c := by subst hs2; exact c1
  have fs2 : s2.fib (.cb ⟨s2.cur, .syn⟩) = none := by rw [c2]; subst hs2; simp [hfs]
  have hdt : Dtor (s2.kind s2.cur) (s2.va s2.cur) (s2.cbs ⟨s2.cur, .syn⟩) ⟨s2.cur, .syn⟩ (s2.cbs ⟨s2.cur, .syn⟩).slot [] := by
    refine .skip ?_
    rintro ⟨h, -⟩
    have : s2.kind s2.cur = .pull := by rw [c2]; subst hs2; exact hkd
    rw [this] at h
    cases h
  have hdy := Dying.syn (P := P) (r := .unit) (by subst hs2; rfl) f2 (by rw [c2]; subst hs2; simp [upd]) hdt
  rw [fs2] at hdy
  have e3 := reach_step r2 (.dropNone hdy)
  dsimp only at e3
  generalize hs3 : ({ s2 with base := _, fib := _, cbs := _, log := _, ctl := _ } : St L (A × B) V E) = s3 at e3
  have r3 := r2.step e3
  have f3 : s3.fr = [] := by subst hs3; exact f2
  have c3 : s3.cur = c := by subst hs3; exact c2
  have e4 := reach_step r3 (.exit (r := .unit) (b := m) (by subst hs3; rfl) f3 (by rw [c3]; subst hs3; simp [upd, c2])
    (by rw [c3]; subst hs3 hs2; simp [upd, hbk]) (by rw [c3]; subst hs3 hs2; simp [upd, hown]))
  generalize hs4 : ({ s3 with fnObj := _, fib := _, base := _, cbs := _, frames := _, stk := _, cur := _, ctl := _, log := _ } : St L (A × B) V E) = s4 at e4
  have r4 := r3.step e4
  have c4 : s4.cur = m := by subst hs4; rfl
  have f4 : s4.fr = .wait :: fs := by subst hs4 hs3 hs2; simp [St.fr, upd, c1, hne, hfm]
  have e5 := reach_step r4 (.wait (by subst hs4; rfl) f4 (by subst hs4 hs3 hs2; simp [upd, hair]))
  refine ⟨_, (((Later.step .refl e2).step e3).step e4).step e5, c4, rfl, ?_, ⟨?_, ?_, ?_, ?_, ?_, ?_, ?_, ?_, ?_, ?_⟩⟩
  all_goals subst hs4 hs3 hs2
  all_goals clear e2 e3 e4 e5 r1 r2 r3 r4 hdy hdt f2 c2 fs2 f3 c3 c4 f4
  · simp
  · intro q hq
    have h1 := off_co (sd := .syn) hq
    have h2 := off_co (sd := .own) hq
    simp [upd, freeCbs, c1, h1, h2]
  · intro q hq
    have h1 := off_co (sd := .syn) hq
    simp [upd, c1, h1]
  · intro q hq; simp [upd, c1, hq]
  · rfl
  · rfl
  · intro i hi
    by_cases h1 : i = m
    · subst h1; simp [upd]
    · simp [upd, h1, hi, c1]
  · intro q hq; simp [upd, hq]
  · rfl
  · rfl
  · rfl

/-- destroying the fiber of an ended coroutine, or of one that is suspended with plain frames only; the destructors of its locals run -/
theorem teardown {s0 : St L (A × B) V E} (hr : Reach P l0 g0 s) (hd : Dying P s (some c) s0) (hh : Husk s0 c hp m) :
    ∃ s', Later P s s' ∧ s'.cur = m ∧ s'.ctl = .deliver .unit ∧ s'.frames m = s0.frames m ∧
      Leaves c hp { s0 with g := undone P (locals (s0.frames c)) s0.g } s' := by
  have e1 := reach_step hr (.dropSome hd)
  generalize hs1 : ({ s0 with frames := _, ctl := _, cur := _, fib := _, log := _ } : St L (A × B) V E) = s1 at e1
  obtain ⟨hcur, hne, hcnt, hkd, hown, hsyn, hfs, hair, hbody⟩ := hh
  have r1 := hr.step e1
  have c1 : s1.cur = c := by subst hs1; rfl
  have x1 : s1.ctl = .raise .forced := by subst hs1; rfl
  have hfc : s1.fr = s0.frames c := by subst hs1; simp [St.fr, upd, hcur, Ne.symm hne]
  obtain ⟨s2, fr, log, l2, h2, hf2, hb2⟩ : ∃ s2 fr log, Later P s1 s2 ∧
      s2 = { s1 with g := undone P (locals (s0.frames c)) s1.g, frames := upd s1.frames s1.cur fr, log := log } ∧ fr = [] ∧
      (s0.base c = .final hp ∨ s0.base c = .inFn hp) := by
    rcases hbody with ⟨hb, hf⟩ | ⟨hb, v, k, F, hf, hF⟩
    · obtain ⟨s2, log, a, b⟩ := strip (P := P) [] (by simp) s1 x1 (hfc.trans hf)
      exact ⟨s2, _, log, a, by rw [hf]; exact b, rfl, .inl hb⟩
    · have e2 := (Local.rAsg (P := P) x1 (hfc.trans hf)).fwd
      have e3 := Local.fwd (P := P) (.rResid (s := { s1 with g := s1.g, frames := upd s1.frames s1.cur (.resid v :: .usr k :: F), ctl := .raise .forced, log := [] ++ s1.log }) rfl (upd_at ..))
      simp only [upd_upd] at e3
      have e4 := Local.fwd (P := P) (.rUsrF (s := { s1 with g := s1.g, frames := upd s1.frames s1.cur (.usr k :: F), ctl := .raise .forced, log := [] ++ ([] ++ s1.log) }) rfl (upd_at ..))
      simp only [upd_upd] at e4
      obtain ⟨s5, log, l5, h5⟩ := strip (P := P) F hF { s1 with g := s1.g, frames := upd s1.frames s1.cur F, ctl := .raise .forced, log := [] ++ ([] ++ ([] ++ s1.log)) } rfl (upd_at ..)
      refine ⟨s5, [], log, (((Later.step .refl e2).step e3).step e4).trans l5, ?_, rfl, .inr hb⟩
      rw [h5, hf]
      simp [upd_upd, x1, locals]
  subst hf2
  have r2 := l2.reach r1
  have hm2 : s2.frames m = .wait :: s0.frames m := by subst h2 hs1; simp [upd, hne, hcur, St.fr]
  obtain ⟨s3, l3, c3, x3, f3, v3⟩ := teardown_tail (hp := hp) (m := m) (c := c) r2 (by subst h2; exact c1) (by subst h2; exact x1) (by subst h2; simp [St.fr])
    (by subst h2 hs1; exact hb2) (by subst h2 hs1; exact hcnt) (by subst h2 hs1; exact hkd) (by subst h2 hs1; exact hown) (by subst h2 hs1; exact hsyn)
    (by subst h2 hs1; simp [upd, hfs]) (by subst h2 hs1; simp [upd, hair]) (by subst h2 hs1; simp [upd, hcur]) hne hm2
  refine ⟨s3, ((Later.step .refl e1).trans l2).trans l3, c3, x3, f3, ?_⟩
  obtain ⟨v1, v2, v3, v4, v5, v6, v7, v8, v9, v10⟩ := v3
  subst h2 hs1
  refine ⟨v1, ?_, v3, v4, v5, ?_, v7, v8, v9, v10⟩
  · intro q hq
    rw [v2 q hq]
    simp [upd]
  · intro i hi
    rw [v6 i hi]
    by_cases h1 : i = m
    · subst h1; simp [upd]
    · simp [upd, h1, hi, hcur]

/-- the constructor enters the coroutine-function -/
theorem mk_enter {fn : Nat → L} (hr : Reach P l0 g0 s) (hc : Calls P s (.mk .pull .val .ok fn) k) :
    ∃ s', Later P s s' ∧ Awake s' s.nk s.nh s.cur ∧ s'.frames s.cur = .pullCtor s.nk :: .usr k :: s.fr ∧ s'.g = s.g ∧
      s'.ctl = .eval (fn s.nh) ∧ s'.frames s.nk = [] ∧ s'.nh = s.nh + 1 ∧ Keeps s.nk s.cur s s' := by
  obtain ⟨l, h1, h2⟩ := hc
  have hi := inv_reach hr
  have hnb : s.base s.nk = .none := by
    cases hb : s.base s.nk with
    | none => rfl
    | _ => have := hi.sched.lt_nk s.nk (by rw [hb]; simp); omega
  have hne : s.cur ≠ s.nk := fun e => hi.sched.cur_live (e ▸ hnb)
  have hfn := hi.sched.dead_frames _ hnb
  have hfo : s.fib (.cb ⟨s.nk, .own⟩) = none := by
    cases hf : s.fib (.cb ⟨s.nk, .own⟩) with
    | none => rfl
    | some t => exact absurd (hi.cb.full_alive _ _ hf) (hi.cb.none_life _ .own hnb).1
  have e1 := reach_step hr (.mk h1 h2)
  generalize hs1 : ({ s with frames := _, ctl := _, cur := _, nk := _, stk := _, kind := _, va := _, fnObj := _, base := _, cbs := _, fib := _, log := _ } : St L (A × B) V E) = s1 at e1
  have r1 := hr.step e1
  have f1 : s1.fr = [] := by subst hs1; simp [St.fr, upd, Ne.symm hne, hfn]
  have c1 : s1.cur = s.nk := by subst hs1; rfl
  have e2 := reach_step r1 (.enterPull (fn := fn) (u := s.cur) (by subst hs1; rfl) f1 (by rw [c1]; subst hs1; simp [upd]) (by rw [c1]; subst hs1; simp [upd])
    (by rw [c1]; subst hs1; simp [upd]) (by subst hs1; simp [upd]))
  have n1 : s1.nh = s.nh := by subst hs1; rfl
  refine ⟨_, (Later.step .refl e1).step e2, ⟨⟨?_, ?_, ?_, ?_, ?_, ?_, ?_, ?_, ?_, ?_, ?_, ?_⟩, c1, hne, ?_, ?_⟩, ?_, ?_, ?_, ?_, ?_,
    ⟨?_, ?_, ?_, ?_, ?_, ?_, ?_, ?_, ?_⟩⟩
  all_goals subst hs1
  all_goals clear e1 e2 hr r1 hi
  case refine_26 => intro q hq; simp only [upd]; rw [if_neg (Nat.ne_of_lt hq)]
  any_goals (intro q hq; have := off_co (sd := .own) (q := q) hq; have := off_co (sd := .syn) (q := q) hq)
  all_goals simp_all [upd, synCb, ctorFrame, St.fr, Ne.symm hne]

/-- the constructor of a pull coroutine -/
theorem op_mk {fn : Nat → L} (hr : Reach P l0 g0 s) (hc : Calls P s (.mk .pull .val .ok fn) k) (hg : s.g = (a, b))
    (hy : Yields P s.nh a (.eval (fn s.nh)) [] xs r) :
    ∃ s' a', Later P s s' ∧ s'.cur = s.cur ∧ s'.fr = s.fr ∧ s'.g = (a', b) ∧ (∀ d, d ≠ s.nk → s'.base d = s.base d) ∧
      ((∃ v ys, xs = v :: ys ∧ s'.ctl = .eval (k (.handle (s.nh + 1))) ∧ Ready P s' (s.nh + 1) s.nk s.nh a' v ys r ∧ Keeps s.nk s.cur s s') ∨
        (xs = [] ∧ r = none ∧ s'.ctl = .eval (k (.handle (s.nh + 1))) ∧ s'.hs (s.nh + 1) = some ⟨.pull, .val, none⟩ ∧ Keeps s.nk s.cur s s') ∨
        (∃ e, xs = [] ∧ r = some e ∧ s'.ctl = .raise (.user e) ∧ Keeps s.nk s.cur s s')) := by
  obtain ⟨s1, l1, hw, hfm, hg1, hx, hfc, hn1, k1⟩ := mk_enter hr hc
  have r1 := l1.reach hr
  rcases produce r1 hw (hg1.trans hg) hx hfc hy with ⟨s2, a', w, ys, rfl, l2, hb, hf2, hg2, hd, hn2, k2⟩ | ⟨s2, a', rfl, l2, hb, hf2, hg2, hd, hn2, k2⟩
  · have r2 := l2.reach r1
    obtain ⟨hcur, hne, hctl, hair, hfo⟩ := hb
    have hfr : s2.fr = .pullCtor s.nk :: .usr k :: s.fr := by unfold St.fr; rw [hcur, hf2, hfm]; rfl
    have e1 := reach_step r2 (.pullCtor hctl hfr hd.chan.kind hd.chan.ownA hfo hair hd.chan.ownX hd.valid')
    generalize hs3 : ({ s2 with frames := _, ctl := _, fib := _, hs := _, nh := _ } : St L (A × B) V E) = s3 at e1
    have hfr3 : s3.fr = .usr k :: s.fr := by subst hs3; simp [St.fr]
    have hn : s2.nh = s.nh + 1 := by omega
    have e2 := (Local.dUsr (P := P) (r := .handle (s.nh + 1)) (by subst hs3; simp [hn]) hfr3).fwd
    have hc3 : s3.cur = s.cur := by subst hs3; exact hcur
    have hhp : s.nh ≠ s2.nh := by omega
    have K : Keeps s.nk s.cur s { s3 with g := s3.g, frames := upd s3.frames s3.cur s.fr, ctl := .eval (k (.handle (s.nh + 1))), log := [] ++ s3.log } := by
      refine (k1.trans k2).trans ⟨?_, ?_, ?_, ?_, ?_, ?_, ?_, ?_, ?_⟩
      all_goals subst hs3
      all_goals clear e1 e2 hr r1 r2
      case refine_7 => intro q hq; simp only [upd]; rw [if_neg (Nat.ne_of_lt hq)]
      any_goals (intro q hq; have := off_co (sd := .own) (q := q) hq; have := off_co (sd := .syn) (q := q) hq)
      all_goals simp_all [upd, St.fr, Ne.symm hne]
    obtain ⟨hch, hfs, hval, hlive, k', F', hfc, hpl, hy⟩ := hd
    refine ⟨_, a', ((l1.trans l2).step e1).step e2, hc3, ?_, ?_, K.base, .inl ⟨w, ys, rfl, rfl, ⟨⟨⟨?_, ?_, ?_, ?_, ?_, ?_, ?_, ?_, ?_, ?_, ?_, ?_⟩, ?_, ?_, ?_, k', F', ?_, hpl, hy⟩, ?_, ?_, ?_⟩, K⟩⟩
    all_goals clear K
    all_goals subst hs3
    all_goals obtain ⟨h1, h2, h3, h4, h5, h6, h7, h8, h9, h10, h11, h12⟩ := hch
    all_goals clear e1 e2 hr r1 r2 hy k1 k2 hpl
    all_goals simp_all [upd, St.fr, Ne.symm hne]
  · have r2 := l2.reach r1
    obtain ⟨hcur, hne, hctl, hair, hfo⟩ := hb
    have hfr : s2.fr = .pullCtor s.nk :: .usr k :: s.fr := by unfold St.fr; rw [hcur, hf2, hfm]; rfl
    have hn : s2.nh = s.nh + 1 := by omega
    obtain ⟨o1, o2, o3, o4, o5, o6, o7, o8, o9, o10, o11, o12⟩ := id hd
    cases r with
    | none =>
      have hdt : ∃ sl evs, Dtor (s2.kind s.nk) (s2.va s.nk) (s2.cbs ⟨s.nk, .own⟩) ⟨s.nk, .own⟩ sl evs := by
        cases hb : (s2.cbs ⟨s.nk, .own⟩).bvalid with
        | false => exact ⟨_, _, .skip fun h => by rw [hb] at h; cases h.2.2⟩
        | true => obtain ⟨w, hw⟩ := o10 hb; exact ⟨_, _, .val (by rw [o4]; rfl) o5 hb hw⟩
      obtain ⟨sl, evs, hdt⟩ := hdt
      have hdy := Dying.ctorInvalid (P := P) hctl hfr o4 o6 hfo hair o8 hd.valid' hdt
      obtain ⟨s3, l3, c3, x3, f3, v3⟩ := teardown r2 hdy (hp := s.nh) (m := s.cur)
        ⟨hcur, hne, o1, o4, by simp [upd], by simp [upd, o11], by simp [upd, o12], by simp [upd], .inl ⟨o2, by simp [upd, hcur, Ne.symm hne, o3]⟩⟩
      have r3 := l3.reach r2
      have fr3 : s3.fr = .ctorDrop (s2.va s.nk) :: .usr k :: s.fr := by unfold St.fr; rw [c3, f3]; simp [upd, hcur, St.fr]
      have e4 := reach_step r3 (.ctorDrop x3 fr3)
      generalize hs4 : ({ s3 with frames := _, ctl := _, hs := _, nh := _ } : St L (A × B) V E) = s4 at e4
      have fr4 : s4.fr = .usr k :: s.fr := by subst hs4; simp [St.fr]
      have n3' : s3.nh = s.nh + 1 := v3.nh.trans hn
      have e5 := (Local.dUsr (P := P) (r := .handle (s.nh + 1)) (by subst hs4; simp [n3']) fr4).fwd
      have c4 : s4.cur = s.cur := by subst hs4; exact c3
      refine ⟨_, a', (((l1.trans l2).trans l3).step e4).step e5, c4, ?_, ?_, ?_, .inr (.inl ⟨rfl, rfl, rfl, ?_, ?_⟩)⟩
      · simp [St.fr]
      · subst hs4
        rw [show s3.g = _ from v3.g]
        simp [upd, hcur, Ne.symm hne, o3, locals, undone, hg2]
      · intro d hd
        subst hs4
        exact (v3.base d hd).trans ((k1.trans k2).base d hd)
      · subst hs4; simp [n3', o5]
      · obtain ⟨v1, v2, v3', v4, v5, v6, v7, v8, v9, v10⟩ := v3
        have K := k1.trans k2
        refine ⟨?_, ?_, ?_, ?_, ?_, ?_, ?_, ?_, ?_⟩
        all_goals subst hs4
        all_goals dsimp only
        · intro q hq; rw [v1 q hq, ← K.cbs q hq]; simp [upd, off_co (sd := .own) hq]
        · intro q hq; rw [v2 q hq, ← K.fib q hq]; simp [upd]
        · intro d hd; rw [v3' d hd, ← K.base d hd]
        · intro d hd; rw [v4, ← K.kind d hd]
        · intro d hd; rw [v5, ← K.va d hd]
        · intro d hd hm
          rw [upd_off _ _ (by rw [c3]; exact hm), upd_off _ _ (by rw [c3]; exact hm), v6 d hd, ← K.frames d hd hm]
          simp [upd, hm, hcur]
        · intro q hq
          rw [upd_off _ _ (by omega), v7 q (by omega), ← K.hs q hq]
        · omega
        · exact Nat.le_trans K.nk (Nat.le_of_eq v10.symm)
    | some e =>
      have hdy := Dying.ctorThrow (P := P) hctl hfr o4 o6 hfo hair o8
      obtain ⟨s3, l3, c3, x3, f3, v3⟩ := teardown r2 hdy (hp := s.nh) (m := s.cur)
        ⟨hcur, hne, o1, o4, by simp [upd], by simp [upd, o11], by simp [upd, o12], by simp [upd], .inl ⟨o2, by simp [upd, hcur, Ne.symm hne, o3]⟩⟩
      have r3 := l3.reach r2
      have fr3 : s3.fr = .ctorFail e :: .usr k :: s.fr := by unfold St.fr; rw [c3, f3]; simp [upd, hcur, St.fr]
      have e4 := (Local.dCtorFail (P := P) x3 fr3).fwd
      generalize hs4 : ({ s3 with g := _, frames := _, ctl := _, log := _ } : St L (A × B) V E) = s4 at e4
      have fr4 : s4.fr = .usr k :: s.fr := by subst hs4; simp [St.fr]
      have e5 := (Local.rUsrU (P := P) (e := e) (by subst hs4; rfl) fr4).fwd
      have c4 : s4.cur = s.cur := by subst hs4; exact c3
      refine ⟨_, a', (((l1.trans l2).trans l3).step e4).step e5, c4, ?_, ?_, ?_, .inr (.inr ⟨e, rfl, rfl, rfl, ?_⟩)⟩
      · simp [St.fr]
      · subst hs4
        rw [show s3.g = _ from v3.g]
        simp [upd, hcur, Ne.symm hne, o3, locals, undone, hg2]
      · intro d hd
        subst hs4
        exact (v3.base d hd).trans ((k1.trans k2).base d hd)
      · obtain ⟨v1, v2, v3', v4, v5, v6, v7, v8, v9, v10⟩ := v3
        have K := k1.trans k2
        refine ⟨?_, ?_, ?_, ?_, ?_, ?_, ?_, ?_, ?_⟩
        all_goals subst hs4
        all_goals dsimp only
        · intro q hq; rw [v1 q hq, ← K.cbs q hq]; simp [upd, off_co (sd := .own) hq]
        · intro q hq; rw [v2 q hq, ← K.fib q hq]; simp [upd, off_co (sd := .own) hq]
        · intro d hd; rw [v3' d hd, ← K.base d hd]
        · intro d hd; rw [v4, ← K.kind d hd]
        · intro d hd; rw [v5, ← K.va d hd]
        · intro d hd hm
          rw [upd_off _ _ (by rw [c3]; exact hm), upd_off _ _ (by rw [c3]; exact hm), v6 d hd, ← K.frames d hd hm]
          simp [upd, hm, hcur]
        · intro q hq
          rw [v7 q (by omega), ← K.hs q hq]
        · rw [v8]; exact K.nh
        · exact Nat.le_trans K.nk (Nat.le_of_eq v10.symm)

/-- A coroutine that has ended or is suspended with plain frames only, and its object `h`. -/
structure Idle (s : St L (A × B) V E) (h c hp : Nat) : Prop where
  obj : s.hs h = some ⟨.pull, .val, some ⟨c, .own⟩⟩
  fo : s.fib (.cb ⟨c, .own⟩) = some c
  ne : s.cur ≠ c
  cnt : s.hs hp = some ⟨.push, .val, some ⟨c, .syn⟩⟩
  kind : s.kind c = .pull
  va : s.va c = .val
  ownA : (s.cbs ⟨c, .own⟩).life = .alive
  slot : (s.cbs ⟨c, .own⟩).bvalid = true → ∃ w, (s.cbs ⟨c, .own⟩).slot = .live w
  synA : (s.cbs ⟨c, .syn⟩).life = .alive
  fs : s.fib (.cb ⟨c, .syn⟩) = none
  body : (s.base c = .final hp ∧ s.frames c = []) ∨
    (s.base c = .inFn hp ∧ ∃ v k F, s.frames c = .asg ⟨c, .syn⟩ :: .resid v :: .usr k :: F ∧ ∀ f ∈ F, Plain f)

theorem Ready.idle (hq : Ready P s h c hp a v xs r) : Idle s h c hp := by
  obtain ⟨⟨hch, hfs, hval, hlive, k', F, hfc, hpl, hy⟩, hobj, hfo, hne⟩ := hq
  exact ⟨hobj, hfo, hne, hch.cnt, hch.kind, hch.va, hch.ownA, hch.slot, hch.synA, hfs, .inr ⟨hch.base, v, k', F, hfc, hpl⟩⟩

theorem Spent.idle (hq : Spent s h c hp r) : Idle s h c hp := by
  obtain ⟨⟨o1, o2, o3, o4, o5, o6, o7, o8, o9, o10, o11, o12⟩, ho, hfo, hne⟩ := hq
  exact ⟨ho, hfo, hne, o1, o4, o5, o6, o10, o11, o12, .inl ⟨o2, o3⟩⟩

theorem Idle.congr (hq : Idle s h c hp) (e1 : s'.hs = s.hs) (e2 : s'.base = s.base) (e3 : s'.kind = s.kind) (e4 : s'.va = s.va)
    (e5 : s'.cbs = s.cbs) (e6 : s'.fib = s.fib) (e7 : s'.frames c = s.frames c) (e8 : s'.cur = s.cur) : Idle s' h c hp := by
  obtain ⟨h1, h2, h3, h4, h5, h6, h7, h8, h9, h10, h11⟩ := hq
  constructor <;> simp_all

/-- an idle coroutine stays idle while another one runs -/
theorem Idle.keep {d m : Nat} (hr : Reach P l0 g0 s) (hq : Idle s h c hp) (hk : Keeps d m s s') (h1 : c ≠ d) (h2 : c ≠ m)
    (h3 : s'.cur = s.cur) : Idle s' h c hp := by
  obtain ⟨n1, n2, n3, n4, n5, n6, n7, n8, n9, n10, n11⟩ := hq
  have hlt := hk.hs h ((inv_reach hr).hok.lt h (by rw [n1]; simp))
  have hlp := hk.hs hp ((inv_reach hr).hok.lt hp (by rw [n4]; simp))
  have cb : ∀ sd, s'.cbs ⟨c, sd⟩ = s.cbs ⟨c, sd⟩ := fun sd => hk.cbs ⟨c, sd⟩ h1
  have fb : ∀ sd, s'.fib (.cb ⟨c, sd⟩) = s.fib (.cb ⟨c, sd⟩) := fun sd => hk.fib ⟨c, sd⟩ h1
  have a1 := hk.base _ h1
  have a2 := hk.kind _ h1
  have a3 := hk.va _ h1
  have a4 := hk.frames _ h1 h2
  clear hk hr
  constructor <;> simp_all

/-- the destructor of the object of an idle coroutine -/
theorem op_drop {s1 : St L (A × B) V E} (hr : Reach P l0 g0 s) (hq : Idle s h c hp) (hc : s.ctl ≠ .recv) (hsc : Scope P s h s1)
    {fs : List (Frame L V E)} (h1 : s1 = { s with frames := upd s.frames s.cur fs }) :
    ∃ s', Later P s s' ∧ s'.cur = s.cur ∧ s'.ctl = .deliver .unit ∧ s'.fr = fs ∧ s'.g = undone P (locals (s.frames c)) s.g ∧
      (∀ d, d ≠ c → s'.base d = s.base d) ∧ ∀ h' c' hp', Idle s h' c' hp' → c' ≠ c → Idle s' h' c' hp' := by
  obtain ⟨ho, hfo, hne, o1, o4, o5, o6, o10, o11, o12, hbody⟩ := hq
  have hair := (inv_reach hr).airNone hc
  have hhp : hp ≠ h := by rintro rfl; rw [o1] at ho; cases ho
  have hdt : ∃ sl evs, Dtor (s1.kind c) (s1.va c) (s1.cbs ⟨c, .own⟩) ⟨c, .own⟩ sl evs := by
    subst h1
    cases hb : (s.cbs ⟨c, .own⟩).bvalid with
    | false => exact ⟨_, _, .skip fun h => by rw [hb] at h; cases h.2.2⟩
    | true => obtain ⟨w, hw⟩ := o10 hb; exact ⟨_, _, .val (by rw [o4]; rfl) o5 hb hw⟩
  obtain ⟨sl, evs, hdt⟩ := hdt
  have hdy := Dying.handle hsc (by subst h1; exact ho) rfl (by subst h1; exact o6) hdt
  have hf1 : s1.fib (.cb ⟨c, .own⟩) = some c := by subst h1; exact hfo
  rw [hf1] at hdy
  subst h1
  obtain ⟨s3, l3, c3, x3, f3, v3⟩ := teardown hr hdy (hp := hp) (m := s.cur)
    ⟨rfl, hne, by simp [upd, hhp, o1], o4, by simp [upd], by simp [upd, o11], by simp [upd, o12], by simp [upd, hair], by
      simpa [upd, Ne.symm hne] using hbody⟩
  refine ⟨s3, l3, c3, x3, by unfold St.fr; rw [c3, f3]; simp, v3.g.trans (by simp [upd, Ne.symm hne]), v3.base, ?_⟩
  intro h' c' hp' hq' hcc
  obtain ⟨m1, m2, m3, m4, m5, m6, m7, m8, m9, m10, m11⟩ := hq'
  obtain ⟨v1, v2, v3, v4, v5, v6, v7, v8, v9, -⟩ := v3
  have hd1 : h' ≠ h := by rintro rfl; rw [ho] at m1; injection m1 with m1; injection m1 with _ _ m1; injection m1 with m1; injection m1 with m1; exact hcc m1.symm
  have hd2 : h' ≠ hp := by rintro rfl; rw [o1] at m1; cases m1
  have hd3 : hp' ≠ hp := by rintro rfl; rw [o1] at m4; injection m4 with m4; injection m4 with _ _ m4; injection m4 with m4; injection m4 with m4; exact hcc m4.symm
  have hd4 : hp' ≠ h := by rintro rfl; rw [ho] at m4; cases m4
  have cb : ∀ sd, s3.cbs ⟨c', sd⟩ = s.cbs ⟨c', sd⟩ := fun sd => by rw [v1 _ hcc]; simp [upd, hcc]
  have fb : ∀ sd, s3.fib (.cb ⟨c', sd⟩) = s.fib (.cb ⟨c', sd⟩) := fun sd => by rw [v2 _ hcc]; simp [upd, hcc]
  have a1 := v3 _ hcc
  have a4 := v6 _ hcc
  have a5 := v7 _ hd2
  have a6 := v7 _ hd3
  simp only [upd, hd1, hd4, if_false, Ne.symm m3] at a1 a4 a5 a6
  clear v1 v2 v3 v6 v7 hdy hdt hsc hr l3
  constructor <;> simp_all

/-- Nothing of other coroutines than `c`, of other contexts than `c` and the running one, and of other objects than `h` and `hp` has changed. -/
structure Spares {G : Type} (c h hp : Nat) (s s' : St L G V E) : Prop where
  cbs : ∀ r : CbRef, r.co ≠ c → s'.cbs r = s.cbs r
  fib : ∀ r : CbRef, r.co ≠ c → s'.fib (.cb r) = s.fib (.cb r)
  base : ∀ d, d ≠ c → s'.base d = s.base d
  kind : ∀ d, s'.kind d = s.kind d
  va : ∀ d, s'.va d = s.va d
  frames : ∀ d, d ≠ c → d ≠ s.cur → s'.frames d = s.frames d
  hs : ∀ q, q ≠ h → q ≠ hp → s'.hs q = s.hs q
  cur : s'.cur = s.cur

/-- the destructor of the object of an idle coroutine, and what it spares -/
theorem op_drop_spares {s1 : St L (A × B) V E} (hr : Reach P l0 g0 s) (hq : Idle s h c hp) (hc : s.ctl ≠ .recv) (hsc : Scope P s h s1)
    {fs : List (Frame L V E)} (h1 : s1 = { s with frames := upd s.frames s.cur fs }) :
    ∃ s', Later P s s' ∧ s'.ctl = .deliver .unit ∧ s'.fr = fs ∧ s'.g = undone P (locals (s.frames c)) s.g ∧ Spares c h hp s s' := by
  obtain ⟨ho, hfo, hne, o1, o4, o5, o6, o10, o11, o12, hbody⟩ := hq
  have hair := (inv_reach hr).airNone hc
  have hhp : hp ≠ h := by rintro rfl; rw [o1] at ho; cases ho
  have hdt : ∃ sl evs, Dtor (s1.kind c) (s1.va c) (s1.cbs ⟨c, .own⟩) ⟨c, .own⟩ sl evs := by
    subst h1
    cases hb : (s.cbs ⟨c, .own⟩).bvalid with
    | false => exact ⟨_, _, .skip fun h => by rw [hb] at h; cases h.2.2⟩
    | true => obtain ⟨w, hw⟩ := o10 hb; exact ⟨_, _, .val (by rw [o4]; rfl) o5 hb hw⟩
  obtain ⟨sl, evs, hdt⟩ := hdt
  have hdy := Dying.handle hsc (by subst h1; exact ho) rfl (by subst h1; exact o6) hdt
  have hf1 : s1.fib (.cb ⟨c, .own⟩) = some c := by subst h1; exact hfo
  rw [hf1] at hdy
  subst h1
  obtain ⟨s3, l3, c3, x3, f3, v3⟩ := teardown hr hdy (hp := hp) (m := s.cur)
    ⟨rfl, hne, by simp [upd, hhp, o1], o4, by simp [upd], by simp [upd, o11], by simp [upd, o12], by simp [upd, hair], by
      simpa [upd, Ne.symm hne] using hbody⟩
  refine ⟨s3, l3, x3, by unfold St.fr; rw [c3, f3]; simp, v3.g.trans (by simp [upd, Ne.symm hne]), ?_⟩
  obtain ⟨v1, v2, v3, v4, v5, v6, v7, v8, v9, -⟩ := v3
  refine ⟨fun r hr => ?_, fun r hr => ?_, v3, fun d => by rw [v4], fun d => by rw [v5], fun d h1 h2 => ?_, fun q h1 h2 => ?_, c3⟩
  · rw [v1 r hr]; simp [upd, off_co (sd := .own) hr]
  · rw [v2 r hr]; simp [upd, off_co (sd := .own) hr]
  · rw [v6 d h1]; simp [upd, h2]
  · rw [v7 q h2]; simp [upd, h1]

/-! ## The end of a run -/

theorem later_head {L G : Type} {P : Prog L G V E} {s s1 s2 : St L G V E} (h : Later P s s2) (e : step P s = .next s1) : s2 = s ∨ Later P s1 s2 := by
  induction h with
  | refl => exact .inl rfl
  | step _ e' ih =>
    rcases ih with rfl | ih
    · rw [e] at e'; cases e'; exact .inr .refl
    · exact .inr (ih.step e')

theorem later_stuck {L G : Type} {P : Prog L G V E} {s s' : St L G V E} (h : Later P s s') (e : ∀ x, step P s ≠ .next x) : s' = s := by
  induction h with
  | refl => rfl
  | step _ e' ih => subst ih; exact absurd e' (e _)

/-- a run has one end only -/
theorem end_unique {L G : Type} {P : Prog L G V E} {s a b : St L G V E} (ha : Later P s a) (hb : Later P s b)
    (ea : ∀ x, step P a ≠ .next x) (eb : ∀ x, step P b ≠ .next x) : a = b := by
  have : Later P b a := by
    clear eb
    induction hb with
    | refl => exact ha
    | step _ e ih =>
      rcases later_head ih e with h | h
      · subst h; exact absurd e (ea _)
      · exact h
  exact later_stuck this eb

end Verif
