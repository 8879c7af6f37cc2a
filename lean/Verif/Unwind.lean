import Verif.EnterInv
import Verif.NoImp
import Verif.SpecObj

/-!
# Unwinding

Proof material: when a fiber is destroyed, the context it holds is unwound completely; this terminates.
-/
namespace Verif
variable {L G V E : Type}

/-- weight of a frame, decreasing while unwinding -/
def fwt : Frame L V E → Nat
  | .gCoro _ | .pullCtor _ | .pushCtor _ => 3
  | _ => 1

def fwts : List (Frame L V E) → Nat
  | [] => 0
  | f :: t => fwt f + fwts t

def bwt : Base L → Nat
  | .none | .main => 0
  | .lamB => 1
  | .lamA => 3
  | _ => 5

/-- weight of context `i` -/
def cwt (s : St L G V E) (i : Nat) : Nat := fwts (s.frames i) + bwt (s.base i)

def tot (f : Nat → Nat) : Nat → Nat
  | 0 => 0
  | n+1 => tot f n + f n

theorem tot_le {f g : Nat → Nat} {n : Nat} (h : ∀ i, i < n → g i ≤ f i) : tot g n ≤ tot f n := by
  induction n with
  | zero => exact Nat.le_refl _
  | succ n ih =>
    have h1 := ih (fun i hi => h i (by omega))
    have h2 := h n (by omega)
    simp only [tot]; omega

theorem tot_lt {f g : Nat → Nat} {n c : Nat} (hc : c < n) (h : ∀ i, i ≠ c → g i = f i) (h' : g c < f c) : tot g n < tot f n := by
  induction n with
  | zero => omega
  | succ n ih =>
    simp only [tot]
    by_cases hn : c = n
    · subst hn
      have : tot g c = tot f c := by
        have e1 : tot g c ≤ tot f c := tot_le (fun i hi => Nat.le_of_eq (h i (by omega)))
        have e2 : tot f c ≤ tot g c := tot_le (fun i hi => Nat.le_of_eq (h i (by omega)).symm)
        omega
      omega
    · have h1 := ih (by omega)
      have h2 := h n (fun e => hn e.symm)
      omega

def wt (s : St L G V E) : Nat := tot (cwt s) s.nk

/-- events that belong to the destruction of context `i` (for a pull coroutine the slot is in the owner's block and is not
counted here) -/
def ctxEv (kd : Nat → Kind) (i : Nat) : Ev V E → Bool
  | .odtor j _ | .fnDtor j | .dealloc j => j == i
  | .tdtor j => j == i && kd j == .push
  | _ => false

/-- events that may happen while contexts are unwound -/
def unwEv : Ev V E → Bool
  | .odtor _ _ | .fnDtor _ | .dealloc _ | .tdtor _ | .unwind _ _ => true
  | _ => false

/-- `~T` of the slot in the synthesized block -/
def expT (s : St L G V E) (i : Nat) : List (Ev V E) :=
  if s.kind i = .push ∧ s.va i = .val ∧ (s.cbs ⟨i, .syn⟩).bvalid = true then [.tdtor i] else []

/-- the callable is still in the fiber record -/
def expF (s : St L G V E) (i : Nat) : List (Ev V E) :=
  if s.fnObj i = .record then [.fnDtor i] else []

/-- what the complete unwinding of context `i` will do, oldest first -/
def expected (s : St L G V E) (i : Nat) : List (Ev V E) :=
  (locals (s.frames i)).map (Ev.odtor i) ++
  match s.base i with
  | .inFn _ => .fnDtor i :: (expT s i ++ [.dealloc i])
  | .pushEntry _ _ | .final _ | .lamA => expT s i ++ (expF s i ++ [.dealloc i])
  | .lamB => expF s i ++ [.dealloc i]
  | _ => []

/-- what unwinding never changes: other contexts' private parts -/
def SameCtx (s s' : St L G V E) (i : Nat) : Prop :=
  s'.frames i = s.frames i ∧ s'.base i = s.base i ∧ s'.fnObj i = s.fnObj i ∧ s'.cbs ⟨i, .syn⟩ = s.cbs ⟨i, .syn⟩ ∧
  s'.fib (.back i) = s.fib (.back i) ∧ s'.stk i = s.stk i

/-- what unwinding can do to everything else -/
structure Shrinks (s s' : St L G V E) : Prop where
  nk : s'.nk = s.nk
  nh : s'.nh = s.nh
  kind : s'.kind = s.kind
  va : s'.va = s.va
  hs : ∀ h, s'.hs h = s.hs h ∨ s'.hs h = none
  cbs : ∀ r, s'.cbs r = s.cbs r ∨ (s'.cbs r).life ≠ .alive
  fib : ∀ r, s'.fib (.cb r) = s.fib (.cb r) ∨ s'.fib (.cb r) = none

theorem Shrinks.refl (s : St L G V E) : Shrinks s s :=
  ⟨rfl, rfl, rfl, rfl, fun _ => .inl rfl, fun _ => .inl rfl, fun _ => .inl rfl⟩

theorem Shrinks.trans {s s1 s2 : St L G V E} (h : Shrinks s s1) (h' : Shrinks s1 s2)
    (hd : ∀ r, (s1.cbs r).life ≠ .alive → (s2.cbs r).life ≠ .alive) : Shrinks s s2 := by
  refine ⟨h'.nk.trans h.nk, h'.nh.trans h.nh, h'.kind.trans h.kind, h'.va.trans h.va, ?_, ?_, ?_⟩
  · intro x
    rcases h'.hs x with e | e
    · rw [e]; exact h.hs x
    · exact .inr e
  · intro r
    rcases h.cbs r with e | e
    · rw [← e]; exact h'.cbs r
    · exact .inr (hd r e)
  · intro r
    rcases h'.fib r with e | e
    · rw [e]; exact h.fib r
    · exact .inr e

theorem Shrinks.dead {s s1 : St L G V E} (h : Shrinks s s1) : ∀ r, (s.cbs r).life ≠ .alive → (s1.cbs r).life ≠ .alive := by
  intro r hr
  rcases h.cbs r with e | e
  · rw [e]; exact hr
  · exact e

/-- a control block that is destroyed when context `a` is unwound -/
inductive Doomed (s : St L G V E) (a : Nat) : CbRef → Prop
  | obj {h : Nat} {hd : Handle} {k : Nat} : h ∈ coLocals (s.frames a) → s.hs h = some hd → hd.cb = some ⟨k, .own⟩ → Doomed s a ⟨k, .own⟩
  | ctor {k : Nat} : Frame.pullCtor k ∈ s.frames a ∨ Frame.pushCtor k ∈ s.frames a → Doomed s a ⟨k, .own⟩
  | sink {h : Nat} {hd : Handle} {k : Nat} : (s.base a).sink = some h → s.hs h = some hd → hd.cb = some ⟨k, .own⟩ → Doomed s a ⟨k, .own⟩
  | syn : Doomed s a ⟨a, .syn⟩

/-- the contexts that are unwound when `a` is -/
inductive Falls (s : St L G V E) (a : Nat) : Nat → Prop
  | self : Falls s a a
  | next {b t : Nat} {r : CbRef} : Falls s a b → Doomed s b r → s.fib (.cb r) = some t → Falls s a t

theorem Falls.trans {s : St L G V E} {a b c : Nat} (h : Falls s a b) (h' : Falls s b c) : Falls s a c := by
  induction h' with
  | self => exact h
  | next _ h1 h2 ih => exact ih.next h1 h2

/-- context `a` has nothing new that would be destroyed -/
structure Under (s s' : St L G V E) (a : Nat) : Prop where
  co : ∀ h ∈ coLocals (s'.frames a), h ∈ coLocals (s.frames a)
  ctor : ∀ k, Frame.pullCtor k ∈ s'.frames a ∨ Frame.pushCtor k ∈ s'.frames a → Frame.pullCtor k ∈ s.frames a ∨ Frame.pushCtor k ∈ s.frames a
  sink : ∀ h, (s'.base a).sink = some h → (s.base a).sink = some h

theorem Under.same {s s' : St L G V E} {a : Nat} (h1 : s'.frames a = s.frames a) (h2 : s'.base a = s.base a) : Under s s' a :=
  ⟨by rw [h1]; exact fun _ h => h, by rw [h1]; exact fun _ h => h, by rw [h2]; exact fun _ h => h⟩

theorem Under.gone {s s' : St L G V E} {a : Nat} (h1 : s'.frames a = []) (h2 : s'.base a = .none) : Under s s' a :=
  ⟨by simp [h1, coLocals], by simp [h1], by simp [h2, Base.sink]⟩

theorem coLocals_tail {f : Frame L V E} {t : List (Frame L V E)} : ∀ h ∈ coLocals t, h ∈ coLocals (f :: t) := by
  intro h hh
  cases f <;> simp [coLocals, hh]

/-- frames are popped, and some frame that is no concern here is pushed -/
theorem Under.frames {s s' : St L G V E} {a : Nat} {f : Frame L V E} {t u : List (Frame L V E)} (h1 : s.frames a = f :: t) (h2 : s'.frames a = u)
    (h4 : u = t ∨ ∃ x, u = .cRaise x :: t) (h3 : s'.base a = s.base a) : Under s s' a := by
  refine ⟨?_, ?_, by rw [h3]; exact fun _ h => h⟩
  · rw [h1, h2]
    rcases h4 with rfl | ⟨x, rfl⟩
    · exact coLocals_tail
    · exact fun h hh => coLocals_tail h (by simpa [coLocals] using hh)
  · rw [h1, h2]
    rcases h4 with rfl | ⟨x, rfl⟩
    · exact fun k hk => hk.imp (List.mem_cons_of_mem _) (List.mem_cons_of_mem _)
    · simp only [List.mem_cons, reduceCtorEq, false_or]
      exact fun k hk => hk.imp .inr .inr

theorem Under.trans {s s1 s2 : St L G V E} {a : Nat} (h : Under s s1 a) (h' : Under s1 s2 a) : Under s s2 a :=
  ⟨fun x hx => h.co x (h'.co x hx), fun x hx => h.ctor x (h'.ctor x hx), fun x hx => h.sink x (h'.sink x hx)⟩

theorem Falls.mono {s s' : St L G V E} {a b : Nat} (hs : Shrinks s s') (hu : ∀ i, Under s s' i) (h : Falls s' a b) : Falls s a b := by
  have key : ∀ {y : Nat} {hd : Handle}, s'.hs y = some hd → s.hs y = some hd := by
    intro y hd hy
    rcases hs.hs y with e | e
    · rw [← e]; exact hy
    · rw [e] at hy; cases hy
  induction h with
  | self => exact .self
  | next _ h1 h2 ih =>
    rename_i t r _
    have h3 : s.fib (.cb r) = some t := by
      rcases hs.fib r with e | e
      · rw [← e]; exact h2
      · rw [e] at h2; cases h2
    refine ih.next ?_ h3
    · cases h1 with
      | obj a1 a2 a3 => exact .obj ((hu _).co _ a1) (key a2) a3
      | ctor a1 => exact .ctor ((hu _).ctor _ a1)
      | sink a1 a2 a3 => exact .sink ((hu _).sink _ a1) (key a2) a3
      | syn => exact .syn

/-! ### The order of destruction -/

/-- something still to be destroyed when a context is unwound: a local object, a coroutine object, a control block -/
inductive Item
  | obj (i o : Nat)
  | co (h : Nat)
  | blk (r : CbRef)

def items (a : Nat) : List (Frame L V E) → List Item
  | [] => []
  | .gObj o :: t => .obj a o :: items a t
  | .gCoro h :: t => .co h :: items a t
  | .pullCtor k :: t | .pushCtor k :: t => .blk ⟨k, .own⟩ :: items a t
  | _ :: t => items a t

def Base.items (a : Nat) : Base L → List Item
  | .inFn h | .pushEntry h _ | .final h => [.co h, .blk ⟨a, .syn⟩]
  | .lamA => [.blk ⟨a, .syn⟩]
  | _ => []

def todo (s : St L G V E) (a : Nat) : List Item := items a (s.frames a) ++ (s.base a).items a

/-- the local objects that are destroyed when the items are, in order -/
inductive Order (s : St L G V E) : List Item → List (Nat × Nat) → Prop
  | nil : Order s [] []
  | obj {i o w os} : Order s w os → Order s (.obj i o :: w) ((i, o) :: os)
  | coNop {h hd w os} : s.hs h = some hd → (∀ k, hd.cb ≠ some ⟨k, .own⟩) → Order s w os → Order s (.co h :: w) os
  | coNone {h hd k w os} : s.hs h = some hd → hd.cb = some ⟨k, .own⟩ → (s.cbs ⟨k, .own⟩).life = .alive →
      s.fib (.cb ⟨k, .own⟩) = none → Order s w os → Order s (.co h :: w) os
  | co {h hd k t w os1 os2} : s.hs h = some hd → hd.cb = some ⟨k, .own⟩ → (s.cbs ⟨k, .own⟩).life = .alive →
      s.fib (.cb ⟨k, .own⟩) = some t → Order s (todo s t) os1 → Order s w os2 → Order s (.co h :: w) (os1 ++ os2)
  | blkNone {r w os} : (s.cbs r).life = .alive → s.fib (.cb r) = none → Order s w os → Order s (.blk r :: w) os
  | blk {r t w os1 os2} : (s.cbs r).life = .alive → s.fib (.cb r) = some t → Order s (todo s t) os1 → Order s w os2 →
      Order s (.blk r :: w) (os1 ++ os2)

theorem dtorsIn_append (a b : List (Ev V E)) : dtorsIn (a ++ b) = dtorsIn b ++ dtorsIn a := by
  simp [dtorsIn]

/-- blocks that stay alive keep their fiber -/
def Stays (s s' : St L G V E) : Prop := ∀ r, (s'.cbs r).life = .alive → s'.fib (.cb r) = s.fib (.cb r)

theorem Order.mono {s s' : St L G V E} (hsh : Shrinks s s') (hk : Stays s s')
    (ht : ∀ r t, s'.fib (.cb r) = some t → s'.frames t = s.frames t ∧ s'.base t = s.base t) {w : List Item} {os : List (Nat × Nat)}
    (h : Order s' w os) : Order s w os := by
  have key : ∀ {x : Nat} {hd : Handle}, s'.hs x = some hd → s.hs x = some hd := by
    intro x hd hx
    rcases hsh.hs x with e | e
    · rw [← e]; exact hx
    · rw [e] at hx; cases hx
  have kal : ∀ {r}, (s'.cbs r).life = .alive → (s.cbs r).life = .alive := by
    intro r h
    rcases hsh.cbs r with e | e
    · rw [← e]; exact h
    · exact absurd h e
  have ktd : ∀ {r t}, s'.fib (.cb r) = some t → todo s' t = todo s t := by
    intro r t h
    obtain ⟨a, b⟩ := ht r t h
    simp only [todo, a, b]
  induction h with
  | nil => exact .nil
  | obj _ ih => exact .obj ih
  | coNop a b _ ih => exact .coNop (key a) b ih
  | coNone a b c d _ ih => exact .coNone (key a) b (kal c) ((hk _ c).symm.trans d) ih
  | co a b c d _ _ ih1 ih2 => exact .co (key a) b (kal c) ((hk _ c).symm.trans d) (ktd d ▸ ih1) ih2
  | blkNone c d _ ih => exact .blkNone (kal c) ((hk _ c).symm.trans d) ih
  | blk c d _ _ ih1 ih2 => exact .blk (kal c) ((hk _ c).symm.trans d) (ktd d ▸ ih1) ih2

theorem Stays.trans {s s1 s2 : St L G V E} (h : Stays s s1) (h' : Stays s1 s2) (hsh : Shrinks s1 s2) : Stays s s2 := by
  intro r hr
  rw [h' r hr]
  apply h
  rcases hsh.cbs r with e | e
  · rw [← e]; exact hr
  · exact absurd hr e

/-- one step of an unwinding context -/
structure UStep (s s' : St L G V E) (evs : List (Ev V E)) : Prop where
  log : s'.log = evs ++ s.log
  shr : Shrinks s s'
  oth : ∀ i, i ≠ s.cur → i ≠ s'.cur ∨ s'.ctl = .recv → SameCtx s s' i
  othF : ∀ i, i ≠ s.cur → s'.frames i = s.frames i ∧ s'.base i = s.base i ∧ s'.fnObj i = s.fnObj i ∧
    s'.cbs ⟨i, .syn⟩ = s.cbs ⟨i, .syn⟩
  unw : ∀ e ∈ evs, unwEv e = true
  nev : ∀ i, i ≠ s.cur → evs.filter (ctxEv s.kind i) = []
  dec : cwt s' s.cur < cwt s s.cur
  exp : expected s s.cur = (evs.filter (ctxEv s.kind s.cur)).reverse ++ expected s' s.cur
  und : Under s s' s.cur
  keep : Stays s s'

theorem UStep.under {s s' : St L G V E} {evs : List (Ev V E)} (h : UStep s s' evs) (i : Nat) : Under s s' i := by
  by_cases hi : i = s.cur
  · subst hi; exact h.und
  · obtain ⟨a, b, -⟩ := h.othF i hi
    exact .same a b

/-- the three ways an unwinding context can make a step -/
inductive UNext (s s' : St L G V E) (b : Nat) (evs : List (Ev V E)) : Prop
  | stay : s'.cur = s.cur → s'.fib (.back s.cur) = some b →
      (∀ os, Order s (todo s' s.cur) os → Order s (todo s s.cur) (dtorsIn evs ++ os)) → UNext s s' b evs
  | drop : (∃ r, Doomed s s.cur r ∧ s.fib (.cb r) = some s'.cur) → s'.cur ≠ s.cur → s'.fib (.back s'.cur) = some s.cur → s'.fib (.back s.cur) = some b →
      (∀ os1 os2, Order s (todo s s'.cur) os1 → Order s (todo s' s.cur) os2 → Order s (todo s s.cur) (dtorsIn evs ++ (os1 ++ os2))) →
      UNext s s' b evs
  | exit : s'.cur = b → s'.ctl = .recv → s'.fib .air = none → s'.base s.cur = .none → s'.frames s.cur = [] →
      Order s (todo s s.cur) (dtorsIn evs) → UNext s s' b evs

/-- an unwinding context's control state -/
theorem Inv.unwCtl {s : St L G V E} (hi : Inv s) (hb : s.fib (.back s.cur) ≠ none) :
    s.ctl = .raise .forced ∨ (∃ r t, s.ctl = .deliver r ∧ s.fr = .cRaise .forced :: t) ∨
    (∃ r, s.ctl = .deliver r ∧ s.fr = [] ∧ (s.base s.cur = .lamA ∨ s.base s.cur = .lamB)) ∨
    (∃ t, s.ctl = .recv ∧ s.fr = .wait :: t ∧ s.fib .air = none ∧ unwB (s.base s.cur) t = true) := by
  have hctl := hi.ctl
  have hfc : s.frames s.cur = s.fr := rfl
  cases hc : s.ctl with
  | eval l => rw [hc] at hctl; exact absurd hctl.2.2.2 hb
  | retn => rw [hc] at hctl; exact absurd hctl.2.2.2 hb
  | raise x =>
    rw [hc] at hctl
    cases x with
    | user e => exact absurd hctl.2.2 hb
    | forced => exact .inl rfl
  | deliver r =>
    rw [hc] at hctl
    obtain ⟨h1, h2, h3⟩ := hctl
    have hu := h3.1 hb
    rw [hfc] at h1 hu
    cases hf : s.fr with
    | nil =>
      rw [hf] at h1 hu
      right; right; left
      refine ⟨r, rfl, rfl, ?_⟩
      simp [okRet] at h1
      cases hbb : s.base s.cur <;> simp_all [Base.isLam]
    | cons f t =>
      rw [hf] at h1 hu
      cases f <;> simp [okRet] at h1 <;>
        (try (simp [unwB, body_noLam h1.2] at hu)) <;>
        (try (simp [okU_noCF, okUsr_noCF, h1, Frame.isCF] at hu))
      case cRaise x =>
        right; left
        refine ⟨r, t, rfl, ?_⟩
        rcases hu with hu | ⟨y, hy, hu⟩
        · cases x with
          | forced => rfl
          | user e => simp [Frame.isCF] at hu
        · have : t.any Frame.isCF = true := List.any_eq_true.2 ⟨y, hy, hu⟩
          rcases h1.1 with h | h
          · rw [okU_noCF h] at this; cases this
          · rw [okUsr_noCF h] at this; cases this
      all_goals
        exfalso
        have hnc : t.any Frame.isCF = false := by
          first | exact okU_noCF h1.1 | exact okUsr_noCF h1.1
        obtain ⟨y, hy, hu⟩ := hu
        have : t.any Frame.isCF = true := List.any_eq_true.2 ⟨y, hy, hu⟩
        rw [hnc] at this; cases this
  | recv =>
    rw [hc] at hctl
    obtain ⟨h1, h2, h3, h4⟩ := hctl
    have hu := h4.1 hb
    rw [hfc] at h1 hu h2
    have hw : waitTop s.fr = true := by
      rcases hole_or_wait (t := s.cur) h1 with ⟨r, h⟩ | h
      · rw [hole_not_unw h1 h] at hu; cases hu
      · exact h
    cases hf : s.fr with
    | nil => rw [hf] at hw; cases hw
    | cons f t =>
      rw [hf] at hw
      cases f <;> simp [waitTop] at hw
      right; right; right
      refine ⟨t, rfl, rfl, ?_, ?_⟩
      · cases ha : s.fib .air with
        | none => rfl
        | some u =>
          obtain ⟨r, _, h5, _⟩ := h2 u ha
          rw [hf] at h5; simp [hole] at h5
      · rw [hf] at hu; simpa [unwB, Frame.isCF] using hu

theorem expected_eq {s s' : St L G V E} {i : Nat} (hf : locals (s'.frames i) = locals (s.frames i)) (hb : s'.base i = s.base i)
    (hk : s'.kind = s.kind) (hv : s'.va = s.va) (ho : s'.fnObj i = s.fnObj i)
    (hc : (s'.cbs ⟨i, .syn⟩).bvalid = (s.cbs ⟨i, .syn⟩).bvalid) : expected s' i = expected s i := by
  simp only [expected, expT, expF, hf, hb, hk, hv, ho, hc]

/-- a step that only pops the top frame of the running context -/
theorem UStep.pop {s s' : St L G V E} {f : Frame L V E} {t : List (Frame L V E)} {evs : List (Ev V E)} (hfr : s.fr = f :: t)
    (hs' : s' = { s with g := s'.g, frames := upd s.frames s.cur t, ctl := s'.ctl, log := evs ++ s.log })
    (he : (∃ o, f = .gObj o ∧ evs = [.odtor s.cur o]) ∨ ((∀ o, f ≠ .gObj o) ∧ evs = [])) : UStep s s' evs := by
  have hfc : s.frames s.cur = s.fr := rfl
  rw [hs']
  refine ⟨rfl, ⟨rfl, rfl, rfl, rfl, fun _ => .inl rfl, fun _ => .inl rfl, fun _ => .inl rfl⟩, ?_, ?_, ?_, ?_, ?_, ?_,
    .frames (hfc.trans hfr) (upd_same ..) (.inl rfl) rfl, fun _ _ => rfl⟩
  · intro i hi _; simp [SameCtx, upd, hi]
  · intro i hi; simp [upd, hi]
  · rcases he with ⟨o, _, rfl⟩ | ⟨_, rfl⟩ <;> simp [unwEv]
  · intro i hi
    rcases he with ⟨o, _, rfl⟩ | ⟨_, rfl⟩ <;> simp [ctxEv, Ne.symm hi]
  · simp only [cwt, hfc, hfr, upd_same, fwts]
    have : 0 < fwt f := by cases f <;> simp [fwt]
    omega
  · rcases he with ⟨o, rfl, rfl⟩ | ⟨hne, rfl⟩
    · simp [expected, expT, expF, hfc, hfr, locals, ctxEv]
    · simp only [List.filter_nil, List.reverse_nil, List.nil_append]
      symm
      apply expected_eq <;> try rfl
      simp only [upd_same, hfc, hfr]
      cases f <;> simp [locals] at hne ⊢

/-- the part of the state an unwinding context may change when it destroys a coroutine object -/
structure UPre (s s0 : St L G V E) (evs : List (Ev V E)) : Prop where
  cur : s0.cur = s.cur
  log : s0.log = evs ++ s.log
  shr : Shrinks s s0
  oth : ∀ i, i ≠ s.cur → SameCtx s s0 i
  back : s0.fib (.back s.cur) = s.fib (.back s.cur)
  unw : ∀ e ∈ evs, unwEv e = true
  nev : ∀ i, i ≠ s.cur → evs.filter (ctxEv s.kind i) = []
  dec : cwt s0 s.cur + 1 < cwt s s.cur
  exp : expected s s.cur = (evs.filter (ctxEv s.kind s.cur)).reverse ++ expected s0 s.cur
  und : Under s s0 s.cur
  keep : Stays s s0
  nod : dtorsIn evs = []

theorem Dtor.dtors {kd : Kind} {va : Var} {b : CB V E} {r : CbRef} {sl : Slot V} {evs : List (Ev V E)}
    (h : Dtor kd va b r sl evs) : dtorsIn evs = [] := by
  cases h <;> rfl

theorem Dtor.unwEv {kd : Kind} {va : Var} {b : CB V E} {r : CbRef} {sl : Slot V} {evs : List (Ev V E)}
    (h : Dtor kd va b r sl evs) : ∀ e ∈ evs, Verif.unwEv e = true := by
  cases h <;> simp [Verif.unwEv]

theorem Dtor.ctxEvOwn {kd : Nat → Kind} {va : Var} {k : Nat} {b : CB V E} {sl : Slot V} {evs : List (Ev V E)}
    (h : Dtor (kd k) va b ⟨k, .own⟩ sl evs) (i : Nat) : evs.filter (ctxEv kd i) = [] := by
  cases h with
  | val h1 _ _ _ =>
    cases hk : kd k <;> simp_all [isPullSide, ctxEv]
  | skip _ => rfl

/-- the scope of a coroutine object is left while unwinding -/
theorem Scope.upre {P : Prog L G V E} {s s1 : St L G V E} {h : Nat} (hs : Scope P s h s1) (hi : Inv s) (hlf : LifeInv s)
    (hb : s.fib (.back s.cur) ≠ none) : ∃ evs, UPre s s1 evs ∧
      (∀ hd k, s.hs h = some hd → hd.cb = some ⟨k, .own⟩ → Doomed s s.cur ⟨k, .own⟩) ∧
      todo s s.cur = .co h :: todo s1 s.cur := by
  have hfc : s.frames s.cur = s.fr := rfl
  have hctl := hi.ctl
  have hl := hlf s.cur
  cases hs
  case leave hc _ _ => rw [hc] at hctl; exact absurd hctl.2.2.2 hb
  case api hc _ => rw [hc] at hctl; exact absurd hctl.2.2.2 hb
  case ret hc _ => rw [hc] at hctl; exact absurd hctl.2.2.2 hb
  case final u hc hfr hair hbb =>
    rw [hc] at hctl
    have := hctl.2.2.2.1 hb
    rw [hfc, hfr, hbb] at this
    simp [unwB, Base.isLam] at this
  case raise x t hc hfr =>
    refine ⟨[], ⟨rfl, rfl, ⟨rfl, rfl, rfl, rfl, fun _ => .inl rfl, fun _ => .inl rfl, fun _ => .inl rfl⟩,
      ?_, rfl, by simp, by simp, ?_, ?_, .frames (hfc.trans hfr) (upd_same ..) (.inr ⟨_, rfl⟩) rfl, fun _ _ => rfl, rfl⟩,
      fun hd k a b => .obj (by rw [hfc, hfr]; simp [coLocals]) a b, by simp [todo, hfc, hfr, items]⟩
    · intro i hi; simp [SameCtx, upd, hi]
    · simp only [cwt, hfc, hfr, upd_same, fwts, fwt]; omega
    · simp only [List.filter_nil, List.reverse_nil, List.nil_append]
      symm
      apply expected_eq <;> try rfl
      simp only [upd_same, hfc, hfr, locals]
  case unwFn hc hfr hbb =>
    rw [hbb] at hl
    refine ⟨[.fnDtor s.cur], ⟨rfl, rfl, ⟨rfl, rfl, rfl, rfl, fun _ => .inl rfl, fun _ => .inl rfl, fun _ => .inl rfl⟩,
      ?_, rfl, by simp [Verif.unwEv], ?_, ?_, ?_, ⟨fun _ h => h, fun _ h => h, by simp [Base.sink]⟩, fun _ _ => rfl, rfl⟩,
      fun hd k a b => .sink (by rw [hbb]; rfl) a b, by simp [todo, hfc, hfr, hbb, items, Base.items]⟩
    · intro i hi; simp [SameCtx, upd, hi]
    · intro i hi; simp [ctxEv, Ne.symm hi]
    · simp only [cwt, hbb, upd_same, bwt]; omega
    · simp [expected, expT, expF, hbb, ctxEv, hfc, hfr, locals]
  case unwEntry hc hfr hbb =>
    rw [hbb] at hl
    refine ⟨[], ⟨rfl, rfl, ⟨rfl, rfl, rfl, rfl, fun _ => .inl rfl, fun _ => .inl rfl, fun _ => .inl rfl⟩,
      ?_, rfl, by simp, by simp, ?_, ?_, ⟨fun _ h => h, fun _ h => h, by simp [Base.sink]⟩, fun _ _ => rfl, rfl⟩,
      fun hd k a b => .sink (by rw [hbb]; rfl) a b, by simp [todo, hfc, hfr, hbb, items, Base.items]⟩
    · intro i hi; simp [SameCtx, upd, hi]
    · simp only [cwt, hbb, upd_same, bwt]; omega
    · simp [expected, expT, expF, hbb, hfc, hfr, locals]
  case unwFinal hc hfr hbb =>
    rw [hbb] at hl
    refine ⟨[], ⟨rfl, rfl, ⟨rfl, rfl, rfl, rfl, fun _ => .inl rfl, fun _ => .inl rfl, fun _ => .inl rfl⟩,
      ?_, rfl, by simp, by simp, ?_, ?_, ⟨fun _ h => h, fun _ h => h, by simp [Base.sink]⟩, fun _ _ => rfl, rfl⟩,
      fun hd k a b => .sink (by rw [hbb]; rfl) a b, by simp [todo, hfc, hfr, hbb, items, Base.items]⟩
    · intro i hi; simp [SameCtx, upd, hi]
    · simp only [cwt, hbb, upd_same, bwt]; omega
    · simp [expected, expT, expF, hbb, hfc, hfr, locals]

theorem Dying.upre {P : Prog L G V E} {s s0 : St L G V E} {f : Option Nat} (hs : Dying P s f s0) (hi : Inv s) (hlf : LifeInv s)
    (hsl : SlotInv P s) (hb : s.fib (.back s.cur) ≠ none) :
    ∃ evs, UPre s s0 evs ∧ (∀ t, f = some t → ∃ r, Doomed s s.cur r ∧ s.fib (.cb r) = some t) ∧
      (f = none → ∀ os, Order s (todo s0 s.cur) os → Order s (todo s s.cur) os) ∧
      ∀ t, f = some t → ∀ os1 os2, Order s (todo s t) os1 → Order s (todo s0 s.cur) os2 → Order s (todo s s.cur) (os1 ++ os2) := by
  have hfc : s.frames s.cur = s.fr := rfl
  have hctl := hi.ctl
  cases hs
  case handle h s1 hd k sl evs hsc hh hcb hal hdt =>
    obtain ⟨ev, hu, hdo, htd⟩ := hsc.upre hi hlf hb
    have hhs : s.hs h = some hd := by
      rcases hu.shr.hs h with e | e
      · rw [← e]; exact hh
      · rw [e] at hh; cases hh
    have hals := (hi.hok.own h hd k hhs hcb).1
    have hfe := hu.keep _ hal
    obtain ⟨e1, e2, e3, e4, e5, e6, e7, e8, e9, e10, e11⟩ := hsc.eqs
    have hcs : ∀ i, upd s1.cbs ⟨k, .own⟩ { s1.cbs ⟨k, .own⟩ with
          life := Life.dead, state := StateT.orAssign (s1.cbs ⟨k, .own⟩).state StateT.destroy, slot := sl } ⟨i, .syn⟩ =
        s1.cbs ⟨i, .syn⟩ := by intro i; simp [upd]
    refine ⟨evs ++ ev, ⟨hu.cur, ?_, ?_, ?_, ?_, ?_, ?_, ?_, ?_, ⟨hu.und.co, hu.und.ctor, hu.und.sink⟩, ?_, ?_⟩, ?_, ?_, ?_⟩
    rotate_left 8
    · intro r hr
      by_cases hrk : r = ⟨k, .own⟩
      · subst hrk; simp at hr
      · simp only [upd, hrk, if_false, FLoc.cb.injEq] at hr ⊢
        exact hu.keep r hr
    · rw [dtorsIn_append, hdt.dtors, hu.nod]; rfl
    rotate_left
    · intro hf os ho
      rw [htd]
      exact .coNone hhs hcb hals (by rw [← hfe]; exact hf) ho
    · intro t hf os1 os2 ho1 ho2
      rw [htd]
      exact .co hhs hcb hals (by rw [← hfe]; exact hf) ho1 ho2
    rotate_left 8
    · intro t ht
      refine ⟨_, hdo hd k ?_ hcb, ?_⟩
      · rcases hu.shr.hs h with e | e
        · rw [← e]; exact hh
        · rw [e] at hh; cases hh
      · rcases hu.shr.fib ⟨k, .own⟩ with e | e
        · rw [← e]; exact ht
        · rw [e] at ht; cases ht
    · simp [hu.log]
    · refine hu.shr.trans ⟨rfl, rfl, rfl, rfl, ?_, ?_, ?_⟩ ?_
      · intro x; simp only [upd]; split <;> simp
      · intro r; simp only [upd]; split <;> simp
      · intro r; simp only [upd]; split <;> simp
      · intro r hr; simp only [upd]; split <;> simp [hr]
    · intro i hi
      obtain ⟨a, b, c, d, e, f⟩ := hu.oth i hi
      exact ⟨a, b, c, (hcs i).trans d, by simpa [upd] using e, f⟩
    · simpa [upd] using hu.back
    · intro e he
      rcases List.mem_append.1 he with h | h
      · exact hdt.unwEv e h
      · exact hu.unw e h
    · intro i hi
      have h1 := hdt.ctxEvOwn i
      rw [e3] at h1
      rw [List.filter_append, h1, hu.nev i hi]; rfl
    · exact hu.dec
    · have hx := hu.exp
      have h1 := hdt.ctxEvOwn s.cur
      rw [e3] at h1
      rw [List.filter_append, h1, List.nil_append, hx]
      congr 1
      symm
      apply expected_eq <;> try rfl
      dsimp only
      simp [upd]
  case ctorInvalid hc hfr _ _ _ _ _ _ _ =>
    rw [hc] at hctl
    have h1 := hctl.2.2.2.1 hb
    rw [hfc, hfr] at h1
    have h2 := hctl.1
    rw [hfc, hfr] at h2
    simp [okSw] at h2
    simp [unwB, body_noLam h2.2, Frame.isCF] at h1
    obtain ⟨y, hy, h1⟩ := h1
    have : List.any _ Frame.isCF = true := List.any_eq_true.2 ⟨y, hy, h1⟩
    rw [okUsr_noCF h2.1] at this; cases this
  case ctorThrow hc hfr _ _ _ _ _ =>
    rw [hc] at hctl
    have h1 := hctl.2.2.2.1 hb
    rw [hfc, hfr] at h1
    have h2 := hctl.1
    rw [hfc, hfr] at h2
    simp [okSw] at h2
    simp [unwB, body_noLam h2.2, Frame.isCF] at h1
    obtain ⟨y, hy, h1⟩ := h1
    have : List.any _ Frame.isCF = true := List.any_eq_true.2 ⟨y, hy, h1⟩
    rw [okUsr_noCF h2.1] at this; cases this
  case ctorUnw x f k t hc hfr hf =>
    have hcs : ∀ i, upd s.cbs ⟨k, .own⟩ { s.cbs ⟨k, .own⟩ with life := Life.dead } ⟨i, .syn⟩ =
        s.cbs ⟨i, .syn⟩ := by intro i; simp [upd]
    have halc : (s.cbs ⟨k, .own⟩).life = .alive :=
      hi.hok.ctor s.cur k (by rw [hfc, hfr]; rcases hf with rfl | rfl <;> rfl)
    have htd : todo s s.cur = .blk ⟨k, .own⟩ :: todo { s with
        frames := upd s.frames s.cur (.cRaise x :: t)
        fib := upd s.fib (.cb ⟨k, .own⟩) none
        cbs := upd s.cbs ⟨k, .own⟩ { s.cbs ⟨k, .own⟩ with life := .dead } } s.cur := by
      simp only [todo, hfc, hfr, upd_same, items]
      rcases hf with rfl | rfl <;> simp [items]
    refine ⟨[], ⟨rfl, rfl, ⟨rfl, rfl, rfl, rfl, fun _ => .inl rfl, ?_, ?_⟩,
      ?_, ?_, by simp, by simp, ?_, ?_, .frames (hfc.trans hfr) (upd_same ..) (.inr ⟨_, rfl⟩) rfl, ?_, rfl⟩,
      fun u hu => ⟨_, .ctor (k := k) (by rw [hfc, hfr]; rcases hf with rfl | rfl <;> simp), hu⟩,
      fun hn os ho => ?_, fun u hu os1 os2 ho1 ho2 => ?_⟩
    rotate_left 6
    · intro r hr
      by_cases hrk : r = ⟨k, .own⟩
      · subst hrk; simp at hr
      · simp [upd, hrk]
    · rw [htd]; exact .blkNone halc hn ho
    · rw [htd]; exact .blk halc hu ho1 ho2
    · intro r; simp only [upd]; split <;> simp
    · intro r; simp only [upd]; split <;> simp
    · intro i hi; simp [SameCtx, upd, hi]
    · simp [upd]
    · simp only [cwt, hfc, hfr, upd_same, fwts]
      have : fwt f = 3 := by rcases hf with rfl | rfl <;> rfl
      have : fwt (Frame.cRaise x : Frame L V E) = 1 := rfl
      omega
    · simp only [List.filter_nil, List.reverse_nil, List.nil_append]
      symm
      apply expected_eq <;> try rfl
      · simp only [upd_same, hfc, hfr]
        rcases hf with rfl | rfl <;> simp [locals]
      · simp [upd]
  case syn r sl evs hc hfr hbb hdt =>
    have hals : (s.cbs ⟨s.cur, .syn⟩).life = .alive := (hi.cb.syn_life s.cur).2 (by rw [hbb]; rfl)
    have htd : todo s s.cur = .blk ⟨s.cur, .syn⟩ :: todo { s with
        base := upd s.base s.cur .lamB
        fib := upd s.fib (.cb ⟨s.cur, .syn⟩) none
        cbs := upd s.cbs ⟨s.cur, .syn⟩ { s.cbs ⟨s.cur, .syn⟩ with life := .dead, slot := sl }
        log := evs ++ s.log } s.cur := by
      simp [todo, hfc, hfr, hbb, items, Base.items]
    refine ⟨evs, ⟨rfl, rfl, ⟨rfl, rfl, rfl, rfl, fun _ => .inl rfl, ?_, ?_⟩,
      ?_, ?_, hdt.unwEv, ?_, ?_, ?_, ⟨fun _ h => h, fun _ h => h, by simp [Base.sink]⟩, ?_, hdt.dtors⟩, fun u hu => ⟨_, .syn, hu⟩,
      fun hn os ho => ?_, fun u hu os1 os2 ho1 ho2 => ?_⟩
    rotate_left 7
    · intro r hr
      by_cases hrk : r = ⟨s.cur, .syn⟩
      · subst hrk; simp at hr
      · simp [upd, hrk]
    · rw [htd]; exact .blkNone hals hn ho
    · rw [htd]; exact .blk hals hu ho1 ho2
    · intro r; simp only [upd]; split <;> simp
    · intro r; simp only [upd]; split <;> simp
    · intro i hi; simp [SameCtx, upd, hi]
    · simp [upd]
    · intro i hi
      cases hdt <;> simp [ctxEv, Ne.symm hi]
    · simp only [cwt, hbb, upd_same, bwt]; omega
    · cases hdt with
      | val h1 h2 h3 h4 =>
        have hk : s.kind s.cur = .push := by cases hk : s.kind s.cur <;> simp_all [isPullSide]
        simp [expected, expT, expF, hbb, hfc, hfr, locals, ctxEv, hk, h2, h3]
      | skip h1 =>
        have : ¬ (s.kind s.cur = .push ∧ s.va s.cur = .val ∧ (s.cbs ⟨s.cur, .syn⟩).bvalid = true) := by
          rintro ⟨a, b, c⟩; exact h1 ⟨by simp [a, isPullSide], b, c⟩
        simp [expected, expT, expF, hbb, hfc, hfr, locals, this]

theorem UPre.stay {s s0 s' : St L G V E} {evs : List (Ev V E)} {b : Nat} {c : Ctl L V E} (h : UPre s s0 evs) (hb : s.fib (.back s.cur) = some b)
    (hord : ∀ os, Order s (todo s0 s.cur) os → Order s (todo s s.cur) os)
    (hs : s' = { s0 with ctl := c }) : UStep s s' evs ∧ UNext s s' b evs := by
  subst hs
  refine ⟨⟨h.log, ⟨h.shr.nk, h.shr.nh, h.shr.kind, h.shr.va, h.shr.hs, h.shr.cbs, h.shr.fib⟩, ?_, ?_, h.unw, h.nev, ?_, h.exp,
      ⟨h.und.co, h.und.ctor, h.und.sink⟩, h.keep⟩,
    .stay h.cur (h.back.trans hb) (by rw [h.nod]; exact hord)⟩
  · intro i hi _; exact h.oth i hi
  · intro i hi; obtain ⟨a, b, c, d, _⟩ := h.oth i hi; exact ⟨a, b, c, d⟩
  · have := h.dec
    simp only [cwt] at this ⊢; omega

theorem order_pop {s s' : St L G V E} {f : Frame L V E} {t : List (Frame L V E)} {evs : List (Ev V E)} (hfr : s.fr = f :: t)
    (hn : (∃ o, f = .gObj o) ∨ items s.cur (f :: t) = items s.cur t)
    (he : (∃ o, f = .gObj o ∧ evs = [.odtor s.cur o]) ∨ ((∀ o, f ≠ .gObj o) ∧ evs = []))
    (hs1 : s'.frames s.cur = t := by simp) (hs2 : s'.base s.cur = s.base s.cur := by rfl) :
    ∀ os, Order s (todo s' s.cur) os → Order s (todo s s.cur) (dtorsIn evs ++ os) := by
  have hfc : s.frames s.cur = s.fr := rfl
  intro os ho
  simp only [todo, hs1, hs2] at ho
  simp only [todo, hfc, hfr]
  rcases he with ⟨o, rfl, rfl⟩ | ⟨h1, rfl⟩
  · exact .obj ho
  · rcases hn with ⟨o, rfl⟩ | hn
    · exact absurd rfl (h1 o)
    · rw [hn]; exact ho

theorem Step.unw {P : Prog L G V E} {s s' : St L G V E} {b : Nat} (hs : Step P s s') (hi : Inv s) (hi' : Inv s') (hlf : LifeInv s)
    (hsl : SlotInv P s) (hb : s.fib (.back s.cur) = some b) : ∃ evs, UStep s s' evs ∧ UNext s s' b evs := by
  have hb' : s.fib (.back s.cur) ≠ none := by rw [hb]; simp
  have hfc : s.frames s.cur = s.fr := rfl
  have hctl := hi.ctl
  have hU := hi.unwCtl hb'
  have noEval : ∀ l, s.ctl ≠ .eval l := by
    intro l hc; rw [hc] at hctl; exact absurd hctl.2.2.2 hb'
  have noRetn : s.ctl ≠ .retn := by
    intro hc; rw [hc] at hctl; exact absurd hctl.2.2.2 hb'
  have noUser : ∀ e, s.ctl ≠ .raise (.user e) := by
    intro l hc; rw [hc] at hctl; exact absurd hctl.2.2 hb'
  have recvWait : s.ctl = .recv → ∃ t, s.fr = .wait :: t := by
    intro hc
    rcases hU with h | ⟨r, t, h, _⟩ | ⟨r, h, _⟩ | ⟨t, _, h, _⟩
    · rw [hc] at h; cases h
    · rw [hc] at h; cases h
    · rw [hc] at h; cases h
    · exact ⟨t, h⟩
  have delTop : ∀ r f t, s.ctl = .deliver r → s.fr = f :: t → f = .cRaise .forced := by
    intro r f t hc hf
    rcases hU with h | ⟨r', t', h, h'⟩ | ⟨r', h, h', _⟩ | ⟨t', h, h', _⟩
    · rw [hc] at h; cases h
    · rw [hf] at h'; cases h'; rfl
    · rw [hf] at h'; cases h'
    · rw [hc] at h; cases h
  cases hs
  case loc hl =>
    have fin : ∀ {f : Frame L V E} {t : List (Frame L V E)} {c : Ctl L V E} {g : G} {evs : List (Ev V E)} (_ : s.fr = f :: t)
        (_ : (∃ o, f = .gObj o) ∨ items s.cur (f :: t) = items s.cur t)
        (_ : (∃ o, f = .gObj o ∧ evs = [.odtor s.cur o]) ∨ ((∀ o, f ≠ .gObj o) ∧ evs = [])),
        ∃ evs', UStep s { s with g := g, frames := upd s.frames s.cur t, ctl := c, log := evs ++ s.log } evs' ∧
          UNext s { s with g := g, frames := upd s.frames s.cur t, ctl := c, log := evs ++ s.log } b evs' := by
      intro f t c g evs hf hn he
      exact ⟨evs, .pop hf rfl he, .stay rfl hb (order_pop hf hn he)⟩
    cases hl
    case dUsr hc hf => have := delTop _ _ _ hc hf; cases this
    case dFetch hc _ hf => have := delTop _ _ _ hc hf; cases this
    case dPfetch hc _ hf => have := delTop _ _ _ hc hf; cases this
    case dResid hc hf => have := delTop _ _ _ hc hf; cases this
    case dCtorFail hc hf => have := delTop _ _ _ hc hf; cases this
    case dCRet hc hf => have := delTop _ _ _ hc hf; cases this
    case dCLeave hc hf => have := delTop _ _ _ hc hf; cases this
    case dCRaise hc hf => exact fin hf (.inr rfl) (.inr ⟨by simp, rfl⟩)
    case rObj hc hf => exact fin hf (.inl ⟨_, rfl⟩) (.inl ⟨_, rfl, rfl⟩)
    case rSkip hc hf => exact fin hf (.inr rfl) (.inr ⟨by simp, rfl⟩)
    case rFnRet hc hf => exact fin hf (.inr rfl) (.inr ⟨by simp, rfl⟩)
    case rUsrF hc hf => exact fin hf (.inr rfl) (.inr ⟨by simp, rfl⟩)
    case rFetch hc hf => exact fin hf (.inr rfl) (.inr ⟨by simp, rfl⟩)
    case rPfetch hc hf => exact fin hf (.inr rfl) (.inr ⟨by simp, rfl⟩)
    case rResid hc hf => exact fin hf (.inr rfl) (.inr ⟨by simp, rfl⟩)
    case rAsg hc hf => exact fin hf (.inr rfl) (.inr ⟨by simp, rfl⟩)
    all_goals first
      | (rename_i hc _; exact absurd hc (noEval _))
      | (rename_i hc _ _; exact absurd hc (noEval _))
      | (rename_i hc _ _ _; exact absurd hc (noEval _))
      | (rename_i hc _ _ _ _; exact absurd hc (noEval _))
      | (rename_i hc _ _ _ _ _; exact absurd hc (noEval _))
      | (rename_i hc _; exact absurd hc noRetn)
      | (rename_i hc _; exact absurd hc (noUser _))
  case wait t hc hf hair =>
    refine ⟨[], UStep.pop (s' := { s with frames := upd s.frames s.cur t, ctl := .deliver .unit }) hf rfl (.inr ⟨by simp, rfl⟩), .stay rfl hb (order_pop hf (.inr rfl) (.inr ⟨by simp, rfl⟩))⟩
  case ctorDrop hc hf => have := delTop _ _ _ hc hf; cases this
  case nop h s1 hd hsc hh hcb =>
    obtain ⟨ev, hu, -, htd⟩ := hsc.upre hi hlf hb'
    have hhs : s.hs h = some hd := by
      rcases hu.shr.hs h with e | e
      · rw [← e]; exact hh
      · rw [e] at hh; cases hh
    have hno : ∀ k, hd.cb ≠ some ⟨k, .own⟩ := by
      intro k hk
      rcases hcb with h | ⟨k', h, _⟩ <;> rw [hk] at h <;> cases h
    refine ⟨ev, ⟨hu.log, ?_, ?_, ?_, hu.unw, hu.nev, ?_, hu.exp, ⟨hu.und.co, hu.und.ctor, hu.und.sink⟩, hu.keep⟩,
      .stay hu.cur (hu.back.trans hb) (fun os ho => by rw [hu.nod, htd]; exact .coNop hhs hno ho)⟩
    · have := hu.shr
      refine ⟨this.nk, this.nh, this.kind, this.va, ?_, this.cbs, this.fib⟩
      intro x; simp only [upd]; split
      · simp
      · exact this.hs x
    · intro i hi _; exact hu.oth i hi
    · intro i hi; obtain ⟨a, b, c, d, _⟩ := hu.oth i hi; exact ⟨a, b, c, d⟩
    · have := hu.dec
      simp only [cwt] at this ⊢; omega
  case dropNone s0 hd =>
    obtain ⟨ev, hu, -, hor, -⟩ := hd.upre hi hlf hsl hb'
    exact ⟨ev, hu.stay hb (hor rfl) rfl⟩
  case dropSome s0 t hd =>
    obtain ⟨ev, hu, hdo, -, hor⟩ := hd.upre hi hlf hsl hb'
    have hc0 := hu.cur
    have htc : t ≠ s.cur := by
      have := hi'.sched.fib_ok (.back t) s.cur (by simp [upd, hc0])
      exact this.1.symm
    have hund : Under s { s0 with frames := upd s0.frames s0.cur (.wait :: s0.fr), ctl := .raise .forced, cur := t, fib := upd s0.fib (.back t) (some s0.cur), log := .unwind s0.cur t :: s0.log } s.cur := by
      obtain ⟨u1, u2, u3⟩ := hu.und
      refine ⟨?_, ?_, u3⟩
      · simpa [hc0, St.fr, coLocals] using u1
      · simpa [hc0, St.fr] using u2
    refine ⟨.unwind s0.cur t :: ev, ⟨?_, ?_, ?_, ?_, ?_, ?_, ?_, ?_, hund, ?_⟩, .drop (hdo t rfl) htc ?_ ?_ ?_⟩
    rotate_left 8
    · intro r hr
      have := hu.keep r hr
      simpa [upd] using this
    rotate_left 2
    · intro os1 os2 ho1 ho2
      have : dtorsIn (.unwind s0.cur t :: ev) = [] := by
        rw [show (Ev.unwind s0.cur t :: ev) = [.unwind s0.cur t] ++ ev from rfl, dtorsIn_append, hu.nod]; rfl
      rw [this]
      refine hor t rfl os1 os2 ho1 ?_
      simpa [todo, hc0, St.fr, items] using ho2
    · simp [hu.log]
    · have := hu.shr
      refine ⟨this.nk, this.nh, this.kind, this.va, this.hs, this.cbs, ?_⟩
      intro r; simpa [upd] using this.fib r
    · intro i hi h
      have hit : i ≠ t := by
        rcases h with h | h
        · exact h
        · cases h
      obtain ⟨a, b, c, d, e, f⟩ := hu.oth i hi
      refine ⟨?_, b, c, d, ?_, f⟩
      · simpa [upd, hc0, hi] using a
      · simpa [upd, hit] using e
    · intro i hi
      obtain ⟨a, b, c, d, e, f⟩ := hu.oth i hi
      exact ⟨by simpa [upd, hc0, hi] using a, b, c, d⟩
    · intro e he
      rcases List.mem_cons.1 he with rfl | h
      · rfl
      · exact hu.unw e h
    · intro i hi
      simp [List.filter_cons, ctxEv, hu.nev i hi]
    · have := hu.dec
      simp only [cwt, hc0, upd_same, fwts, St.fr, fwt] at this ⊢; omega
    · have := hu.exp
      rw [this]
      simp only [List.filter_cons, ctxEv]
      congr 1
      symm
      apply expected_eq <;> try rfl
      simp [hc0, St.fr, locals]
    · simp [upd, hc0]
    · have := hu.back
      simpa [upd, Ne.symm htc, hb] using this
  case exit r b1 hc hfr hbb hback hdead =>
    have hbe : b1 = b := by rw [hb] at hback; exact (Option.some.inj hback).symm
    subst hbe
    rw [hc] at hctl
    refine ⟨.dealloc s.cur :: (if s.fnObj s.cur = .record then [.fnDtor s.cur] else []),
      ⟨rfl, ?_, ?_, ?_, ?_, ?_, ?_, ?_, .gone (by simp) (by simp), fun _ _ => by simp [upd]⟩,
      .exit rfl rfl (by simp [upd, hctl.2.1]) (by simp) (by simp) ?_⟩
    rotate_left 7
    · have h1 : todo s s.cur = [] := by simp [todo, hfc, hfr, hbb, items, Base.items]
      rw [h1]
      split <;> exact .nil
    · refine ⟨rfl, rfl, rfl, rfl, fun _ => .inl rfl, ?_, ?_⟩
      · intro r
        simp only [freeCbs, upd]
        split
        · simp
        · split <;> simp
      · intro r; simp [upd]
    · intro i hi _
      refine ⟨by simp [upd, hi], by simp [upd, hi], ?_, ?_, by simp [upd, hi], by simp [upd, hi]⟩
      · dsimp only; split <;> simp [upd, hi]
      · simp [freeCbs, upd, hi]
    · intro i hi
      refine ⟨by simp [upd, hi], by simp [upd, hi], ?_, ?_⟩
      · dsimp only; split <;> simp [upd, hi]
      · simp [freeCbs, upd, hi]
    · split <;> simp [unwEv]
    · intro i hi; split <;> simp [ctxEv, Ne.symm hi]
    · simp only [cwt, hfc, hfr, hbb, upd_same, fwts, bwt]; omega
    · by_cases hr : s.fnObj s.cur = .record <;>
        simp [expected, expF, hfc, hfr, hbb, locals, ctxEv, hr]
  case get hc _ _ => exact absurd hc (noEval _)
  case moveCtor hc _ _ => exact absurd hc (noEval _)
  case moveAssign hc _ _ _ _ => exact absurd hc (noEval _)
  case mkFn hc _ => exact absurd hc (noEval _)
  case mk hc _ => exact absurd hc (noEval _)
  case pushThrow hc _ _ _ _ _ _ _ _ _ _ => exact absurd hc (noEval _)
  case push hc _ _ _ _ _ _ _ _ _ _ => exact absurd hc (noEval _)
  case pull hc _ _ _ _ _ _ _ => exact absurd hc (noEval _)
  case enterPull hc hf _ _ _ _ => obtain ⟨t, h⟩ := recvWait hc; rw [hf] at h; cases h
  case enterPush hc hf _ _ _ _ => obtain ⟨t, h⟩ := recvWait hc; rw [hf] at h; cases h
  case startPush hc hf _ _ _ _ => obtain ⟨t, h⟩ := recvWait hc; rw [hf] at h; cases h
  case asg hc hf _ _ _ _ => obtain ⟨t, h⟩ := recvWait hc; rw [hf] at h; cases h
  case asgThrow hc hf _ _ _ _ => obtain ⟨t, h⟩ := recvWait hc; rw [hf] at h; cases h
  case pullCtor hc hf _ _ _ _ _ _ => obtain ⟨t, h⟩ := recvWait hc; rw [hf] at h; cases h
  case pushCtor hc hf _ _ _ _ => obtain ⟨t, h⟩ := recvWait hc; rw [hf] at h; cases h
  case fin h0 t x hx hfr hbb hal hf =>
    rcases hx with ⟨h, _⟩ | ⟨e, h, _⟩
    · exact absurd h noRetn
    · exact absurd h (noUser e)

/-- outcome of an unwinding, for all contexts -/
def Fate (s s' : St L G V E) (evs : List (Ev V E)) (i : Nat) : Prop :=
  (SameCtx s s' i ∧ evs.filter (ctxEv s.kind i) = []) ∨
  (s'.base i = .none ∧ s'.frames i = [] ∧ (evs.filter (ctxEv s.kind i)).reverse = expected s i)

/-- the unwinding of the running context of `s` is over in `s'`; control has gone back to `b` -/
structure Unwound (s s' : St L G V E) (b : Nat) (evs : List (Ev V E)) : Prop where
  cur : s'.cur = b
  ctl : s'.ctl = .recv
  air : s'.fib .air = none
  log : s'.log = evs ++ s.log
  shr : Shrinks s s'
  gone : s'.base s.cur = .none
  unw : ∀ e ∈ evs, unwEv e = true
  fate : ∀ i, Fate s s' evs i
  falls : ∀ i, s.base i ≠ .none → s'.base i = .none → Falls s s.cur i
  keep : Stays s s'
  order : Order s (todo s s.cur) (dtorsIn evs)

theorem Unwound.under {s s' : St L G V E} {b : Nat} {evs : List (Ev V E)} (h : Unwound s s' b evs) (i : Nat) : Under s s' i := by
  rcases h.fate i with ⟨⟨a, b, -⟩, -⟩ | ⟨a, b, -⟩
  · exact .same a b
  · exact .gone b a

theorem SameCtx.trans {s s1 s2 : St L G V E} {i : Nat} (h : SameCtx s s1 i) (h' : SameCtx s1 s2 i) : SameCtx s s2 i :=
  ⟨h'.1.trans h.1, h'.2.1.trans h.2.1, h'.2.2.1.trans h.2.2.1, h'.2.2.2.1.trans h.2.2.2.1,
    h'.2.2.2.2.1.trans h.2.2.2.2.1, h'.2.2.2.2.2.trans h.2.2.2.2.2⟩

theorem expected_none {s : St L G V E} (hi : Inv s) {i : Nat} (h : s.base i = .none) : expected s i = [] := by
  simp [expected, h, hi.sched.dead_frames i h, locals]

theorem wt_lt {s s' : St L G V E} {evs : List (Ev V E)} (hi : Inv s) (h : UStep s s' evs) : wt s' < wt s := by
  unfold wt
  rw [h.shr.nk]
  refine tot_lt (hi.sched.lt_nk _ hi.sched.cur_live) ?_ h.dec
  intro i hi
  obtain ⟨a, b, _⟩ := h.othF i hi
  simp only [cwt, a, b]

/-- composition of a step of the unwinding context `s.cur` with the rest -/
theorem Fate.cons {s s1 s2 : St L G V E} {ev evs : List (Ev V E)} {i : Nat} (h : UStep s s1 ev) (hi' : i ≠ s.cur)
    (hsame : SameCtx s s1 i) (hf : Fate s1 s2 evs i) : Fate s s2 (evs ++ ev) i := by
  have hk := h.shr.kind
  rcases hf with ⟨a, b⟩ | ⟨a, b, c⟩
  · left
    refine ⟨hsame.trans a, ?_⟩
    rw [hk] at b
    rw [List.filter_append, b, h.nev i hi']; rfl
  · right
    refine ⟨a, b, ?_⟩
    rw [hk] at c
    rw [List.filter_append, h.nev i hi', List.append_nil, c]
    obtain ⟨x, y, z, w⟩ := h.othF i hi'
    apply expected_eq <;> first | rw [x] | exact y | exact hk | exact h.shr.va | exact z | rw [w]

theorem Fate.consCur {s s1 s2 : St L G V E} {ev evs : List (Ev V E)} (h : UStep s s1 ev)
    (hb : s2.base s.cur = .none) (hl : s1.base s.cur ≠ .none) (hf : Fate s1 s2 evs s.cur) : Fate s s2 (evs ++ ev) s.cur := by
  have hk := h.shr.kind
  rcases hf with ⟨a, b⟩ | ⟨a, b, c⟩
  · exact absurd (a.2.1.symm.trans hb) hl
  · right
    refine ⟨a, b, ?_⟩
    rw [hk] at c
    rw [List.filter_append, List.reverse_append, c, h.exp]

theorem noUser_of_back {s : St L G V E} (hi : Inv s) (hb : s.fib (.back s.cur) ≠ none) : ¬ UserRuns s := by
  rintro ⟨l, hc⟩
  have hctl := hi.ctl
  rw [hc] at hctl
  exact absurd hctl.2.2.2 hb

/-- neither normal termination nor ill-formed -/
def Out.lib {α : Type} : Out α → Prop
  | .done _ | .ill _ => False
  | _ => True

theorem fiberDrop_lib {s : St L G V E} {f : Option Nat} : (fiberDrop s f).lib := by
  unfold fiberDrop; split <;> trivial

theorem destroyCb_lib {s : St L G V E} {r : CbRef} : (destroyCb s r).lib := by
  unfold destroyCb; simp only
  split
  · trivial
  · exact fiberDrop_lib

theorem deallocate_lib {s : St L G V E} {r : CbRef} : (deallocate s r).lib := by
  unfold deallocate
  split
  · split
    · exact destroyCb_lib
    · trivial
  · trivial

theorem destroyHandle_lib {s : St L G V E} {h : Nat} : (destroyHandle s h).lib := by
  unfold destroyHandle
  split
  · trivial
  · simp only
    split
    · trivial
    · exact deallocate_lib

theorem exitCtx_lib {s : St L G V E} : (exitCtx s).lib := by
  unfold exitCtx; simp only
  split
  · trivial
  · split <;> trivial

theorem leaveLambdaCb_lib {s : St L G V E} : (leaveLambdaCb s).lib := by
  unfold leaveLambdaCb; simp only
  split
  · trivial
  · exact fiberDrop_lib

theorem finish_lib {s : St L G V E} {h : Nat} : (finish s h).lib := by
  unfold finish; simp only
  split
  · split
    · trivial
    · split
      · unfold fiberResume; split <;> trivial
      · trivial
  · trivial

theorem raiseStep_lib {s : St L G V E} {x : Exn E} : (raiseStep P s x).lib := by
  unfold raiseStep
  split <;> try trivial
  · exact destroyHandle_lib
  · split
    · trivial
    · split <;> trivial
  · split <;> trivial
  · exact fiberDrop_lib
  · exact fiberDrop_lib
  · split <;> try trivial
    · split
      · exact finish_lib
      · trivial
    · exact destroyHandle_lib
    · exact destroyHandle_lib
    · exact destroyHandle_lib
    · exact exitCtx_lib

theorem deliverStep_lib {s : St L G V E} {r : Res V} : (deliverStep s r).lib := by
  unfold deliverStep
  split <;> try trivial
  · split <;> trivial
  · split <;> trivial
  · split <;> try trivial
    · exact leaveLambdaCb_lib
    · exact exitCtx_lib

theorem deliverStep_caught {s t : St L G V E} {r : Res V} : deliverStep s r ≠ .uncaught t := by
  have hfd : ∀ (s t : St L G V E) f, fiberDrop s f ≠ .uncaught t := by intro s t f; unfold fiberDrop; split <;> simp
  have hll : ∀ s t : St L G V E, leaveLambdaCb s ≠ .uncaught t := by
    intro s t; unfold leaveLambdaCb; simp only; split
    · simp
    · exact hfd _ _ _
  have hex : ∀ s t : St L G V E, exitCtx s ≠ .uncaught t := by
    intro s t; unfold exitCtx; simp only; split
    · simp
    · split <;> simp
  unfold deliverStep
  split <;> try simp
  · split <;> simp
  · split <;> simp
  · split <;> try simp
    · exact hll _ _
    · exact hex _ _

theorem outcome_of_back {P : Prog L G V E} {s : St L G V E} (hi : Inv s) (hb : s.fib (.back s.cur) ≠ none) :
    (∃ s', step P s = .next s') ∨ (∃ u s', step P s = .ub u s') ∨
      (∃ s', s.ctl = .raise .forced ∧ step P s = .uncaught s') := by
  have hlib : (step P s).lib ∧ ((∃ s', step P s = .uncaught s') → s.ctl = .raise .forced) := by
    rcases hi.unwCtl hb with h | ⟨r, t, h, _⟩ | ⟨r, h, _⟩ | ⟨t, h, h', _⟩
    · exact ⟨by simp only [step, h]; exact raiseStep_lib, fun _ => h⟩
    · exact ⟨by simp only [step, h]; exact deliverStep_lib, by
        simp only [step, h]; exact fun ⟨_, h⟩ => absurd h deliverStep_caught⟩
    · exact ⟨by simp only [step, h]; exact deliverStep_lib, by
        simp only [step, h]; exact fun ⟨_, h⟩ => absurd h deliverStep_caught⟩
    · exact ⟨by simp only [step, h, recvStep, h']; trivial, by simp [step, h, recvStep, h']⟩
  cases hs : step P s with
  | next s' => exact .inl ⟨_, rfl⟩
  | ub u s' => exact .inr (.inl ⟨_, _, rfl⟩)
  | uncaught s' => exact .inr (.inr ⟨_, hlib.2 ⟨_, hs⟩, rfl⟩)
  | imp s' => exact absurd hs (no_imp_inv hi)
  | done s' => rw [hs] at hlib; exact hlib.1.elim
  | ill s' => rw [hs] at hlib; exact hlib.1.elim

/-- Unwinding terminates: from any reachable state whose running context is being unwound, control comes back to the
context waiting for it without any user code running, or the program crashes. -/
theorem unwinds {P : Prog L G V E} {l0 : L} {g0 : G} (n : Nat) : ∀ {s : St L G V E} {b : Nat}, Reach P l0 g0 s → wt s < n →
    s.fib (.back s.cur) = some b → (∃ s' evs, NoUser P s s' ∧ Unwound s s' b evs) ∨ Crashes P s := by
  induction n with
  | zero =>
    intro s b hr hn hb
    omega
  | succ n ih =>
    intro s b hr hn hb
    have hi := inv_reach hr
    have hbn : s.fib (.back s.cur) ≠ none := by rw [hb]; simp
    have hnu := noUser_of_back hi hbn
    rcases outcome_of_back (P := P) hi hbn with ⟨s1, hs⟩ | ⟨u, s1, hs⟩ | ⟨s1, hs⟩
    · have hr1 := hr.step hs
      have hi1 := inv_reach hr1
      obtain ⟨ev, hU, hN⟩ := (step_rel hi hs).unw hi hi1 (life_reach hr) (slot_reach hr) hb
      have hw := wt_lt hi hU
      cases hN with
      | stay hc hb1 hor =>
        rw [← hc] at hb1
        rcases ih hr1 (by omega) hb1 with ⟨s2, evs, hnu2, hx⟩ | ⟨s2, s3, hnu2, hx⟩
        · left
          refine ⟨s2, evs ++ ev, .step hnu hs hnu2, ⟨hx.cur, hx.ctl, hx.air, ?_, ?_, ?_, ?_, ?_, ?_, hU.keep.trans hx.keep hx.shr, ?_⟩⟩
          rotate_left 6
          · rw [dtorsIn_append]
            apply hor
            rw [← hc]
            refine Order.mono hU.shr hU.keep ?_ hx.order
            intro r t ht
            have := (hi1.sched.fib_ok _ _ ht).1
            obtain ⟨a, b, -⟩ := hU.othF t (by rw [← hc]; exact this)
            exact ⟨a, b⟩
          rotate_left 5
          · intro i h1 h2
            by_cases hic : i = s.cur
            · subst hic; exact .self
            · have := (hx.falls i (by rw [(hU.othF i hic).2.1]; exact h1) h2).mono hU.shr hU.under
              rwa [hc] at this
          · rw [hx.log, hU.log, List.append_assoc]
          · exact hU.shr.trans hx.shr hx.shr.dead
          · rw [← hc]; exact hx.gone
          · intro e he
            rcases List.mem_append.1 he with h | h
            · exact hx.unw e h
            · exact hU.unw e h
          · intro i
            by_cases hic : i = s.cur
            · subst hic
              exact Fate.consCur hU (by rw [← hc]; exact hx.gone) (by rw [← hc]; exact hi1.sched.cur_live) (hx.fate _)
            · exact Fate.cons hU hic (hU.oth i hic (.inl (by rw [hc]; exact hic))) (hx.fate i)
        · exact .inr ⟨s2, s3, .step hnu hs hnu2, hx⟩
      | exit hc hctl hair hbase hfr hor =>
        left
        refine ⟨s1, ev, .step hnu hs .refl, ⟨hc, hctl, hair, hU.log, hU.shr, hbase, hU.unw, ?_, ?_, hU.keep, hor⟩⟩
        rotate_left
        · intro i h1 h2
          by_cases hic : i = s.cur
          · subst hic; exact .self
          · rw [(hU.othF i hic).2.1] at h2; exact absurd h2 h1
        intro i
        by_cases hic : i = s.cur
        · subst hic
          right
          refine ⟨hbase, hfr, ?_⟩
          rw [hU.exp, expected_none hi1 hbase, List.append_nil]
        · exact .inl ⟨hU.oth i hic (.inr hctl), hU.nev i hic⟩
      | drop hdo hc hb1 hb2 hor =>
        rcases ih hr1 (by omega) hb1 with ⟨s2, evs, hnu2, hx⟩ | ⟨s2, s3, hnu2, hx⟩
        · -- the nested unwinding is over; control is back in `s.cur`
          have hr2 : Reach P l0 g0 s2 := hnu2.later.reach hr1
          have hi2 := inv_reach hr2
          have hlive : s2.base s.cur ≠ .none := by
            have := hi2.sched.cur_live
            rwa [hx.cur] at this
          have hsame : SameCtx s1 s2 s.cur := by
            rcases hx.fate s.cur with ⟨a, _⟩ | ⟨a, _⟩
            · exact a
            · exact absurd a hlive
          have hw2 : wt s2 < n := by
            refine Nat.lt_of_le_of_lt (m := wt s1) ?_ (by omega)
            unfold wt
            rw [hx.shr.nk]
            apply tot_le
            intro i _
            rcases hx.fate i with ⟨a, _⟩ | ⟨a, a', _⟩
            · simp [cwt, a.1, a.2.1]
            · simp [cwt, a, a', fwts, bwt]
          have hb3 : s2.fib (.back s2.cur) = some b := by
            rw [hx.cur, hsame.2.2.2.2.1, hb2]
          rcases ih hr2 hw2 hb3 with ⟨s3, evs3, hnu3, hy⟩ | ⟨s3, s4, hnu3, hy⟩
          · left
            refine ⟨s3, (evs3 ++ evs) ++ ev, .step hnu hs (hnu2.trans hnu3), ⟨hy.cur, hy.ctl, hy.air, ?_, ?_, ?_, ?_, ?_, ?_,
              hU.keep.trans (hx.keep.trans hy.keep hy.shr) (hx.shr.trans hy.shr hy.shr.dead), ?_⟩⟩
            rotate_left 6
            · rw [dtorsIn_append, dtorsIn_append]
              have m1 : ∀ {w os}, Order s1 w os → Order s w os := by
                intro w os
                refine Order.mono hU.shr hU.keep ?_
                intro r t ht
                have htc : t ≠ s.cur := by
                  rintro rfl
                  have := hi1.sched.inj _ _ _ ht hb1
                  cases this
                obtain ⟨a, b, -⟩ := hU.othF t htc
                exact ⟨a, b⟩
              have m2 : ∀ {w os}, Order s2 w os → Order s1 w os := by
                intro w os
                refine Order.mono hx.shr hx.keep ?_
                intro r t ht
                rcases hx.fate t with ⟨a, -⟩ | ⟨a, -⟩
                · exact ⟨a.1, a.2.1⟩
                · exact absurd a (hi2.sched.fib_ok _ _ ht).2
              refine hor _ _ ?_ ?_
              · have := m1 hx.order
                obtain ⟨a, b, -⟩ := hU.othF s1.cur hc
                simpa only [todo, a, b] using this
              · have := m1 (m2 hy.order)
                rw [hx.cur] at this
                simpa only [todo, hsame.1, hsame.2.1] using this
            rotate_left 5
            · intro i h1 h2
              by_cases hic : i = s.cur
              · subst hic; exact .self
              · have h1' : s1.base i ≠ .none := by rw [(hU.othF i hic).2.1]; exact h1
                by_cases h3 : s2.base i = .none
                · obtain ⟨r, d1, d2⟩ := hdo
                  exact (Falls.next .self d1 d2).trans ((hx.falls i h1' h3).mono hU.shr hU.under)
                · have := ((hy.falls i h3 h2).mono hx.shr hx.under).mono hU.shr hU.under
                  rwa [hx.cur] at this
            · rw [hy.log, hx.log, hU.log]; simp
            · exact hU.shr.trans (hx.shr.trans hy.shr hy.shr.dead) (hx.shr.trans hy.shr hy.shr.dead).dead
            · rw [← hx.cur]; exact hy.gone
            · intro e he
              rcases List.mem_append.1 he with h | h
              · rcases List.mem_append.1 h with h | h
                · exact hy.unw e h
                · exact hx.unw e h
              · exact hU.unw e h
            · intro i
              have key : Fate s1 s3 (evs3 ++ evs) i := by
                have h1 := hx.fate i
                have h2 := hy.fate i
                have hk := hx.shr.kind
                rcases h1 with ⟨a, b⟩ | ⟨a, a', b⟩
                · rcases h2 with ⟨c, d⟩ | ⟨c, c', d⟩
                  · left
                    refine ⟨a.trans c, ?_⟩
                    rw [hk] at d
                    rw [List.filter_append, b, d]; rfl
                  · right
                    refine ⟨c, c', ?_⟩
                    rw [hk] at d
                    rw [List.filter_append, b, List.append_nil, d]
                    obtain ⟨x, y, z, w, _⟩ := a
                    apply expected_eq <;> first | rw [x] | exact y | exact hk | exact hx.shr.va | exact z | rw [w]
                · right
                  have hd : evs3.filter (ctxEv s1.kind i) = [] := by
                    rw [← hk]
                    rcases h2 with ⟨_, d⟩ | ⟨_, _, d⟩
                    · exact d
                    · rw [expected_none hi2 a] at d
                      exact List.reverse_eq_nil_iff.1 d
                  have hb3 : s3.base i = .none ∧ s3.frames i = [] := by
                    rcases h2 with ⟨c, _⟩ | ⟨c, c', _⟩
                    · exact ⟨c.2.1.trans a, c.1.trans a'⟩
                    · exact ⟨c, c'⟩
                  refine ⟨hb3.1, hb3.2, ?_⟩
                  rw [List.filter_append, hd, List.nil_append, b]
              by_cases hic : i = s.cur
              · subst hic
                refine Fate.consCur hU (by rw [← hx.cur]; exact hy.gone) ?_ key
                rw [← hsame.2.1]; exact hlive
              · by_cases hit : i = s1.cur
                · -- the context that was unwound in between
                  subst hit
                  rcases key with ⟨a, _⟩ | ⟨a, b, c⟩
                  · exfalso
                    have : s3.base s1.cur = .none := by
                      rcases hy.fate s1.cur with ⟨c, _⟩ | ⟨c, _⟩
                      · exact c.2.1.trans hx.gone
                      · exact c
                    exact hi1.sched.cur_live (a.2.1.symm.trans this)
                  · right
                    refine ⟨a, b, ?_⟩
                    rw [hU.shr.kind] at c
                    rw [List.filter_append, hU.nev _ hic, List.append_nil, c]
                    obtain ⟨x, y, z, w⟩ := hU.othF _ hic
                    apply expected_eq <;> first | rw [x] | exact y | exact hU.shr.kind | exact hU.shr.va | exact z | rw [w]
                · exact Fate.cons hU hic (hU.oth i hic (.inl hit)) key
          · exact .inr ⟨s3, s4, .step hnu hs (hnu2.trans hnu3), hy⟩
        · exact .inr ⟨s2, s3, .step hnu hs hnu2, hx⟩
    · exact .inr ⟨s, s1, .refl, hnu, .inl ⟨u, hs⟩⟩
    · exact .inr ⟨s, s1, .refl, hnu, .inr hs⟩

theorem unwound {P : Prog L G V E} {l0 : L} {g0 : G} {s : St L G V E} {b : Nat} (hr : Reach P l0 g0 s)
    (hb : s.fib (.back s.cur) = some b) : (∃ s' evs, NoUser P s s' ∧ Unwound s s' b evs) ∨ Crashes P s :=
  unwinds (wt s + 1) hr (Nat.lt_succ_self _) hb

end Verif
