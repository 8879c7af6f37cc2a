import Verif.Unwind
import Verif.Rules

/-!
# Programs that obey the rules: the discipline invariant

Proof material.  In a program that obeys the rules the active contexts form a stack (the running one on top, main at the bottom),
every other context is parked in the block of its own owner.
-/
namespace Verif
variable {L G V E : Type}

/-- `y` waits below `x` -/
def Link (s : St L G V E) (x y : Nat) : Prop :=
  s.fib (.cb ⟨x, .syn⟩) = some y ∨ (s.fib (.back x) = some y ∧ waitTop (s.frames y) = true) ∨
  (s.ctl = .recv ∧ x = s.cur ∧ s.fib .air = some y ∧ hole (s.base x) x (s.frames x) = some ⟨x, .syn⟩)

def Linked (s : St L G V E) : List Nat → Prop
  | x :: y :: t => Link s x y ∧ Linked s (y :: t)
  | _ => True

def Parked (s : St L G V E) (i : Nat) : Prop :=
  s.fib (.cb ⟨i, .own⟩) = some i ∨
  (s.ctl = .recv ∧ s.fib .air = some i ∧ hole (s.base s.cur) s.cur (s.frames s.cur) = some ⟨i, .own⟩)

/-- `rest`: the active contexts below the running one -/
structure Disc (s : St L G V E) (rest : List Nat) : Prop where
  last : (s.cur :: rest).getLast? = some 0
  nodup : (s.cur :: rest).Nodup
  link : Linked s (s.cur :: rest)
  live : ∀ x ∈ rest, s.base x ≠ .none
  park : ∀ i, s.base i ≠ .none → i ∉ s.cur :: rest → Parked s i
  ownUp : ∀ x ∈ s.cur :: rest, x ≠ 0 → s.fib (.back x) = none → (s.cbs ⟨x, .own⟩).life = .alive ∧ (s.base x).isFinal = false
  ownDn : ∀ x, s.fib (.back x) ≠ none → (s.cbs ⟨x, .own⟩).life ≠ .alive
  forced : s.ctl = .raise .forced → ctorOf s.fr = none
  air0 : s.ctl = .recv → s.fib .air = none → waitTop s.fr = true
  noThrow : ∀ k, nSetThrow k s.log = 0
  parkAl : ∀ i, s.base i ≠ .none → i ∉ s.cur :: rest → (s.cbs ⟨i, .own⟩).life = .alive

theorem Linked.mono {s s' : St L G V E} : ∀ {l : List Nat}, (∀ x ∈ l, ∀ y ∈ l.tail, Link s x y → Link s' x y) → Linked s l → Linked s' l
  | [], _, _ => trivial
  | [_], _, _ => trivial
  | x :: y :: t, h, hl => by
    refine ⟨h x (by simp) y (by simp) hl.1, ?_⟩
    refine Linked.mono (fun a ha b hb => h a (List.mem_cons_of_mem _ ha) b ?_) hl.2
    simp only [List.tail_cons] at hb ⊢; exact List.mem_cons_of_mem _ hb

theorem last_mem {l : List Nat} (h : l.getLast? = some 0) : 0 ∈ l := List.mem_of_getLast? h

/-- Every active context but the running one waits below another active context, which is not main. -/
theorem Linked.pred {s : St L G V E} : ∀ {l : List Nat} {y : Nat}, l.Nodup → l.getLast? = some 0 → Linked s l → y ∈ l.tail →
    ∃ x ∈ l, x ≠ 0 ∧ Link s x y
  | [], _, _, _, _, h => by simp at h
  | [_], _, _, _, _, h => by simp at h
  | x :: z :: t, y, hn, hla, hl, h => by
    rw [List.getLast?_cons_cons] at hla
    simp only [List.tail_cons, List.mem_cons] at h
    rcases h with rfl | h
    · refine ⟨x, by simp, ?_, hl.1⟩
      rintro rfl
      have := last_mem hla
      exact (List.nodup_cons.1 hn).1 this
    · obtain ⟨a, ha, h⟩ := Linked.pred (l := z :: t) (List.nodup_cons.1 hn).2 hla hl.2 (by simpa using h)
      exact ⟨a, List.mem_cons_of_mem _ ha, h⟩

namespace Disc
variable {s : St L G V E} {rest : List Nat}

theorem pred (d : Disc s rest) {y : Nat} (h : y ∈ rest) : ∃ x ∈ s.cur :: rest, x ≠ 0 ∧ Link s x y :=
  Linked.pred d.nodup d.last d.link (by simpa using h)

/-- where a suspended context is held -/
theorem whereIs (d : Disc s rest) (hi : Inv s) {t : Nat} {l : FLoc} (h : s.fib l = some t) :
    (t ∈ rest ∧ ∃ x ∈ s.cur :: rest, x ≠ 0 ∧
      (l = .cb ⟨x, .syn⟩ ∨ (l = .back x ∧ waitTop (s.frames t) = true) ∨
        (l = .air ∧ s.ctl = .recv ∧ x = s.cur ∧ hole (s.base x) x (s.frames x) = some ⟨x, .syn⟩))) ∨
    (t ∉ s.cur :: rest ∧ (l = .cb ⟨t, .own⟩ ∨
      (l = .air ∧ s.ctl = .recv ∧ hole (s.base s.cur) s.cur (s.frames s.cur) = some ⟨t, .own⟩))) := by
  obtain ⟨h1, h2⟩ := hi.sched.fib_ok _ _ h
  by_cases ht : t ∈ rest
  · left
    refine ⟨ht, ?_⟩
    obtain ⟨x, hx, hx0, hl⟩ := d.pred ht
    refine ⟨x, hx, hx0, ?_⟩
    rcases hl with hl | ⟨hl, hw⟩ | ⟨a, b, c, e⟩
    · exact .inl (hi.sched.inj _ _ _ h hl)
    · exact .inr (.inl ⟨hi.sched.inj _ _ _ h hl, hw⟩)
    · exact .inr (.inr ⟨hi.sched.inj _ _ _ h c, a, b, e⟩)
  · right
    have hn : t ∉ s.cur :: rest := by simp [h1, ht]
    refine ⟨hn, ?_⟩
    rcases d.park t h2 hn with hp | ⟨a, b, c⟩
    · exact .inl (hi.sched.inj _ _ _ h hp)
    · exact .inr ⟨hi.sched.inj _ _ _ h b, a, c⟩

theorem ownHolds (d : Disc s rest) (hi : Inv s) {k t : Nat} (h : s.fib (.cb ⟨k, .own⟩) = some t) :
    t = k ∧ k ∉ s.cur :: rest := by
  rcases d.whereIs hi h with ⟨_, x, _, _, h1 | ⟨h1, _⟩ | ⟨h1, _⟩⟩ | ⟨h0, h1 | ⟨h1, _⟩⟩
  · simp at h1
  · cases h1
  · cases h1
  · simp at h1; subst h1; exact ⟨rfl, h0⟩
  · cases h1

theorem synHolds (d : Disc s rest) (hi : Inv s) {k t : Nat} (h : s.fib (.cb ⟨k, .syn⟩) = some t) :
    t ∈ rest ∧ k ∈ s.cur :: rest ∧ k ≠ 0 := by
  rcases d.whereIs hi h with ⟨h0, x, h2, h3, h1 | ⟨h1, _⟩ | ⟨h1, _⟩⟩ | ⟨h0, h1 | ⟨h1, _⟩⟩
  · simp at h1; subst h1; exact ⟨h0, h2, h3⟩
  · cases h1
  · cases h1
  · simp at h1
  · cases h1

theorem backHolds (d : Disc s rest) (hi : Inv s) {k t : Nat} (h : s.fib (.back k) = some t) :
    t ∈ rest ∧ k ∈ s.cur :: rest ∧ k ≠ 0 ∧ waitTop (s.frames t) = true := by
  rcases d.whereIs hi h with ⟨h0, x, h2, h3, h1 | ⟨h1, h4⟩ | ⟨h1, _⟩⟩ | ⟨h0, h1 | ⟨h1, _⟩⟩
  · cases h1
  · simp at h1; subst h1; exact ⟨h0, h2, h3, h4⟩
  · cases h1
  · cases h1
  · cases h1

/-- the context below the running one -/
theorem below (d : Disc s rest) (hc : s.cur ≠ 0) : ∃ y t, rest = y :: t ∧ Link s s.cur y := by
  cases hr : rest with
  | nil =>
    have := d.last
    rw [hr] at this
    simp at this
    exact absurd this hc
  | cons y t =>
    have := d.link
    rw [hr] at this
    exact ⟨y, t, rfl, this.1⟩

theorem belowSyn (d : Disc s rest) (hc : s.cur ≠ 0) (hb : s.fib (.back s.cur) = none) (ha : s.ctl ≠ .recv) :
    ∃ y t, rest = y :: t ∧ s.fib (.cb ⟨s.cur, .syn⟩) = some y := by
  obtain ⟨y, t, h, hl⟩ := d.below hc
  refine ⟨y, t, h, ?_⟩
  rcases hl with hl | ⟨hl, _⟩ | ⟨hl, _⟩
  · exact hl
  · rw [hb] at hl; cases hl
  · exact absurd hl ha

/-- the fiber in the running context's synthesized block (or unwinding record) is the one below -/
theorem succ (d : Disc s rest) (hi : Inv s) {t : Nat} {l : FLoc} (hl : l = .cb ⟨s.cur, .syn⟩ ∨ l = .back s.cur)
    (h : s.fib l = some t) : ∃ r, rest = t :: r := by
  have ht : t ∈ rest ∧ s.cur ≠ 0 := by
    rcases hl with rfl | rfl
    · exact ⟨(d.synHolds hi h).1, (d.synHolds hi h).2.2⟩
    · exact ⟨(d.backHolds hi h).1, (d.backHolds hi h).2.2.1⟩
  obtain ⟨y, r, hr, -⟩ := d.below ht.2
  subst hr
  by_cases hty : t = y
  · subst hty; exact ⟨r, rfl⟩
  · exfalso
    have hla := d.last
    rw [List.getLast?_cons_cons] at hla
    have hn := List.nodup_cons.1 d.nodup
    obtain ⟨z, hz, -, hlz⟩ := Linked.pred (y := t) hn.2 hla d.link.2 (by
      rcases List.mem_cons.1 ht.1 with h | h
      · exact absurd h hty
      · simpa using h)
    have hza : z ≠ s.cur := by rintro rfl; exact hn.1 hz
    rcases hlz with hlz | ⟨hlz, _⟩ | ⟨_, _, hlz, _⟩ <;> have hinj := hi.sched.inj _ _ _ h hlz <;>
      rcases hl with rfl | rfl <;> simp at hinj
    · exact hza hinj.symm
    · exact hza hinj.symm

theorem synCur (d : Disc s rest) (hi : Inv s) {t : Nat} (h : s.fib (.cb ⟨s.cur, .syn⟩) = some t) : ∃ r, rest = t :: r :=
  d.succ hi (.inl rfl) h

/-- the context that has just given control to the running one waits below it -/
theorem belowAir (d : Disc s rest) (hi : Inv s) (hc : s.cur ≠ 0) (hr : s.ctl = .recv) {u : Nat} (ha : s.fib .air = some u)
    (hh : hole (s.base s.cur) s.cur (s.frames s.cur) = some ⟨s.cur, .syn⟩) : ∃ r, rest = u :: r := by
  have hctl := hi.ctl
  rw [hr] at hctl
  obtain ⟨q, h1, h2, h3, h4⟩ := hctl.2.1 u ha
  obtain ⟨y, r, hy, hl⟩ := d.below hc
  rcases hl with hl | ⟨hl, _⟩ | ⟨_, _, hl, _⟩
  · rw [hh] at h2
    rw [← Option.some.inj h2] at h4
    rw [h4] at hl; cases hl
  · have := hctl.2.2.2.1 (by rw [hl]; simp)
    rw [hole_not_unw hctl.1 hh] at this; cases this
  · rw [ha] at hl; cases hl; exact ⟨r, hy⟩

/-- a coroutine that has yielded is parked -/
theorem parked (d : Disc s rest) (hi : Inv s) (hj : JInv s) {k : Nat} (hal : (s.cbs ⟨k, .own⟩).life = .alive) (hk : k ≠ 0)
    (hs : Suspended k s.log) (hr : s.ctl ≠ .recv) : s.fib (.cb ⟨k, .own⟩) = some k := by
  obtain ⟨j, hs⟩ := hs
  have hlive : s.base k ≠ .none := fun h => (hi.cb.none_life k .own h).1 hal
  have hn : k ∉ s.cur :: rest := by
    intro hmem
    have : ∃ y, Link s k y := by
      have aux : ∀ {l : List Nat}, Linked s l → l.getLast? = some 0 → k ∈ l → ∃ y, Link s k y := by
        intro l
        induction l with
        | nil => intro _ _ h; simp at h
        | cons a l ih =>
          intro hL hla hm
          cases l with
          | nil =>
            simp at hla hm
            exact absurd (hm.trans hla) hk
          | cons b l' =>
            rcases List.mem_cons.1 hm with rfl | hm
            · exact ⟨b, hL.1⟩
            · exact ih hL.2 (by rwa [List.getLast?_cons_cons] at hla) hm
      exact aux d.link d.last hmem
    obtain ⟨y, hy | ⟨hy, _⟩ | ⟨hy, _⟩⟩ := this
    · obtain ⟨j', h'⟩ := hj.held _ _ hy
      rw [show (CbRef.mk k .syn).co = k from rfl, hs] at h'
      simp at h'
    · exact d.ownDn k (by rw [hy]; simp) hal
    · exact hr hy
  rcases d.park k hlive hn with h | ⟨h, _⟩
  · exact h
  · exact absurd h hr

/-! ### Preservation -/

/-- nothing moves -/
theorem quiet (d : Disc s rest) {s' : St L G V E} (hcur : s'.cur = s.cur) (hfib : s'.fib = s.fib) (hair : s.fib .air = none)
    (hfr : ∀ i, i ≠ s.cur → s'.frames i = s.frames i) (hb : ∀ i, i ≠ s.cur → s'.base i = s.base i)
    (hbc : (s'.base s.cur).isFinal = true → (s.base s.cur).isFinal = true)
    (hl : ∀ x, (s'.cbs ⟨x, .own⟩).life = .alive ↔ (s.cbs ⟨x, .own⟩).life = .alive) (hctl : s'.ctl ≠ .recv)
    (hf : s'.ctl = .raise .forced → ctorOf s'.fr = none) (hn : ∀ k, nSetThrow k s'.log = nSetThrow k s.log) : Disc s' rest := by
  have hnc : ∀ x ∈ rest, x ≠ s.cur := by
    rintro x hx rfl; exact (List.nodup_cons.1 d.nodup).1 hx
  refine ⟨hcur ▸ d.last, hcur ▸ d.nodup, ?_, ?_, ?_, ?_, ?_, hf, fun h => absurd h hctl, fun k => (hn k).trans (d.noThrow k),
    fun i hi hn => (hl i).2 (d.parkAl i (by rw [hcur] at hn; rw [← hb i (fun e => hn (by simp [e]))]; exact hi) (hcur ▸ hn))⟩
  · rw [hcur]
    refine d.link.mono ?_
    intro x _ y hy h
    simp only [List.tail_cons] at hy
    rcases h with h | ⟨h, h'⟩ | ⟨_, _, h, _⟩
    · exact .inl (hfib ▸ h)
    · exact .inr (.inl ⟨hfib ▸ h, (hfr y (hnc y hy)) ▸ h'⟩)
    · rw [hair] at h; cases h
  · intro x hx; rw [hb x (hnc x hx)]; exact d.live x hx
  · intro i hi hn
    rw [hcur] at hn
    have hic : i ≠ s.cur := fun e => hn (by simp [e])
    rcases d.park i ((hb i hic) ▸ hi) hn with h | ⟨_, h, _⟩
    · exact .inl (hfib ▸ h)
    · rw [hair] at h; cases h
  · intro x hx h0 hbk
    rw [hcur] at hx
    rw [hfib] at hbk
    obtain ⟨h1, h2⟩ := d.ownUp x hx h0 hbk
    refine ⟨(hl x).2 h1, ?_⟩
    by_cases hxc : x = s.cur
    · subst hxc
      cases hq : (s'.base s.cur).isFinal
      · rfl
      · rw [hbc hq] at h2; cases h2
    · rw [hb x hxc]; exact h2
  · intro x hx h
    rw [hfib] at hx
    exact d.ownDn x hx ((hl x).1 h)

/-- the fiber in the air is stored -/
theorem store (d : Disc s rest) {s' : St L G V E} {u : Nat} {q : CbRef} (hcur : s'.cur = s.cur) (hair : s.fib .air = some u)
    (hq : hole (s.base s.cur) s.cur (s.frames s.cur) = some q) (hqn : s.fib (.cb q) = none)
    (hfib : s'.fib = upd (upd s.fib (.cb q) (some u)) .air none)
    (hfr : ∀ i, i ≠ s.cur → s'.frames i = s.frames i) (hb : ∀ i, i ≠ s.cur → s'.base i = s.base i)
    (hbc : (s'.base s.cur).isFinal = true → (s.base s.cur).isFinal = true)
    (hl : ∀ x, (s'.cbs ⟨x, .own⟩).life = .alive ↔ (s.cbs ⟨x, .own⟩).life = .alive) (hctl : s'.ctl ≠ .recv)
    (hf : s'.ctl ≠ .raise .forced) (hn : ∀ k, nSetThrow k s'.log = nSetThrow k s.log) : Disc s' rest := by
  have hnc : ∀ x ∈ rest, x ≠ s.cur := by
    rintro x hx rfl; exact (List.nodup_cons.1 d.nodup).1 hx
  have hback : ∀ x, s'.fib (.back x) = s.fib (.back x) := by intro x; rw [hfib]; simp [upd]
  have hcb : ∀ r t, s.fib (.cb r) = some t → s'.fib (.cb r) = some t := by
    intro r t h
    rw [hfib]
    by_cases hr : r = q
    · subst hr; rw [hqn] at h; cases h
    · simp [upd, hr, h]
  refine ⟨hcur ▸ d.last, hcur ▸ d.nodup, ?_, ?_, ?_, ?_, ?_, fun h => absurd h hf, fun h => absurd h hctl,
    fun k => (hn k).trans (d.noThrow k),
    fun i hi hn => (hl i).2 (d.parkAl i (by rw [hcur] at hn; rw [← hb i (fun e => hn (by simp [e]))]; exact hi) (hcur ▸ hn))⟩
  · rw [hcur]
    refine d.link.mono ?_
    intro x _ y hy h
    simp only [List.tail_cons] at hy
    rcases h with h | ⟨h, h'⟩ | ⟨_, hx, h, hh⟩
    · exact .inl (hcb _ _ h)
    · exact .inr (.inl ⟨(hback x).trans h, (hfr y (hnc y hy)) ▸ h'⟩)
    · left
      subst hx
      rw [hq] at hh
      rw [hair] at h
      cases hh; cases h
      rw [hfib]; simp [upd]
  · intro x hx; rw [hb x (hnc x hx)]; exact d.live x hx
  · intro i hi hn
    rw [hcur] at hn
    have hic : i ≠ s.cur := fun e => hn (by simp [e])
    rcases d.park i ((hb i hic) ▸ hi) hn with h | ⟨_, h, hh⟩
    · exact .inl (hcb _ _ h)
    · left
      rw [hq] at hh
      rw [hair] at h
      cases hh; cases h
      rw [hfib]; simp [upd]
  · intro x hx h0 hbk
    rw [hcur] at hx
    rw [hback] at hbk
    obtain ⟨h1, h2⟩ := d.ownUp x hx h0 hbk
    refine ⟨(hl x).2 h1, ?_⟩
    by_cases hxc : x = s.cur
    · subst hxc
      cases hq : (s'.base s.cur).isFinal
      · rfl
      · rw [hbc hq] at h2; cases h2
    · rw [hb x hxc]; exact h2
  · intro x hx h
    rw [hback] at hx
    exact d.ownDn x hx ((hl x).1 h)

/-- the running context gives control to another one, `k`, and waits for it -/
theorem down (d : Disc s rest) {s' : St L G V E} {k : Nat} (hk : k ∉ s.cur :: rest) (hcur : s'.cur = k)
    (hlink : Link s' k s.cur) (hair : s.ctl = .recv → ∀ y, s.fib .air = some y → y = k)
    (hcb : ∀ x, x ≠ k → s'.fib (.cb ⟨x, .syn⟩) = s.fib (.cb ⟨x, .syn⟩)) (hbk : ∀ x, x ≠ k → s'.fib (.back x) = s.fib (.back x))
    (hown : ∀ x, x ≠ k → s'.fib (.cb ⟨x, .own⟩) = s.fib (.cb ⟨x, .own⟩))
    (hfr : ∀ i, i ≠ s.cur → s'.frames i = s.frames i)
    (hb : ∀ i, i ≠ k → s'.base i ≠ .none → s.base i ≠ .none)
    (hb' : ∀ i ∈ s.cur :: rest, s'.base i ≠ .none)
    (hb2 : ∀ x ∈ s.cur :: rest, x ≠ 0 → s'.fib (.back x) = none → (s.base x).isFinal = false → (s'.base x).isFinal = false)
    (hl : ∀ x, x ≠ k → ((s'.cbs ⟨x, .own⟩).life = .alive ↔ (s.cbs ⟨x, .own⟩).life = .alive))
    (hkUp : s'.fib (.back k) = none → (s'.cbs ⟨k, .own⟩).life = .alive ∧ (s'.base k).isFinal = false)
    (hkDn : s'.fib (.back k) ≠ none → (s'.cbs ⟨k, .own⟩).life ≠ .alive)
    (hf : s'.ctl = .raise .forced → ctorOf s'.fr = none)
    (ha0 : s'.ctl = .recv → s'.fib .air ≠ none) (hn : ∀ k, nSetThrow k s'.log = nSetThrow k s.log) :
    Disc s' (s.cur :: rest) := by
  have hnk : ∀ x ∈ s.cur :: rest, x ≠ k := by rintro x hx rfl; exact hk hx
  have hnc : ∀ x ∈ rest, x ≠ s.cur := by
    rintro x hx rfl; exact (List.nodup_cons.1 d.nodup).1 hx
  refine ⟨?_, ?_, ?_, ?_, ?_, ?_, ?_, hf, fun h h' => absurd h' (ha0 h), fun k => (hn k).trans (d.noThrow k), ?_⟩
  · rw [List.getLast?_cons_cons]; exact d.last
  · rw [hcur]; exact List.nodup_cons.2 ⟨hk, d.nodup⟩
  · rw [hcur]
    refine ⟨hlink, ?_⟩
    refine d.link.mono ?_
    intro x hx y hy h
    simp only [List.tail_cons] at hy
    rcases h with h | ⟨h, h'⟩ | ⟨hr, _, h, _⟩
    · exact .inl ((hcb x (hnk x hx)).trans h)
    · exact .inr (.inl ⟨(hbk x (hnk x hx)).trans h, (hfr y (hnc y hy)) ▸ h'⟩)
    · exact absurd (hair hr y h) (hnk y (List.mem_cons_of_mem _ hy))
  · exact hb'
  · intro i hi hn
    rw [hcur] at hn
    have hik : i ≠ k := fun e => hn (by simp [e])
    rcases d.park i (hb i hik hi) (fun e => hn (List.mem_cons_of_mem _ e)) with h | ⟨hr, h, _⟩
    · exact .inl ((hown i hik).trans h)
    · exact absurd (hair hr i h) hik
  · intro x hx h0 hbx
    rw [hcur] at hx
    rcases List.mem_cons.1 hx with rfl | hx
    · exact hkUp hbx
    · have hbx' := hbx
      rw [hbk x (hnk x hx)] at hbx
      obtain ⟨h1, h2⟩ := d.ownUp x hx h0 hbx
      exact ⟨(hl x (hnk x hx)).2 h1, hb2 x hx h0 hbx' h2⟩
  · intro x hx
    by_cases hxk : x = k
    · subst hxk; exact hkDn hx
    · rw [hbk x hxk] at hx
      intro h
      exact d.ownDn x hx ((hl x hxk).1 h)
  · intro i hi hn
    rw [hcur] at hn
    have hik : i ≠ k := fun e => hn (by simp [e])
    exact (hl i hik).2 (d.parkAl i (hb i hik hi) (fun e => hn (List.mem_cons_of_mem _ e)))

/-- the running context gives control back to the one below -/
theorem up {t : Nat} (d : Disc s (t :: rest)) {s' : St L G V E} (hcur : s'.cur = t)
    (hair : s.ctl = .recv → s.fib .air = some t ∨ s.fib .air = none)
    (hcb : ∀ x, x ≠ s.cur → s'.fib (.cb ⟨x, .syn⟩) = s.fib (.cb ⟨x, .syn⟩))
    (hbk : ∀ x, x ≠ s.cur → s'.fib (.back x) = s.fib (.back x))
    (hbkc : s'.fib (.back s.cur) = none)
    (hown : ∀ x, x ≠ s.cur → s'.fib (.cb ⟨x, .own⟩) = s.fib (.cb ⟨x, .own⟩))
    (hfr : ∀ i, i ≠ s.cur → s'.frames i = s.frames i) (hb : ∀ i, i ≠ s.cur → s'.base i = s.base i)
    (hpark : s'.base s.cur ≠ .none → Parked s' s.cur)
    (hparkAl : s'.base s.cur ≠ .none → (s'.cbs ⟨s.cur, .own⟩).life = .alive)
    (hl : ∀ x, x ≠ s.cur → ((s'.cbs ⟨x, .own⟩).life = .alive ↔ (s.cbs ⟨x, .own⟩).life = .alive))
    (hf : s'.ctl ≠ .raise .forced)
    (ha0 : s'.ctl = .recv → s'.fib .air = none → waitTop s'.fr = true)
    (hn : ∀ k, nSetThrow k s'.log = nSetThrow k s.log) :
    Disc s' rest := by
  have hnd := List.nodup_cons.1 d.nodup
  have hnc : ∀ x ∈ t :: rest, x ≠ s.cur := by rintro x hx rfl; exact hnd.1 hx
  have hndt := List.nodup_cons.1 hnd.2
  have noAir : ∀ i, i ≠ t → s.ctl = .recv → s.fib .air ≠ some i := by
    intro i hi hr ha
    rcases hair hr with h | h
    · rw [h] at ha; cases ha; exact hi rfl
    · rw [h] at ha; cases ha
  refine ⟨?_, ?_, ?_, ?_, ?_, ?_, ?_, fun h => absurd h hf, ha0, fun k => (hn k).trans (d.noThrow k), ?_⟩
  · rw [hcur]; have := d.last; rwa [List.getLast?_cons_cons] at this
  · rw [hcur]; exact hnd.2
  · rw [hcur]
    refine d.link.2.mono ?_
    intro x hx y hy h
    simp only [List.tail_cons] at hy
    rcases h with h | ⟨h, h'⟩ | ⟨_, h, _, _⟩
    · exact .inl ((hcb x (hnc x hx)).trans h)
    · exact .inr (.inl ⟨(hbk x (hnc x hx)).trans h, (hfr y (hnc y (List.mem_cons_of_mem _ hy))) ▸ h'⟩)
    · exact absurd h (hnc x hx)
  · intro x hx
    rw [hb x (hnc x (List.mem_cons_of_mem _ hx))]
    exact d.live x (List.mem_cons_of_mem _ hx)
  · intro i hi hn
    rw [hcur] at hn
    by_cases hic : i = s.cur
    · subst hic; exact hpark hi
    · rcases d.park i ((hb i hic) ▸ hi) (by
        intro h
        rcases List.mem_cons.1 h with h | h
        · exact hic h
        · exact hn h) with h | ⟨hr, h, _⟩
      · exact .inl ((hown i hic).trans h)
      · exact absurd h (noAir i (fun e => hn (by simp [e])) hr)
  · intro x hx h0 hbx
    rw [hcur] at hx
    rw [hbk x (hnc x hx)] at hbx
    obtain ⟨h1, h2⟩ := d.ownUp x (List.mem_cons_of_mem _ hx) h0 hbx
    exact ⟨(hl x (hnc x hx)).2 h1, (hb x (hnc x hx)) ▸ h2⟩
  · intro x hx
    by_cases hxc : x = s.cur
    · subst hxc; exact absurd hbkc hx
    · rw [hbk x hxc] at hx
      intro h
      exact d.ownDn x hx ((hl x hxc).1 h)
  · intro i hi hn
    rw [hcur] at hn
    by_cases hic : i = s.cur
    · subst hic; exact hparkAl hi
    · refine (hl i hic).2 (d.parkAl i ((hb i hic) ▸ hi) ?_)
      intro h
      rcases List.mem_cons.1 h with h | h
      · exact hic h
      · exact hn h

end Disc
end Verif
