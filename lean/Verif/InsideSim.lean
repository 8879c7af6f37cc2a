import Verif.SpecInside
import Verif.PropsRefine
import Verif.CoroRun

/-! # The specification machine simulates itself inside a coroutine.  Proof material. -/
namespace Verif.Inside
open Coro (Fr Co Phase)
variable {L G V E : Type}
variable {P : Prog L G V E} {l0 : L} {g0 : G} {a b : Coro.St L G V E}

def ctl : Coro.Ctl L V E → Coro.Ctl (Lab L) V E
  | .eval l => .eval (.inl l)
  | .res (.handle h) => .res (.handle (h + 1))
  | .res (.it i) => .res (.it (i.map (· + 1)))
  | .res r => .res r
  | .raise x => .raise x
  | .ret => .ret
  | .back => .back

def ref (r : CbRef) : CbRef := ⟨r.co + 1, r.side⟩

def fr : Fr L V E → Fr (Lab L) V E
  | .obj o => .obj o
  | .co h => .co (h + 1)
  | .handler sw f => .handler sw (fun e => .inl (f e))
  | .caller l => .caller (.inl l)
  | .use k => .use (cont k)
  | .iter h => .iter (h + 1)
  | .give v => .give v
  | .andThen c => .andThen (ctl c)
  | .empty va => .empty va
  | .resumed r => .resumed (ref r)
  | .creates k => .creates (k + 1)

def phase : Phase L → Phase (Lab L)
  | .gone => .gone
  | .fresh fn => .fresh (func fn)
  | .idle h fn => .idle (h + 1) (func fn)
  | .body h => .body (h + 1)
  | .ended h => .ended (h + 1)
  | .leaving => .leaving

def co (x : Co L V E) : Co (Lab L) V E := ⟨x.kind, x.va, phase x.phase, x.val, x.err⟩
def hdl (x : Handle) : Handle := { x with cb := x.cb.map ref }

/-- the coroutine that runs the program -/
def box : Co (Lab L) V E := { kind := .pull, va := .void, phase := .body 0 }

/-- the stack of `main` -/
def mainStack : List (Fr (Lab L) V E) := [.creates 1, .use (fun _ => .inr .stop)]

def stk (f : Nat → List (Fr L V E)) : Nat → List (Fr (Lab L) V E)
  | 0 => mainStack
  | k+1 => (f k).map fr

def cos (f : Nat → Co L V E) : Nat → Co (Lab L) V E
  | 0 => {}
  | 1 => box
  | k+2 => co (f (k+1))

def hds (f : Nat → Option Handle) : Nat → Option Handle
  | 0 => some ⟨.push, .void, some ⟨1, .syn⟩⟩
  | k+1 => (f k).map hdl

def obs (l : List (Ev V E)) : List (Ev V E) := l.map event ++ [.enter 1]

def sh (a : Coro.St L G V E) : Coro.St (Lab L) G V E where
  active := a.active.map (· + 1) ++ [0]
  ctl := ctl a.ctl
  g := a.g
  stack := stk a.stack
  co := cos a.co
  hs := hds a.hs
  nh := a.nh + 1
  nk := a.nk + 1
  obs := obs a.obs

/-! ## parts of states -/

theorem stk_upd (f : Nat → List (Fr L V E)) (c : Nat) (t : List (Fr L V E)) : stk (upd f c t) = upd (stk f) (c+1) (t.map fr) := by
  funext i
  cases i with
  | zero => simp [stk, upd]
  | succ i => by_cases h : i = c <;> simp [stk, upd, h]

theorem cos_upd (f : Nat → Co L V E) {c : Nat} (hc : c ≠ 0) (x : Co L V E) : cos (upd f c x) = upd (cos f) (c+1) (co x) := by
  funext i
  match i with
  | 0 => simp [cos, upd]
  | 1 => simp only [cos, upd]; rw [if_neg (by omega)]
  | i+2 =>
    by_cases h : i + 1 = c
    · subst h; simp [cos, upd]
    · simp only [cos, upd, if_neg h]; rw [if_neg (by omega)]

theorem hds_upd (f : Nat → Option Handle) (c : Nat) (x : Option Handle) : hds (upd f c x) = upd (hds f) (c+1) (x.map hdl) := by
  funext i
  cases i with
  | zero => simp [hds, upd]
  | succ i => by_cases h : i = c <;> simp [hds, upd, h]

@[simp] theorem sh_ctl : (sh a).ctl = ctl a.ctl := rfl
@[simp] theorem sh_g : (sh a).g = a.g := rfl
@[simp] theorem sh_nh : (sh a).nh = a.nh + 1 := rfl
@[simp] theorem sh_nk : (sh a).nk = a.nk + 1 := rfl
@[simp] theorem sh_stack (c : Nat) : (sh a).stack (c+1) = (a.stack c).map fr := rfl
@[simp] theorem sh_hs (h : Nat) : (sh a).hs (h+1) = (a.hs h).map hdl := rfl
theorem sh_active : (sh a).active = a.active.map (· + 1) ++ [0] := rfl
theorem sh_co {k : Nat} (h : k ≠ 0) : (sh a).co (k+1) = co (a.co k) := by
  cases k with
  | zero => exact absurd rfl h
  | succ k => rfl

theorem sh_goto (x : Coro.Ctl L V E) : sh (a.goto x) = (sh a).goto (ctl x) := rfl
theorem sh_setStack (c : Nat) (t : List (Fr L V E)) : sh (a.setStack c t) = (sh a).setStack (c+1) (t.map fr) := by
  simp only [sh, Coro.St.setStack, stk_upd]
theorem sh_push (c : Nat) (f : Fr L V E) : sh (a.push c f) = (sh a).push (c+1) (fr f) := sh_setStack ..
theorem sh_setCo {k : Nat} (h : k ≠ 0) (x : Co L V E) : sh (a.setCo k x) = (sh a).setCo (k+1) (co x) := by
  simp only [sh, Coro.St.setCo, cos_upd _ h]
theorem sh_see (e : Ev V E) : sh (a.see e) = (sh a).see (event e) := rfl
theorem sh_newObj (x : Handle) : sh (a.newObj x) = (sh a).newObj (hdl x) := by
  simp only [sh, Coro.St.newObj, hds_upd, Option.map]
theorem sh_setHs (x : Nat) (v : Option Handle) : sh { a with hs := upd a.hs x v } = { sh a with hs := upd (sh a).hs (x+1) (v.map hdl) } := by
  simp only [sh, hds_upd]
theorem sh_endObj (c o : Nat) : sh (a.endObj P c o) = (sh a).endObj (prog P l0) (c+1) o := rfl
theorem sh_setActive (l : List Nat) : sh { a with active := l } = { sh a with active := l.map (· + 1) ++ [0] } := rfl


/-! ## facts about all states -/

def frOk (c : Nat) : Fr L V E → Prop
  | .resumed r => r.co ≠ 0
  | .creates k => k ≠ 0
  | .andThen (.raise .forced) => c ≠ 0
  | _ => True

def hOk (x : Option Handle) : Prop := ∀ hd r, x = some hd → hd.cb = some r → r.co ≠ 0

def actOk (l : List Nat) : Prop := ∃ t, l = t ++ [0] ∧ 0 ∉ t

structure NZ (a : Coro.St L G V E) : Prop where
  act : actOk a.active
  nk : a.nk ≠ 0
  main : (a.co 0).phase = .gone
  hs : ∀ h, hOk (a.hs h)
  fr : ∀ c, ∀ f ∈ a.stack c, frOk c f

def ctlOk (l : List Nat) : Coro.Ctl L V E → Prop
  | .raise .forced => l ≠ [0]
  | _ => True

theorem actOk.pop {c : Nat} {l : List Nat} (h : actOk (c :: l)) (hc : c ≠ 0) : actOk l := by
  obtain ⟨t, ht, h0⟩ := h
  cases t with
  | nil => simp at ht; exact absurd ht.1 hc
  | cons x t => simp at ht; exact ⟨t, ht.2, fun hm => h0 (List.mem_cons_of_mem _ hm)⟩

theorem actOk.cons {c : Nat} {l : List Nat} (h : actOk l) (hc : c ≠ 0) : actOk (c :: l) := by
  obtain ⟨t, rfl, h0⟩ := h
  exact ⟨c :: t, rfl, by simp [h0, Ne.symm hc]⟩

theorem actOk.zero {l : List Nat} (h : actOk (0 :: l)) : l = [] := by
  obtain ⟨t, ht, h0⟩ := h
  cases t with
  | nil => simpa using ht
  | cons x t => simp at ht; exact absurd ht.1 (by intro hx; subst hx; simp at h0)

theorem actOk.mem {l : List Nat} (h : actOk l) : 0 ∈ l := by obtain ⟨t, rfl, _⟩ := h; simp

/-- the state of the program and of the wrapped program -/
def R (a : Coro.St L G V E) (a' : Coro.St (Lab L) G V E) : Prop := a' = sh a ∧ NZ a

/-- the function of the wrapping coroutine has ended -/
def endSt (a : Coro.St L G V E) (x : Option E) : Coro.St (Lab L) G V E :=
  { ((sh a).setCo 1 { (box : Co (Lab L) V E) with phase := .ended 0, err := x }) with active := [0], ctl := .back }.see (.fin 1 x)

/-- what the wrapped program does if the program does `o` -/
inductive OR : Coro.Out (Coro.St L G V E) → Coro.Out (Coro.St (Lab L) G V E) → Prop
  | next {b : Coro.St L G V E} {b' : Coro.St (Lab L) G V E} (h : R b b') (hc : ctlOk b.active b.ctl) : OR (.next b) (.next b')
  | done {b : Coro.St L G V E} (h : NZ b) (hs : b.stack 0 = []) : OR (.done b) (.next (endSt b none))
  | uncaught {b : Coro.St L G V E} {e : E} (h : NZ b) (hs : b.stack 0 = []) (he : b.ctl = .raise (.user e)) :
      OR (.uncaught b) (.next (endSt b (some e)))
  | stuck : OR .stuck .stuck

variable {a' : Coro.St (Lab L) G V E}

theorem OR.ite {p q : Prop} [Decidable p] [Decidable q] {x : Coro.Out (Coro.St L G V E)} {x' : Coro.Out (Coro.St (Lab L) G V E)} (hpq : q ↔ p)
    (h : p → OR x x') : OR (if p then x else .stuck) (if q then x' else .stuck) := by
  by_cases hp : p
  · rw [if_pos hp, if_pos (hpq.2 hp)]; exact h hp
  · rw [if_neg hp, if_neg (fun hq => hp (hpq.1 hq))]; exact .stuck

theorem OR.ite2 {p q : Prop} [Decidable p] [Decidable q] {x y : Coro.Out (Coro.St L G V E)} {x' y' : Coro.Out (Coro.St (Lab L) G V E)} (hpq : q ↔ p)
    (h : OR x x') (h2 : OR y y') : OR (if p then x else y) (if q then x' else y') := by
  by_cases hp : p
  · rw [if_pos hp, if_pos (hpq.2 hp)]; exact h
  · rw [if_neg hp, if_neg (fun hq => hp (hpq.1 hq))]; exact h2

theorem R.goto (h : R a a') (x : Coro.Ctl L V E) : R (a.goto x) (a'.goto (ctl x)) := by
  obtain ⟨rfl, n⟩ := h; exact ⟨rfl, ⟨n.act, n.nk, n.main, n.hs, n.fr⟩⟩
theorem R.setStack (h : R a a') (c : Nat) {t : List (Fr L V E)} (ht : ∀ f ∈ t, frOk c f) :
    R (a.setStack c t) (a'.setStack (c+1) (t.map fr)) := by
  obtain ⟨rfl, n⟩ := h
  refine ⟨(sh_setStack ..).symm, ⟨n.act, n.nk, n.main, n.hs, fun d => ?_⟩⟩
  show ∀ f ∈ Verif.upd a.stack c t d, _
  simp only [Verif.upd]; split
  · rename_i hd; rw [hd]; exact ht
  · exact n.fr d
theorem R.stack (h : R a a') (c : Nat) : a'.stack (c+1) = (a.stack c).map fr := by rw [h.1]; rfl
theorem R.push (h : R a a') (c : Nat) {f : Fr L V E} (hf : frOk c f) : R (a.push c f) (a'.push (c+1) (fr f)) := by
  have := h.setStack c (t := f :: a.stack c) (by simpa using ⟨hf, h.2.fr c⟩)
  unfold Coro.St.push; rw [h.stack]; exact this
theorem R.setCo (h : R a a') {k : Nat} (hk : k ≠ 0) (x : Co L V E) : R (a.setCo k x) (a'.setCo (k+1) (co x)) := by
  obtain ⟨rfl, n⟩ := h
  refine ⟨(sh_setCo hk x).symm, ⟨n.act, n.nk, ?_, n.hs, n.fr⟩⟩
  show (Verif.upd a.co k x 0).phase = _
  simp only [Verif.upd]; rw [if_neg (by omega)]; exact n.main
theorem R.see (h : R a a') (e : Ev V E) : R (a.see e) (a'.see (event e)) := by
  obtain ⟨rfl, n⟩ := h; exact ⟨rfl, ⟨n.act, n.nk, n.main, n.hs, n.fr⟩⟩
theorem R.setHs (h : R a a') (x : Nat) {v : Option Handle} (hv : hOk v) :
    R { a with hs := Verif.upd a.hs x v } { a' with hs := Verif.upd a'.hs (x+1) (v.map hdl) } := by
  obtain ⟨rfl, n⟩ := h
  refine ⟨(sh_setHs ..).symm, ⟨n.act, n.nk, n.main, fun j => ?_, n.fr⟩⟩
  show hOk (Verif.upd a.hs x v j)
  simp only [Verif.upd]; split
  · exact hv
  · exact n.hs j
theorem R.nh (h : R a a') : a'.nh = a.nh + 1 := by rw [h.1]; rfl
theorem R.nk (h : R a a') : a'.nk = a.nk + 1 := by rw [h.1]; rfl
theorem R.g (h : R a a') : a'.g = a.g := by rw [h.1]; rfl
theorem R.hs (h : R a a') (x : Nat) : a'.hs (x+1) = (a.hs x).map hdl := by rw [h.1]; rfl
theorem R.co (h : R a a') {k : Nat} (hk : k ≠ 0) : a'.co (k+1) = co (a.co k) := by rw [h.1]; exact sh_co hk
theorem R.ctl (h : R a a') : a'.ctl = ctl a.ctl := by rw [h.1]; rfl
theorem R.newObj (h : R a a') {x : Handle} (hx : hOk (some x)) : R (a.newObj x) (a'.newObj (hdl x)) := by
  obtain ⟨rfl, n⟩ := h
  refine ⟨(sh_newObj _).symm, ⟨n.act, n.nk, n.main, fun j => ?_, n.fr⟩⟩
  show hOk (Verif.upd a.hs a.nh (some x) j)
  simp only [Verif.upd]; split
  · exact hx
  · exact n.hs j
theorem R.setG (h : R a a') (g : G) : R { a with g := g } { a' with g := g } := by
  obtain ⟨rfl, n⟩ := h; exact ⟨rfl, ⟨n.act, n.nk, n.main, n.hs, n.fr⟩⟩
theorem R.setActive (h : R a a') {l : List Nat} (hl : actOk l) : R { a with active := l } { a' with active := l.map (· + 1) ++ [0] } := by
  obtain ⟨rfl, n⟩ := h; exact ⟨rfl, ⟨hl, n.nk, n.main, n.hs, n.fr⟩⟩
theorem R.setNk (h : R a a') (n : Nat) (hn : n ≠ 0) : R { a with nk := n } { a' with nk := n + 1 } := by
  obtain ⟨rfl, n⟩ := h; exact ⟨rfl, ⟨n.act, hn, n.main, n.hs, n.fr⟩⟩
theorem R.endObj (h : R a a') (c o : Nat) : R (a.endObj P c o) (a'.endObj (prog P l0) (c+1) o) := by
  obtain ⟨rfl, n⟩ := h; exact ⟨rfl, ⟨n.act, n.nk, n.main, n.hs, n.fr⟩⟩

/-! ## functions -/

theorem R.contains (h : R a a') (k : Nat) : a'.active.contains (k+1) = a.active.contains k := by
  rw [h.1, sh_active]; simp [List.contains_eq_mem]

theorem R.sleeps (h : R a a') {k : Nat} (hk : k ≠ 0) : Coro.sleeps a' (k+1) = Coro.sleeps a k := by
  unfold Coro.sleeps
  rw [h.contains, h.co hk]
  cases hp : (a.co k).phase <;> simp [Inside.co, hp, phase]

theorem phase_isEnded (p : Phase L) : (phase p).isEnded = p.isEnded := by cases p <;> rfl

theorem R.valid (h : R a a') {r : CbRef} (hr : r.co ≠ 0) : Coro.valid a' (ref r) = Coro.valid a r := by
  unfold Coro.valid
  simp only [ref]
  rw [h.co hr]
  simp only [Inside.co, phase_isEnded]

theorem R.objValid (h : R a a') (c x : Nat) : Coro.objValid a' (c+1) (x+1) = Coro.objValid a c x := by
  unfold Coro.objValid
  rw [h.hs]
  have hh := h.2.hs x
  cases hx : a.hs x with
  | none => rfl
  | some hd =>
    obtain ⟨ty, va, cb⟩ := hd
    cases cb with
    | none => rfl
    | some r =>
      have hr := hh _ r hx rfl
      simp only [Option.map, hdl]
      rw [h.valid hr]
      simp only [ref, Nat.add_right_cancel_iff]

theorem R.value (h : R a a') (c x : Nat) : Coro.value a' (c+1) (x+1) = (Coro.value a c x).map (fun p => (p.1 + 1, p.2)) := by
  unfold Coro.value
  rw [h.hs, h.objValid]
  have hh := h.2.hs x
  cases hx : a.hs x with
  | none => rfl
  | some hd =>
    obtain ⟨ty, va, cb⟩ := hd
    cases ty <;> cases cb <;> try rfl
    rename_i r
    have hr := hh _ r hx rfl
    simp only [Option.map, hdl]
    split
    · rfl
    · simp only [ref, h.co hr, Inside.co]; cases (a.co r.co).val <;> rfl

theorem value_ne {c x k : Nat} {v : V} (n : NZ a) (h : Coro.value a c x = some (k, v)) : k ≠ 0 := by
  unfold Coro.value at h
  split at h
  · rename_i va r hx
    split at h
    · simp at h
    · cases hv : (a.co r.co).val <;> rw [hv] at h <;> simp at h
      rw [← h.1]; exact n.hs x _ r hx rfl
  · simp at h

theorem R.switch (h : R a a') {c : Nat} {below : List Nat} (ha : actOk (c :: below)) {r : CbRef} (hr : r.co ≠ 0) :
    OR (Coro.switch a c below r) (Coro.switch a' (c+1) (below.map (· + 1) ++ [0]) (ref r)) := by
  have h1 := (h.push c (f := .resumed r) hr).goto .back
  unfold Coro.switch
  dsimp only
  obtain ⟨k, sd⟩ := r
  cases sd with
  | own => exact .ite (by rw [← h1.sleeps hr]; rfl) (fun _ => .next (h1.setActive (ha.cons hr)) trivial)
  | syn =>
    refine .ite (p := k = c ∧ below ≠ []) ?_ ?_
    · show k + 1 = c + 1 ∧ _ ↔ _
      refine ⟨fun h => ?_, fun h => ⟨by rw [h.1], by simp⟩⟩
      have hk : k = c := by omega
      subst hk
      refine ⟨rfl, fun hb => ?_⟩
      subst hb
      obtain ⟨t, ht, _⟩ := ha.pop hr
      simp at ht
    · intro h
      obtain ⟨rfl, _⟩ := h
      exact .next (h1.setActive (ha.pop hr)) trivial

theorem R.kill (h : R a a') {c : Nat} {below : List Nat} (ha : a.active = c :: below) (k : Nat) :
    OR (Coro.kill a c below k) (Coro.kill a' (c+1) (below.map (· + 1) ++ [0]) (k+1)) := by
  unfold Coro.kill
  rw [h.contains]
  split
  · exact .stuck
  · rename_i hk
    have hk0 : k ≠ 0 := by
      intro hk0; subst hk0
      apply hk; simpa [List.contains_eq_mem] using h.2.act.mem
    have h1 := (h.setActive (l := k :: c :: below) (ha ▸ h.2.act.cons hk0)).goto (.raise .forced)
    exact .next h1 (by show _ ≠ _; simp)

theorem R.destroyObj (h : R a a') {c : Nat} {below : List Nat} (ha : a.active = c :: below) (x : Nat) :
    OR (Coro.destroyObj a c below x) (Coro.destroyObj a' (c+1) (below.map (· + 1) ++ [0]) (x+1)) := by
  unfold Coro.destroyObj
  rw [h.hs]
  cases hx : a.hs x with
  | none => exact .stuck
  | some hd =>
    have h1 := h.setHs x (v := none) (by intro _ _ h; cases h)
    obtain ⟨ty, va, cb⟩ := hd
    cases cb with
    | none => exact .next (h1.goto (.res .unit)) trivial
    | some r =>
      obtain ⟨k, sd⟩ := r
      cases sd with
      | own => exact h1.kill ha k
      | syn =>
        exact .ite (p := k = c) (by show k + 1 = c + 1 ↔ _; omega) (fun _ => .next (h1.goto (.res .unit)) trivial)

theorem R.finish (h : R a a') {c : Nat} {below : List Nat} (ha : a.active = c :: below) (hc : c ≠ 0) (x : Option E) :
    OR (Coro.finish a c below x) (Coro.finish a' (c+1) (below.map (· + 1) ++ [0]) x) := by
  unfold Coro.finish
  rw [h.co hc]
  have hp := (ha ▸ h.2.act : actOk (c :: below)).pop hc
  cases hph : (a.co c).phase <;> simp only [Inside.co, hph, phase] <;> try exact .stuck
  rename_i y
  exact .next (R.see (R.goto (R.setActive (R.setCo h hc { a.co c with phase := .ended y, err := x }) hp) .back) (.fin c x)) trivial

theorem ctl_res (r : Res V) : ∃ r', ctl (L := L) (E := E) (.res r) = .res r' ∧ seen r' = r := by
  cases r with
  | handle h => exact ⟨_, rfl, rfl⟩
  | it i => exact ⟨_, rfl, by cases i <;> rfl⟩
  | _ => exact ⟨_, rfl, rfl⟩

theorem NZ.ne {c : Nat} (n : NZ a) (h : (a.co c).phase ≠ .gone) : c ≠ 0 := by
  intro hc; subst hc; exact h n.main

theorem R.res (h : R a a') {c : Nat} {below : List Nat} (ha : a.active = c :: below) {r r' : Res V} (hr : Inside.ctl (L := L) (E := E) (.res r) = .res r') :
    OR (Coro.resStep a c below r) (Coro.resStep a' (c+1) (below.map (· + 1) ++ [0]) r') := by
  have hf := h.2.fr c
  unfold Coro.resStep
  rw [h.stack]
  cases hst : a.stack c with
  | nil =>
    dsimp only [List.map]
    by_cases hc : c = 0
    · subst hc
      rw [h.2.main, h.1]
      exact .stuck
    · rw [h.co hc]
      have hp := (ha ▸ h.2.act : actOk (c :: below)).pop hc
      cases hph : (a.co c).phase <;> simp only [Inside.co, hph, phase] <;> try exact .stuck
      exact .next ((R.setActive (R.setCo h hc { a.co c with phase := .gone }) hp).goto (.res .unit)) trivial
  | cons f t =>
    rw [hst] at hf
    have h1 := h.setStack c (t := t) (fun f hm => hf f (List.mem_cons_of_mem _ hm))
    have hf0 := hf f List.mem_cons_self
    cases f <;> simp only [List.map, fr] <;> try exact .stuck
    case use k =>
      have : seen r' = r := by obtain ⟨q, h1, h2⟩ := ctl_res (L := L) (E := E) r; rw [hr] at h1; cases h1; exact h2
      simp only [cont, this]
      exact .next (h1.goto (.eval (k r))) trivial
    case iter x =>
      rw [h.objValid]
      cases Coro.objValid a c x with
      | none => exact .stuck
      | some b =>
        cases b
        · exact .next (h1.goto (.res (.it none))) trivial
        · exact .next (h1.goto (.res (.it (some x)))) trivial
    case give v => exact .next (h1.goto (.res (.val v))) trivial
    case andThen x =>
      refine .next (h1.goto x) ?_
      show ctlOk a.active x
      rw [ha]
      cases x with
      | raise y =>
        cases y with
        | forced => intro hx; injection hx with hx; exact hf0 hx
        | user _ => trivial
      | _ => trivial
    case empty va =>
      rw [h.nh]
      exact .next ((h1.newObj (x := ⟨.pull, va, none⟩) (by intro _ _ h1 h2; cases h1; cases h2)).goto (.res (.handle a.nh))) trivial

theorem R.raise (h : R a a') {c : Nat} {below : List Nat} (ha : a.active = c :: below) {x : Exn E} (hx : a.ctl = .raise x)
    (hc : ctlOk a.active a.ctl) :
    OR (Coro.raiseStep P a c below x) (Coro.raiseStep (prog P l0) a' (c+1) (below.map (· + 1) ++ [0]) x) := by
  have hf := h.2.fr c
  have hne : x = .forced → c ≠ 0 := by
    intro hxf hc0; subst hxf hc0
    rw [hx, ha] at hc
    exact hc (by rw [actOk.zero (l := below) (ha ▸ h.2.act)])
  unfold Coro.raiseStep
  rw [h.stack]
  cases hst : a.stack c with
  | nil =>
    dsimp only [List.map]
    cases x with
    | user e =>
      dsimp only
      rw [if_neg (Nat.succ_ne_zero c)]
      split
      · rename_i hc0; subst hc0
        have hb := actOk.zero (ha ▸ h.2.act); subst hb
        rw [h.1]
        exact .uncaught h.2 hst hx
      · rename_i hc0; exact h.finish ha hc0 _
    | forced =>
      dsimp only
      have hc0 := hne rfl
      rw [h.co hc0]
      cases hph : (a.co c).phase <;> simp only [Inside.co, hph, phase] <;> try exact .stuck
      all_goals exact (R.setCo h hc0 { a.co c with phase := .leaving }).destroyObj ha _
  | cons f t =>
    rw [hst] at hf
    have ht : ∀ f ∈ t, frOk c f := fun f hm => hf f (List.mem_cons_of_mem _ hm)
    have h1 := h.setStack c (t := t) ht
    cases f <;> simp only [List.map, fr]
    case obj o => exact .next (h1.endObj c o) hc
    case co y =>
      refine (h.setStack c (t := .andThen (.raise x) :: t) ?_).destroyObj ha y
      intro f hm
      rcases List.mem_cons.1 hm with rfl | hm
      · cases x with
        | forced => exact hne rfl
        | user e => trivial
      · exact ht f hm
    case handler sw f =>
      cases x with
      | user e => exact .next (h1.goto (.eval (f e))) trivial
      | forced =>
        dsimp only
        split
        · exact .stuck
        · exact .next h1 hc
    case use =>
      cases x with
      | forced => exact .next h1 hc
      | user e => exact .next (h1.see (.exc c e)) hc
    all_goals first | exact .next h1 hc | exact .stuck | (cases x <;> first | exact .next h1 hc | exact .stuck)

theorem R.ret (h : R a a') {c : Nat} {below : List Nat} (ha : a.active = c :: below) (hx : a.ctl = .ret) :
    OR (Coro.retStep P a c below) (Coro.retStep (prog P l0) a' (c+1) (below.map (· + 1) ++ [0])) := by
  have hf := h.2.fr c
  have hok : ctlOk a.active a.ctl := by rw [hx]; trivial
  unfold Coro.retStep
  rw [h.stack]
  cases hst : a.stack c with
  | nil =>
    dsimp only [List.map]
    rw [if_neg (Nat.succ_ne_zero c)]
    split
    · rename_i hc0; subst hc0
      have hb := actOk.zero (ha ▸ h.2.act); subst hb
      rw [h.1]
      exact .done h.2 hst
    · rename_i hc0; exact h.finish ha hc0 _
  | cons f t =>
    rw [hst] at hf
    have ht : ∀ f ∈ t, frOk c f := fun f hm => hf f (List.mem_cons_of_mem _ hm)
    have h1 := h.setStack c (t := t) ht
    cases f <;> simp only [List.map, fr] <;> try exact .stuck
    case obj o => exact .next (h1.endObj c o) hok
    case co y =>
      refine (h.setStack c (t := .andThen .ret :: t) ?_).destroyObj ha y
      intro f hm
      rcases List.mem_cons.1 hm with rfl | hm
      · trivial
      · exact ht f hm
    case caller l => exact .next (h1.goto (.eval l)) trivial
    all_goals exact .next h1 hok

theorem hOk_mk {ty : Kind} {va : Var} {k : Nat} {sd : Side} (hk : k ≠ 0) : hOk (some ⟨ty, va, some ⟨k, sd⟩⟩) := by
  intro hd r h1 h2
  cases h1; cases h2; exact hk

theorem R.back (h : R a a') {c : Nat} {below : List Nat} (ha : a.active = c :: below) (hx : a.ctl = .back) :
    OR (Coro.backStep a c below) (Coro.backStep a' (c+1) (below.map (· + 1) ++ [0])) := by
  have hf := h.2.fr c
  unfold Coro.backStep
  rw [h.stack]
  cases hst : a.stack c with
  | nil =>
    dsimp only [List.map]
    by_cases hc0 : c = 0
    · subst hc0
      rw [h.2.main, h.1]
      exact .stuck
    · rw [h.co hc0]
      have hp := (ha ▸ h.2.act : actOk (c :: below)).pop hc0
      cases hph : (a.co c).phase with
      | fresh fn =>
        have h1 := h.newObj (x := ⟨(a.co c).kind.flip, (a.co c).va, some ⟨c, .syn⟩⟩) (hOk_mk hc0)
        rw [h.nh]
        cases hk : (a.co c).kind <;> simp only [Inside.co, hph, phase, hk, func]
        · rw [hk] at h1
          have h2 := ((h1.setCo hc0 ⟨.pull, (a.co c).va, .body a.nh, (a.co c).val, (a.co c).err⟩).see (.enter c)).goto (.eval (fn a.nh))
          exact .next h2 trivial
        · rw [hk] at h1
          have h2 := (h1.setCo hc0 ⟨.push, (a.co c).va, .idle a.nh fn, (a.co c).val, (a.co c).err⟩).setActive hp
          refine .next h2 ?_
          show ctlOk below a.ctl
          rw [hx]; trivial
      | idle y fn =>
        simp only [Inside.co, hph, phase, func]
        exact .next (((h.setCo hc0 { a.co c with phase := .body y }).see (.enter c)).goto (.eval (fn y))) trivial
      | _ => simp only [Inside.co, hph, phase]; exact .stuck
  | cons f t =>
    rw [hst] at hf
    have ht : ∀ f ∈ t, frOk c f := fun f hm => hf f (List.mem_cons_of_mem _ hm)
    have h1 := h.setStack c (t := t) ht
    have hf0 := hf f List.mem_cons_self
    cases f <;> simp only [List.map, fr] <;> try exact .stuck
    case resumed r =>
      obtain ⟨k, sd⟩ := r
      simp only [ref]
      rw [h.co hf0]
      simp only [Inside.co]
      cases sd <;> cases (a.co k).err <;> first
        | exact .next (h1.goto (.res .unit)) trivial
        | exact .next (h1.goto (.raise (.user _))) trivial
    case creates k =>
      rw [h.co hf0]
      have hv := h.valid (r := ⟨k, .own⟩) hf0
      simp only [ref] at hv
      simp only [Inside.co]
      cases (a.co k).err with
      | some e =>
        refine (h.setStack c (t := .andThen (.raise (.user e)) :: t) ?_).kill ha k
        intro f hm
        rcases List.mem_cons.1 hm with rfl | hm
        · trivial
        · exact ht f hm
      | none =>
        dsimp only
        rw [h.nh]
        refine .ite2 (by rw [hv]) ?_ ?_
        · skip
          exact .next ((h1.newObj (x := ⟨(a.co k).kind, (a.co k).va, some ⟨k, .own⟩⟩) (hOk_mk hf0)).goto (.res (.handle a.nh))) trivial
        · refine (h.setStack c (t := .empty (a.co k).va :: t) ?_).kill ha k
          intro f hm
          rcases List.mem_cons.1 hm with rfl | hm
          · trivial
          · exact ht f hm

theorem R.pullFrom (h : R a a') {c : Nat} {below : List Nat} (ha : a.active = c :: below) (x : Nat) {post : List (Fr L V E)}
    (hp : ∀ f ∈ post, frOk c f) :
    OR (Coro.pullFrom a c below x post) (Coro.pullFrom a' (c+1) (below.map (· + 1) ++ [0]) (x+1) (post.map fr)) := by
  have hh := h.2.hs x
  unfold Coro.pullFrom
  rw [h.hs]
  cases hx : a.hs x with
  | none => exact .stuck
  | some hd =>
    obtain ⟨ty, va, cb⟩ := hd
    cases ty <;> cases cb <;> try exact .stuck
    rename_i r
    have hr := hh _ r hx rfl
    have h1 := h.setStack c (t := post ++ a.stack c) (by
      intro f hm
      rcases List.mem_append.1 hm with hm | hm
      · exact hp f hm
      · exact h.2.fr c f hm)
    have h2 := h1.switch (below := below) (ha ▸ h.2.act) hr
    rw [List.map_append, ← h.stack] at h2
    exact h2

theorem R.store (h : R a a') {k : Nat} (hk : k ≠ 0) (x : PushArg V E) :
    (Coro.store P a k x = none ∧ Coro.store (prog P l0) a' (k+1) x = none) ∨
    (∃ b b' w, Coro.store P a k x = some (b, w) ∧ Coro.store (prog P l0) a' (k+1) x = some (b', w) ∧ R b b' ∧ b.active = a.active ∧ b.stack = a.stack) := by
  unfold Coro.store
  rw [h.co hk]
  have h1 (v : V) := (h.setCo hk { a.co k with val := some v }).see (.pushed k v)
  cases hv : (a.co k).va <;> cases x <;> simp only [Inside.co, hv] <;> first
    | exact .inl ⟨trivial, trivial⟩
    | exact .inl ⟨rfl, rfl⟩
    | exact .inr ⟨_, _, _, rfl, rfl, h, rfl, rfl⟩
    | exact .inr ⟨_, _, _, rfl, rfl, by have := h1 (by assumption); simp only [Inside.co, hv, event] at this; exact this, rfl, rfl⟩

theorem R.pushTo (h : R a a') {c : Nat} {below : List Nat} (ha : a.active = c :: below) (y : Nat) (x : PushArg V E)
    {post : Option V → List (Fr L V E)} (hp : ∀ w, ∀ f ∈ post w, frOk c f) {post' : Option V → List (Fr (Lab L) V E)} (hpp : ∀ w, post' w = (post w).map fr) :
    OR (Coro.pushTo P a c below y x post) (Coro.pushTo (prog P l0) a' (c+1) (below.map (· + 1) ++ [0]) (y+1) x post') := by
  have hh := h.2.hs y
  unfold Coro.pushTo
  rw [h.hs]
  cases hx : a.hs y with
  | none => exact .stuck
  | some hd =>
    obtain ⟨ty, va, cb⟩ := hd
    cases ty <;> cases cb <;> try exact .stuck
    rename_i r
    have hr := hh _ r hx rfl
    simp only [Option.map, hdl]
    rcases h.store (P := P) (l0 := l0) hr x with ⟨h1, h2⟩ | ⟨b, b', w, h1, h2, hb, hba, hbs⟩
    · rw [h1]; simp only [ref]; rw [h2]; exact .stuck
    · rw [h1]
      have : Coro.store (prog P l0) a' (ref r).co x = some (b', w) := h2
      rw [this]
      have h3 := hb.setStack c (t := post w ++ b.stack c) (by
        intro f hm
        rcases List.mem_append.1 hm with hm | hm
        · exact hp w f hm
        · exact hb.2.fr c f hm)
      have h4 := h3.switch (below := below) (ha ▸ h.2.act) hr
      rw [List.map_append, ← hb.stack, ← hpp] at h4
      exact h4

theorem hOk_none {ty : Kind} {va : Var} : hOk (some ⟨ty, va, none⟩) := by
  intro hd r h1 h2
  cases h1; cases h2

theorem R.call (h : R a a') {c : Nat} {below : List Nat} (ha : a.active = c :: below) (op : Op L V E) :
    OR (Coro.call P a c below op) (Coro.call (prog P l0) a' (c+1) (below.map (· + 1) ++ [0]) (oper op)) := by
  cases op
  case mk kd va f fn =>
    cases f with
    | alloc e => exact .next (h.goto (.raise (.user e))) trivial
    | fnCopy e =>
      simp only [oper, Coro.call, h.nk]
      exact .next ((h.setNk (a.nk + 1) (by omega)).goto (.raise (.user e))) trivial
    | ok =>
      simp only [oper, Coro.call, h.nk]
      have hn := h.2.nk
      have h1 := (h.setCo hn { kind := kd, va := va, phase := .fresh fn }).push c (f := .creates a.nk) hn
      have h2 := ((h1.setActive (l := a.nk :: c :: below) (ha ▸ h.2.act.cons hn)).setNk (a.nk + 1) (by omega)).goto .back
      exact .next h2 trivial
  case resume x => exact h.pullFrom ha x (by simp)
  case push x y =>
    refine h.pushTo ha x y ?_ ?_
    · intro w f hm; cases w <;> simp at hm; subst hm; trivial
    · intro w; cases w <;> rfl
  case get x =>
    simp only [oper, Coro.call]
    rw [h.value]
    cases hv : Coro.value a c x with
    | none => exact .stuck
    | some p =>
      obtain ⟨k, v⟩ := p
      have hk := value_ne h.2 hv
      dsimp only [Option.map]
      rw [h.co hk]
      have hm : (prog P l0).mv = P.mv := rfl
      rw [hm]
      cases hva : (a.co k).va <;> simp only [Inside.co, hva, reduceCtorEq, if_true, if_false] <;> first
        | exact .next ((h.see (.got k v)).goto (.res (.val v))) trivial
        | exact .next (((h.setCo hk { kind := (a.co k).kind, va := .val, phase := (a.co k).phase, val := some (P.mv v), err := (a.co k).err }).see (.got k v)).goto (.res (.val v))) trivial
  case valid x =>
    simp only [oper, Coro.call]
    rw [h.objValid]
    cases Coro.objValid a c x with
    | none => exact .stuck
    | some b => exact .next (h.goto (.res (.bool b))) trivial
  case bang x =>
    simp only [oper, Coro.call]
    rw [h.objValid]
    cases Coro.objValid a c x with
    | none => exact .stuck
    | some b => exact .next (h.goto (.res (.bool !b))) trivial
  case moveCtor x =>
    simp only [oper, Coro.call]
    rw [h.hs]
    cases hx : a.hs x with
    | none => exact .stuck
    | some hd =>
      obtain ⟨ty, va, cb⟩ := hd
      dsimp only [Option.map]
      rw [show Coro.Ctl.res (.handle a'.nh) = Inside.ctl (L := L) (.res (.handle a.nh)) by rw [h.nh]; rfl]
      exact .next (((h.setHs x (v := some ⟨ty, va, none⟩) hOk_none).newObj (x := ⟨ty, va, cb⟩) (hx ▸ h.2.hs x)).goto (.res (.handle a.nh))) trivial
  case moveAssign d s =>
    simp only [oper, Coro.call]
    rw [h.hs, h.hs]
    have hdk := h.2.hs d
    have hsk := h.2.hs s
    cases hd : a.hs d with
    | none => exact .stuck
    | some x =>
      cases hs : a.hs s with
      | none => exact .stuck
      | some y =>
        obtain ⟨ty, va, cb⟩ := x
        obtain ⟨ty', va', cb'⟩ := y
        refine .ite (by rfl) (fun _ => ?_)
        have h1 : hOk (some ⟨ty, va, cb'⟩) := fun u r h1 h2 => by cases h1; exact hsk _ r hs h2
        have h2 : hOk (some ⟨ty', va', cb⟩) := fun u r h1 h2 => by cases h1; exact hdk _ r hd h2
        exact .next (((h.setHs d h1).setHs s h2).goto (.res .unit)) trivial
  case destroy x => exact h.destroyObj ha x
  case itBegin x =>
    simp only [oper, Coro.call]
    rw [h.hs, h.objValid]
    cases hx : a.hs x with
    | none => exact .stuck
    | some hd =>
      obtain ⟨ty, va, cb⟩ := hd
      cases Coro.objValid a c x with
      | none => exact .stuck
      | some b =>
        dsimp only [Option.map, hdl]
        split
        · exact .stuck
        · split
          · exact .next (h.goto (.res (.it (some x)))) trivial
          · exact .next (h.goto (.res (.it none))) trivial
  case itNext i =>
    cases i with
    | none => exact .stuck
    | some x => exact h.pullFrom ha x (post := [.iter x]) (by simp [frOk])
  case itDeref i =>
    cases i with
    | none => exact .stuck
    | some x =>
      simp only [oper, Coro.call, Option.map]
      rw [h.value]
      cases hv : Coro.value a c x with
      | none => exact .stuck
      | some p => exact .next ((h.see (.peeked p.1 p.2)).goto (.res (.val p.2))) trivial
  case itPut i y =>
    cases i with
    | none => exact .stuck
    | some x =>
      exact h.pushTo ha x y (post := fun _ => [.iter x]) (by simp [frOk]) (fun _ => rfl)

theorem R.eval (h : R a a') {c : Nat} {below : List Nat} (ha : a.active = c :: below) (l : L) :
    OR (Coro.evalStep P a c below l) (Coro.evalStep (prog P l0) a' (c+1) (below.map (· + 1) ++ [0]) (.inl l)) := by
  have hf := h.2.fr c
  unfold Coro.evalStep
  rw [h.stack, h.g]
  have hcode : (prog P l0).code (.inl l) a.g = act (P.code l a.g) := rfl
  rw [hcode]
  have ht {f : Fr L V E} {t : List (Fr L V E)} (hst : a.stack c = f :: t) : ∀ f ∈ t, frOk c f :=
    fun g hm => hf g (by rw [hst]; exact List.mem_cons_of_mem _ hm)
  cases P.code l a.g
  case tau g l => exact .next ((h.setG g).goto (.eval l)) trivial
  case newObj o l => exact .next (((h.push c (f := .obj o) trivial).see (.octor c o)).goto (.eval l)) trivial
  case guard x l => exact .next ((h.push c (f := .co x) trivial).goto (.eval l)) trivial
  case leave l =>
    cases hst : a.stack c with
    | nil => exact .stuck
    | cons f t =>
      cases f <;> simp only [act, List.map, fr] <;> try exact .stuck
      · exact .next (((h.setStack c (ht hst)).endObj c _).goto (.eval l)) trivial
      · refine (h.setStack c (t := .andThen (.eval l) :: t) ?_).destroyObj ha _
        intro f hm
        rcases List.mem_cons.1 hm with rfl | hm
        · trivial
        · exact ht hst f hm
  case try_ sw f l => exact .next ((h.push c (f := .handler sw f) trivial).goto (.eval l)) trivial
  case endTry l =>
    cases hst : a.stack c with
    | nil => exact .stuck
    | cons f t =>
      cases f <;> simp only [act, List.map, fr] <;> try exact .stuck
      exact .next ((h.setStack c (ht hst)).goto (.eval l)) trivial
  case call f l => exact .next ((h.push c (f := .caller l) trivial).goto (.eval f)) trivial
  case ret => exact .next (h.goto .ret) trivial
  case throw e => exact .next (h.goto (.raise (.user e))) trivial
  case api op k => exact (h.push c (f := .use k) trivial).call ha op

/-- one step of the program, and of the wrapped program -/
theorem R.step (h : R a a') (hc : ctlOk a.active a.ctl) : OR (Coro.step P a) (Coro.step (prog P l0) a') := by
  cases ha : a.active with
  | nil => exact absurd h.2.act (by rw [ha]; rintro ⟨t, ht, _⟩; simp at ht)
  | cons c below =>
    have ha' : a'.active = (c+1) :: (below.map (· + 1) ++ [0]) := by rw [h.1, sh_active, ha]; rfl
    unfold Coro.step
    rw [ha, ha', h.ctl]
    cases hx : a.ctl with
    | eval l => exact h.eval ha l
    | res r =>
      obtain ⟨r', hr, _⟩ := ctl_res (L := L) (E := E) r
      dsimp only
      rw [hr]
      exact h.res ha hr
    | raise x => exact h.raise ha hx hc
    | ret => exact h.ret ha hx
    | back => exact h.back ha hx

/-! ## start and end -/

theorem nz_init : NZ (Coro.init l0 g0 : Coro.St L G V E) :=
  ⟨⟨[], rfl, by simp⟩, by simp [Coro.init], rfl, fun _ => by intro _ _ h; simp [Coro.init] at h, fun _ _ h => by simp [Coro.init] at h⟩

theorem start : Coro.run (prog P l0) 2 (Coro.init (.inr .start) g0) = .next (sh (Coro.init l0 g0)) := by
  simp only [Coro.run, Coro.step, Coro.init, Coro.evalStep, prog, Coro.call, Coro.St.push, Coro.St.setStack, Coro.St.goto, Coro.St.setCo,
    Coro.backStep, Verif.upd, Coro.St.newObj, Coro.St.see, sh]
  simp only [if_true, Nat.one_ne_zero, if_false]
  congr 2
  · funext i
    match i with
    | 0 => rfl
    | i+1 => simp [stk, Verif.upd]
  · funext i
    match i with
    | 0 => rfl
    | 1 => rfl
    | i+2 => simp [cos, co, phase, Verif.upd]
  · funext i
    match i with
    | 0 => rfl
    | i+1 => simp [hds, Verif.upd]

/-- the stacks when the function of `main` is at its end -/
def stkEnd (f : Nat → List (Fr L V E)) : Nat → List (Fr (Lab L) V E)
  | 0 => mainStack
  | 1 => []
  | k+2 => (f (k+1)).map fr

theorem sh_end (hs : a.stack 0 = []) : sh a = { sh a with stack := stkEnd a.stack } := by
  have : (sh a).stack = stkEnd a.stack := by
    funext i
    match i with
    | 0 => rfl
    | 1 => show (a.stack 0).map fr = []; rw [hs]; rfl
    | i+2 => rfl
  rw [← this]

theorem end_done (hs : a.stack 0 = []) :
    ∃ f, Coro.run (prog P l0) 7 (endSt a none) = .done f ∧ f.g = a.g ∧ f.obs = .fin 1 none :: obs a.obs := by
  unfold endSt
  rw [sh_end hs]
  exact ⟨_, rfl, rfl, rfl⟩

theorem end_uncaught (e : E) (hs : a.stack 0 = []) :
    ∃ f, Coro.run (prog P l0) 6 (endSt a (some e)) = .uncaught f ∧ f.g = a.g ∧ f.obs = .exc 0 e :: .fin 1 (some e) :: obs a.obs ∧
      f.ctl = .raise (.user e) := by
  unfold endSt
  rw [sh_end hs]
  exact ⟨_, rfl, rfl, rfl, rfl⟩

end Verif.Inside
