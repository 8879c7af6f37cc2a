import Verif.SpecErase
import Verif.PropsRefine
import Verif.Value
import Verif.Back
import Verif.CoroRun

/-! # The specification machine simulates itself without values.  Proof material. -/
namespace Verif.Coro
variable {L G V E : Type}
variable {P : Prog L G V E} {l0 : L} {g0 : G} {a b : St L G V E} {a' : St L G V E}

/-- a frame without values -/
def eF : Fr L V E → Fr L V E
  | .empty _ => .empty .void
  | f => f

def plainF : Fr L V E → Prop
  | .give _ | .iter _ => False
  | _ => True

inductive SR : List (Fr L V E) → List (Fr L V E) → Prop
  | nil : SR [] []
  | give {w : V} {k : Res V → L} {t t' : List (Fr L V E)} : SR t t' → SR (.give w :: .use k :: t) (.use (fun _ => k (.val w)) :: t')
  | cons {f : Fr L V E} {t t' : List (Fr L V E)} : plainF f → SR t t' → SR (f :: t) (eF f :: t')

def eCo (x : Co L V E) : Co L V E := { x with va := .void, val := none }
def eH (x : Handle) : Handle := { x with va := .void }

def eSt (a : St L G V E) (st : Nat → List (Fr L V E)) : St L G V E where
  active := a.active
  ctl := a.ctl
  g := a.g
  stack := st
  co := fun k => eCo (a.co k)
  hs := fun h => (a.hs h).map eH
  nh := a.nh
  nk := a.nk
  obs := a.obs.filter notPushed

def R (a a' : St L G V E) : Prop := ∃ st, (∀ i, SR (a.stack i) (st i)) ∧ a' = eSt a st

inductive OR : Out (St L G V E) → Out (St L G V E) → Prop
  | next {b b' : St L G V E} : R b b' → OR (.next b) (.next b')
  | done {b b' : St L G V E} : R b b' → OR (.done b) (.done b')
  | uncaught {b b' : St L G V E} : R b b' → OR (.uncaught b) (.uncaught b')
  | stuck {o : Out (St L G V E)} : OR .stuck o

theorem SR.upd {st st' : Nat → List (Fr L V E)} (h : ∀ i, SR (st i) (st' i)) {c : Nat} {t t' : List (Fr L V E)} (ht : SR t t') :
    ∀ i, SR (upd st c t i) (upd st' c t' i) := by
  intro i; simp only [Verif.upd]; split
  · exact ht
  · exact h i

theorem R.mk' {st : Nat → List (Fr L V E)} (h : ∀ i, SR (a.stack i) (st i)) (h1 : a'.active = a.active) (h2 : a'.ctl = a.ctl) (h3 : a'.g = a.g)
    (h4 : a'.stack = st) (h5 : ∀ k, a'.co k = eCo (a.co k)) (h6 : ∀ k, a'.hs k = (a.hs k).map eH) (h7 : a'.nh = a.nh) (h8 : a'.nk = a.nk)
    (h9 : a'.obs = a.obs.filter notPushed) : R a a' := by
  refine ⟨st, h, ?_⟩
  cases a'; simp only [eSt, St.mk.injEq]
  simp only at h1 h2 h3 h4 h5 h6 h7 h8 h9
  exact ⟨h1, h2, h3, h4, funext h5, funext h6, h7, h8, h9⟩

theorem R.active (h : R a a') : a'.active = a.active := by obtain ⟨_, _, rfl⟩ := h; rfl
theorem R.ctl (h : R a a') : a'.ctl = a.ctl := by obtain ⟨_, _, rfl⟩ := h; rfl
theorem R.g (h : R a a') : a'.g = a.g := by obtain ⟨_, _, rfl⟩ := h; rfl
theorem R.sr (h : R a a') (i : Nat) : SR (a.stack i) (a'.stack i) := by obtain ⟨_, h, rfl⟩ := h; exact h i
theorem R.co (h : R a a') (k : Nat) : a'.co k = eCo (a.co k) := by obtain ⟨_, _, rfl⟩ := h; rfl
theorem R.hs (h : R a a') (k : Nat) : a'.hs k = (a.hs k).map eH := by obtain ⟨_, _, rfl⟩ := h; rfl
theorem R.nh (h : R a a') : a'.nh = a.nh := by obtain ⟨_, _, rfl⟩ := h; rfl
theorem R.nk (h : R a a') : a'.nk = a.nk := by obtain ⟨_, _, rfl⟩ := h; rfl
theorem R.obs (h : R a a') : a'.obs = a.obs.filter notPushed := by obtain ⟨_, _, rfl⟩ := h; rfl

theorem R.goto (h : R a a') (x : Ctl L V E) : R (a.goto x) (a'.goto x) := by
  obtain ⟨st, h, rfl⟩ := h; exact ⟨st, h, rfl⟩
theorem R.goto' (h : R a a') {x x' : Ctl L V E} (hx : x' = x) : R (a.goto x) (a'.goto x') := hx ▸ h.goto x
theorem R.setStack (h : R a a') (c : Nat) {t t' : List (Fr L V E)} (ht : SR t t') : R (a.setStack c t) (a'.setStack c t') := by
  obtain ⟨st, h, rfl⟩ := h; exact ⟨Verif.upd st c t', SR.upd h ht, rfl⟩
theorem R.push (h : R a a') (c : Nat) {f : Fr L V E} (hf : plainF f) : R (a.push c f) (a'.push c (eF f)) :=
  h.setStack c (.cons hf (h.sr c))
theorem R.setCo (h : R a a') (k : Nat) {x x' : Co L V E} (hx : x' = eCo x) : R (a.setCo k x) (a'.setCo k x') := by
  subst hx
  refine R.mk' (st := a'.stack) h.sr h.active h.ctl h.g rfl (fun j => ?_) h.hs h.nh h.nk h.obs
  show Verif.upd a'.co k (eCo x) j = eCo (Verif.upd a.co k x j)
  simp only [Verif.upd]; split
  · rfl
  · exact h.co j
theorem R.see (h : R a a') {e : Ev V E} (he : notPushed e = true) : R (a.see e) (a'.see e) :=
  R.mk' (st := a'.stack) h.sr h.active h.ctl h.g rfl h.co h.hs h.nh h.nk (by
    show e :: a'.obs = (e :: a.obs).filter notPushed
    rw [List.filter_cons_of_pos (by exact he), h.obs])
theorem R.newObj (h : R a a') {x x' : Handle} (hx : x' = eH x) : R (a.newObj x) (a'.newObj x') := by
  subst hx
  refine R.mk' (st := a'.stack) h.sr h.active h.ctl h.g rfl h.co (fun j => ?_) (by show a'.nh + 1 = _; rw [h.nh]; rfl) h.nk h.obs
  show Verif.upd a'.hs a'.nh (some (eH x)) j = (Verif.upd a.hs a.nh (some x) j).map eH
  rw [h.nh]
  simp only [Verif.upd]; split
  · rfl
  · exact h.hs j
theorem R.setHs (h : R a a') (x : Nat) {v v' : Option Handle} (hv : v' = v.map eH) :
    R { a with hs := Verif.upd a.hs x v } { a' with hs := Verif.upd a'.hs x v' } := by
  subst hv
  refine R.mk' (st := a'.stack) h.sr h.active h.ctl h.g rfl h.co (fun j => ?_) h.nh h.nk h.obs
  show Verif.upd a'.hs x (v.map eH) j = (Verif.upd a.hs x v j).map eH
  simp only [Verif.upd]; split
  · rfl
  · exact h.hs j
theorem R.setG (h : R a a') (g : G) : R { a with g := g } { a' with g := g } := by
  obtain ⟨st, h, rfl⟩ := h; exact ⟨st, h, rfl⟩
theorem R.setActive (h : R a a') (l : List Nat) : R { a with active := l } { a' with active := l } := by
  obtain ⟨st, h, rfl⟩ := h; exact ⟨st, h, rfl⟩
theorem R.setNk (h : R a a') (n : Nat) : R { a with nk := n } { a' with nk := n } := by
  obtain ⟨st, h, rfl⟩ := h; exact ⟨st, h, rfl⟩
theorem R.endObj (h : R a a') (c o : Nat) : R (a.endObj P c o) (a'.endObj (dropValues P) c o) := by
  have h1 : R { a with g := P.dtor o a.g } { a' with g := P.dtor o a'.g } := by rw [h.g]; exact h.setG _
  exact h1.see rfl

/-! ## functions -/

theorem R.sleeps (h : R a a') (k : Nat) : Coro.sleeps a' k = Coro.sleeps a k := by
  unfold Coro.sleeps; rw [h.active, h.co]; rfl

theorem R.switch (h : R a a') (c : Nat) (below : List Nat) (r : CbRef) : OR (Coro.switch a c below r) (Coro.switch a' c below r) := by
  have h1 := (h.push c (f := .resumed r) trivial).goto .back
  unfold Coro.switch
  dsimp only
  cases r.side with
  | own =>
    dsimp only
    have := h1.sleeps r.co
    simp only [eF] at this
    rw [this]
    split
    · exact .next (h1.setActive _)
    · exact .stuck
  | syn =>
    dsimp only
    split
    · exact .next (h1.setActive _)
    · exact .stuck

theorem R.kill (h : R a a') (c : Nat) (below : List Nat) (k : Nat) : OR (Coro.kill a c below k) (Coro.kill a' c below k) := by
  unfold Coro.kill
  rw [h.active]
  split
  · exact .stuck
  · exact .next ((h.setActive _).goto _)

theorem R.destroyObj (h : R a a') (c : Nat) (below : List Nat) (x : Nat) : OR (Coro.destroyObj a c below x) (Coro.destroyObj a' c below x) := by
  unfold Coro.destroyObj
  rw [h.hs]
  cases hx : a.hs x with
  | none => exact .stuck
  | some hd =>
    have h1 := h.setHs x (v := none) (v' := none) rfl
    dsimp only [Option.map, eH]
    split
    · exact h1.kill ..
    · split
      · exact .next (h1.goto _)
      · exact .stuck
    · exact .next (h1.goto _)

theorem R.finish (h : R a a') (c : Nat) (below : List Nat) (x : Option E) : OR (Coro.finish a c below x) (Coro.finish a' c below x) := by
  unfold Coro.finish
  rw [h.co]
  dsimp only [eCo]
  split
  · exact .next (R.see (R.goto (R.setActive (R.setCo h c rfl) _) _) rfl)
  · exact .stuck

theorem R.res (h : R a a') (c : Nat) (below : List Nat) (r : Res V) (hg : ∀ w t, a.stack c ≠ .give w :: t) :
    OR (Coro.resStep a c below r) (Coro.resStep a' c below r) := by
  have hs := h.sr c
  unfold Coro.resStep
  generalize he : a.stack c = st at hs hg
  generalize he' : a'.stack c = st' at hs
  cases hs with
  | nil =>
    rw [h.co]
    dsimp only [eCo]
    split
    · exact .next ((((h.setCo c (x := { a.co c with phase := .gone }) rfl)).setActive _).goto _)
    · exact .stuck
  | give _ => exact absurd rfl (hg _ _)
  | cons hf ht =>
    rename_i f t t'
    cases f <;> simp only [eF, plainF] at hf ⊢ <;> try exact .stuck
    · exact .next ((h.setStack c ht).goto _)
    · exact .next ((h.setStack c ht).goto _)
    · rw [h.nh]
      exact .next (((h.setStack c ht).newObj rfl).goto _)

theorem R.raise (h : R a a') (c : Nat) (below : List Nat) (x : Exn E) (hg : ∀ w t, a.stack c ≠ .give w :: t) :
    OR (Coro.raiseStep P a c below x) (Coro.raiseStep (dropValues P) a' c below x) := by
  have hs := h.sr c
  unfold Coro.raiseStep
  generalize he : a.stack c = st at hs hg
  generalize he' : a'.stack c = st' at hs
  cases hs with
  | nil =>
    cases x with
    | user e =>
      dsimp only
      split
      · exact .uncaught h
      · exact h.finish ..
    | forced =>
      dsimp only
      rw [h.co]
      dsimp only [eCo]
      split <;> first | exact .stuck | exact R.destroyObj (h.setCo c (x := { a.co c with phase := .leaving }) rfl) ..
  | give _ => exact absurd rfl (hg _ _)
  | cons hf ht =>
    rename_i f t t'
    have h1 := h.setStack c ht
    cases f <;> simp only [eF, plainF] at hf ⊢
    case obj => exact .next (h1.endObj ..)
    case co => exact R.destroyObj (h.setStack c (.cons (f := .andThen (.raise x)) trivial ht)) ..
    case handler =>
      cases x with
      | user e => exact .next (h1.goto _)
      | forced =>
        dsimp only
        split
        · exact .stuck
        · exact .next h1
    case use => cases x <;> first | exact .next h1 | exact .next (h1.see rfl)
    all_goals first | exact .next h1 | exact .stuck | (cases x <;> first | exact .next h1 | exact .stuck)

theorem R.ret (h : R a a') (c : Nat) (below : List Nat) :
    OR (Coro.retStep P a c below) (Coro.retStep (dropValues P) a' c below) := by
  have hs := h.sr c
  unfold Coro.retStep
  generalize he : a.stack c = st at hs
  generalize he' : a'.stack c = st' at hs
  cases hs with
  | nil =>
    dsimp only
    split
    · exact .done h
    · exact h.finish ..
  | give _ => exact .stuck
  | cons hf ht =>
    rename_i f t t'
    have h1 := h.setStack c ht
    cases f <;> simp only [eF, plainF] at hf ⊢
    case obj => exact .next (h1.endObj ..)
    case co => exact R.destroyObj (h.setStack c (.cons (f := .andThen .ret) trivial ht)) ..
    case caller => exact .next (h1.goto _)
    all_goals first | exact .next h1 | exact .stuck

theorem R.back (h : R a a') (c : Nat) (below : List Nat)
    (hv : ∀ k t, a.stack c = .creates k :: t → (a.co k).err = none → (a.co k).kind = .pull → valid a ⟨k, .own⟩ = valid a' ⟨k, .own⟩) :
    OR (Coro.backStep a c below) (Coro.backStep a' c below) := by
  have hs := h.sr c
  unfold Coro.backStep
  generalize he : a.stack c = st at hs hv
  generalize he' : a'.stack c = st' at hs
  cases hs with
  | nil =>
    dsimp only
    rw [h.co]
    dsimp only [eCo]
    split
    · rename_i fn hph
      have h1 := h.newObj (x := ⟨(a.co c).kind.flip, (a.co c).va, some ⟨c, .syn⟩⟩) rfl
      split
      · rw [h.nh]
        exact .next (R.goto (R.see (R.setCo h1 c rfl) rfl) _)
      · rw [h.nh]
        exact .next (R.setActive (R.setCo h1 c rfl) _)
    · exact .next (R.goto (R.see (R.setCo h c rfl) rfl) _)
    · exact .stuck
  | give _ => exact .stuck
  | cons hf ht =>
    rename_i f t t'
    have h1 := h.setStack c ht
    cases f <;> simp only [eF, plainF] at hf ⊢ <;> try exact .stuck
    · rename_i r
      rw [h.co]
      dsimp only [eCo]
      split
      · exact .next (h1.goto _)
      · exact .next (h1.goto _)
    · rename_i k
      rw [h.co]
      dsimp only [eCo]
      split
      · exact R.kill (h.setStack c (.cons (f := .andThen _) trivial ht)) ..
      · rename_i herr
        by_cases hk : (a.co k).kind = .push
        · simp only [hk, true_or, if_true]
          rw [h.nh]
          exact .next (R.goto (R.newObj h1 rfl) _)
        · have hk' : (a.co k).kind = .pull := by cases hq : (a.co k).kind <;> simp_all
          have hvv := hv k t rfl herr hk'
          rw [hvv]
          have hkn : ((a.co k).kind = .push) = False := eq_false hk
          simp only [hkn, false_or]
          cases hq : valid a' ⟨k, .own⟩ with
          | true =>
            simp only [if_true]
            rw [h.nh]
            exact .next (R.goto (R.newObj h1 rfl) _)
          | false =>
            simp only [Bool.false_eq_true, if_false]
            exact R.kill (h.setStack c (.cons (f := .empty (a.co k).va) trivial ht)) ..

def eOp : Op L V E → Op L V E
  | .mk kd _ f fn => .mk kd .void f fn
  | .push h _ => .push h .unit
  | op => op

theorem R.pullFrom (h : R a a') (c : Nat) (below : List Nat) (x : Nat) :
    OR (Coro.pullFrom a c below x []) (Coro.pullFrom a' c below x []) := by
  unfold Coro.pullFrom
  rw [h.hs]
  cases hx : a.hs x with
  | none => exact .stuck
  | some hd =>
    obtain ⟨ty, va, cb⟩ := hd
    cases ty <;> cases cb <;> first | exact .stuck | exact R.switch (h.setStack c (h.sr c)) ..

theorem R.call (h : R a a') (c : Nat) (below : List Nat) {op : Op L V E} (ho : voidHas op) (hp : ∀ x y, op ≠ .push x y)
    (hv : ∀ x b, objValid a c x = some b → objValid a' c x = some b) :
    OR (Coro.call P a c below op) (Coro.call (dropValues P) a' c below (eOp op)) := by
  cases op <;> simp only [voidHas] at ho
  case mk kd va f fn =>
    cases f with
    | alloc e => exact .next (h.goto _)
    | fnCopy e =>
      simp only [Coro.call, eOp]
      rw [h.nk]
      exact .next ((h.setNk _).goto _)
    | ok =>
      simp only [Coro.call, eOp]
      rw [h.nk]
      exact .next (R.goto (R.setNk (R.setActive (R.push (R.setCo h a.nk rfl) c (f := .creates a.nk) trivial) _) _) _)
  case resume x => exact h.pullFrom ..
  case push x y => exact absurd rfl (hp x y)
  case valid x =>
    simp only [Coro.call, eOp]
    cases hx : objValid a c x with
    | none => exact .stuck
    | some b => rw [hv x b hx]; exact .next (h.goto _)
  case bang x =>
    simp only [Coro.call, eOp]
    cases hx : objValid a c x with
    | none => exact .stuck
    | some b => rw [hv x b hx]; exact .next (h.goto _)
  case moveCtor x =>
    simp only [Coro.call, eOp]
    rw [h.hs]
    cases hx : a.hs x with
    | none => exact .stuck
    | some hd =>
      dsimp only [Option.map]
      exact .next (R.goto' (R.newObj (R.setHs h x (v := some { hd with cb := none }) rfl) rfl) (by rw [h.nh]))
  case moveAssign d x =>
    simp only [Coro.call, eOp]
    rw [h.hs, h.hs]
    cases hd : a.hs d with
    | none => exact .stuck
    | some yd =>
      cases hx : a.hs x with
      | none => exact .stuck
      | some yx =>
        dsimp only [Option.map, eH]
        by_cases hq : yd.ty = yx.ty ∧ yd.va = yx.va
        · rw [if_pos hq, if_pos ⟨hq.1, rfl⟩]
          exact .next (R.goto (R.setHs (R.setHs h d (v := some { yd with cb := yx.cb }) rfl) x (v := some { yx with cb := yd.cb }) rfl) _)
        · rw [if_neg hq]; exact .stuck
  case destroy x => exact h.destroyObj ..

theorem R.setVal (h : R a a') (k : Nat) (v : V) : R ((a.setCo k { a.co k with val := some v }).see (.pushed k v)) a' := by
  refine R.mk' (st := a'.stack) h.sr h.active h.ctl h.g rfl (fun j => ?_) h.hs h.nh h.nk ?_
  · show a'.co j = eCo (Verif.upd a.co k _ j)
    rw [h.co]
    simp only [Verif.upd]; split
    · rename_i hj; subst hj; rfl
    · rfl
  · show a'.obs = List.filter notPushed (.pushed k v :: a.obs)
    rw [List.filter_cons_of_neg (by simp [notPushed]), h.obs]

/-- continuation after a push without value -/
def eK (P : Prog L G V E) (x : PushArg V E) (k : Res V → L) : Res V → L :=
  match x with
  | .unit => k
  | x => fun _ => k (pushLeaves P x)

theorem R.pushOp (h : R a a') (c : Nat) (below : List Nat) (k : Res V → L) (x : Nat) (y : PushArg V E)
    (hva : ∀ hd, a.hs x = some hd → hd.va = .void → y = .unit)
    (hok : ∀ hd r, a.hs x = some hd → hd.cb = some r → (a.co r.co).va = hd.va) :
    OR (Coro.call P (a.push c (.use k)) c below (.push x y)) (Coro.call (dropValues P) (a'.push c (.use (eK P y k))) c below (.push x .unit)) := by
  simp only [Coro.call, Coro.pushTo]
  rw [show (a'.push c (.use (eK P y k))).hs x = (a.hs x).map eH from h.hs x, show (a.push c (.use k)).hs x = a.hs x from rfl]
  cases hx : a.hs x with
  | none => exact .stuck
  | some hd =>
    obtain ⟨ty, va, cb⟩ := hd
    have hva' := hva _ hx
    cases ty
    · exact .stuck
    cases cb with
    | none => exact .stuck
    | some r =>
      have hcv : (a.co r.co).va = va := hok _ r hx rfl
      dsimp only [Option.map, eH]
      have e1 : Coro.store (dropValues P) (a'.push c (.use (eK P y k))) r.co .unit = some (a'.push c (.use (eK P y k)), none) := by
        unfold Coro.store
        rw [show (a'.push c (.use (eK P y k))).co r.co = eCo (a.co r.co) from h.co _]
        rfl
      rw [e1]
      dsimp only
      have hst : ∀ v w : V, Coro.store P (a.push c (.use k)) r.co y =
            some (((a.push c (.use k)).setCo r.co { (a.push c (.use k)).co r.co with val := some v }).see (.pushed r.co v), some w) →
          pushLeaves P y = .val w → y ≠ .unit →
          OR (match Coro.store P (a.push c (.use k)) r.co y with
            | some (b, w) => Coro.switch (b.setStack c (w.toList.map .give ++ b.stack c)) c below r
            | none => .stuck) (Coro.switch ((a'.push c (.use (eK P y k))).setStack c ([] ++ (a'.push c (.use (eK P y k))).stack c)) c below r) := by
        intro v w e hl hy
        rw [e]
        dsimp only
        have hk : eK P y k = fun _ => k (.val w) := by
          cases y <;> first | exact absurd rfl hy | (show (fun _ => k (pushLeaves P _)) = _; rw [hl])
        rw [hk]
        refine R.switch ?_ ..
        obtain ⟨st, hsr, rfl⟩ := h.setVal r.co v
        refine ⟨Verif.upd (Verif.upd st c (.use (fun _ => k (.val w)) :: st c)) c (.use (fun _ => k (.val w)) :: st c), ?_, ?_⟩
        · intro i
          have hi := hsr i
          simp only [St.setStack, St.push, St.see, St.setCo, Verif.upd, Option.toList, List.map, List.cons_append, List.nil_append] at hi ⊢
          by_cases hic : i = c
          · subst hic; simp only [if_true]; exact .give hi
          · simp only [if_neg hic]; exact hi
        · simp only [St.setStack, St.push, eSt, Verif.upd_at, List.nil_append]
          rfl
      have hst0 : y = .unit → va = .void →
          OR (match Coro.store P (a.push c (.use k)) r.co y with
            | some (b, w) => Coro.switch (b.setStack c (w.toList.map .give ++ b.stack c)) c below r
            | none => .stuck) (Coro.switch ((a'.push c (.use (eK P y k))).setStack c ([] ++ (a'.push c (.use (eK P y k))).stack c)) c below r) := by
        rintro rfl hv0
        have e : Coro.store P (a.push c (.use k)) r.co .unit = some (a.push c (.use k), none) := by
          unfold Coro.store
          rw [show ((a.push c (.use k)).co r.co).va = .void from hcv.trans hv0]
        rw [e]
        have h1 := h.push c (f := .use k) trivial
        exact R.switch (h1.setStack c (h1.sr c)) ..
      cases hv : va with
      | void => exact hst0 (hva' hv) hv
      | val =>
        have hcv' : ((a.push c (.use k)).co r.co).va = .val := hcv.trans hv
        cases y with
        | copy v => exact hst v v (by unfold Coro.store; rw [hcv']) rfl nofun
        | move v => exact hst v (P.mv v) (by unfold Coro.store; rw [hcv']) rfl nofun
        | unit => simp only [Coro.store, hcv']; exact .stuck
        | alias => simp only [Coro.store]; exact .stuck
        | faulty => simp only [Coro.store]; exact .stuck
      | ref =>
        have hcv' : ((a.push c (.use k)).co r.co).va = .ref := hcv.trans hv
        cases y with
        | copy v => exact hst v v (by unfold Coro.store; rw [hcv']) rfl nofun
        | move v => simp only [Coro.store, hcv']; exact .stuck
        | unit => simp only [Coro.store, hcv']; exact .stuck
        | alias => simp only [Coro.store]; exact .stuck
        | faulty => simp only [Coro.store]; exact .stuck

theorem R.eval (h : R a a') (c : Nat) (below : List Nat) (l : L)
    (ho : ∀ op k, P.code l a.g = .api op k → voidHas op ∧ ∀ x y hd, op = .push x y → a.hs x = some hd → hd.va = .void → y = .unit)
    (hok : ∀ x hd r, a.hs x = some hd → hd.cb = some r → (a.co r.co).va = hd.va)
    (hv : ∀ x b, objValid a c x = some b → objValid a' c x = some b) :
    OR (Coro.evalStep P a c below l) (Coro.evalStep (dropValues P) a' c below l) := by
  have hs := h.sr c
  unfold Coro.evalStep
  have hcode : ∀ x, P.code l a.g = x → (∀ op k, x ≠ .api op k) → (dropValues P).code l a'.g = x := by
    intro x hx hn
    show (match P.code l a'.g with | .api (.mk kd _ f fn) k => _ | .api (.push h .unit) k => _ | .api (.push h x) k => _ | a => a) = x
    rw [h.g, hx]
    split <;> first | rfl | exact absurd rfl (hn _ _)
  cases hl : P.code l a.g
  case api op k =>
    obtain ⟨h1, h2⟩ := ho op k hl
    have hcall := h.push c (f := .use k) trivial
    have hd : ∀ x y, op = .push x y → (dropValues P).code l a'.g = .api (.push x .unit) (eK P y k) := by
      rintro x y rfl
      show (match P.code l a'.g with | .api (.mk kd _ f fn) k => _ | .api (.push h .unit) k => _ | .api (.push h x) k => _ | a => a) = _
      rw [h.g, hl]
      cases y <;> rfl
    have hd' : (∀ x y, op ≠ .push x y) → (dropValues P).code l a'.g = .api (eOp op) k := by
      intro hn
      show (match P.code l a'.g with | .api (.mk kd _ f fn) k => _ | .api (.push h .unit) k => _ | .api (.push h x) k => _ | a => a) = _
      rw [h.g, hl]
      cases op <;> first | rfl | exact absurd rfl (hn _ _)
    by_cases hp : ∃ x y, op = .push x y
    · obtain ⟨x, y, rfl⟩ := hp
      rw [hd x y rfl]
      exact h.pushOp c below k x y (fun hd hx => h2 x y hd rfl hx) (hok x)
    · have hp' : ∀ x y, op ≠ .push x y := fun x y e => hp ⟨x, y, e⟩
      rw [hd' hp']
      exact R.call hcall c below h1 hp' hv
  case tau g l' => rw [hcode _ hl nofun]; exact .next ((h.setG g).goto _)
  case newObj o l' => rw [hcode _ hl nofun]; exact .next (R.goto (R.see (R.push h c (f := .obj o) trivial) rfl) _)
  case guard x l' => rw [hcode _ hl nofun]; exact .next (R.goto (R.push h c (f := .co x) trivial) _)
  case leave l' =>
    rw [hcode _ hl nofun]
    generalize he : a.stack c = st at hs
    generalize he' : a'.stack c = st' at hs
    cases hs with
    | nil => exact .stuck
    | give _ => exact .stuck
    | cons hf ht =>
      rename_i f t t'
      cases f <;> simp only [eF, plainF] at hf ⊢ <;> try exact .stuck
      · exact .next (R.goto (R.endObj (h.setStack c ht) ..) _)
      · exact R.destroyObj (h.setStack c (.cons (f := .andThen (.eval l')) trivial ht)) ..
  case try_ sw f l' => rw [hcode _ hl nofun]; exact .next (R.goto (R.push h c (f := .handler sw f) trivial) _)
  case endTry l' =>
    rw [hcode _ hl nofun]
    generalize he : a.stack c = st at hs
    generalize he' : a'.stack c = st' at hs
    cases hs with
    | nil => exact .stuck
    | give _ => exact .stuck
    | cons hf ht =>
      rename_i f t t'
      cases f <;> simp only [eF, plainF] at hf ⊢ <;> first | exact .stuck | exact .next ((h.setStack c ht).goto _)
  case call f l' => rw [hcode _ hl nofun]; exact .next (R.goto (R.push h c (f := .caller l') trivial) _)
  case ret => rw [hcode _ hl nofun]; exact .next (h.goto _)
  case throw e => rw [hcode _ hl nofun]; exact .next (h.goto _)

/-! ## facts from the library -/

variable {s : Verif.St L G V E}

theorem valid_gen {r : CbRef} (h : R a a') (hv : (r.side = .own ∧ (a.co r.co).phase.isEnded = true) ∨ valid a r = true) : valid a r = valid a' r := by
  have h' : valid a' r = !(r.side == .own && (a.co r.co).phase.isEnded) := by
    unfold valid; rw [h.co]; simp [eCo]
  rw [h']
  rcases hv with ⟨h1, h2⟩ | h1
  · simp [valid, h1, h2]
  · rw [h1]
    unfold valid at h1
    simp only [Bool.and_eq_true] at h1
    exact h1.1.symm

theorem R.objValid (h : R a a') (hs : Sim P l0 g0 s a) {l : L} (hl : a.ctl = .eval l) {c : Nat} {below : List Nat} (hc : a.active = c :: below)
    (x : Nat) (b : Bool) (hb : Coro.objValid a c x = some b) : Coro.objValid a' c x = some b := by
  obtain ⟨hk, _, rest, co, d, ok, rfl⟩ := hs
  have hcc : s.cur = c := by
    have : s.cur :: rest = c :: below := hc
    simp only [List.cons.injEq] at this; exact this.1
  subst hcc
  have hr := hk.reach
  have hi := inv_reach hr
  have hctl : s.ctl = .eval l := by
    have : absCtl s.ctl (s.frames s.cur) = .eval l := hl
    cases hx : s.ctl <;> rw [hx] at this <;> simp [absCtl] at this
    · rw [this]
    · split at this <;> cases this
  have hu : UserRuns s := ⟨l, hctl⟩
  unfold Coro.objValid at hb ⊢
  rw [h.hs]
  have hhs : (absSt s rest co).hs x = s.hs x := rfl
  rw [hhs] at hb ⊢
  cases hx : s.hs x with
  | none => rw [hx] at hb; cases hb
  | some hd =>
    rw [hx] at hb
    obtain ⟨ty, va, cb⟩ := hd
    cases cb with
    | none => exact hb
    | some r =>
      simp only [Option.map, eH] at hb ⊢
      by_cases hq : r.side = .own ∨ r.co = s.cur
      · rw [if_pos hq] at hb ⊢
        rw [← hb]
        have hrf : Refers s x ty (some r) := ⟨_, hx, rfl, rfl⟩
        rw [valid_gen h]
        obtain ⟨k, sd⟩ := r
        cases sd with
        | own =>
          have hal := own_alive hr hrf
          by_cases hf : (s.base k).isFinal = true
          · left; exact ⟨rfl, by show (co k).phase.isEnded = true; rw [ok.phase, absPhase_ended]; exact hf⟩
          · right
            rw [← ok.valid d hi hal (fun _ => hi.notFresh (by rw [hctl]; nofun) k), valid_own hr hu hrf]
            have := d.nFin0 hi (jinv_reach hr) hal (by simpa using hf)
            simp [this]
        | syn =>
          right
          have hk' : k = s.cur := hq.resolve_left nofun
          subst hk'
          have h0 := refers_ne0 hr hrf
          have hal := syn_alive hr hu rfl h0
          rw [← ok.valid d hi hal (fun e => by cases e)]
          exact Verif.valid_syn hr hal (entered_of_user hr hu h0).1
      · rw [if_neg hq] at hb; cases hb

theorem R.ctorValid (h : R a a') (hs : Sim P l0 g0 s a) (hl : a.ctl = .back) {c : Nat} {below : List Nat} (hc : a.active = c :: below)
    (k : Nat) (t : List (Fr L V E)) (hst : a.stack c = .creates k :: t) (hkd : (a.co k).kind = .pull) :
    valid a ⟨k, .own⟩ = valid a' ⟨k, .own⟩ := by
  refine valid_gen h ?_
  obtain ⟨hk, _, rest, co, d, ok, rfl⟩ := hs
  have hcc : s.cur = c := by
    have : s.cur :: rest = c :: below := hc
    simp only [List.cons.injEq] at this; exact this.1
  subst hcc
  have hr := hk.reach
  have hi := inv_reach hr
  have hctl : s.ctl = .recv ∧ waitTop s.fr = false := by
    have : absCtl s.ctl (s.frames s.cur) = .back := hl
    cases hx : s.ctl <;> rw [hx] at this <;> simp [absCtl] at this
    exact ⟨rfl, this⟩
  have hco : ctorOf s.fr = some k := by
    have h1 : s.fr.filterMap absF = .creates k :: t := hst
    have h2 := hctl.2
    cases hf : s.fr with
    | nil => rw [hf] at h1; cases h1
    | cons f fs =>
      rw [hf] at h1 h2
      cases f <;> simp [absF, waitTop, List.filterMap_cons] at h1 h2 ⊢ <;> simp [ctorOf, h1.1]
  have hkd' : s.kind k = .pull := by rw [← ok.kind]; exact hkd
  obtain ⟨u, ha, hfib, hal, hj, hot⟩ := back_ctor hr hctl.1 hco
  by_cases hf : (s.base k).isFinal = true
  · left; exact ⟨rfl, by show (co k).phase.isEnded = true; rw [ok.phase, absPhase_ended]; exact hf⟩
  · right
    have hnf := d.nFin0 hi (jinv_reach hr) hal (by simpa using hf)
    have hne : s.fr ≠ [] := by intro e; rw [e] at hco; cases hco
    rw [← ok.valid d hi hal (fun _ => hi.notFresh' hne k)]
    have hst : (s.cbs ⟨k, .own⟩).state = StateT.unwind := by
      rcases (jinv_reach hr).own _ hal with ⟨a, b, _⟩ | ⟨_, _, h⟩
      · exact a
      · rw [hnf] at h; cases h
    have hbv : s.va k = .void ∨ (s.cbs ⟨k, .own⟩).bvalid = true := by
      by_cases hv : s.va k = .void
      · exact .inl hv
      · right
        have := (tinv_reach hr).yd k
        rw [hkd'] at this
        exact this hal hnf ⟨_, _, hj⟩ hv
    unfold cbValid
    dsimp only
    rw [hkd', hot, hst]
    have hn : StateT.has StateT.unwind StateT.complete = false := by rfl
    rcases hbv with h | h <;> simp [isPullSide, hn, h]

theorem sim_ctl (hs : Sim P l0 g0 s a) {l : L} (hl : a.ctl = .eval l) : s.ctl = .eval l := (hs.agree.user l).1 hl

theorem R.top (h : R a a') (hs : Sim P l0 g0 s a) (hig : IgnoresValues P l0 g0)
    (hg : ∀ c below, a.active = c :: below → (∃ r, a.ctl = .res r) ∨ (∃ x, a.ctl = .raise x) → ∀ w t, a.stack c ≠ .give w :: t) :
    OR (Coro.step P a) (Coro.step (dropValues P) a') := by
  unfold Coro.step
  rw [h.active, h.ctl]
  cases ha : a.active with
  | nil => exact .stuck
  | cons c below =>
    have hg' := hg c below ha
    cases hc : a.ctl with
    | eval l =>
      dsimp only
      have hag := hs.agree
      refine h.eval c below l (fun op k hl => ?_) (fun x hd r hx hr => ?_) (fun x b hb => h.objValid hs hc ha x b hb)
      · have := hig s op k hs.1.reach ⟨l, sim_ctl hs hc, by rw [← hag.mem]; exact hl⟩
        rw [← hag.objs] at this
        exact this
      · obtain ⟨hk, _, rest, co, d, ok, rfl⟩ := hs
        have := ((inv_reach hk.reach).hok.born x hd r hx hr).2.2
        show (co r.co).va = _
        rw [ok.va, this]
    | res r => exact h.res c below r (hg' (.inl ⟨r, hc⟩))
    | raise x => exact h.raise c below x (hg' (.inr ⟨x, hc⟩))
    | ret => exact h.ret c below
    | back => exact h.back c below (fun k t e1 _ e3 => h.ctorValid hs hc ha k t e1 e3)

/-- one step without values, one or two with -/
def Next (P : Prog L G V E) (a b : St L G V E) : Prop := Coro.step P a = .next b ∨ ∃ m, Coro.step P a = .next m ∧ (∀ l, m.ctl ≠ .eval l) ∧ Coro.step P m = .next b

theorem R.step (h : R a a') (hs : Sim P l0 g0 s a) (hig : IgnoresValues P l0 g0) (hn : Coro.step P a ≠ .stuck) :
    (∃ b b', Next P a b ∧ Coro.step (dropValues P) a' = .next b' ∧ R b b') ∨
    (∃ b b', Coro.step P a = .done b ∧ Coro.step (dropValues P) a' = .done b' ∧ R b b') ∨
    (∃ b b', Coro.step P a = .uncaught b ∧ Coro.step (dropValues P) a' = .uncaught b' ∧ R b b') := by
  by_cases hg : ∃ c below w t, a.active = c :: below ∧ ((∃ r, a.ctl = .res r) ∨ (∃ x, a.ctl = .raise x)) ∧ a.stack c = .give w :: t
  · obtain ⟨c, below, w, t, ha, hct, hst⟩ := hg
    left
    have hsr := h.sr c
    rw [hst] at hsr
    generalize he' : a'.stack c = st' at hsr
    cases hsr with
    | cons hf _ => exact hf.elim
    | give ht =>
      rename_i k t t'
      have h1 : R ((a.setStack c (.use k :: t)).setStack c t) (a'.setStack c t') := by
        have := h.setStack c ht
        obtain ⟨st, h1, h2⟩ := this
        refine ⟨st, fun i => ?_, h2⟩
        have := h1 i
        simp only [St.setStack, Verif.upd] at this ⊢
        split <;> simp_all
      rcases hct with ⟨r, hc⟩ | ⟨x, hc⟩
      · refine ⟨_, _, .inr ⟨_, by simp only [Coro.step, ha, hc, resStep, hst]; rfl, fun l => by simp [St.goto], ?_⟩, ?_, h1.goto (.eval (k (.val w)))⟩
        · simp only [Coro.step, St.setStack, St.goto, ha, resStep, Verif.upd_at]
        · simp only [Coro.step, h.active, h.ctl, ha, hc, resStep, he']
      · cases x with
        | user e =>
          refine ⟨_, _, .inr ⟨_, by simp only [Coro.step, ha, hc, raiseStep, hst]; rfl, fun l => by show a.ctl ≠ _; rw [hc]; nofun, ?_⟩, ?_, h1.see (e := .exc c e) rfl⟩
          · simp only [Coro.step, St.setStack, ha, hc, raiseStep, Verif.upd_at]
          · simp only [Coro.step, h.active, h.ctl, ha, hc, raiseStep, he']
        | forced =>
          refine ⟨_, _, .inr ⟨_, by simp only [Coro.step, ha, hc, raiseStep, hst]; rfl, fun l => by show a.ctl ≠ _; rw [hc]; nofun, ?_⟩, ?_, h1⟩
          · simp only [Coro.step, St.setStack, ha, hc, raiseStep, Verif.upd_at]
          · simp only [Coro.step, h.active, h.ctl, ha, hc, raiseStep, he']
  · have ho := h.top hs hig (fun c below ha hct w t hst => hg ⟨c, below, w, t, ha, hct, hst⟩)
    generalize e1 : Coro.step P a = o at ho hn
    generalize e2 : Coro.step (dropValues P) a' = o' at ho
    cases ho with
    | next h => exact .inl ⟨_, _, .inl e1, rfl, h⟩
    | done h => exact .inr (.inl ⟨_, _, rfl, rfl, h⟩)
    | uncaught h => exact .inr (.inr ⟨_, _, rfl, rfl, h⟩)
    | stuck => exact absurd rfl hn

end Verif.Coro
