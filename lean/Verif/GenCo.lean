import Verif.SpecGen
import Verif.PropsHops
import Verif.CoroRun

/-! # A coroutine and the others on the specification machine.  Proof material for C69. -/
namespace Verif.Coro
variable {L G V E : Type}
variable {P : Prog L G V E} {a b a' : St L G V E} {c : Nat}

/-- nothing happens to coroutine `c` between `a` and `b` -/
structure Quiet (c : Nat) (a b : St L G V E) : Prop where
  stack : b.stack c = a.stack c
  phase : (b.co c).phase = (a.co c).phase
  kind : (b.co c).kind = (a.co c).kind
  va : (b.co c).va = (a.co c).va
  nk : a.nk ≤ b.nk
  out : pushedList c b.obs = pushedList c a.obs
  fin : ∀ x, .fin c x ∈ b.obs → .fin c x ∈ a.obs
  val : (b.co c).val = (a.co c).val ∨ ∃ h hd, a.hs h = some hd ∧ hd.cb = some ⟨c, .own⟩ ∧ hd.ty = .pull

/-- … in a step of somebody else; it may get control -/
structure Keep (c : Nat) (a b : St L G V E) : Prop extends Quiet c a b where
  act : b.active = a.active ∨ (b.active = a.active.tail ∧ (b.ctl = .back ∨ b.ctl = .res .unit)) ∨
    ∃ k, b.active = k :: a.active ∧ (k = c →
      (b.ctl = .back ∧ ((∃ h fn, (b.co c).phase = .idle h fn) ∨ ∃ h, (b.co c).phase = .body h) ∧
        ∃ h hd, a.hs h = some hd ∧ hd.cb = some ⟨c, .own⟩ ∧ (hd.ty = .pull ∨ (a.co c).va = .void)) ∨ b.ctl = .raise .forced)

/-- somebody pushes `v` to coroutine `c` -/
structure Given (c : Nat) (v : V) (a b : St L G V E) : Prop where
  stack : b.stack c = a.stack c
  phase : (b.co c).phase = (a.co c).phase
  kind : (b.co c).kind = (a.co c).kind
  va : (b.co c).va = (a.co c).va
  nk : a.nk ≤ b.nk
  out : pushedList c b.obs = pushedList c a.obs ++ [v]
  fin : ∀ x, .fin c x ∈ b.obs → .fin c x ∈ a.obs
  val : (b.co c).val = some v
  act : b.active = c :: a.active
  ctl : b.ctl = .back
  own : ∃ h hd, a.hs h = some hd ∧ hd.cb = some ⟨c, .own⟩ ∧ hd.ty = .push
  live : (∃ h fn, (a.co c).phase = .idle h fn) ∨ ∃ h, (a.co c).phase = .body h

section
variable {d : Nat} {below : List Nat}

theorem Quiet.kill (q : Quiet c a b) (hac : a.active = d :: below) {k : Nat} (hs : kill b d below k = .next a') : Keep c a a' := by
  unfold Coro.kill at hs
  split at hs
  · cases hs
  · cases hs
    exact ⟨⟨q.stack, q.phase, q.kind, q.va, q.nk, q.out, q.fin, q.val⟩, .inr (.inr ⟨k, by simp [hac], fun _ => .inr rfl⟩)⟩

theorem Quiet.destroyObj (q : Quiet c a b) (hac : a.active = d :: below) (hac' : b.active = d :: below) (hd : c ≠ d) {h : Nat}
    (hs : destroyObj b d below h = .next a') : Keep c a a' := by
  unfold Coro.destroyObj at hs
  repeat' split at hs
  · cases hs
  · exact Quiet.kill (b := { b with hs := upd b.hs h none }) ⟨q.stack, q.phase, q.kind, q.va, q.nk, q.out, q.fin, q.val⟩ hac hs
  · cases hs
    exact ⟨⟨q.stack, q.phase, q.kind, q.va, q.nk, q.out, q.fin, q.val⟩, .inl (by simp [St.goto, hac, hac'])⟩
  · cases hs
  · cases hs
    exact ⟨⟨q.stack, q.phase, q.kind, q.va, q.nk, q.out, q.fin, q.val⟩, .inl (by simp [St.goto, hac, hac'])⟩

theorem Quiet.switch (q : Quiet c a b) (hac : a.active = d :: below) (hac' : b.active = d :: below) (hd : c ≠ d) {r : CbRef}
    (ho : r = ⟨c, .own⟩ → ∃ h hd, a.hs h = some hd ∧ hd.cb = some ⟨c, .own⟩ ∧ (hd.ty = .pull ∨ (a.co c).va = .void))
    (hs : switch b d below r = .next a') : Keep c a a' := by
  unfold Coro.switch at hs
  have q' : Quiet c a ((b.push d (.resumed r)).goto .back) :=
    ⟨by simp [St.push, St.setStack, St.goto, upd, hd, q.stack], q.phase, q.kind, q.va, q.nk, q.out, q.fin, q.val⟩
  simp only at hs
  split at hs
  · split at hs
    · rename_i hsl
      cases hs
      refine ⟨⟨q'.stack, q.phase, q.kind, q.va, q.nk, q.out, q.fin, q.val⟩, .inr (.inr ⟨r.co, by simp [hac], ?_⟩)⟩
      intro e
      left
      refine ⟨rfl, ?_, ho (by obtain ⟨rc, rs⟩ := r; simp_all)⟩
      simp only [sleeps, St.goto, St.push, St.setStack, Bool.and_eq_true] at hsl
      simp only [St.goto, St.push, St.setStack]
      rw [← e]
      have := hsl.2
      split at this
      · exact .inl ⟨_, _, by assumption⟩
      · exact .inr ⟨_, by assumption⟩
      · cases this
    · cases hs
  · split at hs
    · cases hs
      exact ⟨⟨q'.stack, q.phase, q.kind, q.va, q.nk, q.out, q.fin, q.val⟩, .inr (.inl ⟨by simp [hac], .inl rfl⟩)⟩
    · cases hs

theorem Quiet.pullFrom (q : Quiet c a b) (hac : a.active = d :: below) (hac' : b.active = d :: below) (hd : c ≠ d) (hhs : b.hs = a.hs) {h : Nat} {post : List (Fr L V E)}
    (hs : pullFrom b d below h post = .next a') : Keep c a a' := by
  unfold Coro.pullFrom at hs
  split at hs
  · rename_i va r hh
    refine Quiet.switch (b := b.setStack d (post ++ b.stack d)) ⟨?_, q.phase, q.kind, q.va, q.nk, q.out, q.fin, q.val⟩ hac hac' hd ?_ hs
    · simp [St.setStack, upd, hd, q.stack]
    · intro e; exact ⟨h, _, by rw [← hhs]; exact hh, by simp [e], .inl rfl⟩
  · cases hs

theorem Quiet.pushTo (q : Quiet c a b) (hac : a.active = d :: below) (hac' : b.active = d :: below) (hd : c ≠ d) (hhs : b.hs = a.hs) {h : Nat} {x : PushArg V E}
    {post : Option V → List (Fr L V E)} (hs : pushTo P b d below h x post = .next a') : Keep c a a' ∨ ∃ v, Given c v a a' := by
  unfold Coro.pushTo at hs
  split at hs
  · rename_i va r hh
    split at hs
    · rename_i b' w hst
      by_cases hr : r.co = c
      · obtain ⟨k, sd⟩ := r
        simp only at hr
        subst hr
        cases sd with
        | syn => simp [Coro.switch, hd] at hs
        | own =>
          have fin : ∀ b', b'.active = b.active → (a.co k).va = .void → Quiet k a b' → Coro.switch (b'.setStack d (post w ++ b'.stack d)) d below ⟨k, .own⟩ = .next a' → Keep k a a' := by
            intro b' e1 e3 q' hs
            refine Quiet.switch (b := b'.setStack d (post w ++ b'.stack d)) ⟨?_, q'.phase, q'.kind, q'.va, q'.nk, q'.out, q'.fin, q'.val⟩ hac (e1.trans hac') hd (fun _ => ⟨h, _, by rw [← hhs]; exact hh, rfl, .inr e3⟩) hs
            simp [St.setStack, upd, hd, q'.stack]
          have giv : ∀ v, b' = (b.setCo k { b.co k with val := some v }).see (.pushed k v) → ∃ v, Given k v a a' := by
            intro v e
            subst e
            unfold Coro.switch at hs
            simp only at hs
            split at hs
            · rename_i hsl
              cases hs
              refine ⟨v, ?_, ?_, ?_, ?_, q.nk, ?_, ?_, ?_, ?_, rfl, ⟨h, _, by rw [← hhs]; exact hh, rfl, rfl⟩, ?_⟩
              · simp [St.push, St.setStack, St.goto, St.see, St.setCo, upd, hd, q.stack]
              · simp [St.push, St.setStack, St.goto, St.see, St.setCo, upd, q.phase]
              · simp [St.push, St.setStack, St.goto, St.see, St.setCo, upd, q.kind]
              · simp [St.push, St.setStack, St.goto, St.see, St.setCo, upd, q.va]
              · simp [St.push, St.setStack, St.goto, St.see, St.setCo, pushedList, q.out]
              · simp [St.push, St.setStack, St.goto, St.see, St.setCo]
                exact q.fin
              · simp [St.push, St.setStack, St.goto, St.see, St.setCo, upd]
              · simp [hac]
              · have h9 := q.phase
                simp only [sleeps, Bool.and_eq_true] at hsl
                have h8 := hsl.2
                simp only [St.push, St.setStack, St.goto, St.see, St.setCo, upd_same, h9] at h8
                split at h8
                · exact .inl ⟨_, _, by assumption⟩
                · exact .inr ⟨_, by assumption⟩
                · cases h8
            · cases hs
          unfold store at hst
          split at hst
          · cases hst
          · cases hst
          · rename_i hvv _; cases hst; exact .inl (fin _ rfl (q.va.symm.trans (by assumption)) q hs)
          · cases hst; exact .inr (giv _ rfl)
          · cases hst; exact .inr (giv _ rfl)
          · cases hst
      · left
        have key : Quiet c a b' ∧ b'.active = b.active := by
          unfold store at hst
          have hr' : c ≠ r.co := fun e => hr e.symm
          have q8 := q.val
          split at hst
          · cases hst
          · cases hst
          · cases hst; exact ⟨q, rfl⟩
          all_goals cases hst
          all_goals
            refine ⟨⟨q.stack, ?_, ?_, ?_, q.nk, ?_, ?_, ?_⟩, rfl⟩ <;>
            simp [St.setCo, St.see, upd, hr', Ne.symm hr', pushedList, q.phase, q.kind, q.va, q.out] <;>
            first | exact q.fin | exact q8
        refine Quiet.switch (b := b'.setStack d (post w ++ b'.stack d)) ⟨?_, key.1.phase, key.1.kind, key.1.va, key.1.nk, key.1.out, key.1.fin, key.1.val⟩
          hac (key.2.trans hac') hd (fun e => absurd (by rw [e]) hr) hs
        simp [St.setStack, upd, hd, key.1.stack]
    · cases hs
  · cases hs
end

local macro "q!" : tactic => `(tactic| (
  refine ⟨?_, ?_, ?_, ?_, ?_, ?_, ?_, ?_⟩ <;>
  simp_all [St.setStack, St.goto, St.setCo, St.newObj, St.endObj, St.see, St.push, pushedList, upd]))
local macro "k!" : tactic => `(tactic| (
  refine ⟨⟨?_, ?_, ?_, ?_, ?_, ?_, ?_, ?_⟩, ?_⟩ <;>
  simp_all [St.setStack, St.goto, St.setCo, St.newObj, St.endObj, St.see, St.push, pushedList, upd]))

theorem keep_call (q : Quiet c a b) {d : Nat} {below : List Nat} (hac : a.active = d :: below) (hac' : b.active = d :: below) (hd : c ≠ d) (hlt : c < b.nk)
    (hhs : b.hs = a.hs) {op : Op L V E}
    (hs : call P b d below op = .next a') : Keep c a a' ∨ ∃ v, Given c v a a' := by
  have hnk : c ≠ b.nk := by omega
  have q0 := q
  obtain ⟨q1, q2, q3, q4, q5, q6, q7, q8⟩ := q
  unfold call at hs
  split at hs
  · cases hs; left; k!
  · cases hs; left; k!; omega
  · cases hs; left; k!
    · omega
    · exact .inr (fun e => absurd e.symm hnk)
  · exact .inl (Quiet.pullFrom q0 hac hac' hd hhs hs)
  · exact Quiet.pushTo q0 hac hac' hd hhs hs
  · split at hs
    · rename_i k v _
      cases hs
      left
      by_cases hck : c = k
      · subst hck
        rename_i hval
        have hw : ∃ h hd, a.hs h = some hd ∧ hd.cb = some ⟨c, .own⟩ ∧ hd.ty = .pull := by
          unfold value at hval
          split at hval
          · rename_i h0 va r hh
            split at hval
            · cases hval
            · rename_i hne
              rw [not_or, Decidable.not_not] at hne
              have hov := hne.2
              simp only [objValid, hh] at hov
              have hrc : r.co = c := by
                cases hv : (b.co r.co).val <;> simp [hv] at hval
                exact hval.1
              split at hov
              · rename_i hor
                rcases hor with hor | hor
                · refine ⟨_, _, by rw [← hhs]; exact hh, ?_, rfl⟩
                  obtain ⟨rc, rs⟩ := r
                  simp only at hor hrc
                  rw [hor, hrc]
                · exact absurd (hrc.symm.trans hor) hd
              · cases hov
          · cases hval
        have q8 : ∀ p : Prop, p ∨ ∃ h hd, a.hs h = some hd ∧ hd.cb = some ⟨c, .own⟩ ∧ hd.ty = .pull := fun _ => .inr hw
        by_cases hva : (b.co c).va = .val
        · refine ⟨⟨?_, ?_, ?_, ?_, ?_, ?_, ?_, q8 _⟩, ?_⟩ <;>
            simp_all [St.setStack, St.goto, St.setCo, St.newObj, St.endObj, St.see, St.push, pushedList, upd]
        · refine ⟨⟨?_, ?_, ?_, ?_, ?_, ?_, ?_, q8 _⟩, ?_⟩ <;>
            simp_all [St.setStack, St.goto, St.setCo, St.newObj, St.endObj, St.see, St.push, pushedList, upd]
      · by_cases hva : (b.co k).va = .val <;> k!
    · cases hs
  · split at hs <;> cases hs; left; k!
  · split at hs <;> cases hs; left; k!
  · split at hs <;> cases hs; left; k!
  · split at hs
    · split at hs
      · cases hs; left; k!
      · cases hs
    · cases hs
  · exact .inl (Quiet.destroyObj q0 hac hac' hd hs)
  · split at hs
    · split at hs
      · cases hs
      · cases hs; left; k!
    · cases hs
  · exact .inl (Quiet.pullFrom q0 hac hac' hd hhs hs)
  · split at hs <;> cases hs; left; k!
  · exact Quiet.pushTo q0 hac hac' hd hhs hs
  all_goals cases hs

theorem keep_step (hn : a.active.head? ≠ some c) (hlt : c < a.nk)
    (hs : step P a = .next a') : Keep c a a' ∨ ∃ v, Given c v a a' := by
  unfold step at hs
  cases hac : a.active with
  | nil => rw [hac] at hs; cases hs
  | cons d below =>
    rw [hac] at hs hn
    have hd : c ≠ d := fun e => hn (by simp [e])
    have hnk : c ≠ a.nk := by omega
    simp only at hs
    cases hc : a.ctl with
    | res r =>
      simp only [hc, resStep] at hs
      repeat' split at hs
      all_goals cases hs
      all_goals (left; k!)
    | ret =>
      simp only [hc, retStep, finish] at hs
      split at hs
      · cases hs; left; k!
      · exact .inl (Quiet.destroyObj (by q!) hac (by exact hac) hd hs)
      · cases hs; left; k!
      · cases hs; left; k!
      · split at hs
        · cases hs
        · split at hs <;> cases hs
          left; k!
      · cases hs
    | back =>
      simp only [hc, backStep] at hs
      split at hs
      · split at hs <;> cases hs <;> left <;> k!
      · split at hs
        · exact .inl (Quiet.kill (by q!) hac hs)
        · split at hs
          · cases hs; left; k!
          · exact .inl (Quiet.kill (by q!) hac hs)
      · split at hs
        · split at hs <;> cases hs <;> left <;> k!
        · cases hs; left; k!
        · cases hs
      · cases hs
    | raise x =>
      simp only [hc, raiseStep, finish] at hs
      split at hs
      · cases hs; left; k!
      · exact .inl (Quiet.destroyObj (by q!) hac (by exact hac) hd hs)
      · cases hs; left; k!
      · split at hs <;> cases hs; left; k!
      · cases hs; left; k!
      · cases hs; left; k!
      · cases hs; left; k!
      · cases hs; left; k!
      · cases hs; left; k!
      · cases hs; left; k!
      · split at hs
        · cases hs
        · split at hs <;> cases hs
          left; k!
      · split at hs
        · exact .inl (Quiet.destroyObj (by q!) hac (by exact hac) hd hs)
        · exact .inl (Quiet.destroyObj (by q!) hac (by exact hac) hd hs)
        · exact .inl (Quiet.destroyObj (by q!) hac (by exact hac) hd hs)
        · cases hs
      · cases hs
    | eval l =>
      simp only [hc, evalStep] at hs
      split at hs
      · cases hs; left; k!
      · cases hs; left; k!
      · cases hs; left; k!
      · cases hs; left; k!
      · exact .inl (Quiet.destroyObj (by q!) hac (by exact hac) hd hs)
      · cases hs
      · cases hs; left; k!
      · cases hs; left; k!
      · cases hs
      · cases hs; left; k!
      · cases hs; left; k!
      · cases hs; left; k!
      · rename_i op k _
        exact keep_call (b := a.push d (.use k)) (by q!) hac (by exact hac) hd hlt rfl hs

/-! ## the generator -/

/-- an open scope on the stack -/
def opn : Open L E → Fr L V E
  | .obj o => .obj o
  | .co h => .co h
  | .handler sw f => .handler sw f
  | .call l => .caller l

/-- where the function is, as control state -/
def posC : Gen.Pos L E → Ctl L V E
  | .at l => .eval l
  | .throws e => .raise (.user e)
  | .returns => .ret

/-- entries whose unwinding concerns nobody else -/
def plain : Fr L V E → Bool
  | .obj _ | .handler _ _ | .caller _ | .use _ | .iter _ | .give _ | .resumed _ => true
  | _ => false

/-- how the state of the machine and the state of the function on its own belong together -/
inductive Mode (c : Nat) (a : St L G V E) : Gen.Cfg L E → Prop
  | live {x t below hh} (ha : a.active = c :: below) (hp : (a.co c).phase = .body hh) (hc : a.ctl = posC x) (hs : a.stack c = t.map opn)
      (ht : ∀ o ∈ t, plain (opn o : Fr L V E)) : Mode c a ⟨x, t⟩
  | use {t below hh r K} (ha : a.active = c :: below) (hp : (a.co c).phase = .body hh) (hc : a.ctl = .res r)
      (hs : a.stack c = .use K :: t.map opn) (ht : ∀ o ∈ t, plain (opn o : Fr L V E)) : Mode c a ⟨.at (K r), t⟩
  | give {t below hh r K w} (ha : a.active = c :: below) (hp : (a.co c).phase = .body hh) (hc : a.ctl = .res r)
      (hs : a.stack c = .give w :: .use K :: t.map opn) (ht : ∀ o ∈ t, plain (opn o : Fr L V E)) : Mode c a ⟨.at (K (.val w)), t⟩
  | back {t below hh K w} (ha : a.active = c :: below) (hp : (a.co c).phase = .body hh) (hc : a.ctl = .back)
      (hs : a.stack c = .resumed ⟨c, .syn⟩ :: .give w :: .use K :: t.map opn) (ht : ∀ o ∈ t, plain (opn o : Fr L V E)) :
      Mode c a ⟨.at (K (.val w)), t⟩
  | waiting {t hh K w} (ha : c ∉ a.active) (hp : (a.co c).phase = .body hh)
      (hs : a.stack c = .resumed ⟨c, .syn⟩ :: .give w :: .use K :: t.map opn) (ht : ∀ o ∈ t, plain (opn o : Fr L V E)) :
      Mode c a ⟨.at (K (.val w)), t⟩
  | dying {cfg below} (ha : a.active = c :: below) (hc : a.ctl = .raise .forced) (hs : ∀ f ∈ a.stack c, plain f = true) : Mode c a cfg
  | left {cfg below} (ha : a.active = c :: below) (hc : a.ctl = .back ∨ a.ctl = .res .unit) (hs : a.stack c = [])
      (hp : (a.co c).phase = .leaving) : Mode c a cfg
  | deep {cfg} (ha : a.active.head? ≠ some c) (hs : a.stack c = []) (hp : (a.co c).phase = .leaving) : Mode c a cfg
  | over {cfg} (ha : c ∉ a.active) (hp : ∀ h, (a.co c).phase ≠ .body h) (hp' : ∀ h f, (a.co c).phase ≠ .idle h f)
      (hs : ∀ f ∈ a.stack c, plain f = true) : Mode c a cfg

/-- the invariant -/
structure GInv (P : Prog L G V E) (h : Nat) (va : Var) (c : Nat) (st : Gen.Cfg L E) (a0 a : St L G V E) (xs : List V) (cfg : Gen.Cfg L E) : Prop where
  runs : Gen.Runs P h va st xs cfg
  out : pushedList c a.obs = pushedList c a0.obs ++ xs
  fin : ∀ x, .fin c x ∈ a.obs → .fin c x ∈ a0.obs ∨ Gen.Ended cfg x
  kind : (a.co c).kind = .pull
  va : (a.co c).va = va
  nk : c < a.nk
  mode : Mode c a cfg

/-- what is true of all states of a meaningful program -/
structure Facts (c : Nat) (a : St L G V E) : Prop where
  nodup : a.active.Nodup
  own : ∀ h hd, a.hs h = some hd → hd.cb = some ⟨c, .own⟩ → hd.ty = (a.co c).kind
  syn : ∀ h hd, a.hs h = some hd → hd.cb = some ⟨c, .syn⟩ → hd.ty = (a.co c).kind.flip
  lt : ∀ h, (a.co c).phase = .body h → c < a.nk

section
variable {h : Nat} {va : Var} {st cfg : Gen.Cfg L E} {a0 : St L G V E} {xs : List V}

/-- a step of the others -/
theorem GInv.other (hi : GInv P h va c st a0 a xs cfg) (hf : Facts c a) (hf' : Facts c a') (hn : a.active.head? ≠ some c)
    (hs : step P a = .next a') : GInv P h va c st a0 a' xs cfg := by
  have k : Keep c a a' := by
    rcases keep_step hn hi.nk hs with k | ⟨_, k⟩
    · exact k
    · obtain ⟨h, hd, h1, h2, h3⟩ := k.own
      rw [hf.own h hd h1 h2, hi.kind] at h3
      cases h3
  refine ⟨hi.runs, k.out.trans hi.out, fun x hx => hi.fin x (k.fin x hx), k.kind.trans hi.kind, k.va.trans hi.va, Nat.lt_of_lt_of_le hi.nk k.nk, ?_⟩
  have nd := hf'.nodup
  have m := hi.mode
  cases m with
  | live ha => simp [ha] at hn
  | use ha => simp [ha] at hn
  | give ha => simp [ha] at hn
  | back ha => simp [ha] at hn
  | dying ha => simp [ha] at hn
  | left ha => simp [ha] at hn
  | waiting ha hp hst ht =>
    rcases k.act with e | ⟨e, _⟩ | ⟨j, e, hj⟩
    · exact .waiting (by rw [e]; exact ha) (k.phase.trans hp) (k.stack.trans hst) ht
    · exact .waiting (by rw [e]; exact fun m => ha (List.mem_of_mem_tail m)) (k.phase.trans hp) (k.stack.trans hst) ht
    · by_cases hjc : j = c
      · subst hjc
        rcases hj rfl with ⟨hb, _⟩ | hb
        · exact .back e (k.phase.trans hp) hb (k.stack.trans hst) ht
        · refine .dying e hb ?_
          rw [k.stack, hst]
          simp only [List.mem_cons, List.mem_map, forall_eq_or_imp]
          refine ⟨rfl, rfl, rfl, ?_⟩
          rintro f ⟨o, ho, rfl⟩
          exact ht o ho
      · exact .waiting (by rw [e]; simp [ha, Ne.symm hjc]) (k.phase.trans hp) (k.stack.trans hst) ht
  | over ha hp hp' hst =>
    rcases k.act with e | ⟨e, _⟩ | ⟨j, e, hj⟩
    · exact .over (by rw [e]; exact ha) (by rw [k.phase]; exact hp) (by rw [k.phase]; exact hp') (by rw [k.stack]; exact hst)
    · exact .over (by rw [e]; exact fun m => ha (List.mem_of_mem_tail m)) (by rw [k.phase]; exact hp) (by rw [k.phase]; exact hp') (by rw [k.stack]; exact hst)
    · by_cases hjc : j = c
      · subst hjc
        rcases hj rfl with ⟨_, ⟨_, _, hb⟩ | ⟨_, hb⟩, _⟩ | hb
        · exact absurd (k.phase.symm.trans hb) (hp' _ _)
        · exact absurd (k.phase.symm.trans hb) (hp _)
        · exact .dying e hb (by rw [k.stack]; exact hst)
      · exact .over (by rw [e]; simp [ha, Ne.symm hjc]) (by rw [k.phase]; exact hp) (by rw [k.phase]; exact hp') (by rw [k.stack]; exact hst)
  | deep ha hst hp =>
    by_cases hh : a'.active.head? = some c
    · cases hac : a'.active with
      | nil => simp [hac] at hh
      | cons d below =>
        simp only [hac, List.head?_cons, Option.some.injEq] at hh
        subst hh
        rcases k.act with e | ⟨e, hc⟩ | ⟨j, e, hj⟩
        · exact absurd (by rw [← e, hac]; rfl) hn
        · exact .left hac hc (k.stack.trans hst) (k.phase.trans hp)
        · rw [hac] at e
          injection e with e1 e2
          rcases hj e1.symm with ⟨_, ⟨_, _, hb⟩ | ⟨_, hb⟩, _⟩ | hb
          · have := k.phase.symm.trans hb; rw [hp] at this; cases this
          · have := k.phase.symm.trans hb; rw [hp] at this; cases this
          · exact .dying hac hb (by rw [k.stack, hst]; simp)
    · exact .deep hh (k.stack.trans hst) (k.phase.trans hp)

local macro "g!" : tactic => `(tactic| (
  simp_all [St.setStack, St.goto, St.setCo, St.newObj, St.endObj, St.see, St.push, pushedList, upd]))

/-- the coroutine is unwound -/
theorem GInv.die (hi : GInv P h va c st a0 a xs cfg) (hf' : Facts c a') {below : List Nat} (ha : a.active = c :: below)
    (hc : a.ctl = .raise .forced) (hst : ∀ f ∈ a.stack c, plain f = true) (hs : step P a = .next a') : GInv P h va c st a0 a' xs cfg := by
  obtain ⟨i1, i2, i3, i4, i5, i6, _⟩ := hi
  simp only [step, ha, hc, raiseStep] at hs
  split at hs
  · cases hs
    refine ⟨i1, by g!, by g!, by g!, by g!, by g!, .dying (below := below) (by g!) (by g!) (by g!)⟩
  · exfalso; simp_all [plain]
  · rename_i e; cases e
  · split at hs
    · cases hs
    · cases hs
      refine ⟨i1, by g!, by g!, by g!, by g!, by g!, .dying (below := below) (by g!) (by g!) (by g!)⟩
  · rename_i e; cases e
  iterate 5
    · cases hs
      refine ⟨i1, by g!, by g!, by g!, by g!, by g!, .dying (below := below) (by g!) (by g!) (by g!)⟩
  · rename_i e; cases e
  · rename_i e
    have key : ∀ hh, destroyObj (a.setCo c { a.co c with phase := .leaving }) c below hh = .next a' → GInv P h va c st a0 a' xs cfg := by
      intro hh hs
      unfold destroyObj at hs
      split at hs
      · cases hs
      · simp only at hs
        split at hs
        · unfold kill at hs
          split at hs
          · cases hs
          · rename_i k _ hcon
            cases hs
            refine ⟨i1, i2, i3, by g!, by g!, i6, .deep ?_ (by g!) (by g!)⟩
            intro e'
            simp only [List.head?_cons, Option.some.injEq] at e'
            subst e'
            simp [St.setCo, ha] at hcon
        · split at hs
          · cases hs
            exact ⟨i1, i2, i3, by g!, by g!, i6, .left (below := below) (by g!) (.inr rfl) (by g!) (by g!)⟩
          · cases hs
        · cases hs
          exact ⟨i1, i2, i3, by g!, by g!, i6, .left (below := below) (by g!) (.inr rfl) (by g!) (by g!)⟩
    split at hs
    · exact key _ hs
    · exact key _ hs
    · exact key _ hs
    · cases hs
  · cases hs

set_option hygiene false in
local macro "m!" : tactic => `(tactic| (
  simp [St.setStack, St.goto, St.setCo, St.newObj, St.endObj, St.see, St.push, pushedList, upd, opn, posC, ha, hp, hst, hc, hcb]
  try exact ht
  try exact ⟨rfl, ht⟩
  try exact fun o ho => ht o (by simp [ho])))

/-- a step of the function itself -/
theorem GInv.self (hi : GInv P h va c st a0 a xs cfg) (hf : Facts c a) (hself : Gen.SelfContained P h va st) (hc0 : c ≠ 0)
    (hU : ∀ l, a.ctl = .eval l → ∃ hd, a.hs h = some hd ∧ hd.cb = some ⟨c, .syn⟩) {below : List Nat} {hh : Nat} {x : Gen.Pos L E}
    {t : List (Open L E)} (he : cfg = ⟨x, t⟩)
    (ha : a.active = c :: below) (hp : (a.co c).phase = .body hh) (hc : a.ctl = posC x) (hst : a.stack c = t.map opn)
    (ht : ∀ o ∈ t, plain (opn o : Fr L V E)) (hs : step P a = .next a') : ∃ ys cfg', GInv P h va c st a0 a' ys cfg' := by
  subst he
  obtain ⟨i1, i2, i3, i4, i5, i6, _⟩ := hi
  have hnd := hf.nodup
  rw [ha] at hnd
  have hcb : c ∉ below := (List.nodup_cons.1 hnd).1
  have nofin : ∀ y, Gen.Ended (⟨x, t⟩ : Gen.Cfg L E) y → (∃ l, x = .at l) ∨ t ≠ [] → False := by
    intro y hy ho
    rcases ho with ⟨l, rfl⟩ | ho
    · exact hy
    · cases t with
      | nil => exact ho rfl
      | cons o t => cases x <;> exact hy
  rcases hself _ _ i1 with ⟨y, hy⟩ | ⟨o, d, hd⟩
  · -- the end
    have fin : ∀ y, finish a c below y = .next a' → Gen.Ended (⟨x, t⟩ : Gen.Cfg L E) y → GInv P h va c st a0 a' xs ⟨x, t⟩ := by
      intro y hs hy
      simp only [finish, hp] at hs
      cases hs
      refine ⟨i1, by g!, ?_, by g!, by g!, by g!, .over hcb (by g!) (by g!) ?_⟩
      · intro z hz
        simp only [St.see, List.mem_cons, Ev.fin.injEq, true_and] at hz
        rcases hz with rfl | hz
        · exact .inr hy
        · exact i3 z hz
      · intro f hf
        simp only [St.see, St.setCo] at hf
        rw [hst] at hf
        obtain ⟨o, ho, rfl⟩ := List.mem_map.1 hf
        exact ht o ho
    cases x with
    | «at» l => exact hy.elim
    | throws e =>
      cases t with
      | cons _ _ => exact hy.elim
      | nil =>
        have hy' : y = some e := hy
        simp only [posC] at hc
        simp only [step, ha, hc, raiseStep, hst, List.map_nil, if_neg hc0] at hs
        exact ⟨_, _, fin _ hs rfl⟩
    | returns =>
      cases t with
      | cons _ _ => exact hy.elim
      | nil =>
        simp only [posC] at hc
        simp only [step, ha, hc, retStep, hst, List.map_nil, if_neg hc0] at hs
        exact ⟨_, _, fin _ hs rfl⟩
  · have r' := i1.more hd
    have mk : ∀ {d : Gen.Cfg L E} {o : Option V}, Gen.Runs P h va st (xs ++ o.toList) d → (∃ l, x = .at l) ∨ t ≠ [] →
        pushedList c a'.obs = pushedList c a.obs ++ o.toList → (∀ y, .fin c y ∈ a'.obs → .fin c y ∈ a.obs) → (a'.co c).kind = (a.co c).kind →
        (a'.co c).va = (a.co c).va → a'.nk = a.nk → Mode c a' d → ∃ ys cfg', GInv P h va c st a0 a' ys cfg' :=
      fun r n q1 q2 q3 q4 q5 m => ⟨_, _, r, by rw [q1, i2, List.append_assoc], fun y hy => (i3 y (q2 y hy)).imp_right fun q => (nofin y q n).elim,
        q3.trans i4, q4.trans i5, by rw [q5]; exact i6, m⟩
    cases hd with
    | work hcode =>
      simp only [posC] at hc
      simp only [step, ha, hc, evalStep, hcode a.g] at hs
      cases hs
      exact mk r' (.inl ⟨_, rfl⟩) (by m!) (by m!) (by m!) (by m!) (by m!) (.live (below := below) (hh := hh) (by m!) (by m!) rfl (by m!) (by m!))
    | local_ hcode =>
      simp only [posC] at hc
      simp only [step, ha, hc, evalStep, hcode a.g] at hs
      cases hs
      exact mk r' (.inl ⟨_, rfl⟩) (by m!) (by m!) (by m!) (by m!) (by m!) (.live (below := below) (hh := hh) (by m!) (by m!) rfl (by m!) (by m!))
    | leave hcode =>
      simp only [posC] at hc
      simp only [step, ha, hc, evalStep, hcode a.g, hst, List.map_cons, opn] at hs
      cases hs
      exact mk r' (.inl ⟨_, rfl⟩) (by m!) (by m!) (by m!) (by m!) (by m!) (.live (below := below) (hh := hh) (by m!) (by m!) rfl (by m!) (by m!))
    | try_ hcode =>
      simp only [posC] at hc
      simp only [step, ha, hc, evalStep, hcode a.g] at hs
      cases hs
      exact mk r' (.inl ⟨_, rfl⟩) (by m!) (by m!) (by m!) (by m!) (by m!) (.live (below := below) (hh := hh) (by m!) (by m!) rfl (by m!) (by m!))
    | endTry hcode =>
      simp only [posC] at hc
      simp only [step, ha, hc, evalStep, hcode a.g, hst, List.map_cons, opn] at hs
      cases hs
      exact mk r' (.inl ⟨_, rfl⟩) (by m!) (by m!) (by m!) (by m!) (by m!) (.live (below := below) (hh := hh) (by m!) (by m!) rfl (by m!) (by m!))
    | call hcode =>
      simp only [posC] at hc
      simp only [step, ha, hc, evalStep, hcode a.g] at hs
      cases hs
      exact mk r' (.inl ⟨_, rfl⟩) (by m!) (by m!) (by m!) (by m!) (by m!) (.live (below := below) (hh := hh) (by m!) (by m!) rfl (by m!) (by m!))
    | ret hcode =>
      simp only [posC] at hc
      simp only [step, ha, hc, evalStep, hcode a.g] at hs
      cases hs
      exact mk r' (.inl ⟨_, rfl⟩) (by m!) (by m!) (by m!) (by m!) (by m!) (.live (below := below) (hh := hh) (by m!) (by m!) rfl (by m!) (by m!))
    | throw hcode =>
      simp only [posC] at hc
      simp only [step, ha, hc, evalStep, hcode a.g] at hs
      cases hs
      exact mk r' (.inl ⟨_, rfl⟩) (by m!) (by m!) (by m!) (by m!) (by m!) (.live (below := below) (hh := hh) (by m!) (by m!) rfl (by m!) (by m!))
    | @yield l v k _ hv hcode =>
      simp only [posC] at hc
      obtain ⟨⟨ty, va', cb⟩, hh1, hh2⟩ := hU l hc
      have hty := hf.syn h _ hh1 hh2
      rw [i4] at hty
      simp only [Kind.flip] at hty hh2
      subst hty hh2
      have hst' : store P (a.push c (.use k)) c (.copy v) =
          some (((a.push c (.use k)).setCo c { a.co c with val := some v }).see (.pushed c v), some v) := by
        cases va <;> simp_all [store, St.push, St.setStack]
      have e1 : (a.push c (.use k)).hs h = some ⟨.push, va', some ⟨c, .syn⟩⟩ := hh1
      simp only [step, ha, hc, evalStep, hcode a.g, Coro.call, Coro.pushTo, e1, hst', Coro.switch] at hs
      split at hs
      · cases hs
        refine mk r' (.inl ⟨_, rfl⟩) (by m!) (by m!) (by m!) (by m!) (by m!) (.waiting (hh := hh) (w := v) (K := k) ?_ (by m!) ?_ ht)
        · exact hcb
        · m!
      · cases hs
    | @yieldMove l v k _ hv hcode =>
      simp only [posC] at hc
      obtain ⟨⟨ty, va', cb⟩, hh1, hh2⟩ := hU l hc
      have hty := hf.syn h _ hh1 hh2
      rw [i4] at hty
      simp only [Kind.flip] at hty hh2
      subst hty hh2
      have hst' : store P (a.push c (.use k)) c (.move v) =
          some (((a.push c (.use k)).setCo c { a.co c with val := some v }).see (.pushed c v), some (P.mv v)) := by
        subst hv; simp_all [store, St.push, St.setStack]
      have e1 : (a.push c (.use k)).hs h = some ⟨.push, va', some ⟨c, .syn⟩⟩ := hh1
      simp only [step, ha, hc, evalStep, hcode a.g, Coro.call, Coro.pushTo, e1, hst', Coro.switch] at hs
      split at hs
      · cases hs
        refine mk r' (.inl ⟨_, rfl⟩) (by m!) (by m!) (by m!) (by m!) (by m!) (.waiting (hh := hh) (w := P.mv v) (K := k) ?_ (by m!) ?_ ht)
        · exact hcb
        · m!
      · cases hs
    | @valid l k _ hcode =>
      simp only [posC] at hc
      obtain ⟨⟨ty, va', cb⟩, hh1, hh2⟩ := hU l hc
      simp only at hh2
      subst hh2
      have e1 : objValid (a.push c (.use k)) c h = some true := by
        have e0 : (a.push c (.use k)).hs h = some ⟨ty, va', some ⟨c, .syn⟩⟩ := hh1
        simp only [objValid, e0]
        simp [Coro.valid, takes, St.push, St.setStack, i4]
      simp only [step, ha, hc, evalStep, hcode a.g, Coro.call, e1] at hs
      cases hs
      exact mk r' (.inl ⟨_, rfl⟩) (by m!) (by m!) (by m!) (by m!) (by m!)
        (.use (below := below) (hh := hh) (r := .bool true) (K := k) (by m!) (by m!) rfl (by m!) ht)
    | objDies hx =>
      cases x with
      | «at» l => exact absurd rfl (hx l)
      | throws e =>
        simp only [posC] at hc
        simp only [step, ha, hc, raiseStep, hst, List.map_cons, opn] at hs
        cases hs
        exact mk r' (.inr (by simp)) (by m!) (by m!) (by m!) (by m!) (by m!) (.live (below := below) (hh := hh) (by m!) (by m!) (by m!) (by m!) (by m!))
      | returns =>
        simp only [posC] at hc
        simp only [step, ha, hc, retStep, hst, List.map_cons, opn] at hs
        cases hs
        exact mk r' (.inr (by simp)) (by m!) (by m!) (by m!) (by m!) (by m!) (.live (below := below) (hh := hh) (by m!) (by m!) (by m!) (by m!) (by m!))
    | caught =>
      simp only [posC] at hc
      simp only [step, ha, hc, raiseStep, hst, List.map_cons, opn] at hs
      cases hs
      exact mk r' (.inr (by simp)) (by m!) (by m!) (by m!) (by m!) (by m!) (.live (below := below) (hh := hh) (by m!) (by m!) rfl (by m!) (by m!))
    | callThrows =>
      simp only [posC] at hc
      simp only [step, ha, hc, raiseStep, hst, List.map_cons, opn] at hs
      cases hs
      exact mk r' (.inr (by simp)) (by m!) (by m!) (by m!) (by m!) (by m!) (.live (below := below) (hh := hh) (by m!) (by m!) (by m!) (by m!) (by m!))
    | tryReturns =>
      simp only [posC] at hc
      simp only [step, ha, hc, retStep, hst, List.map_cons, opn] at hs
      cases hs
      exact mk r' (.inr (by simp)) (by m!) (by m!) (by m!) (by m!) (by m!) (.live (below := below) (hh := hh) (by m!) (by m!) (by m!) (by m!) (by m!))
    | callReturns =>
      simp only [posC] at hc
      simp only [step, ha, hc, retStep, hst, List.map_cons, opn] at hs
      cases hs
      exact mk r' (.inr (by simp)) (by m!) (by m!) (by m!) (by m!) (by m!) (.live (below := below) (hh := hh) (by m!) (by m!) rfl (by m!) (by m!))

/-- a step of anybody -/
theorem GInv.step (hi : GInv P h va c st a0 a xs cfg) (hf : Facts c a) (hf' : Facts c a') (hself : Gen.SelfContained P h va st) (hc0 : c ≠ 0)
    (hU : a.active.head? = some c → ∀ l, a.ctl = .eval l → ∃ hd, a.hs h = some hd ∧ hd.cb = some ⟨c, .syn⟩)
    (hs : Coro.step P a = .next a') : ∃ ys cfg', GInv P h va c st a0 a' ys cfg' := by
  by_cases hn : a.active.head? = some c
  · have m := hi.mode
    cases m with
    | live ha hp hc hst ht => exact hi.self hf hself hc0 (hU hn) rfl ha hp hc hst ht hs
    | @use t below hh r K ha hp hc hst ht =>
      rw [step_use ha hc hst] at hs
      cases hs
      obtain ⟨i1, i2, i3, i4, i5, i6, _⟩ := hi
      exact ⟨_, _, i1, i2, i3, i4, i5, i6, .live (below := below) (hh := hh) ha hp rfl (by simp [upd]) ht⟩
    | @give t below hh r K w ha hp hc hst ht =>
      rw [step_give ha hc hst] at hs
      cases hs
      obtain ⟨i1, i2, i3, i4, i5, i6, _⟩ := hi
      exact ⟨_, _, i1, i2, i3, i4, i5, i6, .use (below := below) (hh := hh) ha hp rfl (by simp [upd]) ht⟩
    | @back t below hh K w ha hp hc hst ht =>
      rw [step_resumed_syn ha hc hst] at hs
      cases hs
      obtain ⟨i1, i2, i3, i4, i5, i6, _⟩ := hi
      exact ⟨_, _, i1, i2, i3, i4, i5, i6, .give (below := below) (hh := hh) ha hp rfl (by simp [upd]) ht⟩
    | waiting ha => exact absurd (List.mem_of_mem_head? hn) ha
    | dying ha hc hst => exact ⟨_, _, hi.die hf' ha hc hst hs⟩
    | @left _ below ha hc hst hp =>
      rcases hc with hc | hc
      · simp [Coro.step, ha, hc, backStep, hst, hp] at hs
      · rw [step_left ha hc hst hp] at hs
        cases hs
        obtain ⟨i1, i2, i3, i4, i5, i6, _⟩ := hi
        have hnd := hf.nodup
        rw [ha] at hnd
        exact ⟨_, _, i1, i2, i3, by simp [upd, i4], by simp [upd, i5], i6,
          .over (List.nodup_cons.1 hnd).1 (by simp [upd]) (by simp [upd]) (by simp [hst])⟩
    | deep ha => exact absurd hn ha
    | over ha => exact absurd (List.mem_of_mem_head? hn) ha
  · exact ⟨_, _, hi.other hf hf' hn hs⟩
end

/-- the states of a meaningful program -/
theorem facts {l0 : L} {g0 : G} {s : Verif.St L G V E} (h : Sim P l0 g0 s a) (c : Nat) : Facts c a := by
  obtain ⟨hk, _, rest, co, d, ok, rfl⟩ := h
  have hi := inv_reach hk.reach
  refine ⟨d.nodup, ?_, ?_, ?_⟩
  · intro h hd h1 h2
    have := (hi.hok.born h hd _ h1 h2).2.1
    rw [this]; exact (ok.kind c).symm
  · intro h hd h1 h2
    have := (hi.hok.born h hd _ h1 h2).2.1
    rw [this]; exact congrArg Kind.flip (ok.kind c).symm
  · intro h hp
    apply hi.sched.lt_nk
    intro e
    have : (co c).phase = .body h := hp
    rw [ok.phase, e] at this
    cases this

theorem GInv.run {l0 : L} {g0 : G} (hm : Meaningful P l0 g0) {h : Nat} {va : Var} {st : Gen.Cfg L E} {a0 : St L G V E}
    {s : Verif.St L G V E} (hself : Gen.SelfContained P h va st) (hc0 : c ≠ 0) :
    ∀ (m : Nat) {s : Verif.St L G V E} {a : St L G V E} {xs : List V} {cfg : Gen.Cfg L E}, Sim P l0 g0 s a → Reach P l0 g0 a →
      (∀ m b, Coro.run P m a = .next b → b.active.head? = some c → ∀ l, b.ctl = .eval l → ∃ hd, b.hs h = some hd ∧ hd.cb = some ⟨c, .syn⟩) →
      GInv P h va c st a0 a xs cfg → Coro.run P m a = .next b → ∃ ys cfg', GInv P h va c st a0 b ys cfg' := by
  intro m
  induction m with
  | zero => intro s a xs cfg _ _ _ hi hr; cases hr; exact ⟨_, _, hi⟩
  | succ m ih =>
    intro s a xs cfg hsim ha hU hi hr
    simp only [Coro.run] at hr
    cases hs : Coro.step P a with
    | next a1 =>
      rw [hs] at hr
      obtain ⟨_, t, _, h2, _⟩ := Sim.ahead hm ha hs (stut s + 1) (Nat.lt_succ_self _) hsim
      obtain ⟨ys, cfg', hi'⟩ := hi.step (facts hsim c) (facts h2 c) hself hc0 (hU 0 a rfl) hs
      exact ih h2 (ha.step hs) (fun m b hb => hU (m + 1) b (by simp only [Coro.run, hs]; exact hb)) hi' hr
    | _ => rw [hs] at hr; cases hr
end Verif.Coro
