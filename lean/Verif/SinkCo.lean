import Verif.SpecSink
import Verif.GenCo

/-! # A push coroutine and the others on the specification machine.  Proof material for C70. -/
namespace Verif.Coro
variable {L G V E : Type}
variable {P : Prog L G V E} {a b a' : St L G V E} {c : Nat}

/-- a step of the function that has nothing to do with other coroutines -/
structure Silent (c : Nat) (a b : St L G V E) : Prop where
  out : pushedList c b.obs = pushedList c a.obs
  fin : ∀ x, .fin c x ∈ b.obs → .fin c x ∈ a.obs
  co : b.co = a.co
  nk : b.nk = a.nk
  act : b.active = a.active

section
variable {h : Nat} {va : Var}

set_option hygiene false in
local macro "m!" : tactic => `(tactic| (
  simp [St.setStack, St.goto, St.setCo, St.newObj, St.endObj, St.see, St.push, pushedList, upd, opn, posC, ha, hst, hc]
  try exact ht
  try exact ⟨rfl, ht⟩
  try exact fun o ho => ht o (by simp [ho])))

theorem inner {x y : Gen.Pos L E} {t u : List (Open L E)} (hd : Gen.Step P h va ⟨x, t⟩ none ⟨y, u⟩) {below : List Nat}
    (ha : a.active = c :: below) (hc : a.ctl = posC x) (hst : a.stack c = t.map opn) (ht : ∀ o ∈ t, plain (opn o : Fr L V E))
    (hval : ∀ k, (∃ l, a.ctl = .eval l) → objValid (a.push c (.use k)) c h = some true) (hs : step P a = .next a') :
    Silent c a a' ∧ (∀ o ∈ u, plain (opn o : Fr L V E)) ∧
      ((a'.ctl = posC y ∧ a'.stack c = u.map opn) ∨ ∃ K r, a'.ctl = .res r ∧ a'.stack c = .use K :: u.map opn ∧ y = .at (K r)) := by
  cases hd with
  | work hcode =>
    simp only [posC] at hc
    simp only [step, ha, hc, evalStep, hcode a.g] at hs
    cases hs
    exact ⟨⟨by m!, by m!, by m!, by m!, by m!⟩, by m!, .inl ⟨by m!, by m!⟩⟩
  | local_ hcode =>
    simp only [posC] at hc
    simp only [step, ha, hc, evalStep, hcode a.g] at hs
    cases hs
    exact ⟨⟨by m!, by m!, by m!, by m!, by m!⟩, by m!, .inl ⟨by m!, by m!⟩⟩
  | leave hcode =>
    simp only [posC] at hc
    simp only [step, ha, hc, evalStep, hcode a.g, hst, List.map_cons, opn] at hs
    cases hs
    exact ⟨⟨by m!, by m!, by m!, by m!, by m!⟩, by m!, .inl ⟨by m!, by m!⟩⟩
  | try_ hcode =>
    simp only [posC] at hc
    simp only [step, ha, hc, evalStep, hcode a.g] at hs
    cases hs
    exact ⟨⟨by m!, by m!, by m!, by m!, by m!⟩, by m!, .inl ⟨by m!, by m!⟩⟩
  | endTry hcode =>
    simp only [posC] at hc
    simp only [step, ha, hc, evalStep, hcode a.g, hst, List.map_cons, opn] at hs
    cases hs
    exact ⟨⟨by m!, by m!, by m!, by m!, by m!⟩, by m!, .inl ⟨by m!, by m!⟩⟩
  | call hcode =>
    simp only [posC] at hc
    simp only [step, ha, hc, evalStep, hcode a.g] at hs
    cases hs
    exact ⟨⟨by m!, by m!, by m!, by m!, by m!⟩, by m!, .inl ⟨by m!, by m!⟩⟩
  | ret hcode =>
    simp only [posC] at hc
    simp only [step, ha, hc, evalStep, hcode a.g] at hs
    cases hs
    exact ⟨⟨by m!, by m!, by m!, by m!, by m!⟩, by m!, .inl ⟨by m!, by m!⟩⟩
  | throw hcode =>
    simp only [posC] at hc
    simp only [step, ha, hc, evalStep, hcode a.g] at hs
    cases hs
    exact ⟨⟨by m!, by m!, by m!, by m!, by m!⟩, by m!, .inl ⟨by m!, by m!⟩⟩
  | @valid l k _ hcode =>
    simp only [posC] at hc
    have e1 := hval k ⟨l, hc⟩
    simp only [step, ha, hc, evalStep, hcode a.g, Coro.call, e1] at hs
    cases hs
    exact ⟨⟨by m!, by m!, by m!, by m!, by m!⟩, ht, .inr ⟨k, .bool true, by m!, by m!, rfl⟩⟩
  | objDies hx =>
    cases x with
    | «at» l => exact absurd rfl (hx l)
    | throws e =>
      simp only [posC] at hc
      simp only [step, ha, hc, raiseStep, hst, List.map_cons, opn] at hs
      cases hs
      exact ⟨⟨by m!, by m!, by m!, by m!, by m!⟩, by m!, .inl ⟨by m!, by m!⟩⟩
    | returns =>
      simp only [posC] at hc
      simp only [step, ha, hc, retStep, hst, List.map_cons, opn] at hs
      cases hs
      exact ⟨⟨by m!, by m!, by m!, by m!, by m!⟩, by m!, .inl ⟨by m!, by m!⟩⟩
  | caught =>
    simp only [posC] at hc
    simp only [step, ha, hc, raiseStep, hst, List.map_cons, opn] at hs
    cases hs
    exact ⟨⟨by m!, by m!, by m!, by m!, by m!⟩, by m!, .inl ⟨by m!, by m!⟩⟩
  | callThrows =>
    simp only [posC] at hc
    simp only [step, ha, hc, raiseStep, hst, List.map_cons, opn] at hs
    cases hs
    exact ⟨⟨by m!, by m!, by m!, by m!, by m!⟩, by m!, .inl ⟨by m!, by m!⟩⟩
  | tryReturns =>
    simp only [posC] at hc
    simp only [step, ha, hc, retStep, hst, List.map_cons, opn] at hs
    cases hs
    exact ⟨⟨by m!, by m!, by m!, by m!, by m!⟩, by m!, .inl ⟨by m!, by m!⟩⟩
  | callReturns =>
    simp only [posC] at hc
    simp only [step, ha, hc, retStep, hst, List.map_cons, opn] at hs
    cases hs
    exact ⟨⟨by m!, by m!, by m!, by m!, by m!⟩, by m!, .inl ⟨by m!, by m!⟩⟩
end

/-- how the function asks for the next value: by calling its argument, or by incrementing an iterator -/
def askOp (h : Nat) : Bool → Op L V E
  | false => .resume h
  | true => .itNext (some h)

def askFr (h : Nat) : Bool → List (Fr L V E)
  | false => []
  | true => [.iter h]

def askRes (h : Nat) : Bool → Res V
  | false => .unit
  | true => .it (some h)

/-- how the state of the machine and the state of the function on its own belong together -/
inductive SMode (P : Prog L G V E) (h c : Nat) (a : St L G V E) : Sink.Cfg L V E → Prop
  | live {x t v below hh} (ha : a.active = c :: below) (hp : (a.co c).phase = .body hh) (hc : a.ctl = posC x) (hs : a.stack c = t.map opn)
      (ht : ∀ o ∈ t, plain (opn o : Fr L V E)) (hv : (a.co c).val = some v) : SMode P h c a ⟨x, t, v⟩
  | use {t v below hh r K} (ha : a.active = c :: below) (hp : (a.co c).phase = .body hh) (hc : a.ctl = .res r)
      (hs : a.stack c = .use K :: t.map opn) (ht : ∀ o ∈ t, plain (opn o : Fr L V E)) (hv : (a.co c).val = some v) :
      SMode P h c a ⟨.at (K r), t, v⟩
  | iter {t v below hh r K} (ha : a.active = c :: below) (hp : (a.co c).phase = .body hh) (hc : a.ctl = .res r)
      (hs : a.stack c = .iter h :: .use K :: t.map opn) (ht : ∀ o ∈ t, plain (opn o : Fr L V E)) (hv : (a.co c).val = some v) :
      SMode P h c a ⟨.at (K (.it (some h))), t, v⟩
  | back {t v below hh K} (q : Bool) (ha : a.active = c :: below) (hp : (a.co c).phase = .body hh) (hc : a.ctl = .back)
      (hs : a.stack c = .resumed ⟨c, .syn⟩ :: (askFr h q ++ .use K :: t.map opn)) (ht : ∀ o ∈ t, plain (opn o : Fr L V E))
      (hv : (a.co c).val = some v) : SMode P h c a ⟨.at (K (askRes h q)), t, v⟩
  | waiting {t v hh K l} (q : Bool) (ha : c ∉ a.active) (hp : (a.co c).phase = .body hh)
      (hs : a.stack c = .resumed ⟨c, .syn⟩ :: (askFr h q ++ .use K :: t.map opn)) (ht : ∀ o ∈ t, plain (opn o : Fr L V E))
      (hcode : ∀ g, P.code l g = .api (askOp h q) K) : SMode P h c a ⟨.at l, t, v⟩
  | dying {cfg below} (ha : a.active = c :: below) (hc : a.ctl = .raise .forced) (hs : ∀ f ∈ a.stack c, plain f = true) : SMode P h c a cfg
  | left {cfg below} (ha : a.active = c :: below) (hc : a.ctl = .back ∨ a.ctl = .res .unit) (hs : a.stack c = [])
      (hp : (a.co c).phase = .leaving) : SMode P h c a cfg
  | deep {cfg} (ha : a.active.head? ≠ some c) (hs : a.stack c = []) (hp : (a.co c).phase = .leaving) : SMode P h c a cfg
  | over {cfg} (ha : c ∉ a.active) (hp : ∀ h, (a.co c).phase ≠ .body h) (hp' : ∀ h f, (a.co c).phase ≠ .idle h f)
      (hs : ∀ f ∈ a.stack c, plain f = true) : SMode P h c a cfg

/-- the invariant -/
structure SInv (P : Prog L G V E) (h : Nat) (va : Var) (c : Nat) (st : Sink.Cfg L V E) (a0 a : St L G V E) (xs : List V)
    (cfg : Sink.Cfg L V E) : Prop where
  runs : Sink.Runs P h va st xs cfg
  out : pushedList c a.obs = pushedList c a0.obs ++ xs
  fin : ∀ x, .fin c x ∈ a.obs → .fin c x ∈ a0.obs ∨ Sink.Ended cfg x
  kind : (a.co c).kind = .push
  va : (a.co c).va = va
  nk : c < a.nk
  mode : SMode P h c a cfg

section
variable {h : Nat} {va : Var} {st cfg : Sink.Cfg L V E} {a0 : St L G V E} {xs : List V}

/-- a step of the others -/
theorem SInv.other (hi : SInv P h va c st a0 a xs cfg) (hf : Facts c a) (hf' : Facts c a') (hva : va ≠ .void) (hn : a.active.head? ≠ some c)
    (hs : step P a = .next a') : ∃ ys cfg', SInv P h va c st a0 a' ys cfg' := by
  rcases keep_step hn hi.nk hs with k | ⟨w, k⟩
  · refine ⟨xs, cfg, hi.runs, k.out.trans hi.out, fun x hx => hi.fin x (k.fin x hx), k.kind.trans hi.kind, k.va.trans hi.va, Nat.lt_of_lt_of_le hi.nk k.nk, ?_⟩
    have nd := hf'.nodup
    have m := hi.mode
    have nb : ∀ j, j = c → (j = c → (a'.ctl = .back ∧ ((∃ h fn, (a'.co c).phase = .idle h fn) ∨ ∃ h, (a'.co c).phase = .body h) ∧
        ∃ h hd, a.hs h = some hd ∧ hd.cb = some ⟨c, .own⟩ ∧ (hd.ty = .pull ∨ (a.co c).va = .void)) ∨ a'.ctl = .raise .forced) →
        a'.ctl = .raise .forced := by
      intro j e hj
      rcases hj e with ⟨_, _, x, hd, h1, h2, h3⟩ | hb
      · exfalso
        rcases h3 with h3 | h3
        · rw [hf.own x hd h1 h2, hi.kind] at h3
          cases h3
        · exact hva (hi.va.symm.trans h3)
      · exact hb
    cases m with
    | live ha => simp [ha] at hn
    | use ha => simp [ha] at hn
    | iter ha => simp [ha] at hn
    | back _ ha => simp [ha] at hn
    | dying ha => simp [ha] at hn
    | left ha => simp [ha] at hn
    | @waiting t v hh K l q ha hp hst ht hcode =>
      rcases k.act with e | ⟨e, _⟩ | ⟨j, e, hj⟩
      · exact .waiting q (by rw [e]; exact ha) (k.phase.trans hp) (k.stack.trans hst) ht hcode
      · exact .waiting q (by rw [e]; exact fun m => ha (List.mem_of_mem_tail m)) (k.phase.trans hp) (k.stack.trans hst) ht hcode
      · by_cases hjc : j = c
        · have hb := nb j hjc hj
          subst hjc
          refine .dying e hb ?_
          rw [k.stack, hst]
          have h9 : ∀ f ∈ t.map opn, plain (f : Fr L V E) = true := by
            rintro f hf
            obtain ⟨o, ho, rfl⟩ := List.mem_map.1 hf
            exact ht o ho
          cases q
          · simp only [askFr, List.nil_append, List.mem_cons, forall_eq_or_imp]
            exact ⟨rfl, rfl, h9⟩
          · simp only [askFr, List.cons_append, List.nil_append, List.mem_cons, forall_eq_or_imp]
            exact ⟨rfl, rfl, rfl, h9⟩
        · exact .waiting q (by rw [e]; simp [ha, Ne.symm hjc]) (k.phase.trans hp) (k.stack.trans hst) ht hcode
    | over ha hp hp' hst =>
      rcases k.act with e | ⟨e, _⟩ | ⟨j, e, hj⟩
      · exact .over (by rw [e]; exact ha) (by rw [k.phase]; exact hp) (by rw [k.phase]; exact hp') (by rw [k.stack]; exact hst)
      · exact .over (by rw [e]; exact fun m => ha (List.mem_of_mem_tail m)) (by rw [k.phase]; exact hp) (by rw [k.phase]; exact hp') (by rw [k.stack]; exact hst)
      · by_cases hjc : j = c
        · have hb := nb j hjc hj
          subst hjc
          exact .dying e hb (by rw [k.stack]; exact hst)
        · exact .over (by rw [e]; simp [ha, Ne.symm hjc]) (by rw [k.phase]; exact hp) (by rw [k.phase]; exact hp') (by rw [k.stack]; exact hst)
    | deep ha hst hp =>
      by_cases hh : a'.active.head? = some c
      · cases hac : a'.active with
        | nil => simp [hac] at hh
        | cons d below =>
          simp only [hac, List.head?_cons, Option.some.injEq] at hh
          subst hh
          rcases k.act with e | ⟨e, hc⟩ | ⟨j, e, hj⟩
          · exact absurd (by rw [← e, hac]; rfl) hn
          · exact .left hac hc (k.stack.trans hst) (k.phase.trans hp)
          · rw [hac] at e
            injection e with e1 e2
            exact .dying hac (nb j e1.symm hj) (by rw [k.stack, hst]; simp)
      · exact .deep hh (k.stack.trans hst) (k.phase.trans hp)
  · have m := hi.mode
    have lv := k.live
    cases m with
    | live ha => simp [ha] at hn
    | use ha => simp [ha] at hn
    | iter ha => simp [ha] at hn
    | back _ ha => simp [ha] at hn
    | dying ha => simp [ha] at hn
    | left ha => simp [ha] at hn
    | @waiting t v hh K l q ha hp hst ht hcode =>
      have hstep : Sink.Step P h va ⟨.at l, t, v⟩ (some w) ⟨.at (K (askRes h q)), t, w⟩ := by
        cases q
        · exact .next hcode
        · exact .nextIt hcode
      refine ⟨_, _, hi.runs.more hstep, ?_, ?_, k.kind.trans hi.kind, k.va.trans hi.va, Nat.lt_of_lt_of_le hi.nk k.nk, ?_⟩
      · rw [k.out, hi.out, List.append_assoc]; rfl
      · intro x hx
        exact (hi.fin x (k.fin x hx)).imp_right fun q => q.elim
      · exact .back q k.act (k.phase.trans hp) k.ctl (k.stack.trans hst) ht k.val
    | over ha hp hp' hst =>
      rcases lv with ⟨_, _, e⟩ | ⟨_, e⟩
      · exact absurd e (hp' _ _)
      · exact absurd e (hp _)
    | deep ha hst hp => rw [hp] at lv; rcases lv with ⟨_, _, e⟩ | ⟨_, e⟩ <;> cases e

local macro "g!" : tactic => `(tactic| (
  simp_all [St.setStack, St.goto, St.setCo, St.newObj, St.endObj, St.see, St.push, pushedList, upd]))

/-- the coroutine is unwound -/
theorem SInv.die (hi : SInv P h va c st a0 a xs cfg) (hf' : Facts c a') {below : List Nat} (ha : a.active = c :: below)
    (hc : a.ctl = .raise .forced) (hst : ∀ f ∈ a.stack c, plain f = true) (hs : step P a = .next a') : SInv P h va c st a0 a' xs cfg := by
  obtain ⟨i1, i2, i3, i4, i5, i6, _⟩ := hi
  simp only [step, ha, hc, raiseStep] at hs
  split at hs
  · cases hs
    refine ⟨i1, by g!, by g!, by g!, by g!, by g!, .dying (below := below) (by g!) (by g!) (by g!)⟩
  · exfalso; simp_all [plain]
  · rename_i e; cases e
  · split at hs
    · cases hs
    · cases hs
      refine ⟨i1, by g!, by g!, by g!, by g!, by g!, .dying (below := below) (by g!) (by g!) (by g!)⟩
  · rename_i e; cases e
  iterate 5
    · cases hs
      refine ⟨i1, by g!, by g!, by g!, by g!, by g!, .dying (below := below) (by g!) (by g!) (by g!)⟩
  · rename_i e; cases e
  · rename_i e
    have key : ∀ hh, destroyObj (a.setCo c { a.co c with phase := .leaving }) c below hh = .next a' → SInv P h va c st a0 a' xs cfg := by
      intro hh hs
      unfold destroyObj at hs
      split at hs
      · cases hs
      · simp only at hs
        split at hs
        · unfold kill at hs
          split at hs
          · cases hs
          · rename_i k _ hcon
            cases hs
            refine ⟨i1, i2, i3, by g!, by g!, i6, .deep ?_ (by g!) (by g!)⟩
            intro e'
            simp only [List.head?_cons, Option.some.injEq] at e'
            subst e'
            simp [St.setCo, ha] at hcon
        · split at hs
          · cases hs
            exact ⟨i1, i2, i3, by g!, by g!, i6, .left (below := below) (by g!) (.inr rfl) (by g!) (by g!)⟩
          · cases hs
        · cases hs
          exact ⟨i1, i2, i3, by g!, by g!, i6, .left (below := below) (by g!) (.inr rfl) (by g!) (by g!)⟩
    split at hs
    · exact key _ hs
    · exact key _ hs
    · exact key _ hs
    · cases hs
  · cases hs


set_option hygiene false in
local macro "m!" : tactic => `(tactic| (
  simp [St.setStack, St.goto, St.setCo, St.newObj, St.endObj, St.see, St.push, pushedList, upd, opn, posC, ha, hp, hst, hc, hcb]
  try exact ht
  try exact ⟨rfl, ht⟩
  try exact fun o ho => ht o (by simp [ho])))

/-- a step of the function itself -/
theorem SInv.self (hi : SInv P h va c st a0 a xs cfg) (hf : Facts c a) (hself : Sink.SelfContained P h va st) (hc0 : c ≠ 0) (hva : va ≠ .void)
    (hU : ∀ l, a.ctl = .eval l → ∃ hd, a.hs h = some hd ∧ hd.cb = some ⟨c, .syn⟩) {below : List Nat} {hh : Nat} {x : Gen.Pos L E}
    {t : List (Open L E)} {v : V} (he : cfg = ⟨x, t, v⟩)
    (ha : a.active = c :: below) (hp : (a.co c).phase = .body hh) (hc : a.ctl = posC x) (hst : a.stack c = t.map opn)
    (ht : ∀ o ∈ t, plain (opn o : Fr L V E)) (hv : (a.co c).val = some v) (hs : step P a = .next a') :
    ∃ ys cfg', SInv P h va c st a0 a' ys cfg' := by
  subst he
  obtain ⟨i1, i2, i3, i4, i5, i6, _⟩ := hi
  have hnd := hf.nodup
  rw [ha] at hnd
  have hcb : c ∉ below := (List.nodup_cons.1 hnd).1
  have nofin : ∀ y o d, Sink.Step P h va ⟨x, t, v⟩ o d → Sink.Ended (⟨x, t, v⟩ : Sink.Cfg L V E) y → False := by
    intro y o d hd hy
    cases t with
    | cons _ _ => cases x <;> exact hy
    | nil =>
      cases x with
      | «at» l => exact hy
      | throws e => cases hd with | inner s => cases s
      | returns => cases hd with | inner s => cases s
  rcases hself _ _ i1 with ⟨y, hy⟩ | ⟨o, d, hd⟩
  · -- the end
    have fin : ∀ y, finish a c below y = .next a' → Sink.Ended (⟨x, t, v⟩ : Sink.Cfg L V E) y → SInv P h va c st a0 a' xs ⟨x, t, v⟩ := by
      intro y hs hy
      simp only [finish, hp] at hs
      cases hs
      refine ⟨i1, by g!, ?_, by g!, by g!, by g!, .over hcb (by g!) (by g!) ?_⟩
      · intro z hz
        simp only [St.see, List.mem_cons, Ev.fin.injEq, true_and] at hz
        rcases hz with rfl | hz
        · exact .inr hy
        · exact i3 z hz
      · intro f hf
        simp only [St.see, St.setCo] at hf
        rw [hst] at hf
        obtain ⟨o, ho, rfl⟩ := List.mem_map.1 hf
        exact ht o ho
    cases x with
    | «at» l => exact hy.elim
    | throws e =>
      cases t with
      | cons _ _ => exact hy.elim
      | nil =>
        simp only [posC] at hc
        simp only [step, ha, hc, raiseStep, hst, List.map_nil, if_neg hc0] at hs
        exact ⟨_, _, fin _ hs rfl⟩
    | returns =>
      cases t with
      | cons _ _ => exact hy.elim
      | nil =>
        simp only [posC] at hc
        simp only [step, ha, hc, retStep, hst, List.map_nil, if_neg hc0] at hs
        exact ⟨_, _, fin _ hs rfl⟩
  · have mk : ∀ {d : Sink.Cfg L V E}, Sink.Step P h va ⟨x, t, v⟩ none d → 
        pushedList c a'.obs = pushedList c a.obs → (∀ y, .fin c y ∈ a'.obs → .fin c y ∈ a.obs) → (a'.co c).kind = (a.co c).kind →
        (a'.co c).va = (a.co c).va → a'.nk = a.nk → SMode P h c a' d → ∃ ys cfg', SInv P h va c st a0 a' ys cfg' :=
      fun hd q1 q2 q3 q4 q5 m => ⟨_, _, i1.more hd, by rw [q1, i2]; simp, fun y hy => (i3 y (q2 y hy)).imp_right fun q => (nofin y _ _ hd q).elim,
        q3.trans i4, q4.trans i5, by rw [q5]; exact i6, m⟩
    have obj : ∀ l, a.ctl = .eval l → ∃ va', a.hs h = some ⟨.pull, va', some ⟨c, .syn⟩⟩ := by
      intro l hl
      obtain ⟨⟨ty, va', cb⟩, hh1, hh2⟩ := hU l hl
      have hty := hf.syn h _ hh1 hh2
      rw [i4] at hty
      simp only [Kind.flip] at hty hh2
      subst hty hh2
      exact ⟨va', hh1⟩
    have hval : ∀ k, (∃ l, a.ctl = .eval l) → objValid (a.push c (.use k)) c h = some true := by
      rintro k ⟨l, hl⟩
      obtain ⟨va', e⟩ := obj l hl
      have e0 : (a.push c (.use k)).hs h = some ⟨.pull, va', some ⟨c, .syn⟩⟩ := e
      simp only [objValid, e0]
      simp [Coro.valid, St.push, St.setStack, hv]
    have hvl : ∀ k l, a.ctl = .eval l → ∀ r, value (a.push c (.use k)) c h = some r → r = (c, v) := by
      intro k l hl r hr
      obtain ⟨va', e⟩ := obj l hl
      have e0 : (a.push c (.use k)).hs h = some ⟨.pull, va', some ⟨c, .syn⟩⟩ := e
      simp only [value, e0] at hr
      split at hr
      · cases hr
      · have e1 : ((a.push c (.use k)).co c).val = some v := hv
        rw [e1] at hr
        cases hr; rfl
    have ask : ∀ (q : Bool) {l : L} {k : Res V → L}, x = .at l → (∀ g, P.code l g = .api (askOp h q) k) →
        ∃ ys cfg', SInv P h va c st a0 a' ys cfg' := by
      intro q l k hx hcode
      subst hx
      simp only [posC] at hc
      obtain ⟨va', e⟩ := obj l hc
      have e0 : (a.push c (.use k)).hs h = some ⟨.pull, va', some ⟨c, .syn⟩⟩ := e
      have hs' : pullFrom (a.push c (.use k)) c below h (askFr h q) = .next a' := by
        cases q <;> simpa only [step, ha, hc, evalStep, hcode a.g, Coro.call, askOp, askFr] using hs
      simp only [pullFrom, e0, Coro.switch] at hs'
      split at hs'
      · cases hs'
        refine ⟨_, _, i1, ?_, ?_, ?_, ?_, ?_, .waiting (hh := hh) (K := k) q ?_ ?_ ?_ ht hcode⟩
        · exact i2
        · exact i3
        · exact i4
        · exact i5
        · exact i6
        · exact hcb
        · exact hp
        · simp [St.setStack, St.goto, St.push, upd, hst]
      · cases hs'
    cases hd with
    | @inner x y t u _ s =>
      obtain ⟨q1, q2, q3⟩ := inner s ha hc hst ht hval hs
      refine mk (.inner s) q1.out q1.fin (by rw [q1.co]) (by rw [q1.co]) q1.nk ?_
      rcases q3 with ⟨q3, q4⟩ | ⟨K, r, q3, q4, rfl⟩
      · exact .live (below := below) (hh := hh) (q1.act.trans ha) (by rw [q1.co]; exact hp) q3 q4 q2 (by rw [q1.co]; exact hv)
      · exact .use (below := below) (hh := hh) (q1.act.trans ha) (by rw [q1.co]; exact hp) q3 q4 q2 (by rw [q1.co]; exact hv)
    | @get l k _ _ hv' hcode =>
      simp only [posC] at hc
      simp only [step, ha, hc, evalStep, hcode a.g, Coro.call] at hs
      split at hs
      · rename_i j w hj
        have := hvl k l hc _ hj
        cases this
        have e1 : ((a.push c (.use k)).co c).va = .val := i5.trans hv'
        rw [if_pos e1] at hs
        cases hs
        exact mk (.get hv' hcode) (by m!) (by m!) (by m!) (by m!) (by m!)
          (.use (below := below) (hh := hh) (r := .val v) (K := k) (by m!) (by m!) rfl (by m!) ht (by m!))
      · cases hs
    | @getRef l k _ _ hv' hcode =>
      simp only [posC] at hc
      simp only [step, ha, hc, evalStep, hcode a.g, Coro.call] at hs
      split at hs
      · rename_i j w hj
        have := hvl k l hc _ hj
        cases this
        have e1 : ((a.push c (.use k)).co c).va ≠ .val := by
          intro e
          have : va = .val := i5.symm.trans e
          rw [this] at hv'; cases hv'
        rw [if_neg e1] at hs
        cases hs
        exact mk (.getRef hv' hcode) (by m!) (by m!) (by m!) (by m!) (by m!)
          (.use (below := below) (hh := hh) (r := .val v) (K := k) (by m!) (by m!) rfl (by m!) ht hv)
      · cases hs
    | @look l k _ _ hv' hcode =>
      simp only [posC] at hc
      simp only [step, ha, hc, evalStep, hcode a.g, Coro.call] at hs
      split at hs
      · rename_i j w hj
        have := hvl k l hc _ hj
        cases this
        cases hs
        exact mk (.look hv' hcode) (by m!) (by m!) (by m!) (by m!) (by m!)
          (.use (below := below) (hh := hh) (r := .val v) (K := k) (by m!) (by m!) rfl (by m!) ht hv)
      · cases hs
    | @begin_ l k _ _ hv' hcode =>
      simp only [posC] at hc
      simp only [step, ha, hc, evalStep, hcode a.g, Coro.call, hval k ⟨l, hc⟩] at hs
      split at hs
      · rename_i hd b hj hb
        split at hs
        · cases hs
        · cases hb
          cases hs
          exact mk (.begin_ hv' hcode) (by m!) (by m!) (by m!) (by m!) (by m!)
            (.use (below := below) (hh := hh) (r := .it (some h)) (K := k) (by m!) (by m!) (by simp [St.goto]) (by m!) ht hv)
      · cases hs
    | next hcode => exact ask false rfl hcode
    | nextIt hcode => exact ask true rfl hcode

/-- a step of anybody -/
theorem SInv.step (hi : SInv P h va c st a0 a xs cfg) (hf : Facts c a) (hf' : Facts c a') (hself : Sink.SelfContained P h va st) (hc0 : c ≠ 0)
    (hva : va ≠ .void)
    (hU : ∀ m b, Coro.run P m a = .next b → b.active.head? = some c → ∀ l, b.ctl = .eval l → ∃ hd, b.hs h = some hd ∧ hd.cb = some ⟨c, .syn⟩)
    (hs : Coro.step P a = .next a') : ∃ ys cfg', SInv P h va c st a0 a' ys cfg' := by
  by_cases hn : a.active.head? = some c
  · have m := hi.mode
    cases m with
    | live ha hp hc hst ht hv => exact hi.self hf hself hc0 hva (hU 0 a rfl hn) rfl ha hp hc hst ht hv hs
    | @use t v below hh r K ha hp hc hst ht hv =>
      rw [step_use ha hc hst] at hs
      cases hs
      obtain ⟨i1, i2, i3, i4, i5, i6, _⟩ := hi
      exact ⟨_, _, i1, i2, i3, i4, i5, i6, .live (below := below) (hh := hh) ha hp rfl (by simp [upd]) ht hv⟩
    | @iter t v below hh r K ha hp hc hst ht hv =>
      have hs0 := hs
      simp only [Coro.step, ha, hc, resStep, hst] at hs
      split at hs
      · rename_i b hb
        cases hs
        have h2 : Coro.step P ((a.setStack c (.use K :: t.map opn)).goto (.res (.it (if b then some h else none)))) = _ :=
          step_use (n := c) (below := below) (r := .it (if b then some h else none)) (K := K) (t := t.map opn) ha rfl (by simp [St.setStack, St.goto, upd])
        obtain ⟨⟨ty, va', cb⟩, h3, h4⟩ := hU 2 _ (by simp only [Coro.run, hs0, h2]; rfl) (by simp [St.setStack, St.goto, ha]) _ rfl
        simp only at h4
        subst h4
        have h3' : a.hs h = some ⟨ty, va', some ⟨c, .syn⟩⟩ := h3
        have hbt : b = true := by
          simp only [objValid, h3'] at hb
          simp [Coro.valid, hv] at hb
          exact hb.symm
        subst hbt
        obtain ⟨i1, i2, i3, i4, i5, i6, _⟩ := hi
        exact ⟨_, _, i1, i2, i3, i4, i5, i6, .use (below := below) (hh := hh) (r := .it (some h)) (K := K) ha hp (by simp [St.goto]) (by simp [St.setStack, St.goto, upd]) ht hv⟩
      · cases hs
    | @back t v below hh K q ha hp hc hst ht hv =>
      rw [step_resumed_syn ha hc hst] at hs
      cases hs
      obtain ⟨i1, i2, i3, i4, i5, i6, _⟩ := hi
      cases q
      · exact ⟨_, _, i1, i2, i3, i4, i5, i6, .use (below := below) (hh := hh) (r := .unit) ha hp rfl (by simp [upd, askFr]) ht hv⟩
      · exact ⟨_, _, i1, i2, i3, i4, i5, i6, .iter (below := below) (hh := hh) (r := .unit) ha hp rfl (by simp [upd, askFr]) ht hv⟩
    | waiting _ ha => exact absurd (List.mem_of_mem_head? hn) ha
    | dying ha hc hst => exact ⟨_, _, hi.die hf' ha hc hst hs⟩
    | @left _ below ha hc hst hp =>
      rcases hc with hc | hc
      · simp [Coro.step, ha, hc, backStep, hst, hp] at hs
      · rw [step_left ha hc hst hp] at hs
        cases hs
        obtain ⟨i1, i2, i3, i4, i5, i6, _⟩ := hi
        have hnd := hf.nodup
        rw [ha] at hnd
        exact ⟨_, _, i1, i2, i3, by simp [upd, i4], by simp [upd, i5], i6,
          .over (List.nodup_cons.1 hnd).1 (by simp [upd]) (by simp [upd]) (by simp [hst])⟩
    | deep ha => exact absurd hn ha
    | over ha => exact absurd (List.mem_of_mem_head? hn) ha
  · exact hi.other hf hf' hva hn hs
end

theorem SInv.run {l0 : L} {g0 : G} (hm : Meaningful P l0 g0) {h : Nat} {va : Var} {st : Sink.Cfg L V E} {a0 : St L G V E}
    (hself : Sink.SelfContained P h va st) (hc0 : c ≠ 0) (hva : va ≠ .void) :
    ∀ (m : Nat) {s : Verif.St L G V E} {a : St L G V E} {xs : List V} {cfg : Sink.Cfg L V E}, Sim P l0 g0 s a → Reach P l0 g0 a →
      (∀ m b, Coro.run P m a = .next b → b.active.head? = some c → ∀ l, b.ctl = .eval l → ∃ hd, b.hs h = some hd ∧ hd.cb = some ⟨c, .syn⟩) →
      SInv P h va c st a0 a xs cfg → Coro.run P m a = .next b → ∃ ys cfg', SInv P h va c st a0 b ys cfg' := by
  intro m
  induction m with
  | zero => intro s a xs cfg _ _ _ hi hr; cases hr; exact ⟨_, _, hi⟩
  | succ m ih =>
    intro s a xs cfg hsim ha hU hi hr
    simp only [Coro.run] at hr
    cases hs : Coro.step P a with
    | next a1 =>
      rw [hs] at hr
      obtain ⟨_, t, _, h2, _⟩ := Sim.ahead hm ha hs (stut s + 1) (Nat.lt_succ_self _) hsim
      obtain ⟨ys, cfg', hi'⟩ := hi.step (facts hsim c) (facts h2 c) hself hc0 hva hU hs
      exact ih h2 (ha.step hs) (fun m b hb => hU (m + 1) b (by simp only [Coro.run, hs]; exact hb)) hi' hr
    | _ => rw [hs] at hr; cases hr
end Verif.Coro
