import Verif.SimRules
import Verif.PropsRules

/-! # How a step can end, in the library model and in the specification.  Proof material. -/
namespace Verif
variable {L G V E : Type}
variable {P : Prog L G V E} {s s' : St L G V E} {rest rest' : List Nat} {co co' : Nat → Coro.Co L V E}

/-- the program goes on, or its behaviour is undefined -/
def Out.plain {α : Type} : Out α → Prop
  | .next _ | .ub _ _ | .imp _ => True
  | _ => False

theorem fiberResume_plain {s : St L G V E} {l : FLoc} {r : CbRef} : (fiberResume s l r).plain := by unfold fiberResume; split <;> trivial
theorem fiberDrop_plain {s : St L G V E} {f : Option Nat} : (fiberDrop s f).plain := by unfold fiberDrop; split <;> trivial

theorem destroyCb_plain {s : St L G V E} {r : CbRef} : (destroyCb s r).plain := by
  unfold destroyCb; simp only
  split
  · trivial
  · exact fiberDrop_plain

theorem deallocate_plain {s : St L G V E} {r : CbRef} : (deallocate s r).plain := by
  unfold deallocate
  split
  · split
    · exact destroyCb_plain
    · trivial
  · trivial

theorem destroyHandle_plain {s : St L G V E} {h : Nat} : (destroyHandle s h).plain := by
  unfold destroyHandle
  split
  · trivial
  · simp only
    split
    · trivial
    · exact deallocate_plain

theorem exitCtx_plain {s : St L G V E} : (exitCtx s).plain := by
  unfold exitCtx; simp only
  split
  · trivial
  · split <;> trivial

theorem leaveLambdaCb_plain {s : St L G V E} : (leaveLambdaCb s).plain := by
  unfold leaveLambdaCb; simp only
  split
  · trivial
  · exact fiberDrop_plain

theorem finish_plain {s : St L G V E} {h : Nat} : (finish s h).plain := by
  unfold finish; simp only
  split
  · split
    · trivial
    · split
      · exact fiberResume_plain
      · trivial
  · trivial

theorem startFn_plain {s : St L G V E} {h : Nat} {fn : Nat → L} : (startFn s h fn).plain := by
  unfold startFn; simp only
  split
  · split
    · exact finish_plain
    · trivial
  · trivial

theorem enterLambda_plain {s : St L G V E} {fn : Nat → L} : (enterLambda s fn).plain := by
  unfold enterLambda
  split
  · split
    · exact startFn_plain
    · exact fiberResume_plain
  · trivial

theorem cbResume_plain {s : St L G V E} {r : CbRef} : (cbResume s r).plain := by
  unfold cbResume; split
  · exact fiberResume_plain
  · trivial

theorem deliver_plain {s : St L G V E} {r : Res V} : (deliverStep s r).plain := by
  unfold deliverStep
  split <;> try trivial
  · split <;> trivial
  · split <;> trivial
  · split <;> try trivial
    · exact leaveLambdaCb_plain
    · exact exitCtx_plain

theorem recv_plain {s : St L G V E} : (recvStep P s).plain := by
  unfold recvStep
  split
  · split
    · split
      · trivial
      · simp only; split <;> trivial
    · trivial
  · simp only
    split
    · split
      · trivial
      · split
        · exact fiberDrop_plain
        · split
          · trivial
          · exact deallocate_plain
    · trivial
  · simp only
    split
    · split <;> trivial
    · trivial
  · trivial
  · split
    · exact enterLambda_plain
    · split
      · exact startFn_plain
      · trivial
      · trivial
    · split
      · split
        · exact destroyHandle_plain
        · trivial
      · exact destroyHandle_plain
    · trivial
  · trivial

theorem raise_plain {s : St L G V E} {x : Exn E} :
    (raiseStep P s x).plain ∨ (s.fr = [] ∧ s.base s.cur = .main ∧ raiseStep P s x = .uncaught s) := by
  unfold raiseStep
  split
  · exact .inl trivial
  · exact .inl destroyHandle_plain
  · left; split
    · trivial
    · split <;> trivial
  · exact .inl trivial
  · left; split <;> trivial
  · exact .inl trivial
  · exact .inl trivial
  · exact .inl trivial
  · exact .inl trivial
  · exact .inl fiberDrop_plain
  · exact .inl fiberDrop_plain
  · rename_i hfr
    split
    · rename_i hb; exact .inr ⟨hfr, hb, rfl⟩
    · left; split
      · exact finish_plain
      · trivial
    · exact .inl destroyHandle_plain
    · exact .inl destroyHandle_plain
    · exact .inl destroyHandle_plain
    · exact .inl exitCtx_plain
    · exact .inl trivial
  · exact .inl trivial

theorem ret_plain {s : St L G V E} :
    (retStep P s).plain ∨ (s.fr = [] ∧ s.base s.cur = .main ∧ retStep P s = .done s) := by
  unfold retStep
  split
  · exact .inl trivial
  · exact .inl destroyHandle_plain
  · exact .inl trivial
  · exact .inl trivial
  · rename_i hfr
    split
    · rename_i hb; exact .inr ⟨hfr, hb, rfl⟩
    · left; split
      · exact finish_plain
      · trivial
    · exact .inl trivial
  · exact .inl trivial

theorem pullOp_plain {post : List (Frame L V E)} {h : Nat} {x : Coro.St L G V E} {c : Nat} {below : List Nat}
    {p : List (Coro.Fr L V E)} (hx : x.hs = s.hs) (hn : Coro.pullFrom x c below h p ≠ .stuck) : (pullOp s h post).plain := by
  unfold Coro.pullFrom at hn
  unfold pullOp
  rw [hx] at hn
  split at hn
  · rename_i va r e
    simp only [e, if_true]
    exact cbResume_plain
  · simp at hn

theorem pushOp_plain {post : Option V → List (Frame L V E)} {h : Nat} {a : PushArg V E} {x : Coro.St L G V E} {c : Nat} {below : List Nat}
    {p : Option V → List (Coro.Fr L V E)} (hx : x.hs = s.hs) (hv : ∀ k, (x.co k).va = s.va k)
    (ho : ∀ r q, (s.cbs r).life = .alive → (s.cbs r).other = some q → q.co = r.co)
    (hn : Coro.pushTo P x c below h a p ≠ .stuck) : (pushOp P s h a post).plain := by
  unfold Coro.pushTo at hn
  unfold pushOp
  rw [hx] at hn
  split at hn
  · rename_i va r e
    simp only [e, if_true]
    split
    · rename_i hal
      split
      · trivial
      · rename_i q hq
        split
        · have hco := ho r q hal hq
          have hst : Coro.store P x r.co a ≠ none := by
            intro e0; rw [e0] at hn; simp at hn
          split
          · trivial
          · rename_i s1 hs1
            exfalso
            apply hst
            unfold cbSet at hs1
            rw [hco, ← hv] at hs1
            unfold Coro.store
            cases hva : (x.co r.co).va <;> rw [hva] at hs1 <;> cases a <;> simp at hs1 ⊢
            all_goals (split at hs1 <;> simp at hs1)
            all_goals (split at hs1 <;> simp at hs1)
          · trivial
          · exact cbResume_plain
        · trivial
    · trivial
  · simp at hn

theorem readSlot_plain {h : Nat} {x : Coro.St L G V E} {c : Nat} {o : Out (St L G V E)} (hx : x.hs = s.hs) (hn : Coro.value x c h ≠ none)
    (hr : readSlot s h = .error o) : o.plain := by
  unfold Coro.value at hn
  unfold readSlot at hr
  rw [hx] at hn
  split at hn
  · rename_i va r e
    split at hn
    · simp at hn
    · rename_i hc
      have hva : va ≠ .void := fun h => hc (.inl h)
      simp only [e, hva, ne_eq, not_false_eq_true, and_self, if_true] at hr
      split at hr
      · split at hr <;> cases hr <;> trivial
      · cases hr; trivial
  · simp at hn

theorem Inv.otherCo (hi : Inv s) : ∀ r q, (s.cbs r).life = .alive → (s.cbs r).other = some q → q.co = r.co := by
  rintro ⟨k, sd⟩ q hal ho
  cases sd with
  | own =>
    rw [hi.cb.own_other k hal] at ho
    split at ho <;> cases ho
    rfl
  | syn => rw [hi.cb.syn_other k hal] at ho; cases ho; rfl

theorem eval_plain (ok : CoOk s co) (hi : Inv s) {l : L} (hc : s.ctl = .eval l) (hn : Coro.step P (absSt s rest co) ≠ .stuck) :
    (evalStep P s l).plain := by
  have hctl := hi.ctl
  rw [hc] at hctl
  have hu : okU (s.frames s.cur) = true := hctl.1
  unfold evalStep
  have hev := sim_eval (P := P) (rest := rest) (co := co) hc
  split
  · trivial
  · trivial
  · trivial
  · rename_i l' hcode
    split
    · trivial
    · exact destroyHandle_plain
    · rename_i h1 h2
      exfalso
      rw [hev] at hn
      have hcode' : P.code l (absSt s rest co).g = .leave l' := hcode
      apply hn
      simp only [Coro.evalStep, hcode', abs_stack]
      rw [frames_cur] at hu ⊢
      cases hfr : s.fr with
      | nil => simp
      | cons f t =>
        rw [hfr] at hu h1 h2
        cases f <;> simp [okU, Frame.isU] at hu
        · exact absurd rfl (h1 _ _)
        · exact absurd rfl (h2 _ _)
        · simp [absF]
        · simp [absF]
  · trivial
  · rename_i l' hcode
    split
    · trivial
    · rename_i h1
      exfalso
      rw [hev] at hn
      have hcode' : P.code l (absSt s rest co).g = .endTry l' := hcode
      apply hn
      simp only [Coro.evalStep, hcode', abs_stack]
      rw [frames_cur] at hu ⊢
      cases hfr : s.fr with
      | nil => simp
      | cons f t =>
        rw [hfr] at hu h1
        cases f <;> simp [okU, Frame.isU] at hu
        · simp [absF]
        · simp [absF]
        · exact absurd rfl (h1 _ _ _)
        · simp [absF]
  · trivial
  · trivial
  · trivial
  · rename_i op k hcode
    rw [sim_api hc hcode] at hn
    have hva : ∀ j, (((absSt s rest co).push s.cur (.use k)).co j).va = s.va j := ok.va
    unfold apiStep
    split
    · unfold mkOp
      split
      · trivial
      · trivial
      · exact fiberResume_plain
    · exact pullOp_plain (x := (absSt s rest co).push s.cur (.use k)) rfl hn
    · exact pushOp_plain (s := s.pushFr (.usr k)) (x := (absSt s rest co).push s.cur (.use k)) rfl hva hi.otherCo hn
    · rename_i h
      split
      · rename_i o e
        refine readSlot_plain (s := s.pushFr (.usr k)) (x := (absSt s rest co).push s.cur (.use k)) (c := s.cur) rfl (fun e1 => hn ?_) e
        simp only [Coro.call, e1]
      · trivial
    · split <;> trivial
    · split <;> trivial
    · split <;> trivial
    · split
      · rename_i hd hc' e1 e2
        split
        · split <;> trivial
        · rename_i hne
          exfalso; apply hn
          have e1' : ((absSt s rest co).push s.cur (.use k)).hs _ = some hd := e1
          have e2' : ((absSt s rest co).push s.cur (.use k)).hs _ = some hc' := e2
          simp only [Coro.call, e1', e2', if_neg hne]
      · trivial
    · exact destroyHandle_plain
    · split
      · trivial
      · rename_i hd e1
        split
        · rename_i hv
          exfalso; apply hn
          have e1' : ((absSt s rest co).push s.cur (.use k)).hs _ = some hd := e1
          simp only [Coro.call, e1']
          split <;> simp_all
        · split
          · trivial
          · split <;> trivial
    · split
      · trivial
      · exact pullOp_plain (x := (absSt s rest co).push s.cur (.use k)) rfl hn
    · split
      · trivial
      · rename_i h
        split
        · rename_i o e
          refine readSlot_plain (s := s.pushFr (.usr k)) (x := (absSt s rest co).push s.cur (.use k)) (c := s.cur) rfl (fun e1 => hn ?_) e
          simp only [Coro.call, e1]
        · trivial
    · split
      · trivial
      · split
        · exfalso; apply hn
          simp only [Coro.call, Coro.pushTo]
          split
          · rename_i r _
            have : Coro.store P ((absSt s rest co).push s.cur (.use k)) r.co .alias = none := by
              cases hv : (((absSt s rest co).push s.cur (.use k)).co r.co).va <;> simp [Coro.store, hv]
            rw [this]
          · rfl
        · exact pushOp_plain (s := s.pushFr (.usr k)) (x := (absSt s rest co).push s.cur (.use k)) rfl hva hi.otherCo hn

/-- the program does not end -/
def Out.goes {α : Type} : Out α → Prop
  | .done _ | .uncaught _ => False
  | _ => True

theorem Out.plain.goes {α : Type} {o : Out α} (h : o.plain) : o.goes := by cases o <;> first | trivial | exact h.elim

theorem pullOp_goes {post : List (Frame L V E)} {h : Nat} : (pullOp s h post).goes := by
  unfold pullOp
  split
  · trivial
  · split
    · split
      · trivial
      · exact cbResume_plain.goes
    · trivial

theorem pushOp_goes {post : Option V → List (Frame L V E)} {h : Nat} {a : PushArg V E} : (pushOp P s h a post).goes := by
  unfold pushOp
  split
  · trivial
  · split
    · split
      · trivial
      · split
        · split
          · trivial
          · split
            · split
              · trivial
              · trivial
              · trivial
              · exact cbResume_plain.goes
            · trivial
        · trivial
    · trivial

theorem readSlot_goes {h : Nat} {o : Out (St L G V E)} (hr : readSlot s h = .error o) : o.goes := by
  unfold readSlot at hr
  split at hr
  · cases hr; trivial
  · split at hr
    · split at hr
      · cases hr; trivial
      · split at hr
        · split at hr <;> cases hr <;> trivial
        · cases hr; trivial
    · cases hr; trivial

theorem eval_goes {l : L} : (evalStep P s l).goes := by
  unfold evalStep
  split
  · trivial
  · trivial
  · trivial
  · split
    · trivial
    · exact destroyHandle_plain.goes
    · trivial
  · trivial
  · split <;> trivial
  · trivial
  · trivial
  · trivial
  · unfold apiStep
    split
    · unfold mkOp
      split
      · trivial
      · trivial
      · exact fiberResume_plain.goes
    · exact pullOp_goes
    · exact pushOp_goes
    · split
      · exact readSlot_goes ‹_›
      · trivial
    · split <;> trivial
    · split <;> trivial
    · split <;> trivial
    · split
      · split
        · split <;> trivial
        · trivial
      · trivial
    · exact destroyHandle_plain.goes
    · split
      · trivial
      · split
        · trivial
        · split
          · trivial
          · split <;> trivial
    · split
      · trivial
      · exact pullOp_goes
    · split
      · trivial
      · split
        · exact readSlot_goes ‹_›
        · trivial
    · split
      · trivial
      · split
        · trivial
        · exact pushOp_goes

theorem Disc.mainEnd (d : Disc s rest) (hi : Inv s) (hb : s.base s.cur = .main) : s.cur = 0 ∧ s.fib (.back s.cur) = none := by
  have h0 := (hi.sched.main_iff _).1 hb
  refine ⟨h0, ?_⟩
  cases h : s.fib (.back s.cur) with
  | none => rfl
  | some b => exact absurd h0 (d.backHolds hi h).2.2.1

/-- the two ways in which a program ends -/
theorem end_match (d : Disc s rest) (hi : Inv s) (hp : ¬ (step P s).plain) (hev : ∀ l, s.ctl ≠ .eval l) :
    (step P s = .done s ∧ Coro.step P (absSt s rest co) = .done (absSt s rest co)) ∨
    (step P s = .uncaught s ∧ Coro.step P (absSt s rest co) = .uncaught (absSt s rest co)) := by
  unfold step at hp ⊢
  cases hc : s.ctl with
  | eval l => exact absurd hc (hev l)
  | deliver r => rw [hc] at hp; exact absurd deliver_plain hp
  | recv => rw [hc] at hp; exact absurd recv_plain hp
  | retn =>
    rw [hc] at hp
    rcases ret_plain (P := P) (s := s) with h | ⟨h1, h2, h3⟩
    · exact absurd h hp
    · refine .inl ⟨h3, ?_⟩
      rw [sim_ret hc]
      simp only [Coro.retStep, abs_stack, frames_cur, h1, List.filterMap_nil, if_pos (d.mainEnd hi h2).1]
  | raise x =>
    rw [hc] at hp
    rcases raise_plain (P := P) (s := s) (x := x) with h | ⟨h1, h2, h3⟩
    · exact absurd h hp
    · refine .inr ⟨h3, ?_⟩
      obtain ⟨m1, m2⟩ := d.mainEnd hi h2
      cases x with
      | user e =>
        rw [sim_raise hc]
        simp only [Coro.raiseStep, abs_stack, frames_cur, h1, List.filterMap_nil, if_pos m1]
      | forced =>
        have hctl := hi.ctl
        rw [hc] at hctl
        exact absurd m2 hctl.2.2

/-- where the specification is not stuck, the library goes on, or ends like the specification -/
theorem out_match {l0 : L} {g0 : G} (hk : ReachOk P l0 g0 s) (ok : CoOk s co) (d : Disc s rest) (ru : Rules P s)
    (hill : ∀ t, step P s ≠ .ill t) :
    (∃ s', step P s = .next s') ∨ (step P s = .done s ∧ Coro.step P (absSt s rest co) = .done (absSt s rest co)) ∨
    (step P s = .uncaught s ∧ Coro.step P (absSt s rest co) = .uncaught (absSt s rest co)) := by
  have hi := inv_reach hk.reach
  by_cases hp : (step P s).plain
  · cases hs : step P s with
    | next s' => exact .inl ⟨_, rfl⟩
    | ub u t => exact absurd hs (C32_no_undefined_behaviour hk ru u t)
    | imp t => exact absurd hs (no_imp_inv hi)
    | done t => rw [hs] at hp; exact hp.elim
    | uncaught t => rw [hs] at hp; exact hp.elim
    | ill t => rw [hs] at hp; exact hp.elim
  · by_cases hev : ∃ l, s.ctl = .eval l
    · exfalso
      obtain ⟨l, hc⟩ := hev
      have : step P s = evalStep P s l := by simp only [step, hc]
      cases hs : step P s with
      | ill t => exact hill t hs
      | done t => have h := eval_goes (P := P) (s := s) (l := l); rw [← this, hs] at h; exact h
      | uncaught t => have h := eval_goes (P := P) (s := s) (l := l); rw [← this, hs] at h; exact h
      | _ => rw [hs] at hp; exact hp trivial
    · exact .inr (end_match d hi hp (fun l h => hev ⟨l, h⟩))

/-- a program the specification accepts is well formed -/
theorem no_ill (ok : CoOk s co) (hi : Inv s) (hn : Coro.step P (absSt s rest co) ≠ .stuck) (t : St L G V E) : step P s ≠ .ill t := by
  intro hs
  unfold step at hs
  cases hc : s.ctl with
  | eval l => simp only [hc] at hs; have := eval_plain ok hi hc hn; rw [hs] at this; exact this
  | deliver r => simp only [hc] at hs; have := deliver_plain (s := s) (r := r); rw [hs] at this; exact this
  | recv => simp only [hc] at hs; have := recv_plain (P := P) (s := s); rw [hs] at this; exact this
  | retn =>
    simp only [hc] at hs
    rcases ret_plain (P := P) (s := s) with h | ⟨_, _, h⟩ <;> rw [hs] at h
    · exact h
    · cases h
  | raise x =>
    simp only [hc] at hs
    rcases raise_plain (P := P) (s := s) (x := x) with h | ⟨_, _, h⟩ <;> rw [hs] at h
    · exact h
    · cases h

end Verif
