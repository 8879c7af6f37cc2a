import Verif.Value
import Verif.Legal2

/-! # Which steps destroy a transferred object twice or read a destroyed one.  Proof material. -/
namespace Verif
variable {L G V E : Type}

/-- not one of the two kinds of undefined behaviour that concern transferred objects -/
def GoodT {α : Type} (o : Out α) : Prop := ∀ u t, o = .ub u t → u ≠ .doubleDestroy ∧ u ≠ .readDead

section
variable {α : Type} {s : α}
theorem GoodT.next : GoodT (.next s) := nofun
theorem GoodT.done : GoodT (.done s) := nofun
theorem GoodT.uncaught : GoodT (.uncaught s) := nofun
theorem GoodT.ill : GoodT (.ill s) := nofun
theorem GoodT.imp : GoodT (.imp s) := nofun
theorem GoodT.ub {u : UB} (h : u ≠ .doubleDestroy ∧ u ≠ .readDead) : GoodT (.ub u s) := by rintro _ _ ⟨⟩; exact h
end

variable {P : Prog L G V E} {s : St L G V E}

/-- the slots of all living blocks are in order -/
def AllSafe (s : St L G V E) : Prop := ∀ r, (s.cbs r).life = .alive → SlotSafe s r

theorem GoodT.fiberDrop {f : Option Nat} : GoodT (fiberDrop s f) := fun _ _ h => absurd h fiberDrop_noUb

theorem GoodT.fiberResume {l : FLoc} {r : CbRef} : GoodT (fiberResume s l r) := by
  unfold Verif.fiberResume
  split
  · exact .ub (by decide)
  · exact .next

theorem GoodT.cbResume {r : CbRef} : GoodT (cbResume s r) := by
  unfold Verif.cbResume
  split
  · exact .fiberResume
  · exact .ub (by decide)

theorem GoodT.deallocate {r : CbRef} (h : AllSafe s) : GoodT (deallocate s r) := by
  by_cases hal : (s.cbs r).life = .alive
  · exact fun u t e => absurd e (deallocate_noUb hal (h r hal))
  · unfold Verif.deallocate
    split
    · rename_i h; exact absurd h hal
    · exact .ub (by decide)

theorem GoodT.destroyHandle {h : Nat} (hs : AllSafe s) : GoodT (destroyHandle s h) := by
  unfold Verif.destroyHandle
  split
  · exact .ub (by decide)
  · dsimp only
    split
    · exact .next
    · exact .deallocate hs

theorem GoodT.pullOp {h : Nat} {p : List (Frame L V E)} : GoodT (pullOp s h p) := by
  unfold Verif.pullOp
  split
  · exact .ub (by decide)
  · split
    · split
      · exact .ub (by decide)
      · exact .cbResume
    · exact .ill

theorem GoodT.finish {h : Nat} : GoodT (finish s h) := by
  unfold Verif.finish
  dsimp only
  split
  · split
    · exact .ub (by decide)
    · split
      · exact .fiberResume
      · exact .ub (by decide)
  · exact .ub (by decide)

theorem GoodT.startFn {h : Nat} {fn : Nat → L} : GoodT (startFn s h fn) := by
  unfold Verif.startFn
  dsimp only
  split
  · split
    · exact .finish
    · exact .next
  · exact .ub (by decide)

theorem GoodT.exitCtx : GoodT (exitCtx s) := by
  unfold Verif.exitCtx
  dsimp only
  split
  · exact .imp
  · split
    · exact .ub (by decide)
    · exact .next

theorem GoodT.enterLambda {fn : Nat → L} : GoodT (enterLambda s fn) := by
  unfold Verif.enterLambda
  split
  · split
    · exact .startFn
    · exact .fiberResume
  · exact .ub (by decide)

theorem GoodT.leaveLambda {h : Nat} (hs : AllSafe s) : GoodT (leaveLambda s h) := GoodT.destroyHandle (s := s.setBase s.cur .lamA) hs

theorem GoodT.leaveLambdaCb (hs : AllSafe s) (hal : (s.cbs ⟨s.cur, .syn⟩).life = .alive) : GoodT (leaveLambdaCb s) := by
  unfold Verif.leaveLambdaCb
  dsimp only
  split
  · rename_i h; exact absurd h (dtorSlot_safe (hs _ hal))
  · exact .fiberDrop

theorem handleBool_err {h : Nat} {u : UB} (he : handleBool s h = .error u) : u ≠ .doubleDestroy ∧ u ≠ .readDead := by
  unfold handleBool at he
  split at he
  · cases he; decide
  · split at he
    · cases he
    · split at he <;> cases he; decide

theorem handleBang_err {h : Nat} {u : UB} (he : handleBang s h = .error u) : u ≠ .doubleDestroy ∧ u ≠ .readDead := by
  unfold handleBang at he
  split at he
  · cases he; decide
  · split at he
    · cases he
    · split at he <;> cases he; decide

theorem GoodT.readSlot {h : Nat} {o : Out (St L G V E)} (hd : ∀ r, (s.cbs r).life = .alive → (s.cbs r).slot ≠ .dead)
    (he : readSlot s h = .error o) : GoodT o := by
  unfold Verif.readSlot at he
  split at he
  · cases he; exact .ub (by decide)
  · split at he
    · split at he
      · cases he; exact .ub (by decide)
      · rename_i r _
        split at he
        · rename_i hal
          split at he
          · cases he
          · cases he; exact .ub (by decide)
          · rename_i h; exact absurd h (hd r hal)
        · cases he; exact .ub (by decide)
    · cases he; exact .ill

theorem GoodT.pushOp {h : Nat} {a : PushArg V E} {p : Option V → List (Frame L V E)} (ha : a ≠ .alias)
    (hq : ∀ hd r q, s.hs h = some hd → hd.ty = .push → hd.cb = some r → (s.cbs r).life = .alive → (s.cbs r).other = some q →
      (s.cbs q).life = .alive → (s.cbs q).bvalid = true → ∃ v, (s.cbs q).slot = .live v) : GoodT (pushOp P s h a p) := by
  unfold Verif.pushOp
  split
  · exact .ub (by decide)
  · rename_i hd hh
    split
    · rename_i hty
      split
      · exact .ub (by decide)
      · rename_i r hcb
        split
        · rename_i hal
          split
          · exact .ub (by decide)
          · rename_i q ho
            split
            · rename_i hql
              have hs : setDestroyOld s q ≠ none := by
                unfold setDestroyOld
                split
                · rename_i hb
                  obtain ⟨v, hv⟩ := hq hd r q hh hty hcb hal ho hql hb
                  rw [hv]; simp
                · simp
              have hc : ∀ u t, cbSet P s q a ≠ .ub u t := by
                intro u t
                unfold cbSet
                cases hsd : setDestroyOld s q with
                | none => exact absurd hsd hs
                | some s1 =>
                  cases a with
                  | alias => exact absurd rfl ha
                  | _ => cases s.va q.co <;> simp
              split
              · rename_i u t h; exact absurd h (hc u t)
              · exact .ill
              · exact .next
              · exact .cbResume
            · exact .ub (by decide)
        · exact .ub (by decide)
    · exact .ill

theorem Inv.other_partner (hi : Inv s) {r q : CbRef} (hal : (s.cbs r).life = .alive) (ho : (s.cbs r).other = some q) : q = r.partner := by
  rcases r with ⟨c, sd⟩
  cases sd with
  | own =>
    rw [hi.cb.own_other c hal] at ho
    split at ho
    · cases ho
    · cases ho; rfl
  | syn => rw [hi.cb.syn_other c hal] at ho; cases ho; rfl

/-- A transferred object can be destroyed twice, or read after its destruction, only if some slot is not in order, or if the argument of a
push is the stored object itself. -/
theorem goodT_step {l0 : L} {g0 : G} (hr : Reach P l0 g0 s)
    (h0 : ∀ r, (s.cbs r).life = .alive → isPullSide (s.kind r.co) r.side = true → (s.cbs r).bvalid = true → ∃ v, (s.cbs r).slot = .live v)
    (ha : ∀ h k, ¬ Calls P s (.push h .alias) k) : GoodT (step P s) := by
  have hi := inv_reach hr
  have hsl := slot_reach hr
  have hsafe : AllSafe s := fun r hal hp _ hb => h0 r hal hp hb
  have hdead : ∀ r, (s.cbs r).life = .alive → (s.cbs r).slot ≠ .dead := by
    intro r hal hd
    by_cases hp : isPullSide (s.kind r.co) r.side = true
    · have hb : (s.cbs r).bvalid = true := by
        have := (hsl r.co).nb
        have hrr : r = ⟨r.co, pullSide (s.kind r.co)⟩ := by
          rcases r with ⟨k, sd⟩; simp only [isPullSide_iff] at hp; rw [hp]
        rw [← hrr] at this
        cases hx : (s.cbs r).bvalid with
        | true => rfl
        | false => rw [this hx] at hd; cases hd
      obtain ⟨v, hv⟩ := h0 r hal hp hb
      rw [hv] at hd; cases hd
    · have := (hsl r.co).qraw.2
      have hrr : r = ⟨r.co, (pullSide (s.kind r.co)).flip⟩ := by
        rcases r with ⟨k, sd⟩
        revert hp
        simp only [isPullSide_iff]
        cases s.kind k <;> cases sd <;> simp [pullSide, Side.flip]
      rw [← hrr, hd] at this
      cases this
  have hpush : ∀ h hd r q, s.hs h = some hd → hd.ty = .push → hd.cb = some r → (s.cbs r).life = .alive → (s.cbs r).other = some q →
      (s.cbs q).life = .alive → (s.cbs q).bvalid = true → ∃ v, (s.cbs q).slot = .live v := by
    intro h hd r q hh hty hcb hal ho hql hb
    have hq : q = r.partner := hi.other_partner hal ho
    have hk := (hi.hok.born h hd r hh hcb).2.1
    rw [hty] at hk
    refine h0 q hql ?_ hb
    subst hq
    rcases r with ⟨c, sd⟩
    show isPullSide (s.kind c) _ = true
    revert hk
    show Kind.push = endKind (s.kind c) sd → _
    cases s.kind c <;> cases sd <;> simp [endKind, isPullSide, CbRef.partner, Kind.flip, Side.flip]
  unfold step
  cases hc : s.ctl with
  | eval l =>
    show GoodT (evalStep P s l)
    unfold evalStep
    cases hcode : P.code l s.g with
    | api op k =>
      show GoodT (apiStep P (s.pushFr (.usr k)) op)
      cases op with
      | mk kd va ft fn =>
        show GoodT (mkOp _ kd va ft fn)
        cases ft
        · exact .fiberResume
        · exact .next
        · exact .next
      | resume h => exact .pullOp
      | push h a =>
        refine .pushOp ?_ (hpush h)
        rintro rfl
        exact ha h k ⟨l, hc, hcode⟩
      | get h =>
        unfold apiStep
        dsimp only
        cases hrs : readSlot (s.pushFr (.usr k)) h with
        | error o => exact .readSlot (s := s.pushFr (.usr k)) hdead hrs
        | ok x => exact .next
      | valid h =>
        unfold apiStep
        dsimp only
        cases hrs : handleBool (s.pushFr (.usr k)) h with
        | error u => exact .ub (handleBool_err hrs)
        | ok x => exact .next
      | bang h =>
        unfold apiStep
        dsimp only
        cases hrs : handleBang (s.pushFr (.usr k)) h with
        | error u => exact .ub (handleBang_err hrs)
        | ok x => exact .next
      | moveCtor h =>
        unfold apiStep
        dsimp only
        split
        · exact .ub (by decide)
        · exact .next
      | moveAssign d c =>
        unfold apiStep
        dsimp only
        split
        · split
          · split <;> exact .next
          · exact .ill
        · exact .ub (by decide)
      | destroy h => exact .destroyHandle (s := s.pushFr (.usr k)) hsafe
      | itBegin h =>
        unfold apiStep
        dsimp only
        split
        · exact .ub (by decide)
        · split
          · exact .ill
          · split
            · exact .next
            · split
              · exact .next
              · rename_i hrs; exact .ub (handleBool_err hrs)
      | itNext i =>
        cases i with
        | none => exact .ub (by decide)
        | some h => exact .pullOp
      | itDeref i =>
        cases i with
        | none => exact .ub (by decide)
        | some h =>
          unfold apiStep
          dsimp only
          cases hrs : readSlot (s.pushFr (.usr k)) h with
          | error o => exact .readSlot (s := s.pushFr (.usr k)) hdead hrs
          | ok x => exact .next
      | itPut i a =>
        cases i with
        | none => exact .ub (by decide)
        | some h =>
          cases a with
          | alias => exact .ill
          | _ => exact .pushOp (by simp) (hpush h)
    | leave l' =>
      dsimp only
      split
      · exact .next
      · exact .destroyHandle hsafe
      · exact .ill
    | endTry l' =>
      dsimp only
      split
      · exact .next
      · exact .ill
    | _ => exact .next
  | deliver r =>
    show GoodT (deliverStep s r)
    unfold deliverStep
    split <;> (try exact .next) <;> (try exact .imp)
    · split
      · exact .next
      · rename_i hrs; exact .ub (handleBang_err hrs)
    · split
      · exact .next
      · rename_i hrs; exact .ub (handleBang_err hrs)
    · split
      · rename_i hb
        exact .leaveLambdaCb hsafe ((hi.cb.syn_life s.cur).2 (by rw [hb]; rfl))
      · exact .exitCtx
      · exact .imp
  | raise x =>
    show GoodT (raiseStep P s x)
    unfold raiseStep
    split <;> (try exact .next) <;> (try exact .imp)
    · exact .destroyHandle hsafe
    · split
      · exact .next
      · split
        · exact .ub (by decide)
        · exact .next
    · split <;> exact .next
    · exact .fiberDrop
    · exact .fiberDrop
    · split
      · exact .uncaught
      · split
        · exact .finish
        · exact .ub (by decide)
      · exact .leaveLambda hsafe
      · exact .leaveLambda hsafe
      · exact .leaveLambda hsafe
      · exact .exitCtx
      · exact .imp
  | retn =>
    show GoodT (retStep P s)
    unfold retStep
    split <;> (try exact .next) <;> (try exact .imp)
    · exact .destroyHandle hsafe
    · split
      · exact .done
      · split
        · exact .finish
        · exact .ub (by decide)
      · exact .imp
  | recv =>
    show GoodT (recvStep P s)
    unfold recvStep
    dsimp only
    split
    · split
      · split
        · exact .imp
        · split <;> exact .next
      · exact .ub (by decide)
    · split
      · split
        · exact .imp
        · split
          · exact .fiberDrop
          · split
            · exact .next
            · exact .deallocate hsafe
      · exact .ub (by decide)
    · split
      · split
        · exact .imp
        · exact .next
      · exact .ub (by decide)
    · exact .next
    · split
      · exact .enterLambda
      · split
        · exact .startFn
        · exact .imp
        · exact .ub (by decide)
      · split
        · split
          · exact .leaveLambda hsafe
          · exact .ub (by decide)
        · exact .leaveLambda hsafe
      · exact .imp
    · exact .imp

end Verif
