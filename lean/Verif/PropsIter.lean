import Verif.SpecIter
import Verif.PropsValue

/-!
# Iterators (C26, C27)

In the model an iterator is its only member, the pointer `c_` to the coroutine object (pull_coroutine.hpp:72, push_coroutine.hpp:71):
`some h` or `none`; `end()` is `none` (pull_coroutine.hpp:135, push_coroutine.hpp:112), and two iterators are equal if the pointers are
(pull_coroutine.hpp:106-112, push_coroutine.hpp:94-100).
-/
namespace Verif
variable {L G V E : Type}
variable {P : Prog L G V E} {l0 : L} {g0 : G} {s s' s0 : St L G V E} {h c : Nat} {k : Res V → L} {ty : Kind} {v : V}
open Aux

namespace AuxIter

/-- a call that delivers its result at once -/
theorem would {op : Op L V E} {v : Res V} {evs : List (Ev V E)}
    (hap : ∀ (P : Prog L G V E) (t : St L G V E) (k : Res V → L), t.hs = s.hs → t.cbs = s.cbs → t.kind = s.kind → t.va = s.va → t.log = s.log →
      apiStep P (t.pushFr (.usr k)) op = .next ({ t.pushFr (.usr k) with ctl := .deliver v, log := evs ++ t.log })) :
    WouldReturn s op v evs := by
  intro P l k hc
  refine ⟨{ ({ s with ctl := Ctl.eval l } : St L G V E).pushFr (.usr k) with ctl := .deliver v, log := evs ++ s.log }, ?_,
    .step (by rintro ⟨_, h⟩; cases h) ?_ .refl⟩
  · simp only [step, evalStep, hc]
    exact hap P _ k rfl rfl rfl rfl rfl
  · have hf : ({ ({ s with ctl := Ctl.eval l } : St L G V E).pushFr (.usr k) with ctl := .deliver v, log := evs ++ s.log } :
        St L G V E).fr = .usr k :: s.fr := upd_at ..
    simp only [step, deliverStep, hf]
    simp only [St.setFr, St.withCtl, St.pushFr, upd_upd]
    rw [upd_self' s.frames s.cur (b := s.fr) rfl]

theorem bool_congr {t : St L G V E} (e1 : t.hs = s.hs) (e2 : t.cbs = s.cbs) (e3 : t.kind = s.kind) (e4 : t.va = s.va) (h : Nat) :
    handleBool t h = handleBool s h :=
  handleBool_congr e1 e3 e4 (fun _ => by rw [e2]; exact ⟨rfl, rfl, rfl, rfl⟩) h

theorem boolIs {b : Bool} (hb : handleBool s h = .ok b) : BoolIs s h b := by
  refine would fun P t k e1 e2 e3 e4 e5 => ?_
  have : handleBool (t.pushFr (.usr k)) h = .ok b := by rw [← hb]; exact bool_congr e1 e2 e3 e4 h
  simp only [apiStep, this]
  rfl

theorem derefIs {r : CbRef} (hr : readSlot s h = .ok (r, v)) : WouldReturn s (.itDeref (some h)) (.val v) [.peeked r.co v] := by
  refine would fun P t k e1 e2 e3 e4 e5 => ?_
  have : readSlot (t.pushFr (.usr k)) h = .ok (r, v) := by
    obtain ⟨hd, g1, g2, g3, g4, g5, g6⟩ := readSlot_ok hr
    have a1 : (t.pushFr (.usr k)).hs h = some hd := by rw [← g1]; exact congrFun e1 h
    have a2 : (t.pushFr (.usr k)).cbs r = s.cbs r := congrFun e2 r
    unfold readSlot
    simp only [a1, if_pos (And.intro g2 g3), g4, a2, g5, g6]
  simp only [apiStep, this]
  rfl

/-- control is back in `++it` -/
theorem next_back {r : CbRef} (hr : Reach P l0 g0 s0) (hc : Calls P s0 (.itNext (some h)) k) (hh : Refers s0 h .pull (some r))
    (hb : ComesBack P s0 s) :
    Reach P l0 g0 s ∧ s.cur = s0.cur ∧ s.fr = .asg r :: ([.fetch h] ++ .usr k :: s0.fr) ∧ nJump r s.log ≠ 0 := by
  have hrs := hb.later.reach hr
  obtain ⟨s1, e1, hl1⟩ : ∃ s1, step P s0 = .next s1 ∧ Later P s1 s := by
    obtain ⟨s2, ha, e, -⟩ := hb
    suffices ∃ s1, step P s0 = .next s1 ∧ Later P s1 s2 by
      obtain ⟨s1, a, b⟩ := this; exact ⟨s1, a, .step b e⟩
    clear e hrs
    induction ha with
    | first e h => exact ⟨_, e, .refl⟩
    | next _ e _ ih => obtain ⟨s1, a, b⟩ := ih; exact ⟨s1, a, .step b e⟩
  obtain ⟨l, h1, h2⟩ := hc
  obtain ⟨hd, r', t, a1, a2, a3, a4, a5, a6⟩ := (step_rel (inv_reach hr) e1).pullInv h1 h2 .it
  obtain ⟨hd', b1, -, b3⟩ := hh
  rw [b1] at a1; cases a1
  rw [b3] at a3; cases a3
  refine ⟨hrs, ?_, ?_, ?_⟩
  · obtain ⟨_, _, _, h⟩ := hb; exact h
  · rw [hb.frames hr e1, a6]; exact upd_at ..
  · have h1 : nJump r s1.log ≤ nJump r s.log := count_mono (hl1.log (hr.step e1))
    have h2 : nJump r s1.log ≠ 0 := by
      rw [a6]
      show List.countP _ _ ≠ 0
      rw [List.countP_cons, if_pos (by simp)]; omega
    omega

/-- control is back in `*it = a` -/
theorem put_back {r : CbRef} {a : PushArg V E} (hr : Reach P l0 g0 s0) (hc : Calls P s0 (.itPut (some h) a) k) (ha : a ≠ .alias)
    (hh : Refers s0 h .push (some r)) (hb : ComesBack P s0 s) :
    Reach P l0 g0 s ∧ s.cur = s0.cur ∧ s.fr = .asg r :: ([.pfetch h] ++ .usr k :: s0.fr) := by
  have hrs := hb.later.reach hr
  obtain ⟨s1, e1, hne⟩ : ∃ s1, step P s0 = .next s1 ∧ s1.cur ≠ s0.cur := by
    obtain ⟨s2, ha, e, -⟩ := hb
    clear e hrs
    induction ha with
    | first e h => exact ⟨_, e, h⟩
    | next _ e _ ih => exact ih
  obtain ⟨l, h1, h2⟩ := hc
  obtain ⟨hd', b1, -, b3⟩ := hh
  obtain ⟨hd, r', a1, a2, a3, a4, a5, a6, ⟨b, evs, w, t, c1, c2, c3⟩ | ⟨b, evs, e, c1, c2, c3⟩⟩ :=
    (step_rel (inv_reach hr) e1).pushInv h1 h2 (.it ha)
  · rw [b1] at a1; cases a1
    rw [b3] at a3; cases a3
    refine ⟨hrs, ?_, ?_⟩
    · obtain ⟨_, _, _, h⟩ := hb; exact h
    · rw [hb.frames hr e1, c3]; exact upd_at ..
  · rw [c3] at hne; exact absurd rfl hne

/-- whoever is given control through the pushing end finds a value, if the function has not ended -/
theorem value_pushed {r : CbRef} {u : Nat} {l : List (Ev V E)} (hr : Reach P l0 g0 s) (hl : s.log = .jump r.partner u s.cur :: l)
    (hp : r.side = pullSide (s.kind r.co)) (hj : nJump r s.log ≠ 0) (hv : s.va r.co ≠ .void)
    (hf : s.kind r.co = .pull → nFin r.co s.log = 0) :
    ∃ v, lastPushed r.co s.log = some v ∧ gotSince r.co s.log = none := by
  have ht := (tinv_reach hr).tr
  rw [hl] at ht
  have h3 : (match headPushed l with
      | some k => r.partner = ⟨k, pushEnd (s.kind k)⟩
      | none => r.partner.side = pushEnd (s.kind r.co) →
        s.va r.co = .void ∨ lastJump r.co l = none ∨ (headFin l = some r.co ∧ s.kind r.co = .pull)) := ht.2
  cases hh : headPushed l with
  | none =>
    rw [hh] at h3
    rcases h3 (by rw [pushEnd_eq, ← hp]; rfl) with h | h | h
    · exact absurd h hv
    · exfalso
      apply hj
      have h4 : nJump r l = 0 := lastJump_none_nJump (sd := r.side) h
      rw [hl]
      show List.countP _ _ = 0
      rw [List.countP_cons, if_neg]
      · exact h4
      · rcases r with ⟨c, sd⟩; cases sd <;> simp [CbRef.partner, Side.flip]
    · exfalso
      have h5 := hf h.2
      rw [hl] at h5
      match l, h.1 with
      | .fin k x :: l', h6 =>
        cases h6
        simp [nFin, Ev.isFin] at h5
  | some k' =>
    rw [hh] at h3
    have hk : k' = r.co := (congrArg CbRef.co h3).symm
    subst hk
    match l, hh with
    | .pushed k' v :: l', h6 =>
      cases h6
      rw [hl]
      exact ⟨v, by simp [lastPushed], by simp [gotSince]⟩

end AuxIter
open AuxIter

/-- C26: `begin()` of a pull coroutine object equals `end()` exactly if `operator bool` is false; otherwise it points to the object.  It
changes nothing.  (Or undefined behaviour: the object does not exist or its control block is gone; or the program is not well-typed: there
is no iterator for `void`.) -/
theorem C26_begin (hr : Reach P l0 g0 s) (hc : Calls P s (.itBegin h) k) {ro : Option CbRef} (hh : Refers s h .pull ro) :
    (∃ s' i b, CallRuns P s s' ∧ OnlyResult s k (.it i) s' ∧ BoolIs s h b ∧ BoolIs s' h b ∧ (i = none ↔ b = false) ∧
      (i = none ∨ i = some h)) ∨
    (∃ u t, step P s = .ub u t) ∨ (∃ t, step P s = .ill t) := by
  obtain ⟨hd, a1, a2, a3⟩ := hh
  obtain ⟨l, h1, h2⟩ := hc
  by_cases hv : hd.va = .void
  · refine .inr (.inr ⟨s.pushFr (.usr k), ?_⟩)
    have : (s.pushFr (.usr k)).hs h = some hd := a1
    simp only [step, h1, evalStep, h2, apiStep, this, if_pos hv]
  cases hb : handleBool s h with
  | error u =>
    refine .inr (.inl ⟨u, s.pushFr (.usr k), ?_⟩)
    have e1 : (s.pushFr (.usr k)).hs h = some hd := a1
    have e2 : handleBool (s.pushFr (.usr k)) h = .error u := hb
    simp only [step, h1, evalStep, h2, apiStep, e1, if_neg hv, a2, e2]
  | ok b =>
    have e1 := reach_step hr (.loc (.itBeginPull h1 h2 a1 a2 hv hb))
    have r1 := hr.step e1
    have e2 := reach_step r1 (.loc (.dUsr rfl (upd_at ..)))
    have hrun : CallRuns P s _ := ⟨_, e1, .step (by rintro ⟨_, h⟩; cases h) e2 .refl⟩
    refine .inl ⟨_, (if b then some h else none), b, hrun, ?_, boolIs hb, boolIs ?_, ?_, ?_⟩
    · simp only [OnlyResult, upd_upd, List.nil_append, upd_self' s.frames s.cur (b := s.fr) rfl]
    · rw [← hb]; exact bool_congr rfl rfl rfl rfl h
    · cases b <;> simp
    · cases b <;> simp

/-- C26: `++it` is called in `s0` on an iterator of the pull coroutine object `h`, which refers to end `r` of a coroutine; `s` is where
control has come back to the call.  Then `++` returns the iterator, and it equals `end()` exactly if `operator bool` of `h` is now false.
If it does not, and `h` still refers to `r`, dereferencing yields the value pushed last, switches to nobody and changes nothing.  (Or `++`
throws; or undefined behaviour: the caller's coroutine object was destroyed meanwhile.) -/
theorem C26_next {r : CbRef} (hr : Reach P l0 g0 s0) (hc : Calls P s0 (.itNext (some h)) k) (hh : Refers s0 h .pull (some r))
    (hb : ComesBack P s0 s) (hctl : s.ctl = .recv) :
    (∃ s' i b, CallRuns P s s' ∧ Returned s0 k (.it i) s' ∧ BoolIs s' h b ∧ (i = none ↔ b = false) ∧ (i = none ∨ i = some h) ∧
      (i = some h → Refers s' h .pull (some r) → s'.va r.co ≠ .void → ∃ v, lastPushed r.co s'.log = some v ∧ gotSince r.co s'.log = none ∧
        (spoiled r.co s'.log = false → WouldReturn s' (.itDeref (some h)) (.val v) [.peeked r.co v]))) ∨
    (∃ s' e, CallRuns P s s' ∧ Threw s0 e s') ∨ CallCrashes P s := by
  obtain ⟨hrs, hcur, hfr, hj⟩ := next_back hr hc hh hb
  rcases asg_done hrs hctl hcur hfr .fetch with ⟨s', v, hrun, hret, hx, hal, hl, hhs, hcb, hk, hva, -, han⟩ | ⟨s', e, hrun, ht, -⟩ | h
  · left
    cases han
    rename_i b hbb
    rw [bang_not] at hbb
    cases hb' : handleBool s' h with
    | error u => rw [hb'] at hbb; cases hbb
    | ok b' =>
      rw [hb'] at hbb
      have hbe : b = !b' := by cases hbb; rfl
      subst hbe
      have hr' := CallRuns.reach hrs hrun
      refine ⟨s', _, b', hrun, hret, boolIs hb', by cases b' <;> simp, by cases b' <;> simp, fun hi hh' hv => ?_⟩
      have hbt : b' = true := by cases b' <;> simp_all
      subst hbt
      have hpe := end_of hr' hh'
      have hal' : (s'.cbs r).life = .alive := by rw [hcb]; exact hal
      have hfin : s.kind r.co = .pull → nFin r.co s.log = 0 := by
        intro hkp
        rw [hk, hkp] at hpe
        rcases r with ⟨c, sd⟩
        cases hpe
        have hvo := valid_own hr' ⟨_, hret.2.2⟩ hh'
        obtain ⟨hd, g1, g2, g3⟩ := hh'
        unfold handleBool at hb'
        simp only [g1, g3, hal', if_true, hvo] at hb'
        rw [← hl]
        have := Except.ok.inj hb'
        simpa using this
      obtain ⟨v, w1, w2⟩ : ∃ v, lastPushed r.co s.log = some v ∧ gotSince r.co s.log = none := by
        rcases arrived_reach hrs hctl with ⟨q, i, l, b1, b2, b3, b4⟩ | ⟨q, l, b1, b2⟩
        · have : q.partner = r := by
            rw [hfr] at b4
            exact (Option.some.inj b4).symm
          have hq : q = r.partner := by rw [← this]; rcases q with ⟨c, sd⟩; cases sd <;> rfl
          rw [hq] at b1
          exact value_pushed hrs b1 (by rw [← hk]; exact hpe) hj (by rw [← hva]; exact hv) hfin
        · exfalso
          rcases back_asg hrs hctl hfr with ⟨_, u, hu, -⟩ | ⟨hn, -⟩
          · rw [b2] at hu; cases hu
          · exact hn hal
      rw [← hl] at w1 w2
      refine ⟨v, w1, w2, fun ht => ?_⟩
      obtain ⟨w, g1, g2, g3⟩ := slot_of_pushed hr' hal' hh' w1 ht
      have hw : w = v := by
        cases hva' : s'.va r.co with
        | void => exact absurd hva' hv
        | ref => exact g2 hva'
        | val => rw [g3 hva', w2]
      subst hw
      obtain ⟨hd, f1, f2, f3⟩ := hh'
      have hnv : hd.va ≠ .void := by rw [((inv_reach hr').hok.born h hd r f1 f3).2.2]; exact hv
      refine derefIs ?_
      unfold readSlot
      simp only [f1, if_pos (And.intro f2 hnv), f3, hal', g1]
  · exact .inr (.inl ⟨s', e, hrun, ht⟩)
  · exact .inr (.inr h)

/-- C26, for programs that follow the usage rules: `++` on an iterator of an owning object returns or throws. -/
theorem C26_next_rules (ho : Obeys P l0 g0) (hr : Reach P l0 g0 s0) (hc : Calls P s0 (.itNext (some h)) k)
    (hh : Refers s0 h .pull (some ⟨c, .own⟩)) (hb : ComesBack P s0 s) :
    (∃ s' i b, CallRuns P s s' ∧ Returned s0 k (.it i) s' ∧ BoolIs s' h b ∧ (i = none ↔ b = false) ∧ (i = none ∨ i = some h) ∧
      (i = some h → Refers s' h .pull (some ⟨c, .own⟩) → s'.va c ≠ .void → ∃ v, lastPushed c s'.log = some v ∧ gotSince c s'.log = none ∧
        (spoiled c s'.log = false → WouldReturn s' (.itDeref (some h)) (.val v) [.peeked c v]))) ∨
    (∃ s' e, CallRuns P s s' ∧ Threw s0 e s') := by
  obtain ⟨hrs, -, hfr, -⟩ := next_back hr hc hh hb
  have hctl := back_recv ho hr hb hfr
  rcases C26_next hr hc hh hb hctl with h | h | h
  · exact .inl h
  · exact .inr h
  · exact absurd h (C32_calls_do_not_crash (ho.reachOk hrs) (ho.callOk hrs))

/-- C27, the part that holds for push coroutines: after `*it = a` has returned normally, the iterator equals `end()` exactly if
`operator bool` of the object is false. -/
theorem C27_partial {r : CbRef} {a : PushArg V E} (hr : Reach P l0 g0 s0) (hc : Calls P s0 (.itPut (some h) a) k) (ha : a ≠ .alias)
    (hh : Refers s0 h .push (some r)) (hb : ComesBack P s0 s) (hctl : s.ctl = .recv) :
    (∃ s' i b, CallRuns P s s' ∧ Returned s0 k (.it i) s' ∧ BoolIs s' h b ∧ (i = none ↔ b = false) ∧ (i = none ∨ i = some h)) ∨
    (∃ s' e, CallRuns P s s' ∧ Threw s0 e s') ∨ CallCrashes P s := by
  obtain ⟨hrs, hcur, hfr⟩ := put_back hr hc ha hh hb
  rcases asg_done hrs hctl hcur hfr .pfetch with ⟨s', v, hrun, hret, hx, hal, hl, hhs, hcb, hk, hva, -, han⟩ | ⟨s', e, hrun, ht, -⟩ | h
  · left
    cases han
    rename_i b hbb
    rw [bang_not] at hbb
    cases hb' : handleBool s' h with
    | error u => rw [hb'] at hbb; cases hbb
    | ok b' =>
      rw [hb'] at hbb
      have hbe : b = !b' := by cases hbb; rfl
      subst hbe
      exact ⟨s', _, b', hrun, hret, boolIs hb', by cases b' <;> simp, by cases b' <;> simp⟩
  · exact .inr (.inl ⟨s', e, hrun, ht⟩)
  · exact .inr (.inr h)

/-- C27 is false for push coroutines: `begin()` never equals `end()`, whatever `operator bool` of the object is. -/
theorem C27_push_begin (hr : Reach P l0 g0 s) (hc : Calls P s (.itBegin h) k) {ro : Option CbRef} (hh : Refers s h .push ro) :
    (∃ s', CallRuns P s s' ∧ OnlyResult s k (.it (some h)) s') ∨ (∃ t, step P s = .ill t) := by
  obtain ⟨hd, a1, a2, a3⟩ := hh
  obtain ⟨l, h1, h2⟩ := hc
  by_cases hv : hd.va = .void
  · refine .inr ⟨s.pushFr (.usr k), ?_⟩
    have : (s.pushFr (.usr k)).hs h = some hd := a1
    simp only [step, h1, evalStep, h2, apiStep, this, if_pos hv]
  · have e1 := reach_step hr (.loc (.itBeginPush h1 h2 a1 a2 hv))
    have r1 := hr.step e1
    have e2 := reach_step r1 (.loc (.dUsr rfl (upd_at ..)))
    have hrun : CallRuns P s _ := ⟨_, e1, .step (by rintro ⟨_, h⟩; cases h) e2 .refl⟩
    exact .inl ⟨_, hrun, by simp only [OnlyResult, upd_upd, List.nil_append, upd_self' s.frames s.cur (b := s.fr) rfl]⟩

/-- C27 is false for pull coroutines: when the function ends with an exception during `++it`, the exception leaves `++` before the iterator
is updated, so the iterator still is `some h` (not `end()`), but `operator bool` of `h` is false. -/
theorem C27_after_throw {e : E} (hr : Reach P l0 g0 s0) (hc : Calls P s0 (.itNext (some h)) k) (hh : Refers s0 h .pull (some ⟨c, .own⟩))
    (hb : ComesBack P s0 s) (hctl : s.ctl = .recv) (hf : Ev.fin c (some e) ∈ s.log) (hh' : Refers s h .pull (some ⟨c, .own⟩)) :
    (∃ s', CallRuns P s s' ∧ Threw s0 e s' ∧ BoolIs s' h false) ∨ CallCrashes P s := by
  obtain ⟨hrs, hcur, hfr, -⟩ := next_back hr hc hh hb
  rcases asg_done hrs hctl hcur hfr .fetch with ⟨s', v, -, -, hx, hal, -⟩ | ⟨s', e', hrun, ht, hx, hal, hl, hhs, hcb, hk, hva⟩ | h
  · rw [(except_of_fin hrs hal hf).1] at hx; cases hx
  · obtain ⟨hx', hst⟩ := except_of_fin hrs hal hf
    rw [hx'] at hx; cases hx
    refine .inl ⟨s', hrun, ht, boolIs ?_⟩
    obtain ⟨hd, g1, g2, g3⟩ := hh'
    have hc' : StateT.has (StateT.or StateT.unwind StateT.complete) StateT.complete = true := by decide
    unfold handleBool cbValid
    simp only [hhs, g1, g3, hcb, hal, if_true, hst, hc']
    split <;> simp
  · exact .inr h

namespace Demo
open Code

/-- A consumer that reads one value and returns; then `begin()` of the push coroutine object. -/
def pushIter : C :=
  mk .push .val (fun h => get h fun _ => ret) fun h => push h 5 (op (.itBegin h) fun _ => ret)

/-- A generator that pushes 1; main takes `begin()` twice and increments the second iterator. -/
def staleIter : C :=
  mk .pull .val (fun h => push h 1 ret) fun h =>
    op (.itBegin h) fun _ => op (.itBegin h) fun
      | .it i => op (.itNext i) fun _ => ret
      | _ => ret

/-- A generator that pushes 1 and 2; main iterates. -/
def iterMain : C :=
  mk .pull .val (fun h => push h 1 (push h 2 ret)) fun h =>
    op (.itBegin h) fun
      | .it i => op (.itDeref i) fun _ => op (.itNext i) fun
        | .it i => op (.itDeref i) fun _ => op (.itNext i) fun _ => ret
        | _ => ret
      | _ => ret

/-- The generator throws during `++`. -/
def iterThrow : C :=
  mk .pull .val (fun h => push h 1 (throw 9)) fun h =>
    op (.itBegin h) fun
      | .it i => tryc (fun _ => ret) (op (.itNext i) fun _ => ret)
      | _ => ret

/-- Main writes two values through a push iterator. -/
def putMain : C :=
  mk .push .val (fun h => get h fun _ => resume h (get h fun _ => ret)) fun h =>
    op (.itBegin h) fun
      | .it i => op (.itPut i (.copy 5)) fun
        | .it i => op (.itPut i (.copy 6)) fun _ => ret
        | _ => ret
      | _ => ret

end Demo

open Demo in
/-- C27 is false, for push and for pull coroutines.  Push: in step 13 of `pushIter` the coroutine is complete and `operator bool` is false,
but `begin()` does not return `end()`.  Pull: in step 5 of `staleIter` main obtains an iterator from `begin()`, which is not `end()`; in step
18 `operator bool` of the object is false (main has incremented another iterator meanwhile), but the first iterator is what it was. -/
theorem C27_refuted :
    (∃ k, Calls Demo.P (stateAt pushIter 13) (.itBegin 1) k ∧ Reach Demo.P pushIter [] (stateAt pushIter 13) ∧
      Refers (stateAt pushIter 13) 1 .push (some ⟨1, .own⟩) ∧ CallRuns Demo.P (stateAt pushIter 13) (stateAt pushIter 15) ∧
      (stateAt pushIter 15).ctl = .eval (k (.it (some 1))) ∧ BoolIs (stateAt pushIter 15) 1 false) ∧
    (∃ k, Calls Demo.P (stateAt staleIter 5) (.itBegin 1) k ∧ Reach Demo.P staleIter [] (stateAt staleIter 5) ∧
      Refers (stateAt staleIter 5) 1 .pull (some ⟨1, .own⟩) ∧ CallRuns Demo.P (stateAt staleIter 5) (stateAt staleIter 7) ∧
      (stateAt staleIter 7).ctl = .eval (k (.it (some 1))) ∧ Later Demo.P (stateAt staleIter 7) (stateAt staleIter 18) ∧
      BoolIs (stateAt staleIter 18) 1 false) :=
  ⟨⟨_, ⟨_, rfl, rfl⟩, reach _ _ rfl, ⟨_, rfl, rfl, rfl⟩,
      ⟨stateAt pushIter 14, rfl, .step (by rintro ⟨_, h⟩; cases h) rfl .refl⟩, rfl, boolIs rfl⟩,
    ⟨_, ⟨_, rfl, rfl⟩, reach _ _ rfl, ⟨_, rfl, rfl, rfl⟩,
      ⟨stateAt staleIter 6, rfl, .step (by rintro ⟨_, h⟩; cases h) rfl .refl⟩, rfl, later _ 7 11 rfl, boolIs rfl⟩⟩

open Demo in
/-- C26: in step 5 of `iterMain` `begin()` is called, in step 9 `++` (control comes back in step 14: value 2), in step 19 again (control
comes back in step 25, the coroutine is complete). -/
example : Reach Demo.P iterMain [] (stateAt iterMain 5) ∧ (∃ k, Calls Demo.P (stateAt iterMain 5) (.itBegin 1) k) ∧
    Refers (stateAt iterMain 5) 1 .pull (some ⟨1, .own⟩) ∧
    Reach Demo.P iterMain [] (stateAt iterMain 9) ∧ (∃ k, Calls Demo.P (stateAt iterMain 9) (.itNext (some 1)) k) ∧
    Refers (stateAt iterMain 9) 1 .pull (some ⟨1, .own⟩) ∧ ComesBack Demo.P (stateAt iterMain 9) (stateAt iterMain 14) ∧
    (stateAt iterMain 14).ctl = .recv ∧ BoolIs (stateAt iterMain 17) 1 true ∧
    (∃ k, Calls Demo.P (stateAt iterMain 19) (.itNext (some 1)) k) ∧ ComesBack Demo.P (stateAt iterMain 19) (stateAt iterMain 25) ∧
    (stateAt iterMain 25).ctl = .recv ∧ BoolIs (stateAt iterMain 28) 1 false :=
  ⟨reach _ _ rfl, ⟨_, _, rfl, rfl⟩, ⟨_, rfl, rfl, rfl⟩, reach _ _ rfl, ⟨_, _, rfl, rfl⟩, ⟨_, rfl, rfl, rfl⟩, back _ 9 3 rfl, rfl,
    boolIs rfl, ⟨_, _, rfl, rfl⟩, back _ 19 4 rfl, rfl, boolIs rfl⟩

open Demo in
/-- C26: a program within the usage rules that uses an iterator. -/
example : Obeys Demo.P iterMain [] := obeys _ 40 rfl

open Demo in
/-- C27: in step 8 of `iterThrow` `++` is called, the function throws, control comes back in step 14. -/
example : Reach Demo.P iterThrow [] (stateAt iterThrow 8) ∧ (∃ k, Calls Demo.P (stateAt iterThrow 8) (.itNext (some 1)) k) ∧
    Refers (stateAt iterThrow 8) 1 .pull (some ⟨1, .own⟩) ∧ ComesBack Demo.P (stateAt iterThrow 8) (stateAt iterThrow 14) ∧
    (stateAt iterThrow 14).ctl = .recv ∧ Ev.fin 1 (some 9) ∈ (stateAt iterThrow 14).log ∧
    Refers (stateAt iterThrow 14) 1 .pull (some ⟨1, .own⟩) :=
  ⟨reach _ _ rfl, ⟨_, _, rfl, rfl⟩, ⟨_, rfl, rfl, rfl⟩, back _ 8 4 rfl, rfl, .tail _ (.head _), ⟨_, rfl, rfl, rfl⟩⟩

open Demo in
/-- C27: in step 6 of `putMain` main writes through the iterator, control comes back in step 11. -/
example : Reach Demo.P putMain [] (stateAt putMain 6) ∧ (∃ k, Calls Demo.P (stateAt putMain 6) (.itPut (some 1) (.copy 5)) k) ∧
    Refers (stateAt putMain 6) 1 .push (some ⟨1, .own⟩) ∧ ComesBack Demo.P (stateAt putMain 6) (stateAt putMain 11) ∧
    (stateAt putMain 11).ctl = .recv ∧ BoolIs (stateAt putMain 14) 1 true ∧ BoolIs (stateAt putMain 24) 1 false :=
  ⟨reach _ _ rfl, ⟨_, _, rfl, rfl⟩, ⟨_, rfl, rfl, rfl⟩, back _ 6 3 rfl, rfl, boolIs rfl, boolIs rfl⟩

end Verif
