import Verif.Spoil
import Verif.PropsValue
import Verif.PropsUnwind

/-!
# C59: a copy that throws while a value is stored breaks the coroutine for good, and nothing else does

`spoiled c log` (SpecValue): copying a value into coroutine `c` has thrown while `c` held a value.
-/
namespace Verif
variable {L G V E : Type}
variable {P : Prog L G V E} {l0 : L} {g0 : G} {s s' : St L G V E} {h c : Nat} {k : Res V → L} {v : V}

namespace Aux

theorem spoiled_pull {s : St L G V E} {r : CbRef} {hd : Handle} (h1 : s.hs h = some hd) (h2 : hd.ty = .pull) (h3 : hd.cb = some r)
    (hv : hd.va = .val) (hal : (s.cbs r).life = .alive) (hsl : (s.cbs r).slot = .dead) : readSlot s h = .error (.ub .readDead s) := by
  unfold readSlot
  simp [h1, h2, h3, hv, hal, hsl]

/-- a pull end of a spoiled coroutine holds a destroyed value -/
theorem spoiled_end (hr : Reach P l0 g0 s) {r : CbRef} (hs : spoiled r.co s.log = true) (hh : Refers s h .pull (some r)) :
    ∃ hd, s.hs h = some hd ∧ hd.ty = .pull ∧ hd.cb = some r ∧ hd.va = .val ∧ (s.cbs r).life = .alive ∧ (s.cbs r).slot = .dead := by
  obtain ⟨hd, a1, a2, a3⟩ := hh
  have hb := (inv_reach hr).hok.born h hd r a1 a3
  rw [a2] at hb
  have hps := endKind_pull hb.2.1
  obtain ⟨b1, b2, b3, b4⟩ := spoil_reach hr r.co hs
  have hrr : (⟨r.co, pullSide (s.kind r.co)⟩ : CbRef) = r := by rw [← hps]
  rw [hrr] at b2 b3 b4
  exact ⟨hd, a1, a2, a3, by rw [hb.2.2, b1], b2, b3⟩

theorem cbSet_spoiled {q : CbRef} {a : PushArg V E} (hva : s.va q.co = .val) (hbv : (s.cbs q).bvalid = true) (hw : (s.cbs q).slot = .dead)
    (ha : a ≠ .unit) : cbSet P s q a = .ub .doubleDestroy s := by
  have : setDestroyOld s q = none := by unfold setDestroyOld; rw [if_pos hbv, hw]
  unfold cbSet
  cases a <;> simp_all

end Aux

/-- C59: once spoiled, every `get()` on the coroutine reads the destroyed object. -/
theorem C59_get (hr : Reach P l0 g0 s) {r : CbRef} (hs : spoiled r.co s.log = true) (hh : Refers s h .pull (some r))
    (hc : Calls P s (.get h) k) : ∃ t, step P s = .ub .readDead t := by
  obtain ⟨l, h1, h2⟩ := hc
  obtain ⟨hd, a1, a2, a3, a4, a5, a6⟩ := Aux.spoiled_end hr hs hh
  refine ⟨s.pushFr (.usr k), ?_⟩
  unfold step; rw [h1]
  simp only [evalStep, h2, apiStep, Aux.spoiled_pull (s := s.pushFr (.usr k)) a1 a2 a3 a4 a5 a6]

/-- C59: so does every dereferenced iterator. -/
theorem C59_deref (hr : Reach P l0 g0 s) {r : CbRef} (hs : spoiled r.co s.log = true) (hh : Refers s h .pull (some r))
    (hc : Calls P s (.itDeref (some h)) k) : ∃ t, step P s = .ub .readDead t := by
  obtain ⟨l, h1, h2⟩ := hc
  obtain ⟨hd, a1, a2, a3, a4, a5, a6⟩ := Aux.spoiled_end hr hs hh
  refine ⟨s.pushFr (.usr k), ?_⟩
  unfold step; rw [h1]
  simp only [evalStep, h2, apiStep, Aux.spoiled_pull (s := s.pushFr (.usr k)) a1 a2 a3 a4 a5 a6]

/-- C59: every further push over the coroutine destroys the destroyed object again, whatever is pushed. -/
theorem C59_push (hr : Reach P l0 g0 s) {r : CbRef} {a : PushArg V E} (hs : spoiled r.co s.log = true) (hh : Refers s h .push (some r))
    (hal : (s.cbs r).life = .alive) (hc : PushesTo P s h a k) (ha : a ≠ .unit) : ∃ t, step P s = .ub .doubleDestroy t := by
  have hi := inv_reach hr
  obtain ⟨l, op, post, -, -, h3, he⟩ := PushesTo.step hc
  obtain ⟨hd, a1, a2, a3⟩ := hh
  have hk := (hi.hok.born h hd r a1 a3).2.1
  rw [a2] at hk
  obtain ⟨hq1, hq2⟩ := endKind_push hk
  have hpp : r.partner = ⟨r.co, pullSide (s.kind r.co)⟩ := by rw [← hq1]; rfl
  obtain ⟨b1, b2, b3, b4⟩ := spoil_reach hr r.co hs
  rw [← hpp] at b2 b3 b4
  have hoth : (s.cbs r).other = some r.partner := by
    cases hx : (s.cbs r).other with
    | some q => rw [hi.other_partner hal hx]
    | none =>
      exfalso
      rcases r with ⟨c, sd⟩
      cases sd with
      | syn => rw [hi.cb.syn_other c hal] at hx; cases hx
      | own =>
        rw [hi.cb.own_other c hal] at hx
        split at hx
        · rename_i hf
          have := hi.cb.fresh_syn c hf
          exact absurd (this.symm.trans b2) (by simp)
        · cases hx
  have ht := Aux.cbSet_spoiled (P := P) (s := s.pushFr (.usr k)) (q := r.partner) b1 b4 b3 ha
  rw [he]
  unfold pushOp
  have e1 : (s.pushFr (.usr k)).hs = s.hs := rfl
  have e2 : (s.pushFr (.usr k)).cbs = s.cbs := rfl
  simp only [e1, e2, a1, a2, a3, hal, b2, hoth, if_true, ht]
  exact ⟨_, rfl⟩

/-- C59: a coroutine, once spoiled, stays so: it is spoiled in every later state ... -/
theorem C59_for_good (hr : Reach P l0 g0 s) (hs : spoiled c s.log = true) (hl : Later P s s') : spoiled c s'.log = true := by
  obtain ⟨evs, he⟩ := hl.log hr
  rw [he]; exact spoiled_mono hs

/-- C59: ... and its stack is never given back: no execution gets past the destruction of the coroutine. -/
theorem C59_never_returned (hr : Reach P l0 g0 s) (hs : spoiled c s.log = true) : nDealloc c s.log = 0 := by
  cases hd : nDealloc c s.log with
  | zero => rfl
  | succ n => exact absurd (spoil_reach hr c hs).life ((C15_not_used_afterwards hr c (by omega)).2.2.2.2 _)

/-- C59: destroying the object that owns a spoiled coroutine crashes, before any (other) user code runs. -/
theorem C59_destroy (hr : Reach P l0 g0 s) {ty : Kind} {fs : List (Frame L V E)} {x : Ctl L V E} (hs : spoiled c s.log = true)
    (he : Ends P s h fs x) (hh : Refers s h ty (some ⟨c, .own⟩)) (hu : Suspended c s.log) : CallCrashes P s := by
  rcases C13_locals_destroyed hr he hh hu with ⟨s', evs, hcl, -⟩ | hx
  · obtain ⟨hl, hr'⟩ := Aux.callRuns_reach hr hcl.runs
    have := C59_never_returned hr' (C59_for_good hr hs hl)
    rw [hcl.returned] at this; cases this
  · exact hx

/-- C59: and nothing else does: as long as no coroutine is spoiled, no transferred object is destroyed twice or read after its destruction,
except by pushing the stored object itself (C44). -/
theorem C59_only_way (hr : Reach P l0 g0 s) {t : St L G V E} (hu : step P s = .ub .doubleDestroy t ∨ step P s = .ub .readDead t)
    (ha : ∀ h k, ¬ Calls P s (.push h .alias) k) : ∃ c, spoiled c s.log = true := by
  apply Classical.byContradiction
  intro hn
  have h0 : ∀ c, spoiled c s.log = false := by
    intro c
    cases hx : spoiled c s.log with
    | false => rfl
    | true => exact (hn ⟨c, hx⟩).elim
  have := C17_partial hr h0 ha t
  rcases hu with h | h
  · exact this.1 h
  · exact this.2 h

/-- C59: what a throwing copy does, exactly.  The exception leaves `operator()` in the pusher - control is not transferred -, what was pushed last
is unchanged, and the coroutine is spoiled if and only if it held a value.  In particular a throwing copy does no harm to a coroutine that
holds nothing. -/
theorem C59_copy_throws (hr : Reach P l0 g0 s) {r : CbRef} {e : E} (hv : s.va r.co = .val) (hh : Refers s h .push (some r))
    (hc : PushesTo P s h (.faulty e) k) (he : step P s = .next s') :
    s'.ctl = .raise (.user e) ∧ s'.cur = s.cur ∧ lastPushed r.co s'.log = lastPushed r.co s.log ∧
      (spoiled r.co s'.log = true ↔ ∃ v, lastPushed r.co s.log = some v) := by
  obtain ⟨l, op, post, h1, h2, h3⟩ := hc.call
  have hi := inv_reach hr
  obtain ⟨hd, r', g1, g2, g3, g4, g5, g6, ⟨b, evs, w, t, g7, g8, rfl⟩ | ⟨b, evs, e', g0, g7, rfl⟩⟩ := (step_rel hi he).pushInv h1 h2 h3
  · obtain ⟨hd', f1, f2, f3⟩ := hh
    rw [f1] at g1; cases g1
    rw [f3] at g3; cases g3
    cases g7 <;> simp_all
  · cases g0
    obtain ⟨hd', f1, f2, f3⟩ := hh
    rw [f1] at g1; cases g1
    rw [f3] at g3; cases g3
    have hk := (hi.hok.born h hd r f1 f3).2.1
    rw [f2] at hk
    have hpp : r.partner = ⟨r.co, pullSide (s.kind r.co)⟩ := by rw [← (endKind_push hk).1]; rfl
    have hrep := congrArg Prod.snd ((slot_reach hr r.co).rep (by rw [← hpp]; exact g6))
    rw [← hpp, slotRep_valid] at hrep
    have hsp : ∀ w, (s.cbs r.partner).slot = .live w → spoiled r.co s.log = true → False := by
      intro w hw hx
      have := (spoil_reach hr r.co hx).slot
      rw [← hpp, hw] at this; cases this
    refine ⟨rfl, rfl, ?_, ?_⟩
    · cases g7 <;> simp [lastPushed]
    · cases g7 with
      | first _ hb =>
        have hx : spoiled r.co s.log = false := by
          cases hx : spoiled r.co s.log with
          | false => rfl
          | true => have := (spoil_reach hr r.co hx).bvalid; rw [← hpp, hb] at this; cases this
        simp only [hb] at hrep
        have hn : lastPushed r.co s.log = none := by
          cases hl : lastPushed r.co s.log with
          | none => rfl
          | some w => rw [hl] at hrep; cases hrep
        simp [spoiled, hx, hn]
      | again _ hb hw =>
        simp only [hb] at hrep
        obtain ⟨w, hl⟩ := Option.isSome_iff_exists.1 hrep
        simp [spoiled, lastPushed, hl]

/-! ### The hypotheses are satisfiable -/

namespace Demo
open Code

/-- The second push throws in the copy constructor; the exception is caught in the coroutine-function, which pushes again. -/
def badPushMain : C :=
  mk .pull .val (fun h => push h 1 (tryc (fun _ => push h 2 ret) (op (.push h (.faulty 9)) fun _ => endTry ret))) fun h => resume h ret

/-- The same, but it is the very first push that throws. -/
def firstCopyMain : C :=
  mk .pull .val (fun h => tryc (fun _ => push h 2 ret) (op (.push h (.faulty 9)) fun _ => endTry ret)) fun h => get h fun _ => ret

/-- The second push throws, and is dereferenced through an iterator. -/
def badDerefMain : C :=
  mk .pull .val (fun h => push h 1 (op (.push h (.faulty 9)) fun _ => ret)) fun h =>
    tryc (fun _ => op (.itDeref (some h)) fun _ => ret) (resume h (endTry ret))

end Demo

open Demo in
/-- The throwing copy: step 10 of `badPushMain` (a value is held; the coroutine is spoiled), step 3 of `firstCopyMain` (none is held; it is not, and the
push in step 6 and the `get()` in step 9 work as usual). -/
example : Reach Demo.P badPushMain [] (stateAt badPushMain 10) ∧ (stateAt badPushMain 10).va 1 = .val ∧
    Refers (stateAt badPushMain 10) 0 .push (some ⟨1, .syn⟩) ∧ (∃ k, PushesTo Demo.P (stateAt badPushMain 10) 0 (.faulty 9) k) ∧
    step Demo.P (stateAt badPushMain 10) = .next (stateAt badPushMain 11) ∧ lastPushed 1 (stateAt badPushMain 10).log = some 1 ∧
    Reach Demo.P firstCopyMain [] (stateAt firstCopyMain 3) ∧ (stateAt firstCopyMain 3).va 1 = .val ∧
    Refers (stateAt firstCopyMain 3) 0 .push (some ⟨1, .syn⟩) ∧ (∃ k, PushesTo Demo.P (stateAt firstCopyMain 3) 0 (.faulty 9) k) ∧
    step Demo.P (stateAt firstCopyMain 3) = .next (stateAt firstCopyMain 4) ∧ lastPushed 1 (stateAt firstCopyMain 3).log = none ∧
    (∃ k, Calls Demo.P (stateAt firstCopyMain 9) (.get 1) k) ∧ lastPushed 1 (stateAt firstCopyMain 9).log = some 2 ∧
    step Demo.P (stateAt firstCopyMain 9) = .next (stateAt firstCopyMain 10) :=
  ⟨reach _ _ rfl, rfl, ⟨_, rfl, rfl, rfl⟩, ⟨_, .inl ⟨_, rfl, rfl⟩⟩, rfl, rfl, reach _ _ rfl, rfl, ⟨_, rfl, rfl, rfl⟩,
    ⟨_, .inl ⟨_, rfl, rfl⟩⟩, rfl, rfl, ⟨_, _, rfl, rfl⟩, rfl, rfl⟩

open Demo in
/-- A push over a spoiled coroutine (step 13 of `badPushMain`), a `get()` (step 16 of `badGetMain`), an iterator (step 16 of `badDerefMain`). -/
example : Reach Demo.P badPushMain [] (stateAt badPushMain 13) ∧ spoiled 1 (stateAt badPushMain 13).log = true ∧
    Refers (stateAt badPushMain 13) 0 .push (some ⟨1, .syn⟩) ∧ ((stateAt badPushMain 13).cbs ⟨1, .syn⟩).life = .alive ∧
    (∃ k, PushesTo Demo.P (stateAt badPushMain 13) 0 (.copy 2) k) ∧
    Reach Demo.P badGetMain [] (stateAt badGetMain 16) ∧ spoiled 1 (stateAt badGetMain 16).log = true ∧
    Refers (stateAt badGetMain 16) 1 .pull (some ⟨1, .own⟩) ∧ (∃ k, Calls Demo.P (stateAt badGetMain 16) (.get 1) k) ∧
    Reach Demo.P badDerefMain [] (stateAt badDerefMain 16) ∧ spoiled 1 (stateAt badDerefMain 16).log = true ∧
    Refers (stateAt badDerefMain 16) 1 .pull (some ⟨1, .own⟩) ∧ (∃ k, Calls Demo.P (stateAt badDerefMain 16) (.itDeref (some 1)) k) :=
  ⟨reach _ _ rfl, rfl, ⟨_, rfl, rfl, rfl⟩, rfl, ⟨_, .inl ⟨_, rfl, rfl⟩⟩, reach _ _ rfl, rfl, ⟨_, rfl, rfl, rfl⟩, ⟨_, _, rfl, rfl⟩,
    reach _ _ rfl, rfl, ⟨_, rfl, rfl, rfl⟩, ⟨_, _, rfl, rfl⟩⟩

open Demo in
/-- A spoiled coroutine is destroyed (step 16 of `badCopyMain`); its stack has not been given back. -/
example : Reach Demo.P badCopyMain [] (stateAt badCopyMain 16) ∧ spoiled 1 (stateAt badCopyMain 16).log = true ∧
    Ends Demo.P (stateAt badCopyMain 16) 1 [] (.eval Code.ret) ∧ Refers (stateAt badCopyMain 16) 1 .pull (some ⟨1, .own⟩) ∧
    Suspended 1 (stateAt badCopyMain 16).log ∧ Later Demo.P (stateAt badCopyMain 11) (stateAt badCopyMain 16) ∧
    (∃ t, step Demo.P (stateAt badCopyMain 16) = .ub .doubleDestroy t) ∧ ∀ h k, ¬ Calls Demo.P (stateAt badCopyMain 16) (.push h .alias) k :=
  ⟨reach _ _ rfl, rfl, .api (k := fun _ => Code.ret) ⟨_, rfl, rfl⟩, ⟨_, rfl, rfl, rfl⟩, ⟨_, rfl⟩, later _ 11 5 rfl, ⟨_, rfl⟩, by
    rintro h k ⟨l, h1, h2⟩; cases h1; cases h2⟩

end Verif
