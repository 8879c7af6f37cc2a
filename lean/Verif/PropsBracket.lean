import Verif.SpecBracket
import Verif.SimTop

/-!
# C66: control is passed like calls and returns
-/
namespace Verif
variable {L G V E : Type}
variable {P : Prog L G V E} {l0 : L} {g0 : G} {s s' : St L G V E} {rest : List Nat}

/-- not a transfer -/
def xq (e : Ev V E) : Bool := !e.isIn && !e.isOut

theorem callStack_xq {evs log : List (Ev V E)} (h : ∀ e ∈ evs, xq e = true) : callStack (evs ++ log) = callStack log := by
  induction evs with
  | nil => rfl
  | cons e t ih =>
    have h1 := h e (List.mem_cons_self ..)
    rw [List.cons_append, ← ih fun x hx => h x (List.mem_cons_of_mem _ hx)]
    cases e with
    | jump r i j => obtain ⟨k, sd⟩ := r; cases sd <;> simp [xq, Ev.isIn, Ev.isOut] at h1
    | _ => first | rfl | simp [xq, Ev.isIn, Ev.isOut] at h1

theorem Scope.xq {s1 : St L G V E} {h : Nat} (hs : Scope P s h s1) : s1.cur = s.cur ∧ ∃ evs, s1.log = evs ++ s.log ∧ ∀ e ∈ evs, xq e = true := by
  refine ⟨hs.eqs.1, ?_⟩
  rcases hs.log with h | h
  · exact ⟨[], h, by simp⟩
  · exact ⟨[_], h, by simp [Verif.xq, Ev.isIn, Ev.isOut]⟩
theorem Dtor.xq {kd : Kind} {va : Var} {b : CB V E} {r : CbRef} {sl : Slot V} {evs : List (Ev V E)}
    (h : Dtor kd va b r sl evs) : ∀ e ∈ evs, xq e = true := by
  cases h <;> simp [Verif.xq, Ev.isIn, Ev.isOut]
theorem SetOk.xq {mv : V → V} {va : Var} {b b' : CB V E} {j : Nat} {a : PushArg V E} {evs : List (Ev V E)} {w : Option V}
    (h : SetOk mv va b j a b' evs w) : ∀ e ∈ evs, xq e = true := by
  cases h <;> simp [Verif.xq, Ev.isIn, Ev.isOut]
theorem SetThrows.xq {va : Var} {b b' : CB V E} {j : Nat} {evs : List (Ev V E)}
    (h : SetThrows va b j b' evs) : ∀ e ∈ evs, xq e = true := by
  cases h <;> simp [Verif.xq, Ev.isIn, Ev.isOut]
theorem Local.xq {g : G} {fs : List (Frame L V E)} {c : Ctl L V E} {evs : List (Ev V E)}
    (h : Local P s g fs c evs) : ∀ e ∈ evs, xq e = true := by
  cases h <;> simp [Verif.xq, Ev.isIn, Ev.isOut]
theorem Dying.xq {s0 : St L G V E} {f : Option Nat} (hs : Dying P s f s0) :
    s0.cur = s.cur ∧ ∃ evs, s0.log = evs ++ s.log ∧ ∀ e ∈ evs, xq e = true := by
  cases hs
  case handle evs' hsc _ _ _ hd =>
    obtain ⟨h0, evs, h1, h2⟩ := hsc.xq
    refine ⟨h0, evs' ++ evs, by simp only [h1, List.append_assoc], ?_⟩
    intro e he
    rcases List.mem_append.1 he with he | he
    · exact hd.xq e he
    · exact h2 e he
  case ctorInvalid hd => exact ⟨rfl, _, rfl, hd.xq⟩
  case ctorThrow => exact ⟨rfl, [_], rfl, by simp [Verif.xq, Ev.isIn, Ev.isOut]⟩
  case ctorUnw => exact ⟨rfl, [], rfl, by simp⟩
  case syn hd => exact ⟨rfl, _, rfl, hd.xq⟩

/-- what a step adds to the history: at most one transfer, the last thing it does, and this is when the running context changes -/
theorem Step.transfers (h : Step P s s') : ∃ evs, (∀ e ∈ evs, xq e = true) ∧
    ((s'.cur = s.cur ∧ s'.log = evs ++ s.log) ∨ (∃ r, s'.log = .jump r s.cur s'.cur :: (evs ++ s.log)) ∨
      s'.log = .unwind s.cur s'.cur :: (evs ++ s.log) ∨ s'.log = .dealloc s.cur :: (evs ++ s.log)) := by
  cases h
  case loc h => exact ⟨_, h.xq, .inl ⟨rfl, rfl⟩⟩
  case pushThrow h => exact ⟨_, h.xq, .inl ⟨rfl, rfl⟩⟩
  case nop h _ _ => obtain ⟨h0, evs, h1, h2⟩ := h.xq; exact ⟨evs, h2, .inl ⟨h0, h1⟩⟩
  case dropNone h => obtain ⟨h0, evs, h1, h2⟩ := h.xq; exact ⟨evs, h2, .inl ⟨h0, h1⟩⟩
  case dropSome h =>
    obtain ⟨h0, evs, h1, h2⟩ := h.xq
    exact ⟨evs, h2, .inr (.inr (.inl (by simp [h0, h1])))⟩
  case mk => exact ⟨[_, _], by simp [xq, Ev.isIn, Ev.isOut], .inr (.inl ⟨_, rfl⟩)⟩
  case push hse _ => exact ⟨_, hse.xq, .inr (.inl ⟨_, rfl⟩)⟩
  case pull => exact ⟨[], by simp, .inr (.inl ⟨_, rfl⟩)⟩
  case enterPush => exact ⟨[], by simp, .inr (.inl ⟨_, rfl⟩)⟩
  case fin => exact ⟨[_, _], by simp [xq, Ev.isIn, Ev.isOut], .inr (.inl ⟨_, rfl⟩)⟩
  case exit =>
    refine ⟨if s.fnObj s.cur = .record then [.fnDtor s.cur] else [], ?_, .inr (.inr (.inr rfl))⟩
    split <;> simp [xq, Ev.isIn, Ev.isOut]
  all_goals first
    | exact ⟨[], by simp, .inl ⟨rfl, rfl⟩⟩
    | exact ⟨[_], by simp [xq, Ev.isIn, Ev.isOut], .inl ⟨rfl, rfl⟩⟩

theorem Disc.moveIn (d : Disc s rest) {k : Nat} {evs : List (Ev V E)} (hc : callStack s.log = some (s.cur :: rest)) (hk : k ∉ s.cur :: rest)
    (he : ∀ e ∈ evs, xq e = true) : callStack (.jump ⟨k, .own⟩ s.cur k :: (evs ++ s.log)) = some (k :: s.cur :: rest) ∧
      callStack (.unwind s.cur k :: (evs ++ s.log)) = some (k :: s.cur :: rest) := by
  simp [callStack, callStack_xq he, hc]
  simpa using hk

theorem Disc.moveOut {t : Nat} {r : List Nat} {evs : List (Ev V E)} (hc : callStack s.log = some (s.cur :: t :: r))
    (he : ∀ e ∈ evs, xq e = true) : callStack (.jump ⟨s.cur, .syn⟩ s.cur t :: (evs ++ s.log)) = some (t :: r) ∧
      callStack (.dealloc s.cur :: (evs ++ s.log)) = some (t :: r) := by
  simp [callStack, callStack_xq he, hc]

theorem callStack_step {rest' : List Nat} (d : Disc s rest) (hi : Inv s) (hi' : Inv s') (ru : Rules P s) (h : Step P s s')
    (d' : Disc s' rest') (hmv : Moved s.cur rest s'.cur rest') (hc : callStack s.log = some (s.cur :: rest)) :
    callStack s'.log = some (s'.cur :: rest') := by
  have hin : ∀ {t : Nat} {evs : List (Ev V E)}, s'.cur = t → t ∉ s.cur :: rest → (∀ e ∈ evs, xq e = true) →
      (s'.log = .jump ⟨t, .own⟩ s.cur t :: (evs ++ s.log) ∨ s'.log = .unwind s.cur t :: (evs ++ s.log)) →
      callStack s'.log = some (s'.cur :: rest') := by
    intro t evs h1 h2 he hl
    rw [h1] at hmv ⊢
    rw [hmv.down_eq h2]
    rcases hl with hl | hl <;> rw [hl]
    · exact (d.moveIn hc h2 he).1
    · exact (d.moveIn hc h2 he).2
  have hout : ∀ {t : Nat} {r : List Nat} {evs : List (Ev V E)}, s'.cur = t → rest = t :: r → (∀ e ∈ evs, xq e = true) →
      (s'.log = .jump ⟨s.cur, .syn⟩ s.cur t :: (evs ++ s.log) ∨ s'.log = .dealloc s.cur :: (evs ++ s.log)) →
      callStack s'.log = some (s'.cur :: rest') := by
    intro t r evs h1 h2 he hl
    rw [h1] at hmv ⊢
    rw [hmv.up_eq h2 d.nodup]
    rw [h2] at hc
    rcases hl with hl | hl <;> rw [hl]
    · exact (Disc.moveOut hc he).1
    · exact (Disc.moveOut hc he).2
  have hstay : ∀ {evs : List (Ev V E)}, s'.cur = s.cur → (∀ e ∈ evs, xq e = true) → s'.log = evs ++ s.log →
      callStack s'.log = some (s'.cur :: rest') := by
    intro evs h1 he hl
    rw [hl, callStack_xq he, hc, hmv.stay_eq h1 d.nodup, h1]
  have hres : ∀ {hd : Handle} {r : CbRef} {t : Nat} {evs : List (Ev V E)}, MayResume s hd → hd.cb = some r → s.fib (.cb r) = some t →
      s'.cur = t → (∀ e ∈ evs, xq e = true) → s'.log = .jump r s.cur t :: (evs ++ s.log) → callStack s'.log = some (s'.cur :: rest') := by
    intro hd r t evs hm hcb hf h1 he hl
    rcases hm with ⟨k, hk, -, -⟩ | hk
    · rw [hk] at hcb; cases hcb
      obtain ⟨rfl, hkn⟩ := d.ownHolds hi hf
      exact hin h1 hkn he (.inl hl)
    · rw [hk] at hcb; cases hcb
      obtain ⟨r', hr⟩ := d.synCur hi hf
      exact hout h1 hr he (.inl hl)
  cases h
  case loc h => exact hstay rfl h.xq rfl
  case pushThrow h => exact hstay rfl h.xq rfl
  case nop h _ _ => obtain ⟨h0, evs, h1, h2⟩ := h.xq; exact hstay h0 h2 h1
  case dropNone h => obtain ⟨h0, evs, h1, h2⟩ := h.xq; exact hstay h0 h2 h1
  case dropSome s0 t h =>
    obtain ⟨h0, evs, h1, h2⟩ := h.xq
    obtain ⟨r, hr⟩ := d'.succ hi' (l := .back t) (.inr rfl) (t := s0.cur) (by simp)
    refine hin (t := t) rfl ?_ h2 (.inr (by simp [h0, h1]))
    rw [h0] at hr
    subst hr
    rcases hmv with ⟨hm, _⟩ | ⟨hm, _⟩ | hm
    · exact absurd d'.nodup (by simp [show t = s.cur from hm])
    · exact hm
    · have := d.nodup
      rw [hm] at this
      simp at this
  case mk =>
    have hnk : s.base s.nk = .none := by
      cases hb : s.base s.nk with
      | none => rfl
      | _ => have := hi.sched.lt_nk s.nk (by rw [hb]; simp); omega
    refine hin (evs := [_, _]) rfl ?_ (by simp [xq, Ev.isIn, Ev.isOut]) (.inl rfl)
    intro hx
    rcases List.mem_cons.1 hx with hx | hx
    · exact hi.sched.cur_live (hx ▸ hnk)
    · exact d.live _ hx hnk
  case push l op k0 h0 a post hd r b evs w t h1 h2 hpc hh hty hcb hal _ _ hse hf =>
    have hmr : MayResume s hd := by
      cases hpc with
      | op =>
        obtain ⟨⟨hd', e1, e2⟩, _⟩ := ru.push _ _ _ ⟨l, h1, h2⟩
        rw [hh] at e1; cases e1; exact e2
      | it =>
        obtain ⟨⟨h', hd', e0, e1, e2⟩, _⟩ := ru.put _ _ _ ⟨l, h1, h2⟩
        cases e0
        rw [hh] at e1; cases e1; exact e2
    exact hres hmr hcb hf rfl hse.xq rfl
  case pull l op k0 h0 post hd r t h1 h2 hpc hh hty hcb hal hf =>
    have hmr : MayResume s hd := by
      cases hpc with
      | op =>
        obtain ⟨hd', e1, e2⟩ := ru.resume _ _ ⟨l, h1, h2⟩
        rw [hh] at e1; cases e1; exact e2
      | it =>
        obtain ⟨h', hd', e0, e1, e2⟩ := ru.next _ _ ⟨l, h1, h2⟩
        cases e0
        rw [hh] at e1; cases e1; exact e2
    exact hres (evs := []) hmr hcb hf rfl (by simp) rfl
  case enterPush fn u hr hfr hb hk hal hair =>
    have hq : hole (s.base s.cur) s.cur (s.frames s.cur) = some ⟨s.cur, .syn⟩ := by
      rw [hb, show s.frames s.cur = s.fr from rfl, hfr]; rfl
    have h0 : s.cur ≠ 0 := fun h => by rw [(hi.sched.main_iff s.cur).2 h] at hb; cases hb
    obtain ⟨r', hr'⟩ := d.belowAir hi h0 hr hair hq
    exact hout (evs := []) rfl hr' (by simp) (.inl rfl)
  case fin h0 t x hx hfr hb hal hf =>
    obtain ⟨r', hr'⟩ := d.synCur hi hf
    exact hout (evs := [_, _]) rfl hr' (by simp [xq, Ev.isIn, Ev.isOut]) (.inl rfl)
  case exit r b _ _ _ hf _ =>
    obtain ⟨r', hr'⟩ := d.succ hi (.inr rfl) hf
    refine hout (evs := if s.fnObj s.cur = .record then [.fnDtor s.cur] else []) rfl hr' ?_ (.inr rfl)
    split <;> simp [xq, Ev.isIn, Ev.isOut]
  all_goals first
    | exact hstay (evs := []) rfl (by simp) rfl
    | exact hstay (evs := [_]) rfl (by simp [xq, Ev.isIn, Ev.isOut]) rfl

theorem disc_callStack (h : ReachOk P l0 g0 s) : ∃ rest, Disc s rest ∧ callStack s.log = some (s.cur :: rest) := by
  induction h with
  | init => exact ⟨[], disc_init l0 g0, rfl⟩
  | step hr hu hs ih =>
    obtain ⟨rest, d, hc⟩ := ih
    have hi := inv_reach hr.reach
    have hst := step_rel hi hs
    have hi' := inv_reach (hr.step hu hs).reach
    obtain ⟨rest', d', hmv⟩ := d.step hi hi' (jinv_reach hr.reach) hu hst
    exact ⟨rest', d', callStack_step d hi hi' hu hst d' hmv hc⟩

/-- a history in the order of calls and returns: as many returns as calls, but for those still waiting -/
theorem callStack_count {log : List (Ev V E)} : ∀ {st : List Nat}, callStack log = some st → nIn log + 1 = nOut log + st.length := by
  induction log with
  | nil => intro st h; cases h; rfl
  | cons e l ih =>
    intro st h
    have key : ∀ e : Ev V E, nIn (e :: l) = nIn l + (if e.isIn then 1 else 0) ∧ nOut (e :: l) = nOut l + (if e.isOut then 1 else 0) :=
      fun e => ⟨by simp [nIn, List.countP_cons], by simp [nOut, List.countP_cons]⟩
    rw [(key e).1, (key e).2]
    cases e with
    | jump r i j =>
      obtain ⟨k, sd⟩ := r
      cases sd <;> simp only [callStack] at h <;> split at h <;> try cases h
      all_goals
        rename_i hx
        have := ih hx
        split at h <;> cases h
        simp only [Ev.isIn, Ev.isOut, List.length_cons] at *
        simp at *
        omega
    | unwind i j =>
      simp only [callStack] at h; split at h <;> try cases h
      rename_i hx
      have := ih hx
      split at h <;> cases h
      simp only [Ev.isIn, Ev.isOut, List.length_cons] at *
      simp at *
      omega
    | dealloc k =>
      simp only [callStack] at h; split at h <;> try cases h
      rename_i hx
      have := ih hx
      split at h <;> cases h
      simp only [Ev.isIn, Ev.isOut, List.length_cons] at *
      simp at *
      omega
    | _ => simpa [Ev.isIn, Ev.isOut] using ih (by simpa [callStack] using h)

/-- C66: the transfers of control that have happened are in the order of calls and returns, and the context on top is the one that runs;
at the bottom is main, and nobody waits twice.  So whatever leaves a coroutine, a value, the end of the function, an exception, the end of
unwinding, gets to the one that entered it last. -/
theorem C66_call_stack (hk : ReachOk P l0 g0 s) : ∃ below, callStack s.log = some (s.cur :: below) ∧ (s.cur :: below).getLast? = some 0 ∧
    (s.cur :: below).Nodup := by
  obtain ⟨rest, d, h⟩ := disc_callStack hk
  exact ⟨rest, h, d.last, d.nodup⟩

/-- C66: when main runs, every coroutine has been left as often as it has been entered. -/
theorem C66_balance (hk : ReachOk P l0 g0 s) (hc : s.cur = 0) : nIn s.log = nOut s.log := by
  obtain ⟨rest, d, h⟩ := disc_callStack hk
  have h1 := callStack_count h
  have h2 := d.last
  have h3 := d.nodup
  rw [hc] at h2 h3
  match rest, h2, h3 with
  | [], _, _ => simpa using h1
  | x :: t, h2, h3 =>
    rw [List.getLast?_cons_cons] at h2
    exact absurd (last_mem h2) (List.nodup_cons.1 h3).1

theorem Step.changes (hi : Inv s) (hi' : Inv s') (h : Step P s s') : ∃ evs, (∀ e ∈ evs, xq e = true) ∧
    ((s'.cur = s.cur ∧ s'.log = evs ++ s.log) ∨ (s'.cur ≠ s.cur ∧ ∃ e, xq e = false ∧ s'.log = e :: (evs ++ s.log))) := by
  have j : ∀ (r : CbRef) (a b : Nat), xq (.jump r a b : Ev V E) = false := by
    rintro ⟨k, sd⟩ a b; cases sd <;> rfl
  cases h
  case loc h => exact ⟨_, h.xq, .inl ⟨rfl, rfl⟩⟩
  case pushThrow h => exact ⟨_, h.xq, .inl ⟨rfl, rfl⟩⟩
  case nop h _ _ => obtain ⟨h0, evs, h1, h2⟩ := h.xq; exact ⟨evs, h2, .inl ⟨h0, h1⟩⟩
  case dropNone h => obtain ⟨h0, evs, h1, h2⟩ := h.xq; exact ⟨evs, h2, .inl ⟨h0, h1⟩⟩
  case dropSome s0 t h =>
    obtain ⟨h0, evs, h1, h2⟩ := h.xq
    have := (hi'.sched.fib_ok (.back t) s0.cur (by simp)).1
    exact ⟨evs, h2, .inr ⟨fun e => this (by rw [h0]; exact e.symm), .unwind s0.cur t, rfl, by simp [h1]⟩⟩
  case mk =>
    refine ⟨[_, _], by simp [xq, Ev.isIn, Ev.isOut], .inr ⟨?_, _, j _ _ _, rfl⟩⟩
    intro e
    have := hi.sched.lt_nk s.cur hi.sched.cur_live
    exact absurd (show s.nk = s.cur from e) (by omega)
  case push hse hf => exact ⟨_, hse.xq, .inr ⟨(hi.sched.fib_ok _ _ hf).1, _, j _ _ _, rfl⟩⟩
  case pull hf => exact ⟨[], by simp, .inr ⟨(hi.sched.fib_ok _ _ hf).1, _, j _ _ _, rfl⟩⟩
  case enterPush hf => exact ⟨[], by simp, .inr ⟨(hi.sched.fib_ok _ _ hf).1, _, j _ _ _, rfl⟩⟩
  case fin hf => exact ⟨[_, _], by simp [xq, Ev.isIn, Ev.isOut], .inr ⟨(hi.sched.fib_ok _ _ hf).1, _, j _ _ _, rfl⟩⟩
  case exit hf _ =>
    refine ⟨if s.fnObj s.cur = .record then [.fnDtor s.cur] else [], ?_, .inr ⟨(hi.sched.fib_ok _ _ hf).1, .dealloc s.cur, rfl, rfl⟩⟩
    split <;> simp [xq, Ev.isIn, Ev.isOut]
  all_goals first
    | exact ⟨[], by simp, .inl ⟨rfl, rfl⟩⟩
    | exact ⟨[_], by simp [xq, Ev.isIn, Ev.isOut], .inl ⟨rfl, rfl⟩⟩

theorem count_xq {evs log : List (Ev V E)} (h : ∀ e ∈ evs, xq e = true) : nIn (evs ++ log) + nOut (evs ++ log) = nIn log + nOut log := by
  induction evs with
  | nil => rfl
  | cons e t ih =>
    have h1 := h e (List.mem_cons_self ..)
    have h2 := ih fun x hx => h x (List.mem_cons_of_mem _ hx)
    simp only [xq, Bool.and_eq_true, Bool.not_eq_true'] at h1
    simp only [nIn, nOut, List.cons_append, List.countP_cons, h1.1, h1.2] at *
    simpa using h2

/-- C66 (any program, whether it keeps the rules or not): a step is a transfer exactly if the running context changes, and it is one
transfer then. -/
theorem C66_one_transfer (hr : Reach P l0 g0 s) (hs : step P s = .next s') :
    nIn s'.log + nOut s'.log = nIn s.log + nOut s.log + (if s'.cur = s.cur then 0 else 1) := by
  have hi := inv_reach hr
  obtain ⟨evs, hq, ⟨h1, h2⟩ | ⟨h1, e, h2, h3⟩⟩ := (step_rel hi hs).changes hi (inv_reach (hr.step hs))
  · rw [h2, count_xq hq, if_pos h1]; rfl
  · rw [h3, if_neg h1]
    have : ∀ l, nIn (e :: l) + nOut (e :: l) = nIn l + nOut l + 1 := by
      intro l
      cases e with
      | jump r a b => obtain ⟨k, sd⟩ := r; cases sd <;> simp [nIn, nOut, List.countP_cons, Ev.isIn, Ev.isOut] <;> omega
      | _ => simp [xq, Ev.isIn, Ev.isOut] at h2 <;> simp [nIn, nOut, List.countP_cons, Ev.isIn, Ev.isOut] <;> omega
    rw [this, count_xq hq]

end Verif
