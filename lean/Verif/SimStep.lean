import Verif.SimCo

/-! # Every step of the library model is a step of the specification machine, or none.  Proof material. -/
namespace Verif
variable {L G V E : Type}
variable {P : Prog L G V E} {s s' : St L G V E} {rest rest' : List Nat} {co co' : Nat → Coro.Co L V E}

theorem sim_eval {l : L} (h : s.ctl = .eval l) :
    Coro.step P (absSt s rest co) = Coro.evalStep P (absSt s rest co) s.cur rest l := by
  simp only [Coro.step, absSt, h, absCtl]
theorem sim_res {r : Res V} (h : s.ctl = .deliver r) :
    Coro.step P (absSt s rest co) = Coro.resStep (absSt s rest co) s.cur rest r := by
  simp only [Coro.step, absSt, h, absCtl]
theorem sim_raise {x : Exn E} (h : s.ctl = .raise x) :
    Coro.step P (absSt s rest co) = Coro.raiseStep P (absSt s rest co) s.cur rest x := by
  simp only [Coro.step, absSt, h, absCtl]
theorem sim_ret (h : s.ctl = .retn) :
    Coro.step P (absSt s rest co) = Coro.retStep P (absSt s rest co) s.cur rest := by
  simp only [Coro.step, absSt, h, absCtl]
theorem sim_back (h : s.ctl = .recv) (hw : waitTop s.fr = false) :
    Coro.step P (absSt s rest co) = Coro.backStep (absSt s rest co) s.cur rest := by
  have hw' : waitTop (s.frames s.cur) = false := hw
  simp only [Coro.step, absSt, h, absCtl, hw', Bool.false_eq_true, if_false]
theorem sim_api {l : L} {op : Op L V E} {k : Res V → L} (h : s.ctl = .eval l) (hc : P.code l s.g = .api op k) :
    Coro.step P (absSt s rest co) = Coro.call P ((absSt s rest co).push s.cur (.use k)) s.cur rest op := by
  rw [sim_eval h]
  have hc' : P.code l (absSt s rest co).g = .api op k := hc
  simp only [Coro.evalStep, hc']
theorem abs_stack (i : Nat) : (absSt s rest co).stack i = (s.frames i).filterMap absF := rfl
theorem abs_g : (absSt s rest co).g = s.g := rfl
theorem abs_hs : (absSt s rest co).hs = s.hs := rfl

theorem upd_id {α β : Type} [DecidableEq α] (f : α → β) (a : α) : upd f a (f a) = f := by
  funext x; simp only [upd]; split <;> simp_all
theorem upd_hid {α β : Type} [DecidableEq α] (f : α → β) (a : α) (b : β) (h : f a = b) : upd (upd f a b) a b = f := by
  funext x; simp only [upd]; split <;> simp_all

/-- finish: the two states agree -/
macro "agree" : tactic => `(tactic| (
  refine congrArg _ (absSt_eq ?_ ?_ ?_ ?_ ?_ ?_ ?_ ?_ ?_) <;>
    simp [Coro.St.goto, Coro.St.push, Coro.St.setStack, Coro.St.see, Coro.St.endObj, Coro.St.newObj, Coro.St.setCo, absSt, absCtl, absStack_upd, upd_id, upd_upd, St.fr, absF, Coro.noticed, List.filter_cons, *]))

theorem Local.sim {g : G} {fs : List (Frame L V E)} {c : Ctl L V E} {evs : List (Ev V E)} (h : Local P s g fs c evs) (ok : CoOk s co)
    (d : Disc s rest) (hi : Inv s) (hj : JInv s) (ru : Rules P s) :
    Coro.step P (absSt s rest co) = .next (absSt { s with g := g, frames := upd s.frames s.cur fs, ctl := c, log := evs ++ s.log } rest co) := by
  have hnf := hi.notFresh h.pre
  cases h
  case itBeginPush l h k hd hc hcode hh hty hva =>
    have : ∃ b, Coro.objValid (absSt s rest co) s.cur h = some b := by
      obtain ⟨hd', e, ha⟩ := ru.ask h k (.inr (.inr ⟨l, hc, hcode⟩))
      rw [hh] at e; cases e
      obtain ⟨ty, va, cb⟩ := hd
      cases cb with
      | none => simp [Coro.objValid, absSt, hh]
      | some r =>
        have hr : r.side = .own ∨ r.co = s.cur := by
          obtain ⟨k, sd⟩ := r
          cases sd with
          | own => exact .inl rfl
          | syn => exact .inr (ha k rfl)
        simp [Coro.objValid, absSt, hh, hr]
    obtain ⟨b, hb⟩ := this
    have hb' : Coro.objValid ((absSt s rest co).push s.cur (.use k)) s.cur h = some b := hb
    have hh' : ((absSt s rest co).push s.cur (.use k)).hs h = some hd := hh
    rw [sim_api hc hcode]
    simp only [Coro.call, hb', hh', hva, hty, true_or, if_true, if_false]
    agree
  case itBeginPull l h k hd b hc hcode hh hty hva hb =>
    have hb' : Coro.objValid ((absSt s rest co).push s.cur (.use k)) s.cur h = some b := ok.bool d hi hb hnf (ru.ask h k (.inr (.inr ⟨l, hc, hcode⟩)))
    have hh' : ((absSt s rest co).push s.cur (.use k)).hs h = some hd := hh
    rw [sim_api hc hcode]
    simp only [Coro.call, hb', hh', hva, hty, if_false]
    agree
  case asgSelf l h k hd hc hcode hh hty =>
    have hh' : ((absSt s rest co).push s.cur (.use k)).hs h = some hd := hh
    rw [sim_api hc hcode]
    simp only [Coro.call, hh', true_and, if_true]
    obtain ⟨ty, va, cb⟩ := hd
    have := upd_hid _ _ _ hh
    agree
  case mkAlloc l kd va e fn k hc hcode =>
    rw [sim_api hc hcode]
    simp only [Coro.call]
    agree
  case valid l h k b hc hcode hb =>
    have hb' : Coro.objValid ((absSt s rest co).push s.cur (.use k)) s.cur h = some b := ok.bool d hi hb hnf (ru.ask h k (.inl ⟨l, hc, hcode⟩))
    rw [sim_api hc hcode]
    simp only [Coro.call, hb']
    agree
  case bang l h k b hc hcode hb =>
    have hb' : Coro.objValid ((absSt s rest co).push s.cur (.use k)) s.cur h = some (!b) := ok.bool d hi (handleBang_bool hb) hnf (ru.ask h k (.inr (.inl ⟨l, hc, hcode⟩)))
    rw [sim_api hc hcode]
    simp only [Coro.call, hb', Bool.not_not]
    agree
  case itDeref l h k r v hc hcode hr =>
    have hv : Coro.value ((absSt s rest co).push s.cur (.use k)) s.cur h = some (r.co, v) := (ok.read (rest := rest) hi hj hr (by
      obtain ⟨h', hd, e0, e⟩ := ru.deref _ k ⟨l, hc, hcode⟩
      cases e0; exact ⟨hd, e⟩)).1
    rw [sim_api hc hcode]
    simp only [Coro.call, hv]
    agree
  case dFetch r h b hc hb hfr =>
    have hb' := ok.bool d hi (handleBang_bool hb) hnf (ru.iter r h _ hc (.inl hfr))
    have hfr' : s.frames s.cur = _ := hfr
    rw [sim_res hc]
    simp only [Coro.resStep, abs_stack, hfr', List.filterMap_cons, absF, hb']
    agree
    cases b <;> simp
  case dPfetch r h b hc hb hfr =>
    have hb' := ok.bool d hi (handleBang_bool hb) hnf (ru.iter r h _ hc (.inr hfr))
    have hfr' : s.frames s.cur = _ := hfr
    rw [sim_res hc]
    simp only [Coro.resStep, abs_stack, hfr', List.filterMap_cons, absF, hb']
    agree
    cases b <;> simp
  case leaveObj hc hcode hfr =>
    have hfr' : s.frames s.cur = _ := hfr
    rw [sim_eval hc]
    simp only [Coro.evalStep, abs_g, hcode, abs_stack, hfr', List.filterMap_cons, absF]
    agree
  case endTry hc hcode hfr =>
    have hfr' : s.frames s.cur = _ := hfr
    rw [sim_eval hc]
    simp only [Coro.evalStep, abs_g, hcode, abs_stack, hfr', List.filterMap_cons, absF]
    agree
  case tau hc hcode => rw [sim_eval hc]; simp only [Coro.evalStep, abs_g, hcode]; agree
  case newObj hc hcode => rw [sim_eval hc]; simp only [Coro.evalStep, abs_g, hcode]; agree
  case guard hc hcode => rw [sim_eval hc]; simp only [Coro.evalStep, abs_g, hcode]; agree
  case try_ hc hcode => rw [sim_eval hc]; simp only [Coro.evalStep, abs_g, hcode]; agree
  case call hc hcode => rw [sim_eval hc]; simp only [Coro.evalStep, abs_g, hcode]; agree
  case ret hc hcode => rw [sim_eval hc]; simp only [Coro.evalStep, abs_g, hcode]; agree
  case throw hc hcode => rw [sim_eval hc]; simp only [Coro.evalStep, abs_g, hcode]; agree
  case rSkip hc hfr =>
    have hfr' : s.frames s.cur = _ := hfr
    rw [sim_raise hc]
    simp only [Coro.raiseStep, abs_stack, hfr', List.filterMap_cons, absF, Bool.false_eq_true, if_false]
    agree
  all_goals first
    | (rename_i hc hfr
       have hfr' : s.frames s.cur = _ := hfr
       rw [sim_res hc]
       simp only [Coro.resStep, abs_stack, hfr', List.filterMap_cons, absF]
       agree; done)
    | (rename_i hc hfr
       have hfr' : s.frames s.cur = _ := hfr
       rw [sim_raise hc]
       simp only [Coro.raiseStep, abs_stack, hfr', List.filterMap_cons, absF]
       agree; done)
    | (rename_i hc hfr
       have hfr' : s.frames s.cur = _ := hfr
       rw [sim_ret hc]
       simp only [Coro.retStep, abs_stack, hfr', List.filterMap_cons, absF]
       agree; done)

theorem Moved.stay_eq {c c' : Nat} (h : Moved c rest c' rest') (hc : c' = c) (hn : (c :: rest).Nodup) : rest' = rest := by
  subst hc
  rcases h with ⟨_, h⟩ | ⟨h, _⟩ | h
  · exact h
  · exact absurd (List.mem_cons_self ..) h
  · rw [h] at hn; simp at hn

theorem Moved.down_eq {c c' : Nat} (h : Moved c rest c' rest') (hc : c' ∉ c :: rest) : rest' = c :: rest := by
  rcases h with ⟨h, _⟩ | ⟨_, h⟩ | h
  · subst h; exact absurd (List.mem_cons_self ..) hc
  · exact h
  · rw [h] at hc; simp at hc

theorem Moved.up_eq {c c' : Nat} {r : List Nat} (h : Moved c rest c' rest') (hc : rest = c' :: r) (hn : (c :: rest).Nodup) : rest' = r := by
  rcases h with ⟨h, _⟩ | ⟨h, _⟩ | h
  · subst h; rw [hc] at hn; simp at hn
  · rw [hc] at h; simp at h
  · rw [hc] at h; cases h; rfl

/-- only coroutine `c` changes -/
theorem CoOk.change (ok : CoOk s co) (c : Nat) {x : Coro.Co L V E} (h1 : ∀ k, k ≠ c → s'.kind k = s.kind k) (h2 : ∀ k, k ≠ c → s'.va k = s.va k)
    (h3 : ∀ k, k ≠ c → s'.base k = s.base k)
    (h4 : ∀ k sd, k ≠ c → s'.cbs ⟨k, sd⟩ = s.cbs ⟨k, sd⟩ ∨ (s'.cbs ⟨k, sd⟩).life ≠ .alive)
    (c1 : x.kind = s'.kind c) (c2 : x.va = s'.va c) (c3 : x.phase = absPhase (s'.base c))
    (c4 : (s'.cbs ⟨c, .own⟩).life = .alive → x.err = (s'.cbs ⟨c, .own⟩).except)
    (c5 : (s'.cbs ⟨c, pullSide (s'.kind c)⟩).life = .alive → Holds (s'.cbs ⟨c, pullSide (s'.kind c)⟩) x.val)
    (c6 : (s'.base c).isFresh = true → x.val = none) : CoOk s' (upd co c x) := by
  constructor
  · intro k
    by_cases hk : k = c
    · subst hk; simpa using c1
    · rw [upd_ne _ _ hk, h1 k hk]; exact ok.kind k
  · intro k
    by_cases hk : k = c
    · subst hk; simpa using c2
    · rw [upd_ne _ _ hk, h2 k hk]; exact ok.va k
  · intro k
    by_cases hk : k = c
    · subst hk; simpa using c3
    · rw [upd_ne _ _ hk, h3 k hk]; exact ok.phase k
  · intro k hal
    by_cases hk : k = c
    · subst hk; simpa using c4 hal
    · rw [upd_ne _ _ hk]
      rcases h4 k .own hk with h | h
      · rw [h] at hal ⊢; exact ok.err k hal
      · exact absurd hal h
  · intro k hal
    by_cases hk : k = c
    · subst hk; simpa using c5 hal
    · rw [upd_ne _ _ hk]
      rw [h1 k hk] at hal ⊢
      rcases h4 k (pullSide (s.kind k)) hk with h | h
      · rw [h] at hal ⊢; exact ok.val k hal
      · exact absurd hal h
  · intro k hf
    by_cases hk : k = c
    · subst hk; simpa using c6 hf
    · rw [upd_ne _ _ hk]
      rw [h3 k hk] at hf; exact ok.fresh k hf

/-- a suspended coroutine whose function has not ended -/
theorem Disc.asleep (d : Disc s rest) (hi : Inv s) {k : Nat} (hf : s.fib (.cb ⟨k, .own⟩) = some k) (hk : k ∉ s.cur :: rest)
    (hfin : (s.base k).isFinal = false) : ∃ h, s.base k = .inFn h ∨ ∃ fn, s.base k = .pushEntry h fn := by
  have hkc : k ≠ s.cur := fun e => hk (by simp [e])
  have hb := (hi.sched.fib_ok _ _ hf).2
  have hsw := hi.sched.sus k hkc hb
  have hch := hi.sched.chan _ _ hf
  have h0 : s.base k ≠ .main := by
    intro h
    rw [hi.sched.main_iff] at h
    subst h
    exact hk (last_mem d.last)
  have hfr : (s.base k).isFresh = false := by
    cases h : (s.base k).isFresh with
    | false => rfl
    | true => exact absurd (hi.sched.fresh_cur k h) hkc
  cases hq : s.frames k with
  | nil =>
    rw [hq] at hsw
    cases hx : s.base k <;> rw [hx] at hsw hfin hfr <;> simp_all [okSw, Base.isFinal, Base.isFresh]
  | cons f t =>
    rw [hq] at hsw hch
    cases f <;> simp [hole] at hch
    cases hx : s.base k <;> rw [hx] at hsw h0 <;> simp_all [okSw, Base.isBody]

/-- a coroutine object is about to be destroyed -/
theorem Scope.sim {s1 : St L G V E} {h : Nat} (hs : Scope P s h s1) (hc : s.ctl ≠ .recv) (ok : CoOk s co) (hi : Inv s) :
    ∃ co1, CoOk s1 co1 ∧ Coro.step P (absSt s rest co) = Coro.destroyObj (absSt s1 rest co1) s.cur rest h := by
  cases hs
  case final h1 _ _ _ => exact absurd h1 hc
  case leave l l' t h1 h2 h3 =>
    have h3' : s.frames s.cur = _ := h3
    refine ⟨co, ok.same rfl rfl rfl rfl, ?_⟩
    rw [sim_eval h1]
    simp only [Coro.evalStep, abs_g, h2, abs_stack, h3', List.filterMap_cons, absF]
    refine congrArg (fun a => Coro.destroyObj a _ _ _) (absSt_eq ?_ ?_ ?_ ?_ ?_ ?_ ?_ ?_ ?_) <;>
      simp [Coro.St.setStack, absSt, absCtl, absStack_upd, absF, h1]
  case api l k h1 h2 =>
    refine ⟨co, ok.same rfl rfl rfl rfl, ?_⟩
    rw [sim_api h1 h2]
    simp only [Coro.call]
    refine congrArg (fun a => Coro.destroyObj a _ _ _) (absSt_eq ?_ ?_ ?_ ?_ ?_ ?_ ?_ ?_ ?_) <;>
      simp [Coro.St.setStack, Coro.St.push, absSt, absCtl, absStack_upd, absF, h1, St.fr]
  case raise x t h1 h3 =>
    have h3' : s.frames s.cur = _ := h3
    refine ⟨co, ok.same rfl rfl rfl rfl, ?_⟩
    rw [sim_raise h1]
    simp only [Coro.raiseStep, abs_stack, h3', List.filterMap_cons, absF]
    refine congrArg (fun a => Coro.destroyObj a _ _ _) (absSt_eq ?_ ?_ ?_ ?_ ?_ ?_ ?_ ?_ ?_) <;>
      simp [Coro.St.setStack, absSt, absCtl, absStack_upd, absF, h1]
  case ret t h1 h3 =>
    have h3' : s.frames s.cur = _ := h3
    refine ⟨co, ok.same rfl rfl rfl rfl, ?_⟩
    rw [sim_ret h1]
    simp only [Coro.retStep, abs_stack, h3', List.filterMap_cons, absF]
    refine congrArg (fun a => Coro.destroyObj a _ _ _) (absSt_eq ?_ ?_ ?_ ?_ ?_ ?_ ?_ ?_ ?_) <;>
      simp [Coro.St.setStack, absSt, absCtl, absStack_upd, absF, h1]
  case unwFn h1 h3 hb =>
    have h3' : s.frames s.cur = _ := h3
    refine ⟨upd co s.cur { co s.cur with phase := .leaving }, ?_, ?_⟩
    · refine ok.change s.cur (fun _ _ => rfl) (fun _ _ => rfl) (fun k hk => by simp [upd, hk]) (fun _ _ _ => .inl rfl) (ok.kind _) (ok.va _)
        (by simp [absPhase]) (ok.err _) (ok.val _) (by simp [Base.isFresh])
    · rw [sim_raise h1]
      have hp : ((absSt s rest co).co s.cur).phase = .body h := by show (co s.cur).phase = _; rw [ok.phase, hb]; rfl
      simp only [Coro.raiseStep, abs_stack, h3', List.filterMap_nil, hp]
      refine congrArg (fun a => Coro.destroyObj a _ _ _) (absSt_eq ?_ ?_ ?_ ?_ ?_ ?_ ?_ ?_ ?_) <;>
        simp [Coro.St.setCo, absSt, absCtl, h1, Coro.noticed, List.filter_cons]
  case unwEntry fn h1 h3 hb =>
    have h3' : s.frames s.cur = _ := h3
    refine ⟨upd co s.cur { co s.cur with phase := .leaving }, ?_, ?_⟩
    · refine ok.change s.cur (fun _ _ => rfl) (fun _ _ => rfl) (fun k hk => by simp [upd, hk]) (fun _ _ _ => .inl rfl) (ok.kind _) (ok.va _)
        (by simp [absPhase]) (ok.err _) (ok.val _) (by simp [Base.isFresh])
    · rw [sim_raise h1]
      have hp : ((absSt s rest co).co s.cur).phase = .idle h fn := by show (co s.cur).phase = _; rw [ok.phase, hb]; rfl
      simp only [Coro.raiseStep, abs_stack, h3', List.filterMap_nil, hp]
      refine congrArg (fun a => Coro.destroyObj a _ _ _) (absSt_eq ?_ ?_ ?_ ?_ ?_ ?_ ?_ ?_ ?_) <;>
        simp [Coro.St.setCo, absSt, absCtl, h1, Coro.noticed, List.filter_cons]
  case unwFinal h1 h3 hb =>
    have h3' : s.frames s.cur = _ := h3
    refine ⟨upd co s.cur { co s.cur with phase := .leaving }, ?_, ?_⟩
    · refine ok.change s.cur (fun _ _ => rfl) (fun _ _ => rfl) (fun k hk => by simp [upd, hk]) (fun _ _ _ => .inl rfl) (ok.kind _) (ok.va _)
        (by simp [absPhase]) (ok.err _) (ok.val _) (by simp [Base.isFresh])
    · rw [sim_raise h1]
      have hp : ((absSt s rest co).co s.cur).phase = .ended h := by show (co s.cur).phase = _; rw [ok.phase, hb]; rfl
      simp only [Coro.raiseStep, abs_stack, h3', List.filterMap_nil, hp]
      refine congrArg (fun a => Coro.destroyObj a _ _ _) (absSt_eq ?_ ?_ ?_ ?_ ?_ ?_ ?_ ?_ ?_) <;>
        simp [Coro.St.setCo, absSt, absCtl, h1, Coro.noticed, List.filter_cons]

end Verif
