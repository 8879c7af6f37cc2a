import Verif.Hist

/-!
# Unwinding a coroutine that was never entered

Proof material: a context is only unwound before its function was entered if its coroutine's control block is dead.
-/
namespace Verif
variable {L G V E : Type}

theorem upd_life {cbs : CbRef → CB V E} {q r : CbRef} {b : CB V E} (h : (upd cbs q b r).life = .alive)
    (hb : b.life = .alive → (cbs q).life = .alive) : (cbs r).life = .alive := by
  by_cases hx : r = q
  · subst hx; exact hb (by simpa using h)
  · simpa [upd, hx] using h

theorem Dying.alive {P : Prog L G V E} {s s0 : St L G V E} {f : Option Nat} (h : Dying P s f s0) {r : CbRef}
    (hal : (s0.cbs r).life = .alive) : (s.cbs r).life = .alive := by
  cases h
  case handle hsc _ _ _ _ => rw [← hsc.eqs.2.1]; exact upd_life hal (by simp)
  all_goals exact upd_life hal (by simp)

/-- A control block never comes (back) to life except when the coroutine is created. -/
theorem Step.alive {P : Prog L G V E} {s s' : St L G V E} (h : Step P s s') {k : Nat}
    (hal : (s'.cbs ⟨k, .own⟩).life = .alive) : (s.cbs ⟨k, .own⟩).life = .alive ∨ k = s.nk := by
  cases h
  case get => exact .inl (upd_life hal (by simp))
  case mk =>
    by_cases hx : k = s.nk
    · exact .inr hx
    · left; simpa [upd, hx] using hal
  case pushThrow hse => exact .inl (upd_life hal (by simp [hse.except.2.1]))
  case push hse _ => exact .inl (upd_life hal (by simp [hse.except.2.1]))
  case enterPull hal' _ => 
    left
    by_cases hx : k = s.cur
    · subst hx; exact hal'
    · simpa [upd, hx] using hal
  case enterPush hal' _ =>
    left
    by_cases hx : k = s.cur
    · subst hx; exact hal'
    · simpa [upd, hx] using hal
  case fin hal' _ => exact .inl (upd_life hal (by simp))
  case nop hsc _ _ => left; rw [← hsc.eqs.2.1]; exact hal
  case dropNone hdy => exact .inl (hdy.alive hal)
  case dropSome hdy => exact .inl (hdy.alive hal)
  case exit =>
    left
    by_cases hx : k = s.cur
    · subst hx; simp [freeCbs, upd] at hal
    · simpa [freeCbs, upd, hx] using hal
  all_goals exact .inl hal

def BackInv (s : St L G V E) : Prop :=
  ∀ k, s.fib (.back k) ≠ none → nEnter k s.log = 0 → (s.cbs ⟨k, .own⟩).life ≠ .alive

/-- a suspended context whose function was not entered is switched out in the entry lambda -/
theorem LifeInv.entry {s : St L G V E} (hl : LifeInv s) (hi : Inv s) {t : Nat} {r : CbRef} (hc : t ≠ s.cur)
    (hh : hole (s.base t) t (s.frames t) = some r) (hn : nEnter t s.log = 0) (h0 : t ≠ 0) : r = ⟨t, .syn⟩ := by
  have hb : s.base t ≠ .none := by
    intro hb
    rw [hb, hi.sched.dead_frames t hb] at hh
    cases hh
  have hsus := hi.sched.sus t hc hb
  have h1 := hl t
  cases hf : s.frames t with
  | nil =>
    rw [hf] at hh
    cases hbt : s.base t <;> rw [hbt] at hh <;> simp [hole] at hh <;> exact hh.symm
  | cons f tl =>
    exfalso
    rw [hf] at hsus hh
    have hbody : (s.base t).isBody = true := by
      cases f <;> simp [hole] at hh <;> simp [okSw] at hsus <;> exact hsus.2
    cases hbt : s.base t <;> rw [hbt] at hbody <;> simp [Base.isBody] at hbody
    · exact h0 ((hi.sched.main_iff t).1 hbt)
    · rw [hbt] at h1
      have := h1.2.2.en
      omega

theorem Dying.back {P : Prog L G V E} {s s0 : St L G V E} {t : Nat} (h : Dying P s (some t) s0) (hi : Inv s) (hl : LifeInv s)
    (hn : nEnter t s.log = 0) (h0 : t ≠ 0) : (s0.cbs ⟨t, .own⟩).life ≠ .alive := by
  generalize hfo : some t = fo at h
  have key : ∀ k, s.fib (.cb ⟨k, .own⟩) = some t → k = t := by
    intro k hk
    have h1 := hi.sched.chan _ _ hk
    have h2 := hl.entry hi (hi.sched.fib_ok _ _ hk).1 h1 hn h0
    simpa using h2
  cases h
  case handle h s1 hd k sl evs hsc hh hcb hal hdt =>
    have hcbf : s1.fib (.cb ⟨k, .own⟩) = s.fib (.cb ⟨k, .own⟩) := by
      cases hsc <;> simp [upd]
    rw [hcbf] at hfo
    cases key k hfo.symm
    simp
  case ctorInvalid k t' sl evs u hr hfr hkd hal hf hair hex hv hdt =>
    cases hfo
    have hctl := hi.ctl
    rw [hr] at hctl
    obtain ⟨r, g1, g2, _, _⟩ := hctl.2.1 _ hair
    have hq : hole (s.base s.cur) s.cur (s.frames s.cur) = some ⟨k, .own⟩ := by
      rw [show s.frames s.cur = s.fr from rfl, hfr]; rfl
    rw [hq] at g2
    have h2 := hl.entry hi (hi.sched.fib_ok _ _ hair).1 g1 hn h0
    subst h2
    cases g2
    simp
  case ctorThrow k t' e u hr hfr hkd hal hf hair hex =>
    cases hfo
    have hctl := hi.ctl
    rw [hr] at hctl
    obtain ⟨r, g1, g2, _, _⟩ := hctl.2.1 _ hair
    have hq : hole (s.base s.cur) s.cur (s.frames s.cur) = some ⟨k, .own⟩ := by
      rw [show s.frames s.cur = s.fr from rfl, hfr]; rfl
    rw [hq] at g2
    have h2 := hl.entry hi (hi.sched.fib_ok _ _ hair).1 g1 hn h0
    subst h2
    cases g2
    simp
  case ctorUnw x f k t' _ _ _ =>
    cases key k hfo.symm
    simp
  case syn =>
    have h1 := hi.sched.chan _ _ hfo.symm
    have h2 := hl.entry hi (hi.sched.fib_ok _ _ hfo.symm).1 h1 hn h0
    simp at h2

theorem Step.back {P : Prog L G V E} {s s' : St L G V E} (hs : Step P s s') (hi : Inv s) (hi' : Inv s') (hl : LifeInv s)
    (h : BackInv s) : BackInv s' := by
  intro k hb hn hal
  obtain ⟨evs, hlog⟩ := hs.logApp hi
  have hn0 : nEnter k s.log = 0 := by
    have := count_mono (p := Ev.isEnter k) ⟨evs, hlog⟩
    unfold nEnter at *; omega
  have hk0 : k ≠ 0 := by
    rintro rfl
    rw [hi'.cb.unborn 0 .own (.inl rfl)] at hal; cases hal
  have hal0 := hs.alive hal
  have hold : s.fib (.back k) ≠ none → False := by
    intro hb0
    rcases hal0 with h1 | h1
    · exact h k hb0 hn0 h1
    · subst h1
      have hbn : s.base s.nk = .none := by
        cases hb : s.base s.nk with
        | none => rfl
        | _ => have := hi.sched.lt_nk s.nk (by rw [hb]; simp); omega
      have hc : s.nk ≠ s.cur := fun e => hi.sched.cur_live (e ▸ hbn)
      have := (hi.sched.back_unw _ hc).1 hb0
      rw [hbn, hi.sched.dead_frames _ hbn] at this
      cases this
  have scope : ∀ {h s1}, Scope P s h s1 → s1.fib (.back k) = s.fib (.back k) := by
    intro h s1 hsc
    cases hsc
    case final u hr hfr hbb hair =>
      by_cases hx : k = s.cur
      · subst hx
        have := hl s.cur
        rw [hair] at this
        have := this.2.2.en
        omega
      · simp [upd, hx]
    all_goals rfl
  have dying : ∀ {f s0}, Dying P s f s0 → s0.fib (.back k) = s.fib (.back k) := by
    intro f s0 hd
    cases hd
    case handle hsc _ _ _ _ => rw [← scope hsc]; simp [upd]
    all_goals simp [upd]
  cases hs
  case nop hsc _ _ => exact hold (by rw [← scope hsc]; exact hb)
  case dropNone hdy => exact hold (by rw [← dying hdy]; exact hb)
  case dropSome s0 t hdy =>
    by_cases hx : k = t
    · subst hx
      exact hdy.back hi hl hn0 hk0 hal
    · exact hold (by rw [← dying hdy]; simpa [upd, hx] using hb)
  case exit =>
    by_cases hx : k = s.cur
    · subst hx; simp [upd] at hb
    · exact hold (by simpa [upd, hx] using hb)
  all_goals exact hold (by first | exact hb | simpa [upd] using hb)

theorem back_reach {P : Prog L G V E} {l0 : L} {g0 : G} {s : St L G V E} (h : Reach P l0 g0 s) : BackInv s := by
  induction h with
  | init => intro k hb; simp [init] at hb
  | step hr hs ih =>
    exact (step_rel (inv_reach hr) hs).back (inv_reach hr) (inv_reach (hr.step hs)) (life_reach hr) ih

end Verif
