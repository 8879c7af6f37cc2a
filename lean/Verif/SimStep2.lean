import Verif.SimStep

/-! # Every step of the library model is a step of the specification machine, or none: steps of the library.  Proof material. -/
namespace Verif
variable {L G V E : Type}
variable {P : Prog L G V E} {s s' : St L G V E} {rest rest' : List Nat} {co co' : Nat → Coro.Co L V E}

theorem hole_noWait {b : Base L} {t : Nat} {fs : List (Frame L V E)} {r : CbRef} (h : hole b t fs = some r) : waitTop fs = false := by
  cases fs with
  | nil => rfl
  | cons f tl => cases f <;> simp_all [hole, waitTop]

theorem Dtor.quietEv {kd : Kind} {va : Var} {b : CB V E} {r : CbRef} {sl : Slot V} {evs : List (Ev V E)} (h : Dtor kd va b r sl evs) :
    evs.filter Coro.noticed = [] := by
  cases h <;> simp [Coro.noticed]

/-- steps that take no step of the specification: at most two in a row -/
def stut (s : St L G V E) : Nat :=
  match s.ctl with
  | .recv => if waitTop (s.frames s.cur) then 2 else 0
  | .deliver _ =>
    match s.frames s.cur, s.base s.cur with
    | [], .lamA => 1
    | _, _ => 0
  | _ => 0

theorem stut_deliver {r : Res V} (h : s.ctl = .deliver r) : stut s < 2 := by
  unfold stut; rw [h]; simp only; split <;> omega

/-- transfer of a value -/
theorem SetOk.store {k : Nat} {q : CbRef} {b : CB V E} {a : PushArg V E} {evs : List (Ev V E)} {w : Option V}
    (h : SetOk P.mv (s.va k) (s.cbs q) k a b evs w) (hg : GoodArg a) (ok : CoOk s co) (hq : q = ⟨k, pullSide (s.kind k)⟩) (hal : (s.cbs q).life = .alive)
    (x : Coro.St L G V E) (hx : x.co = co) :
    ∃ y : Coro.Co L V E, y.kind = (co k).kind ∧ y.va = (co k).va ∧ y.phase = (co k).phase ∧ y.err = (co k).err ∧ Holds b y.val ∧
      Coro.store P x k a = some ({ x with co := upd co k y, obs := evs.filter Coro.noticed ++ x.obs }, w) := by
  have hv := ok.val k
  rw [← hq] at hv
  have hv := hv hal
  have hva := ok.va k
  subst hx
  cases h
  case void h1 => exact ⟨x.co k, rfl, rfl, rfl, rfl, hv, by cases a <;> simp_all [Coro.store, GoodArg, upd_id]⟩
  case alias h1 _ h2 h3 =>
    rcases hv with ⟨_, e1, _⟩ | ⟨_, e2, _⟩
    · rw [h2] at e1; cases e1
    · rw [h3] at e2; cases e2
  case ref v h1 h2 =>
    exact ⟨{ x.co k with val := some v }, rfl, rfl, rfl, rfl, .inl ⟨v, rfl, rfl, rfl⟩,
      by simp [Coro.store, hva, h1, h2, Coro.noticed, List.filter_cons, Coro.St.setCo, Coro.St.see]⟩
  case copy0 v h1 h2 _ =>
    exact ⟨{ x.co k with val := some v }, rfl, rfl, rfl, rfl, .inl ⟨v, rfl, rfl, rfl⟩,
      by simp [Coro.store, hva, h1, h2, Coro.noticed, List.filter_cons, Coro.St.setCo, Coro.St.see]⟩
  case copy1 v _ h1 h2 _ _ =>
    exact ⟨{ x.co k with val := some v }, rfl, rfl, rfl, rfl, .inl ⟨v, rfl, rfl, rfl⟩,
      by simp [Coro.store, hva, h1, h2, Coro.noticed, List.filter_cons, Coro.St.setCo, Coro.St.see]⟩
  case move0 v h1 h2 _ =>
    exact ⟨{ x.co k with val := some v }, rfl, rfl, rfl, rfl, .inl ⟨v, rfl, rfl, rfl⟩,
      by simp [Coro.store, hva, h1, h2, Coro.noticed, List.filter_cons, Coro.St.setCo, Coro.St.see]⟩
  case move1 v _ h1 h2 _ _ =>
    exact ⟨{ x.co k with val := some v }, rfl, rfl, rfl, rfl, .inl ⟨v, rfl, rfl, rfl⟩,
      by simp [Coro.store, hva, h1, h2, Coro.noticed, List.filter_cons, Coro.St.setCo, Coro.St.see]⟩

theorem PushCall.spec {op : Op L V E} {h : Nat} {a : PushArg V E} {post : Option V → List (Frame L V E)} (hc : PushCall op h a post)
    (x : Coro.St L G V E) (c : Nat) (below : List Nat) :
    Coro.call P x c below op = Coro.pushTo P x c below h a (fun w => (post w).filterMap absF) := by
  cases hc
  · simp only [Coro.call]
    refine congrArg _ ?_
    funext w; cases w <;> simp [absF]
  · simp [Coro.call, absF]

theorem PullCall.spec {op : Op L V E} {h : Nat} {post : List (Frame L V E)} (hc : PullCall op h post)
    (x : Coro.St L G V E) (c : Nat) (below : List Nat) :
    Coro.call P x c below op = Coro.pullFrom x c below h (post.filterMap absF) := by
  cases hc <;> simp [Coro.call, absF]

theorem switch_own {x : Coro.St L G V E} {c k : Nat} {below : List Nat} (h1 : k ∉ x.active)
    (h2 : ∃ h, (x.co k).phase = .body h ∨ ∃ fn, (x.co k).phase = .idle h fn) :
    Coro.switch x c below ⟨k, .own⟩ = .next { (x.push c (.resumed ⟨k, .own⟩)).goto .back with active := k :: c :: below } := by
  have : Coro.sleeps ((x.push c (.resumed ⟨k, .own⟩)).goto .back) k = true := by
    have e1 : ((x.push c (.resumed ⟨k, .own⟩)).goto .back).active = x.active := rfl
    have e2 : ((x.push c (.resumed ⟨k, .own⟩)).goto .back).co = x.co := rfl
    simp only [Coro.sleeps, e1, e2]
    obtain ⟨h, h2 | ⟨fn, h2⟩⟩ := h2 <;> simp [h2, h1]
  simp only [Coro.switch, this, if_true]

theorem switch_syn {x : Coro.St L G V E} {c : Nat} {below : List Nat} (h : below ≠ []) :
    Coro.switch x c below ⟨c, .syn⟩ = .next { (x.push c (.resumed ⟨c, .syn⟩)).goto .back with active := below } := by
  simp [Coro.switch, h]

/-- the coroutine that is about to be resumed through `r`, and the new stack of active functions -/
theorem Disc.target (d : Disc s rest) (hi : Inv s) (hj : JInv s) {hd : Handle} {r : CbRef} {t : Nat} (hm : MayResume s hd) (hcb : hd.cb = some r)
    (hal : (s.cbs r).life = .alive) (hf : s.fib (.cb r) = some t) (ok : CoOk s co) (hmv : Moved s.cur rest t rest')
    {x : Coro.St L G V E} (hx1 : x.active = s.cur :: rest) (hx2 : (x.co r.co).phase = (co r.co).phase) :
    Coro.switch x s.cur rest r = .next { (x.push s.cur (.resumed r)).goto .back with active := t :: rest' } := by
  rcases hm with ⟨k, hk, hnf, hsus⟩ | hk
  · rw [hk] at hcb; cases hcb
    obtain ⟨rfl, hkn⟩ := d.ownHolds hi hf
    obtain ⟨h, hp⟩ := d.asleep hi hf hkn (notFinal hi hj hal hnf)
    rw [hmv.down_eq hkn]
    refine switch_own (by rw [hx1]; exact hkn) ⟨h, ?_⟩
    rw [hx2, ok.phase]
    rcases hp with hp | ⟨fn, hp⟩ <;> rw [hp] <;> simp [absPhase]
  · rw [hk] at hcb; cases hcb
    obtain ⟨r', rfl⟩ := d.synCur hi hf
    rw [hmv.up_eq rfl d.nodup]
    exact switch_syn (by simp)

/-- the control block of `k` that its owner uses dies -/
theorem CoOk.drop {k : Nat} {b : CB V E} (ok : CoOk s co) (h1 : s'.kind = s.kind) (h2 : s'.va = s.va) (h3 : s'.base = s.base)
    (h4 : s'.cbs = upd s.cbs ⟨k, .own⟩ b) (h5 : b.life ≠ .alive) : CoOk s' co := by
  constructor
  · intro i; rw [h1]; exact ok.kind i
  · intro i; rw [h2]; exact ok.va i
  · intro i; rw [h3]; exact ok.phase i
  · intro i hal
    rw [h4] at hal ⊢
    by_cases hi : i = k
    · subst hi; simp at hal; exact absurd hal h5
    · rw [upd_ne _ _ (by simp [hi])] at hal ⊢; exact ok.err i hal
  · intro i hal
    rw [h1, h4] at hal ⊢
    by_cases hi : (⟨i, pullSide (s.kind i)⟩ : CbRef) = ⟨k, .own⟩
    · rw [hi] at hal; simp at hal; exact absurd hal h5
    · rw [upd_ne _ _ hi] at hal ⊢; exact ok.val i hal
  · intro i; rw [h3]; exact ok.fresh i

end Verif
