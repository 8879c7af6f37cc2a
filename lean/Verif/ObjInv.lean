import Verif.SpecObj
import Verif.Fwd

/-! # User objects are destroyed in reverse order of construction; coroutine objects in a context go with it.  Proof material. -/
namespace Verif
variable {L G V E : Type}

def oq : Ev V E → Bool
  | .octor _ _ | .odtor _ _ => false
  | _ => true

theorem liveObjs_oq {c : Nat} {evs log : List (Ev V E)} (h : ∀ e ∈ evs, oq e = true) :
    liveObjs c (evs ++ log) = liveObjs c log ∧ (ObjsOk log → ObjsOk (evs ++ log)) := by
  induction evs with
  | nil => exact ⟨rfl, id⟩
  | cons e t ih =>
    have h1 := h e (List.mem_cons_self ..)
    obtain ⟨h2, h3⟩ := ih (fun x hx => h x (List.mem_cons_of_mem _ hx))
    rw [List.cons_append]
    cases e <;> simp_all [oq, liveObjs, ObjsOk]

structure ObjInv (s : St L G V E) : Prop where
  live : ∀ c, liveObjs c s.log = locals (s.frames c)
  ok : ObjsOk s.log

theorem ObjInv.keep {s s' : St L G V E} {evs : List (Ev V E)} (h : ObjInv s) (hl : s'.log = evs ++ s.log)
    (hq : ∀ e ∈ evs, oq e = true) (hf : ∀ c, locals (s'.frames c) = locals (s.frames c)) : ObjInv s' := by
  refine ⟨fun c => ?_, ?_⟩
  · rw [hl, (liveObjs_oq hq).1, hf, h.live]
  · rw [hl]; exact (liveObjs_oq (c := 0) hq).2 h.ok

theorem Dtor.oq {kd : Kind} {va : Var} {b : CB V E} {r : CbRef} {sl : Slot V} {evs : List (Ev V E)}
    (h : Dtor kd va b r sl evs) : ∀ e ∈ evs, oq e = true := by
  cases h <;> simp [Verif.oq]
theorem SetThrows.oq {va : Var} {b b' : CB V E} {j : Nat} {evs : List (Ev V E)}
    (h : SetThrows va b j b' evs) : ∀ e ∈ evs, oq e = true := by
  cases h <;> simp [Verif.oq]
theorem SetOk.oq {mv : V → V} {va : Var} {b b' : CB V E} {j : Nat} {a : PushArg V E} {evs : List (Ev V E)} {w : Option V}
    (h : SetOk mv va b j a b' evs w) : ∀ e ∈ evs, oq e = true := by
  cases h <;> simp [Verif.oq]
theorem Scope.oq {P : Prog L G V E} {s s1 : St L G V E} {h : Nat} (hs : Scope P s h s1) :
    ∃ evs, s1.log = evs ++ s.log ∧ ∀ e ∈ evs, oq e = true := by
  rcases hs.log with h | h
  · exact ⟨[], h, by simp⟩
  · exact ⟨[_], h, by simp [Verif.oq]⟩

theorem locals_upd {frames : Nat → List (Frame L V E)} {c : Nat} {fs : List (Frame L V E)} (h : locals fs = locals (frames c))
    (i : Nat) : locals (upd frames c fs i) = locals (frames i) := by
  by_cases hi : i = c
  · subst hi; simp [upd, h]
  · simp [upd, hi]

theorem Scope.locals {P : Prog L G V E} {s s1 : St L G V E} {h : Nat} (hs : Scope P s h s1) (c : Nat) :
    Verif.locals (s1.frames c) = Verif.locals (s.frames c) := by
  have hfc : s.frames s.cur = s.fr := rfl
  cases hs <;> try rfl
  case leave hf => exact locals_upd (by rw [hfc, hf]; rfl) c
  case api => exact locals_upd (by rw [hfc]; rfl) c
  case raise hf => exact locals_upd (by rw [hfc, hf]; rfl) c
  case ret hf => exact locals_upd (by rw [hfc, hf]; rfl) c

theorem Dying.oq {P : Prog L G V E} {s s0 : St L G V E} {f : Option Nat} (hs : Dying P s f s0) :
    (∃ evs, s0.log = evs ++ s.log ∧ ∀ e ∈ evs, oq e = true) ∧ ∀ c, Verif.locals (s0.frames c) = Verif.locals (s.frames c) := by
  have hfc : s.frames s.cur = s.fr := rfl
  cases hs
  case handle hsc _ _ _ hdt =>
    obtain ⟨ev, hl, hq⟩ := hsc.oq
    refine ⟨⟨_ ++ ev, by simp [hl]; rfl, ?_⟩, hsc.locals⟩
    intro e he
    rcases List.mem_append.1 he with he | he
    · exact hdt.oq e he
    · exact hq e he
  case ctorInvalid hf _ _ _ _ _ _ hdt => exact ⟨⟨_, rfl, hdt.oq⟩, locals_upd (by rw [hfc, hf]; rfl)⟩
  case ctorThrow hf _ _ _ _ _ => exact ⟨⟨[_], rfl, by simp [Verif.oq]⟩, locals_upd (by rw [hfc, hf]; rfl)⟩
  case ctorUnw hf hx =>
    refine ⟨⟨[], rfl, by simp⟩, locals_upd ?_⟩
    rw [hfc, hf]
    rcases hx with rfl | rfl <;> rfl
  case syn hdt => exact ⟨⟨_, rfl, hdt.oq⟩, fun _ => rfl⟩

theorem locals_noObj : ∀ {a : List (Frame L V E)} (b : List (Frame L V E)), (∀ o, Frame.gObj o ∉ a) → locals (a ++ b) = locals b
  | [], _, _ => rfl
  | f :: t, b, h => by
    have ih := locals_noObj (a := t) b (fun o ho => h o (List.mem_cons_of_mem _ ho))
    rw [List.cons_append]
    cases f <;> first | (exact absurd (List.mem_cons_self ..) (h _)) | simp_all [locals]

theorem PushCall.noObj {op : Op L V E} {h : Nat} {a : PushArg V E} {post : Option V → List (Frame L V E)} (hp : PushCall op h a post)
    (w : Option V) : (∀ o, Frame.gObj o ∉ post w) ∧ ∀ o, Frame.gCoro o ∉ post w := by
  cases hp
  · cases w <;> simp
  · simp
theorem PullCall.noObj {op : Op L V E} {h : Nat} {post : List (Frame L V E)} (hp : PullCall op h post) :
    (∀ o, Frame.gObj o ∉ post) ∧ ∀ o, Frame.gCoro o ∉ post := by
  cases hp <;> simp

theorem Step.objInv {P : Prog L G V E} {s s' : St L G V E} (hs : Step P s s') (h : ObjInv s) : ObjInv s' := by
  have hfc : s.frames s.cur = s.fr := rfl
  have hlc : liveObjs s.cur s.log = locals s.fr := h.live s.cur
  cases hs
  case loc g fs c evs hl =>
    have keep : (∀ e ∈ evs, oq e = true) → locals fs = locals s.fr →
        ObjInv { s with g := g, frames := upd s.frames s.cur fs, ctl := c, log := evs ++ s.log } := by
      intro h1 h2
      exact h.keep (evs := evs) rfl h1 (locals_upd (h2.trans (by rw [hfc])))
    have obj : ∀ o t, s.fr = .gObj o :: t → fs = t → evs = [.odtor s.cur o] →
        ObjInv { s with g := g, frames := upd s.frames s.cur fs, ctl := c, log := evs ++ s.log } := by
      intro o t hf h1 h2
      subst h1; subst h2
      rw [hf] at hlc
      refine ⟨fun i => ?_, ?_, h.ok⟩
      · by_cases hi : i = s.cur
        · subst hi; simp [liveObjs, hlc, locals]
        · simp [liveObjs, upd, hi, Ne.symm hi, h.live]
      · show (liveObjs s.cur s.log).head? = some o
        rw [hlc]; rfl
    cases hl
    case newObj o hc hcode =>
      refine ⟨fun i => ?_, h.ok⟩
      by_cases hi : i = s.cur
      · subst hi; simp [liveObjs, hlc, locals]
      · simp [liveObjs, upd, hi, Ne.symm hi, h.live]
    case leaveObj hf => exact obj _ _ hf rfl rfl
    case rObj hf => exact obj _ _ hf rfl rfl
    case tObj hf => exact obj _ _ hf rfl rfl
    all_goals first
      | exact keep (by simp [oq]) rfl
      | (rename_i hf; exact keep (by simp [oq]) (by rw [hf]; rfl))
      | (rename_i hf _; exact keep (by simp [oq]) (by rw [hf]; rfl))
  case get => exact h.keep (evs := [_]) rfl (by simp [oq]) (locals_upd rfl)
  case moveCtor => exact h.keep (evs := []) rfl (by simp) (locals_upd rfl)
  case moveAssign => exact h.keep (evs := []) rfl (by simp) (locals_upd rfl)
  case ctorDrop hf => exact h.keep (evs := []) rfl (by simp) (locals_upd (by rw [hfc, hf]; rfl))
  case mkFn => exact h.keep (evs := [_]) rfl (by simp [oq]) (locals_upd rfl)
  case mk kd _ _ _ _ _ =>
    refine h.keep (evs := [_, _, _]) rfl (by simp [oq]) (locals_upd ?_)
    cases kd <;> rfl
  case pushThrow hse => exact h.keep rfl hse.oq (locals_upd rfl)
  case push evs w t _ _ hpc _ _ _ _ _ _ hse _ =>
    refine h.keep (evs := _ :: evs) rfl ?_ (locals_upd ?_)
    · intro e he
      rcases List.mem_cons.1 he with rfl | he
      · rfl
      · exact hse.oq e he
    · show locals (_ ++ .usr _ :: s.fr) = _
      rw [locals_noObj _ (hpc.noObj w).1]; rfl
  case pull hpc _ _ _ _ _ =>
    refine h.keep (evs := [_]) rfl (by simp [oq]) (locals_upd ?_)
    show locals (_ ++ .usr _ :: s.fr) = _
    rw [locals_noObj _ hpc.noObj.1]; rfl
  case enterPull => exact h.keep (evs := [_]) rfl (by simp [oq]) (fun _ => rfl)
  case enterPush => exact h.keep (evs := [_]) rfl (by simp [oq]) (fun _ => rfl)
  case startPush => exact h.keep (evs := [_]) rfl (by simp [oq]) (fun _ => rfl)
  case wait hf _ => exact h.keep (evs := []) rfl (by simp) (locals_upd (by rw [hfc, hf]; rfl))
  case asg hf _ _ _ _ => exact h.keep (evs := []) rfl (by simp) (locals_upd (by rw [hfc, hf]; rfl))
  case asgThrow hf _ _ _ _ => exact h.keep (evs := [_]) rfl (by simp [oq]) (locals_upd (by rw [hfc, hf]; rfl))
  case pullCtor hf _ _ _ _ _ _ => exact h.keep (evs := []) rfl (by simp) (locals_upd (by rw [hfc, hf]; rfl))
  case pushCtor hf _ _ _ _ => exact h.keep (evs := []) rfl (by simp) (locals_upd (by rw [hfc, hf]; rfl))
  case fin => exact h.keep (evs := [_, _, _]) rfl (by simp [oq]) (fun _ => rfl)
  case nop hsc _ _ =>
    obtain ⟨ev, hl, hq⟩ := hsc.oq
    exact h.keep (evs := ev) hl hq hsc.locals
  case dropNone hd =>
    obtain ⟨⟨ev, hl, hq⟩, hf⟩ := hd.oq
    exact h.keep (evs := ev) hl hq hf
  case dropSome s0 t hd =>
    obtain ⟨⟨ev, hl, hq⟩, hf⟩ := hd.oq
    refine h.keep (evs := _ :: ev) (by show _ :: _ = _; rw [hl]; rfl) ?_ ?_
    · intro e he
      rcases List.mem_cons.1 he with rfl | he
      · rfl
      · exact hq e he
    · intro c
      exact (locals_upd (by rfl) c).trans (hf c)
  case exit hf _ _ _ =>
    refine h.keep (evs := _ :: _) rfl ?_ (locals_upd (by rw [hfc, hf]))
    split <;> simp [oq]

theorem obj_reach {P : Prog L G V E} {l0 : L} {g0 : G} {s : St L G V E} (h : Reach P l0 g0 s) : ObjInv s := by
  induction h with
  | init => exact ⟨fun _ => rfl, trivial⟩
  | step hr hs ih => exact (step_rel (inv_reach hr) hs).objInv ih

/-! Coroutine objects that live on the stack of a context. -/

theorem co_upd {frames : Nat → List (Frame L V E)} {c : Nat} {fs : List (Frame L V E)} (h : coLocals (frames c) = coLocals fs)
    {i x : Nat} (hx : x ∈ coLocals (frames i)) : x ∈ coLocals (upd frames c fs i) := by
  by_cases hi : i = c
  · subst hi; simpa [upd, ← h] using hx
  · simpa [upd, hi] using hx

theorem co_noObj : ∀ {a : List (Frame L V E)} (b : List (Frame L V E)), (∀ o, Frame.gCoro o ∉ a) → coLocals (a ++ b) = coLocals b
  | [], _, _ => rfl
  | f :: t, b, h => by
    have ih := co_noObj (a := t) b (fun o ho => h o (List.mem_cons_of_mem _ ho))
    rw [List.cons_append]
    cases f <;> first | (exact absurd (List.mem_cons_self ..) (h _)) | simp_all [coLocals]

theorem Scope.co {P : Prog L G V E} {s s1 : St L G V E} {h : Nat} (hs : Scope P s h s1) {c x : Nat}
    (hx : x ∈ coLocals (s.frames c)) : x ∈ coLocals (s1.frames c) ∨ x = h := by
  have hfc : s.frames s.cur = s.fr := rfl
  have key : ∀ {f : Frame L V E} {t : List (Frame L V E)}, s.fr = .gCoro h :: t → coLocals (f :: t) = coLocals t →
      x ∈ coLocals (upd s.frames s.cur (f :: t) c) ∨ x = h := by
    intro f t hf h1
    by_cases hi : c = s.cur
    · subst hi
      rw [hfc, hf] at hx
      rcases List.mem_cons.1 hx with rfl | hx
      · exact .inr rfl
      · left; simpa [h1] using hx
    · left; simpa [upd, hi] using hx
  cases hs
  case leave hf => exact key hf rfl
  case api => exact .inl (co_upd (by rfl) hx)
  case raise hf => exact key hf rfl
  case ret hf => exact key hf rfl
  all_goals exact .inl hx

theorem Dying.co {P : Prog L G V E} {s s0 : St L G V E} {f : Option Nat} (hs : Dying P s f s0) {c x : Nat}
    (hx : x ∈ coLocals (s.frames c)) : x ∈ coLocals (s0.frames c) ∨ s0.hs x = none := by
  have hfc : s.frames s.cur = s.fr := rfl
  cases hs
  case handle hsc _ _ _ hdt =>
    rcases hsc.co hx with h | rfl
    · exact .inl h
    · exact .inr (by simp)
  case ctorInvalid hf _ _ _ _ _ _ hdt => exact .inl (co_upd (by rw [hfc, hf]; rfl) hx)
  case ctorThrow hf _ _ _ _ _ => exact .inl (co_upd (by rw [hfc, hf]; rfl) hx)
  case ctorUnw hf h =>
    refine .inl (co_upd ?_ hx)
    rw [hfc, hf]
    rcases h with rfl | rfl <;> rfl
  case syn hdt => exact .inl hx

/-- a coroutine object on some stack stays there or is destroyed -/
theorem Step.co {P : Prog L G V E} {s s' : St L G V E} (hs : Step P s s') {i x : Nat}
    (hx : x ∈ coLocals (s.frames i)) : x ∈ coLocals (s'.frames i) ∨ s'.hs x = none := by
  have hfc : s.frames s.cur = s.fr := rfl
  cases hs
  case loc g fs c evs hl =>
    cases hl
    case guard h _ _ =>
      left
      by_cases hi : i = s.cur
      · subst hi; rw [hfc] at hx; simp [coLocals, hx]
      · simpa [upd, hi] using hx
    all_goals first
      | exact .inl (co_upd (by rfl) hx)
      | (rename_i hf; exact .inl (co_upd (by rw [hfc, hf]; rfl) hx))
      | (rename_i hf _; exact .inl (co_upd (by rw [hfc, hf]; rfl) hx))
  case get => exact .inl (co_upd (by rfl) hx)
  case moveCtor => exact .inl (co_upd (by rfl) hx)
  case moveAssign => exact .inl (co_upd (by rfl) hx)
  case ctorDrop hf => exact .inl (co_upd (by rw [hfc, hf]; rfl) hx)
  case mkFn => exact .inl (co_upd (by rfl) hx)
  case mk kd _ _ _ _ _ =>
    refine .inl (co_upd ?_ hx)
    cases kd <;> rfl
  case pushThrow hse => exact .inl (co_upd (by rfl) hx)
  case push evs w t _ _ hpc _ _ _ _ _ _ hse _ =>
    refine .inl (co_upd ?_ hx)
    show _ = coLocals (_ ++ .usr _ :: s.fr)
    rw [co_noObj _ (hpc.noObj w).2]; rfl
  case pull hpc _ _ _ _ _ =>
    refine .inl (co_upd ?_ hx)
    show _ = coLocals (_ ++ .usr _ :: s.fr)
    rw [co_noObj _ hpc.noObj.2]; rfl
  case enterPull => exact .inl hx
  case enterPush => exact .inl hx
  case startPush => exact .inl hx
  case wait hf _ => exact .inl (co_upd (by rw [hfc, hf]; rfl) hx)
  case asg hf _ _ _ _ => exact .inl (co_upd (by rw [hfc, hf]; rfl) hx)
  case asgThrow hf _ _ _ _ => exact .inl (co_upd (by rw [hfc, hf]; rfl) hx)
  case pullCtor hf _ _ _ _ _ _ => exact .inl (co_upd (by rw [hfc, hf]; rfl) hx)
  case pushCtor hf _ _ _ _ => exact .inl (co_upd (by rw [hfc, hf]; rfl) hx)
  case fin => exact .inl hx
  case nop hsc _ _ =>
    rcases hsc.co hx with h | rfl
    · exact .inl h
    · exact .inr (by simp)
  case dropNone hd => exact hd.co hx
  case dropSome s0 t hd =>
    rcases hd.co hx with h | h
    · exact .inl (co_upd (by rfl) h)
    · exact .inr h
  case exit hf _ _ _ => exact .inl (co_upd (by rw [hfc, hf]) hx)

theorem Scope.nh {P : Prog L G V E} {s s1 : St L G V E} {h : Nat} (hs : Scope P s h s1) : s1.nh = s.nh ∧ s1.hs = s.hs := by
  cases hs <;> exact ⟨rfl, rfl⟩

/-- a destroyed coroutine object stays destroyed -/
theorem Step.hsGone {P : Prog L G V E} {s s' : St L G V E} (hs : Step P s s') {x : Nat} (hx : s.hs x = none) (hn : x < s.nh) :
    s'.hs x = none ∧ x < s'.nh := by
  have ne : ∀ {h hd}, s.hs h = some hd → x ≠ h := by rintro h hd h1 rfl; rw [hx] at h1; cases h1
  have nn : x ≠ s.nh := by omega
  have dy : ∀ {f s0}, Dying P s f s0 → s0.hs x = none ∧ x < s0.nh := by
    intro f s0 hd
    cases hd
    case handle hsc _ _ _ _ =>
      obtain ⟨h1, h2⟩ := hsc.nh
      refine ⟨?_, by show x < _; rw [h1]; exact hn⟩
      simp only [upd]; split
      · rfl
      · rw [h2]; exact hx
    all_goals exact ⟨hx, hn⟩
  cases hs
  case moveCtor hh => exact ⟨by simp [upd, nn, ne hh, hx], by show x < s.nh + 1; omega⟩
  case moveAssign h1 h2 _ => exact ⟨by simp [upd, ne h1, ne h2, hx], hn⟩
  case nop hsc _ _ =>
    obtain ⟨h1, h2⟩ := hsc.nh
    refine ⟨?_, by show x < _; rw [h1]; exact hn⟩
    simp only [upd]; split
    · rfl
    · rw [h2]; exact hx
  case dropNone hd => have := dy hd; exact this
  case dropSome hd => have := dy hd; exact this
  all_goals first
    | exact ⟨hx, hn⟩
    | exact ⟨by simp [upd, nn, hx], by show x < s.nh + 1; omega⟩

theorem Later.hsGone {P : Prog L G V E} {l0 : L} {g0 : G} {s s' : St L G V E} (hr : Reach P l0 g0 s) (h : Later P s s')
    {x : Nat} (hx : s.hs x = none) (hn : x < s.nh) : s'.hs x = none ∧ x < s'.nh := by
  induction h with
  | refl => exact ⟨hx, hn⟩
  | step h1 h2 ih => exact (step_rel (inv_reach (h1.reach hr)) h2).hsGone ih.1 ih.2

theorem Step.nh {P : Prog L G V E} {s s' : St L G V E} (hs : Step P s s') : s.nh ≤ s'.nh := by
  have dy : ∀ {f s0}, Dying P s f s0 → s0.nh = s.nh := by
    intro f s0 hd
    cases hd
    case handle hsc _ _ _ _ => exact hsc.nh.1
    all_goals rfl
  cases hs
  case nop hsc _ _ => exact Nat.le_of_eq hsc.nh.1.symm
  case dropNone hd => exact Nat.le_of_eq (dy hd).symm
  case dropSome hd => exact Nat.le_of_eq (dy hd).symm
  all_goals first
    | exact Nat.le_refl _
    | exact Nat.le_succ _

/-- a coroutine object on some stack stays there or is destroyed -/
theorem Later.co {P : Prog L G V E} {l0 : L} {g0 : G} {s s' : St L G V E} (hr : Reach P l0 g0 s) (h : Later P s s')
    {i x : Nat} (hn : x < s.nh) (hx : x ∈ coLocals (s.frames i)) :
    x < s'.nh ∧ (x ∈ coLocals (s'.frames i) ∨ s'.hs x = none) := by
  induction h with
  | refl => exact ⟨hn, .inl hx⟩
  | step h1 h2 ih =>
    have hst := step_rel (inv_reach (h1.reach hr)) h2
    obtain ⟨ih1, ih2⟩ := ih
    refine ⟨Nat.lt_of_lt_of_le ih1 hst.nh, ?_⟩
    rcases ih2 with ih2 | ih2
    · exact hst.co ih2
    · exact .inr (hst.hsGone ih2 ih1).1

theorem Scope.sink {P : Prog L G V E} {s s1 : St L G V E} {h : Nat} (hs : Scope P s h s1) {i x : Nat}
    (hx : (s.base i).sink = some x) : (s1.base i).sink = some x ∨ x = h := by
  have key : ∀ {b : Base L}, s.base s.cur = b → b.sink = some h →
      (upd s.base s.cur (.lamA : Base L) i).sink = some x ∨ x = h := by
    intro b hb h1
    by_cases hi : i = s.cur
    · subst hi; rw [hb, h1] at hx; cases hx; exact .inr rfl
    · left; simpa [upd, hi] using hx
  cases hs
  case unwFn hb => exact key hb rfl
  case unwEntry hb => exact key hb rfl
  case unwFinal hb => exact key hb rfl
  case final hb => exact key hb rfl
  all_goals exact .inl hx

theorem Dying.sink {P : Prog L G V E} {s s0 : St L G V E} {f : Option Nat} (hs : Dying P s f s0) {i x : Nat}
    (hx : (s.base i).sink = some x) : (s0.base i).sink = some x ∨ s0.hs x = none := by
  cases hs
  case handle hsc _ _ _ hdt =>
    rcases hsc.sink hx with h | rfl
    · exact .inl h
    · exact .inr (by simp)
  case syn hb hdt =>
    left
    by_cases hi : i = s.cur
    · subst hi; rw [hb] at hx; cases hx
    · simpa [upd, hi] using hx
  all_goals exact .inl hx

/-- the object a coroutine-function was given stays in its entry lambda or is destroyed -/
theorem Step.sink {P : Prog L G V E} {s s' : St L G V E} (hs : Step P s s') (hi : Inv s) {i x : Nat}
    (hx : (s.base i).sink = some x) : (s'.base i).sink = some x ∨ s'.hs x = none := by
  have key : ∀ {b b' : Base L}, s.base s.cur = b → (∀ y, b.sink = some y → b'.sink = some y) →
      (upd s.base s.cur b' i).sink = some x := by
    intro b b' hb h1
    by_cases hi : i = s.cur
    · subst hi; rw [hb] at hx; simpa using h1 x hx
    · simpa [upd, hi] using hx
  cases hs
  case mk =>
    left
    have : i ≠ s.nk := by
      rintro rfl
      have := hi.sched.lt_nk s.nk (by intro h; rw [h] at hx; cases hx)
      omega
    simpa [upd, this] using hx
  case enterPull hb _ _ _ => exact .inl (key hb (by intro y h; cases h))
  case enterPush hb _ _ _ => exact .inl (key hb (by intro y h; cases h))
  case startPush hb _ _ _ => exact .inl (key hb (fun y h => h))
  case fin hb _ _ => exact .inl (key hb (fun y h => h))
  case nop hsc _ _ =>
    rcases hsc.sink hx with h | rfl
    · exact .inl h
    · exact .inr (by simp)
  case dropNone hd => exact hd.sink hx
  case dropSome s0 t hd => exact hd.sink hx
  case exit hb _ _ => exact .inl (key hb (by intro y h; cases h))
  all_goals exact .inl hx

theorem Later.sink {P : Prog L G V E} {l0 : L} {g0 : G} {s s' : St L G V E} (hr : Reach P l0 g0 s) (h : Later P s s')
    {i x : Nat} (hn : x < s.nh) (hx : (s.base i).sink = some x) :
    x < s'.nh ∧ ((s'.base i).sink = some x ∨ s'.hs x = none) := by
  induction h with
  | refl => exact ⟨hn, .inl hx⟩
  | step h1 h2 ih =>
    have hi := inv_reach (h1.reach hr)
    have hst := step_rel hi h2
    obtain ⟨ih1, ih2⟩ := ih
    refine ⟨Nat.lt_of_lt_of_le ih1 hst.nh, ?_⟩
    rcases ih2 with ih2 | ih2
    · exact hst.sink hi ih2
    · exact .inr (hst.hsGone ih2 ih1).1

end Verif
