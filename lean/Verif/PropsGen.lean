import Verif.GenCo

/-!
# C69: what a generator yields is its own affair

The function of a pull coroutine that only works with its own variables and pushes through its argument puts out, in whatever program,
exactly what it puts out on its own (SpecGen.lean): who resumes it, when, how often, from which function, what happens between two
resumptions, how many other coroutines there are and whether it is destroyed early makes no difference to the sequence of values.
-/
namespace Verif
open Gen (Runs SelfContained Ended start)
variable {L G V E : Type}
variable {P : Prog L G V E} {l0 : L} {g0 : G} {s0 s t : St L G V E} {c h : Nat} {l : L}

namespace Gen
/-- on its own, the function is deterministic -/
theorem Step.det (g : G) {va : Var} {x y z : Cfg L E} {o p : Option V} (h1 : Step P h va x o y) (h2 : Step P h va x p z) : o = p ∧ y = z := by
  obtain ⟨x, t⟩ := x
  cases x with
  | «at» l =>
    obtain ⟨A, hA⟩ : ∃ A, P.code l g = A := ⟨_, rfl⟩
    cases h1 <;> cases h2 <;> grind
  | throws e => cases h1 <;> cases h2 <;> grind
  | returns => cases h1 <;> cases h2 <;> grind

theorem Runs.cmp (g : G) {va : Var} {x y z : Cfg L E} {xs ys : List V} (h1 : Runs P h va x xs y) (h2 : Runs P h va x ys z) :
    (∃ zs, ys = xs ++ zs ∧ Runs P h va y zs z) ∨ ∃ zs, xs = ys ++ zs ∧ Runs P h va z zs y := by
  induction h2 with
  | here => exact .inr ⟨xs, rfl, h1⟩
  | @more ys d e o r s ih =>
    rcases ih with ⟨zs, rfl, r'⟩ | ⟨zs, rfl, r'⟩
    · exact .inl ⟨zs ++ o.toList, List.append_assoc _ _ _, r'.more s⟩
    · -- the first run has gone on from `d`: its first step is this one
      have key : ∀ {zs : List V} {y : Cfg L E}, Runs P h va d zs y → (zs = [] ∧ y = d) ∨ ∃ ws, zs = o.toList ++ ws ∧ Runs P h va e ws y := by
        intro zs y r
        induction r with
        | here => exact .inl ⟨rfl, rfl⟩
        | @more zs a b p _ s' ih =>
          rcases ih with ⟨rfl, rfl⟩ | ⟨ws, rfl, r⟩
          · obtain ⟨rfl, rfl⟩ := s.det g s'
            exact .inr ⟨[], by simp, .here⟩
          · exact .inr ⟨ws ++ p.toList, by simp, r.more s'⟩
      rcases key r' with ⟨rfl, rfl⟩ | ⟨ws, rfl, r''⟩
      · refine .inl ⟨o.toList, by simp, ?_⟩
        simpa using Runs.here.more s
      · exact .inr ⟨ws, by simp, r''⟩
end Gen

theorem pushedList_noticed (c : Nat) : ∀ (log : List (Ev V E)), pushedList c (log.filter Coro.noticed) = pushedList c log
  | [] => rfl
  | e :: log => by
    have ih := pushedList_noticed c log
    cases e <;> simp [List.filter_cons, Coro.noticed, pushedList, ih]

/-- C69: from a state in which the function of pull coroutine `c` is at `l` with nothing open, in particular at its start: what it
pushes from then on is what `l` puts out on its own, up to the point it has been driven to; and if it comes to an end, then in the way it
ends on its own; and whenever it runs, it is where it has got to on its own, with the same scopes and calls open.  The argument object must stay the argument object while the function runs. -/
theorem C69_generator (hm : Coro.Meaningful P l0 g0) (h0 : Reach P l0 g0 s0) (hc : s0.cur = c) (hc0 : c ≠ 0) (hl : s0.ctl = .eval l)
    (hf : s0.frames c = []) (hk : s0.kind c = .pull) (hself : SelfContained P h (s0.va c) (start l))
    (hArg : ∀ n t, run P n s0 = .next t → t.cur = c → UserRuns t → Refers t h .push (some ⟨c, .syn⟩))
    {n : Nat} (hr : run P n s0 = .next t) :
    ∃ xs cfg, Runs P h (s0.va c) (start l) xs cfg ∧ pushedList c t.log = pushedList c s0.log ++ xs ∧
      (∀ x, .fin c x ∈ t.log → Ended cfg x) ∧
      ∀ l', t.cur = c → t.ctl = .eval l' → cfg = ⟨.at l', opened t c⟩ := by
  obtain ⟨a0, ha0, hs0⟩ := reach_sim hm h0
  obtain ⟨m, b, hb, _, hsb, _⟩ := hs0.follow hm ha0 hr
  have ag := hs0.agree
  have hU : ∀ m b, Coro.run P m a0 = .next b → b.active.head? = some c → ∀ l, b.ctl = .eval l → ∃ hd, b.hs h = some hd ∧ hd.cb = some ⟨c, .syn⟩ := by
    intro m b hb h1 l' h2
    obtain ⟨n, t, h3, h4, _⟩ := hs0.lead hm ha0 hb
    have ag' := h4.agree
    rw [ag'.objs]
    have e := ag'.running
    rw [h1] at e
    obtain ⟨hd, h5, _, h6⟩ := hArg n t h3 (Option.some.inj e).symm ⟨l', (ag'.user l').1 h2⟩
    exact ⟨hd, h5, h6⟩
  have hi0 := inv_reach h0
  have hj0 := jinv_reach h0
  have hctl := hi0.ctl
  simp only [CtlOk, hl] at hctl
  obtain ⟨_, hbody, _, hback⟩ := hctl
  obtain ⟨hh, hbase⟩ : ∃ hh, s0.base c = .inFn hh := by
    rw [hc] at hbody
    cases hb : s0.base c <;> simp [hb, Base.isBody] at hbody
    · exact absurd ((hi0.sched.main_iff c).1 hb) hc0
    · exact ⟨_, rfl⟩
  have hnofin : ∀ x, Ev.fin c x ∉ s0.log := by
    obtain ⟨_, _, rest, co, d, ok, _⟩ := hs0
    have hal := (d.ownUp c (by simp [hc]) hc0 (by rw [← hc]; exact hback)).1
    have h1 := (hi0.cb.own_state c hal).resolve_right (by rw [hbase]; simp [Base.past])
    rcases hj0.own c hal with ⟨_, _, hn⟩ | ⟨h2, _, _⟩
    · intro x hx
      have : 0 < nFin c s0.log := List.countP_pos_iff.2 ⟨_, hx, by simp [Ev.isFin]⟩
      omega
    · rw [h1.1] at h2; exact absurd h2 (by decide)
  have g0 : Coro.GInv P h (s0.va c) c (start l) a0 a0 [] (start l) := by
    obtain ⟨hk', _, rest, co, d, ok, rfl⟩ := hs0
    refine ⟨.here, (List.append_nil _).symm, fun x hx => .inl hx, (ok.kind c).trans hk, ok.va c, hi0.sched.lt_nk c (by rw [hbase]; simp), ?_⟩
    refine .live (below := rest) (hh := hh) ?_ ?_ ?_ ?_ (by simp)
    · simp [absSt, hc]
    · show (co c).phase = _
      rw [ok.phase, hbase]; rfl
    · simp [absSt, hl, absCtl, Coro.posC]
    · simp [absSt, hf]
  obtain ⟨xs, cfg, hi⟩ := Coro.GInv.run hm hself hc0 (s := s0) m hs0 ha0 hU g0 hb
  refine ⟨xs, cfg, hi.runs, ?_, ?_, ?_⟩
  · have := hi.out
    rw [hsb.agree.events, ag.events, pushedList_noticed, pushedList_noticed] at this
    exact this
  · intro x hx
    have := hi.fin x (by rw [hsb.agree.events]; exact List.mem_filter.2 ⟨hx, rfl⟩)
    rcases this with h | h
    · rw [ag.events] at h
      exact absurd (List.mem_filter.1 h).1 (hnofin x)
    · exact h
  · intro l' h1 h2
    have h3 := (hsb.agree.user l').2 h2
    have h4 : b.active.head? = some c := by rw [← h1]; exact hsb.agree.running
    have h5 := hsb.agree.scopes c
    rw [← h5]
    have m := hi.mode
    cases m with
    | @live x t below hh ha hp hc hs ht =>
      cases x with
      | «at» l =>
        rw [h3] at hc
        cases hc
        simp only [Coro.opened, hs, List.filterMap_map, Gen.Cfg.mk.injEq, true_and]
        have : ∀ o : Open L E, (Coro.scopeOf ∘ (Coro.opn : Open L E → Coro.Fr L V E)) o = some o := by intro o; cases o <;> rfl
        rw [show (Coro.scopeOf ∘ (Coro.opn : Open L E → Coro.Fr L V E)) = some from funext this, List.filterMap_some]
      | _ => rw [h3] at hc; cases hc
    | use _ _ hc => rw [h3] at hc; cases hc
    | give _ _ hc => rw [h3] at hc; cases hc
    | back _ _ hc => rw [h3] at hc; cases hc
    | waiting ha => exact absurd (List.mem_of_mem_head? h4) ha
    | dying _ hc => rw [h3] at hc; cases hc
    | left _ hc => rw [h3] at hc; rcases hc with hc | hc <;> cases hc
    | deep ha => exact absurd h4 ha
    | over ha => exact absurd (List.mem_of_mem_head? h4) ha

/-- C69: … so the value at place `i` is the one the function puts out at place `i` on its own. -/
theorem C69_values (hm : Coro.Meaningful P l0 g0) (h0 : Reach P l0 g0 s0) (hc : s0.cur = c) (hc0 : c ≠ 0) (hl : s0.ctl = .eval l)
    (hf : s0.frames c = []) (hk : s0.kind c = .pull) (hself : SelfContained P h (s0.va c) (start l))
    (hArg : ∀ n t, run P n s0 = .next t → t.cur = c → UserRuns t → Refers t h .push (some ⟨c, .syn⟩))
    {w : Nat → V} (hw : ∀ xs cfg, Runs P h (s0.va c) (start l) xs cfg → ∀ i v, xs[i]? = some v → v = w i)
    {n : Nat} (hr : run P n s0 = .next t) {i : Nat} {v : V} (hi : (pushedList c t.log)[(pushedList c s0.log).length + i]? = some v) : v = w i := by
  obtain ⟨xs, cfg, h1, h2, _⟩ := C69_generator hm h0 hc hc0 hl hf hk hself hArg hr
  rw [h2, List.getElem?_append_right (by omega), Nat.add_sub_cancel_left] at hi
  exact hw xs cfg h1 i v hi

/-- C69: two consumers (other programs, other coroutines, other points in time) of the same function: one has seen the beginning of what the
other one has seen; and if the function has come to its end under both, both have seen the same and the same end. -/
theorem C69_consumers {l0' : L} {g0' : G} {s0' t' : St L G V E} {c' : Nat}
    (hm : Coro.Meaningful P l0 g0) (h0 : Reach P l0 g0 s0) (hc : s0.cur = c) (hc0 : c ≠ 0) (hl : s0.ctl = .eval l)
    (hf : s0.frames c = []) (hk : s0.kind c = .pull) (hself : SelfContained P h (s0.va c) (start l))
    (hArg : ∀ n t, run P n s0 = .next t → t.cur = c → UserRuns t → Refers t h .push (some ⟨c, .syn⟩))
    (hm' : Coro.Meaningful P l0' g0') (h0' : Reach P l0' g0' s0') (hc' : s0'.cur = c') (hc0' : c' ≠ 0) (hl' : s0'.ctl = .eval l)
    (hf' : s0'.frames c' = []) (hk' : s0'.kind c' = .pull) (hva : s0'.va c' = s0.va c)
    (hArg' : ∀ n t, run P n s0' = .next t → t.cur = c' → UserRuns t → Refers t h .push (some ⟨c', .syn⟩))
    {n n' : Nat} (hr : run P n s0 = .next t) (hr' : run P n' s0' = .next t') :
    ∃ xs ys, pushedList c t.log = pushedList c s0.log ++ xs ∧ pushedList c' t'.log = pushedList c' s0'.log ++ ys ∧
      (xs <+: ys ∨ ys <+: xs) ∧ ∀ x y, .fin c x ∈ t.log → .fin c' y ∈ t'.log → xs = ys ∧ x = y := by
  obtain ⟨xs, cfg, r1, e1, f1, _⟩ := C69_generator hm h0 hc hc0 hl hf hk hself hArg hr
  obtain ⟨ys, cfg', r2, e2, f2, _⟩ := C69_generator hm' h0' hc' hc0' hl' hf' hk' (by rw [hva]; exact hself) hArg' hr'
  rw [hva] at r2
  refine ⟨xs, ys, e1, e2, ?_, ?_⟩
  · rcases r1.cmp g0 r2 with ⟨zs, e, _⟩ | ⟨zs, e, _⟩
    · exact .inl ⟨zs, e.symm⟩
    · exact .inr ⟨zs, e.symm⟩
  · intro x y hx hy
    have stop : ∀ {d e : Gen.Cfg L E} {zs : List V} {x : Option E}, Ended d x → Runs P h (s0.va c) d zs e → zs = [] ∧ e = d := by
      intro d e zs x he r
      induction r with
      | here => exact ⟨rfl, rfl⟩
      | more _ s ih =>
        obtain ⟨_, e'⟩ := ih
        rw [e'] at s
        obtain ⟨p, t⟩ := d
        cases p <;> cases t <;> first | exact he.elim | cases s
    have same : ∀ {d : Gen.Cfg L E} {x y : Option E}, Ended d x → Ended d y → x = y := by
      intro d x y h1 h2
      obtain ⟨p, t⟩ := d
      cases p <;> cases t <;> first | exact h1.elim | exact (show _ = _ from h1).trans (show _ = _ from h2).symm
    rcases r1.cmp g0 r2 with ⟨zs, e, r⟩ | ⟨zs, e, r⟩
    · obtain ⟨rfl, rfl⟩ := stop (f1 x hx) r
      exact ⟨by simp [e], same (f1 x hx) (f2 y hy)⟩
    · obtain ⟨rfl, rfl⟩ := stop (f2 y hy) r
      exact ⟨by simp [e], same (f1 x hx) (f2 y hy)⟩

/-! ## Example: the squares, infinitely many, and consumers that take 2 and 5 of them -/
namespace Squares

/-- program points: the generator, and a main function that takes `k` values and then destroys the coroutine -/
inductive Pt
  | gen (h i : Nat)
  | main (k : Nat)
  | loop (h k : Nat)
  | next (h k : Nat)
  | stop

/-- the program -/
def prog : Prog Pt Unit Nat Nat where
  code := fun l _ =>
    match l with
    | .gen h i => .api (.push h (.copy (i * i))) (fun _ => .gen h (i + 1))
    | .main k => .api (.mk .pull .val .ok (fun h => .gen h 0)) (fun r => match r with | .handle h => .loop h k | _ => .stop)
    | .loop h 0 => .api (.destroy h) (fun _ => .stop)
    | .loop h (k + 1) => .api (.get h) (fun _ => .next h k)
    | .next h k => .api (.resume h) (fun _ => .loop h k)
    | .stop => .ret
  mv := id

/-- what the generator puts out on its own: the squares -/
theorem solo {h i : Nat} {va : Var} {xs : List Nat} {cfg : Gen.Cfg Pt Nat} (r : Runs prog h va (start (.gen h i)) xs cfg) :
    cfg = start (.gen h (i + xs.length)) ∧ ∀ j v, xs[j]? = some v → v = (i + j) * (i + j) := by
  induction r with
  | here => exact ⟨rfl, by simp⟩
  | more _ s ih =>
    obtain ⟨rfl, h2⟩ := ih
    cases s
    case yield hc =>
      have e := hc ()
      simp only [prog] at e
      cases e
      refine ⟨by simp [start, Nat.add_assoc], ?_⟩
      intro j v hj
      rw [List.getElem?_append] at hj
      split at hj
      · exact h2 j v hj
      · rename_i ys _ _ hlt
        simp only [Option.toList_some] at hj
        have : j = ys.length := by
          obtain ⟨hlt', _⟩ := List.getElem?_eq_some_iff.1 hj
          simp only [List.length_singleton] at hlt'
          omega
        subst this
        simpa using hj.symm
    all_goals (rename_i hc; have e := hc (); simp [prog] at e)

theorem self {h : Nat} : SelfContained prog h .val (start (.gen h 0)) := by
  intro xs cfg r
  obtain ⟨rfl, _⟩ := solo r
  exact .inr ⟨_, _, .yield (by simp) (fun _ => rfl)⟩

/-- the state after `n` steps with a consumer that takes `k` values -/
def stateAt (k n : Nat) : St Pt Unit Nat Nat :=
  match run prog n (init (.main k) ()) with
  | .next s => s
  | _ => init (.main k) ()

/-- at all times up to step `m` after `s0`, while the function of coroutine 1 runs, object 0 is its argument; and at step `m` the program is over -/
def argOk {L : Type} (prog : Prog L Unit Nat Nat) (s0 : St L Unit Nat Nat) : Nat → Bool
  | 0 => false
  | m + 1 =>
    (s0.cur != 1 || (match s0.ctl with
      | .eval _ => match s0.hs 0 with
        | some ⟨.push, _, some ⟨1, .syn⟩⟩ => true
        | _ => false
      | _ => true)) &&
    match step prog s0 with
    | .next s1 => argOk prog s1 m
    | _ => true

theorem argOk_spec {L : Type} {prog : Prog L Unit Nat Nat} : ∀ {m : Nat} {s0 : St L Unit Nat Nat}, argOk prog s0 m = true → ∀ n t, run prog n s0 = .next t → t.cur = 1 → UserRuns t →
    Refers t 0 .push (some ⟨1, .syn⟩)
  | m + 1, s0, h, 0, t, hr, hc, ⟨l, hl⟩ => by
    cases hr
    simp only [argOk, Bool.and_eq_true, Bool.or_eq_true] at h
    have h1 := h.1
    simp only [hc, hl, bne_self_eq_false, Bool.false_eq_true, false_or] at h1
    split at h1
    · exact ⟨_, by assumption, rfl, rfl⟩
    · cases h1
  | m + 1, s0, h, n + 1, t, hr, hc, hu => by
    simp only [argOk, Bool.and_eq_true] at h
    simp only [run] at hr
    cases hs : step prog s0 with
    | next s1 =>
      rw [hs] at hr
      have h2 := h.2
      rw [hs] at h2
      exact argOk_spec h2 n t hr hc hu
    | _ => rw [hs] at hr; cases hr

theorem meaningful2 : Coro.Meaningful prog (.main 2) () := C55_ends_meaningful (n := 60) (.inl rfl)
theorem meaningful5 : Coro.Meaningful prog (.main 5) () := C55_ends_meaningful (n := 120) (.inl rfl)
theorem reach2 : Reach prog (.main 2) () (stateAt 2 2) := .step (.step .init rfl) rfl
theorem reach5 : Reach prog (.main 5) () (stateAt 5 2) := .step (.step .init rfl) rfl

example : ∃ n t, run prog n (stateAt 2 2) = .next t ∧ pushedList 1 t.log = [0, 1, 4] := ⟨20, _, rfl, rfl⟩
example : ∃ n t, run prog n (stateAt 5 2) = .next t ∧ pushedList 1 t.log = [0, 1, 4, 9, 16, 25] := ⟨50, _, rfl, rfl⟩

/-- when the generator is about to push `i * i`, it has pushed the squares before -/
example {n i : Nat} {t : St Pt Unit Nat Nat} (hr : run prog n (stateAt 5 2) = .next t) (hc : t.cur = 1) (hl : t.ctl = .eval (.gen 0 i)) :
    (pushedList 1 t.log).length = i := by
  obtain ⟨xs, cfg, h1, h2, _, h3⟩ := C69_generator (c := 1) (h := 0) meaningful5 reach5 rfl (by decide) rfl rfl rfl self
    (argOk_spec (m := 120) (by decide +kernel)) hr
  obtain ⟨h4, _⟩ := solo h1
  rw [h3 _ hc hl] at h4
  simp only [start, Gen.Cfg.mk.injEq, Gen.Pos.at.injEq, Pt.gen.injEq, true_and] at h4
  rw [h2, h4.1, show pushedList 1 (stateAt 5 2).log = [] from rfl]
  simp

/-- both consumers: whenever a value has been pushed, it is the square of its place -/
example {n : Nat} {t : St Pt Unit Nat Nat} (hr : run prog n (stateAt 5 2) = .next t) {i v : Nat} (hi : (pushedList 1 t.log)[i]? = some v) : v = i * i :=
  C69_values (c := 1) (h := 0) meaningful5 reach5 rfl (by decide) rfl rfl rfl self (argOk_spec (m := 120) (by decide +kernel))
    (w := fun i => i * i) (fun xs cfg r j v hj => by simpa using (solo r).2 j v hj) hr (by rw [show (pushedList 1 (stateAt 5 2).log).length = 0 from rfl, Nat.zero_add]; exact hi)

example {n n' : Nat} {t t' : St Pt Unit Nat Nat} (hr : run prog n (stateAt 2 2) = .next t) (hr' : run prog n' (stateAt 5 2) = .next t') :
    pushedList 1 t.log <+: pushedList 1 t'.log ∨ pushedList 1 t'.log <+: pushedList 1 t.log := by
  obtain ⟨xs, ys, h1, h2, h3, _⟩ := C69_consumers (c := 1) (c' := 1) (h := 0) meaningful2 reach2 rfl (by decide) rfl rfl rfl self (argOk_spec (m := 120) (by decide +kernel))
    meaningful5 reach5 rfl (by decide) rfl rfl rfl rfl (argOk_spec (m := 120) (by decide +kernel)) hr hr'
  rw [h1, h2]
  exact h3

end Squares

/-! ## Example: a generator that looks at its argument and at the result of a push, and throws in the end -/
namespace Counting

/-- program points -/
inductive Pt
  | gen (h i : Nat)
  | look (h i : Nat)
  | thr
  | lost
  | main
  | loop (h : Nat)
  | stop

/-- the program -/
def prog : Prog Pt Unit Nat Nat where
  code := fun l _ =>
    match l with
    | .gen h i => .api (.push h (.copy i)) (fun r => match r with | .val v => .look h (v + 1) | _ => .lost)
    | .look h i => .api (.valid h) (fun r => match r with | .bool true => if i = 3 then .thr else .gen h i | _ => .lost)
    | .thr => .throw 7
    | .lost => .ret
    | .main => .api (.mk .pull .val .ok (fun h => .gen h 0)) (fun r => match r with | .handle h => .loop h | _ => .stop)
    | .loop h => .api (.resume h) (fun _ => .loop h)
    | .stop => .ret
  mv := id

/-- where the generator can be on its own -/
def Fine (h : Nat) (cfg : Gen.Cfg Pt Nat) : Prop :=
  (∃ i, cfg = start (.gen h i)) ∨ (∃ i, cfg = start (.look h i)) ∨ cfg = start .thr ∨ cfg = ⟨.throws 7, []⟩

theorem solo {h : Nat} {va : Var} {xs : List Nat} {cfg : Gen.Cfg Pt Nat} (r : Runs prog h va (start (.gen h 0)) xs cfg) : Fine h cfg := by
  induction r with
  | here => exact .inl ⟨0, rfl⟩
  | more _ s ih =>
    rcases ih with ⟨i, rfl⟩ | ⟨i, rfl⟩ | rfl | rfl
    · cases s
      case yield hc =>
        have e := hc ()
        simp only [prog] at e
        cases e
        exact .inr (.inl ⟨i + 1, rfl⟩)
      all_goals (rename_i hc; have e := hc (); simp [prog] at e)
    · cases s
      case valid hc =>
        have e := hc ()
        simp only [prog] at e
        cases e
        by_cases hi : i = 3
        · exact .inr (.inr (.inl (by simp [hi, start])))
        · exact .inl ⟨i, by simp [hi, start]⟩
      all_goals (rename_i hc; have e := hc (); simp [prog] at e)
    · cases s
      case throw hc =>
        have e := hc ()
        simp only [prog] at e
        cases e
        exact .inr (.inr (.inr rfl))
      all_goals (rename_i hc; have e := hc (); simp [prog] at e)
    · cases s

theorem self {h : Nat} : SelfContained prog h .val (start (.gen h 0)) := by
  intro xs cfg r
  rcases solo r with ⟨i, rfl⟩ | ⟨i, rfl⟩ | rfl | rfl
  · exact .inr ⟨_, _, .yield (by simp) (fun _ => rfl)⟩
  · exact .inr ⟨_, _, .valid (fun _ => rfl)⟩
  · exact .inr ⟨_, _, .throw (fun _ => rfl)⟩
  · exact .inl ⟨some 7, rfl⟩

theorem meaningful : Coro.Meaningful prog .main () := C55_ends_meaningful (n := 80) (.inr rfl)
/-- the state after `n` steps -/
def stateAt (n : Nat) : St Pt Unit Nat Nat :=
  match run prog n (init .main ()) with
  | .next s => s
  | _ => init .main ()
theorem reach : Reach prog .main () (stateAt 2) := .step (.step .init rfl) rfl

/-- at every point in time: the generator is never lost, and if it has ended, then with the exception 7 -/
theorem always {n : Nat} {t : St Pt Unit Nat Nat} (hr : run prog n (stateAt 2) = .next t) :
    (∀ x, .fin 1 x ∈ t.log → x = some 7) ∧ (t.cur = 1 → t.ctl ≠ .eval .lost) := by
  obtain ⟨xs, cfg, h1, _, h3, h4⟩ := C69_generator (c := 1) (h := 0) meaningful reach rfl (by decide) rfl rfl rfl self
    (Squares.argOk_spec (m := 120) (by decide +kernel)) hr
  constructor
  · intro x hx
    have := h3 x hx
    rcases solo h1 with ⟨i, rfl⟩ | ⟨i, rfl⟩ | rfl | rfl
    · exact this.elim
    · exact this.elim
    · exact this.elim
    · exact this
  · intro hc hl
    have := h4 _ hc hl
    rcases solo h1 with ⟨i, h⟩ | ⟨i, h⟩ | h | h <;> rw [h] at this <;> cases this

/-- the generator has pushed 0, 1, 2 and has been left by the exception 7 -/
def over (t : St Pt Unit Nat Nat) : Bool :=
  pushedList 1 t.log == [0, 1, 2] && t.log.any fun
    | .fin 1 (some 7) => true
    | _ => false

example : over (stateAt 32) = true := by decide +kernel
end Counting
end Verif
