import Verif.SinkCo
import Verif.PropsGen
import Verif.Value
import Verif.SlotSpoil

/-!
# C70: what a push coroutine's function does depends on the values pushed to it, and on nothing else

The function of a push coroutine that only works with its own variables and takes values through its argument (by `get()` and calls, or by
iterators, as a range-`for` loop does) goes, in whatever program, exactly the way it goes on its own when the values pushed are simply given
to it (SpecSink.lean): who pushes, when, from which function, by `operator()` or an output iterator, what happens between two pushes, how
many other coroutines there are and whether it is destroyed early makes no difference.
-/
namespace Verif
open Sink (Runs SelfContained Ended start)
variable {L G V E : Type}
variable {P : Prog L G V E} {l0 : L} {g0 : G} {s0 s t : St L G V E} {c h : Nat} {l : L} {v : V}

namespace Sink
/-- on its own, the function is deterministic: the step takes a value or not, and if the value is the same, the result is -/
theorem Step.det (g : G) {va : Var} {x y z : Cfg L V E} {o p : Option V} (h1 : Step P h va x o y) (h2 : Step P h va x p z) :
    o.isSome = p.isSome ∧ (o = p → y = z) := by
  obtain ⟨x, t, w⟩ := x
  have key : ∀ {x y z : Gen.Pos L E} {t u u' : List (Open L E)}, Gen.Step P h va ⟨x, t⟩ none ⟨y, u⟩ → Gen.Step P h va ⟨x, t⟩ none ⟨z, u'⟩ → y = z ∧ u = u' := by
    intro x y z t u u' a b
    have := (a.det g b).2
    simpa using this
  cases x with
  | «at» l =>
    obtain ⟨A, hA⟩ : ∃ A, P.code l g = A := ⟨_, rfl⟩
    cases h1 <;> cases h2
    case inner.inner => rename_i a _ _ b; obtain ⟨rfl, rfl⟩ := key a b; exact ⟨rfl, fun _ => rfl⟩
    all_goals try (rename_i a _ _ _; cases a <;> grind)
    all_goals try (rename_i a _ _; cases a <;> grind)
    all_goals try (rename_i a; cases a <;> grind)
    all_goals grind
  | throws e => cases h1; cases h2; rename_i a _ _ b; obtain ⟨rfl, rfl⟩ := key a b; exact ⟨rfl, fun _ => rfl⟩
  | returns => cases h1; cases h2; rename_i a _ _ b; obtain ⟨rfl, rfl⟩ := key a b; exact ⟨rfl, fun _ => rfl⟩

theorem Runs.head {va : Var} {d y : Cfg L V E} {zs : List V} (r : Runs P h va d zs y) :
    (zs = [] ∧ y = d) ∨ ∃ p e ws, Step P h va d p e ∧ zs = p.toList ++ ws ∧ Runs P h va e ws y := by
  induction r with
  | here => exact .inl ⟨rfl, rfl⟩
  | @more zs a b p _ s' ih =>
    rcases ih with ⟨rfl, rfl⟩ | ⟨q, e, ws, s, rfl, r⟩
    · exact .inr ⟨p, _, [], s', by simp, .here⟩
    · exact .inr ⟨q, e, ws ++ p.toList, s, by simp, r.more s'⟩

theorem Runs.cmp (g : G) {va : Var} {x y z : Cfg L V E} {xs ys : List V} (h1 : Runs P h va x xs y) (h2 : Runs P h va x ys z)
    (hp : xs <+: ys ∨ ys <+: xs) : (∃ zs, ys = xs ++ zs ∧ Runs P h va y zs z) ∨ ∃ zs, xs = ys ++ zs ∧ Runs P h va z zs y := by
  induction h2 with
  | here => exact .inr ⟨xs, rfl, h1⟩
  | @more ys d e o r s ih =>
    have hp' : xs <+: ys ∨ ys <+: xs := by
      rcases hp with hp | hp
      · exact List.prefix_or_prefix_of_prefix hp (List.prefix_append _ _)
      · exact .inr ((List.prefix_append _ _).trans hp)
    rcases ih hp' with ⟨zs, rfl, r'⟩ | ⟨zs, rfl, r'⟩
    · exact .inl ⟨zs ++ o.toList, List.append_assoc _ _ _, r'.more s⟩
    · rcases r'.head with ⟨rfl, rfl⟩ | ⟨p, e', ws, s', rfl, r''⟩
      · refine .inl ⟨o.toList, by simp, ?_⟩
        simpa using Runs.here.more s
      · obtain ⟨d1, d2⟩ := s.det g s'
        have : o = p := by
          cases o with
          | none => cases p with
            | none => rfl
            | some _ => cases d1
          | some u => cases p with
            | none => cases d1
            | some u' =>
              congr 1
              rcases hp with ⟨q, hp⟩ | ⟨q, hp⟩
              · simp only [Option.toList_some, List.append_assoc, List.append_cancel_left_eq, List.singleton_append, List.cons_append, List.cons.injEq] at hp
                exact hp.1.symm
              · simp only [Option.toList_some, List.append_assoc, List.append_cancel_left_eq, List.singleton_append, List.cons_append, List.cons.injEq] at hp
                exact hp.1
        subst this
        rw [← d2 rfl] at r''
        exact .inr ⟨ws, by simp, r''⟩
end Sink

theorem slotRep_last {mv : V → V} {va : Var} {k : Nat} {v w : V} : ∀ {l : List (Ev V E)}, lastPushed k l = some v → gotSince k l = none →
    (slotRep mv va k l).1 = .live w → w = v
  | [], h, _, _ => by cases h
  | e :: l, h1, h2, h3 => by
    have ih := slotRep_last (mv := mv) (va := va) (k := k) (v := v) (w := w) (l := l)
    cases e <;> simp only [slotRep, lastPushed, gotSince] at h1 h2 h3 <;> grind

/-- C70: from a state in which the function of push coroutine `c` is at `l` with nothing open and has not taken the value `v` that was
pushed last, in particular at its start: it has gone the way it goes on its own from `l` and `v` with the values pushed since; if it comes
to an end, then in the way it ends on its own; and whenever it runs, it is where it has got to on its own, with the same scopes and calls
open.  The argument object must stay the argument object while the function runs. -/
theorem C70_sink (hm : Coro.Meaningful P l0 g0) (h0 : Reach P l0 g0 s0) (hc : s0.cur = c) (hc0 : c ≠ 0) (hl : s0.ctl = .eval l)
    (hf : s0.frames c = []) (hk : s0.kind c = .push) (hv : lastPushed c s0.log = some v) (hg : gotSince c s0.log = none)
    (hself : SelfContained P h (s0.va c) (start l v))
    (hArg : ∀ n t, run P n s0 = .next t → t.cur = c → UserRuns t → Refers t h .pull (some ⟨c, .syn⟩))
    {n : Nat} (hr : run P n s0 = .next t) :
    ∃ ys cfg, pushedList c t.log = pushedList c s0.log ++ ys ∧ Runs P h (s0.va c) (start l v) ys cfg ∧
      (∀ x, .fin c x ∈ t.log → Ended cfg x) ∧
      ∀ l', t.cur = c → t.ctl = .eval l' → ∃ w, cfg = ⟨.at l', opened t c, w⟩ := by
  obtain ⟨a0, ha0, hs0⟩ := reach_sim hm h0
  obtain ⟨m, b, hb, _, hsb, _⟩ := hs0.follow hm ha0 hr
  have ag := hs0.agree
  have hU : ∀ m b, Coro.run P m a0 = .next b → b.active.head? = some c → ∀ l, b.ctl = .eval l → ∃ hd, b.hs h = some hd ∧ hd.cb = some ⟨c, .syn⟩ := by
    intro m b hb h1 l' h2
    obtain ⟨n, t, h3, h4, _⟩ := hs0.lead hm ha0 hb
    have ag' := h4.agree
    rw [ag'.objs]
    have e := ag'.running
    rw [h1] at e
    obtain ⟨hd, h5, _, h6⟩ := hArg n t h3 (Option.some.inj e).symm ⟨l', (ag'.user l').1 h2⟩
    exact ⟨hd, h5, h6⟩
  have hi0 := inv_reach h0
  have hj0 := jinv_reach h0
  have hsl := slot_reach h0 c
  have hva : s0.va c ≠ .void := by
    intro e
    have := congrArg Prod.snd (hsl.void e)
    rw [slotRep_valid, hv] at this; cases this
  have hsyn := syn_alive h0 ⟨l, hl⟩ hc hc0
  have hctl := hi0.ctl
  simp only [CtlOk, hl] at hctl
  obtain ⟨_, hbody, _, hback⟩ := hctl
  obtain ⟨hh, hbase⟩ : ∃ hh, s0.base c = .inFn hh := by
    rw [hc] at hbody
    cases hb : s0.base c <;> simp [hb, Base.isBody] at hbody
    · exact absurd ((hi0.sched.main_iff c).1 hb) hc0
    · exact ⟨_, rfl⟩
  have hnofin : ∀ x, Ev.fin c x ∉ s0.log := by
    obtain ⟨_, _, rest, co, d, ok, _⟩ := hs0
    have hal := (d.ownUp c (by simp [hc]) hc0 (by rw [← hc]; exact hback)).1
    have h1 := (hi0.cb.own_state c hal).resolve_right (by rw [hbase]; simp [Base.past])
    rcases hj0.own c hal with ⟨_, _, hn⟩ | ⟨h2, _, _⟩
    · intro x hx
      have : 0 < nFin c s0.log := List.countP_pos_iff.2 ⟨_, hx, by simp [Ev.isFin]⟩
      omega
    · rw [h1.1] at h2; exact absurd h2 (by decide)
  have g0 : Coro.SInv P h (s0.va c) c (start l v) a0 a0 [] (start l v) := by
    obtain ⟨hk', _, rest, co, d, ok, rfl⟩ := hs0
    refine ⟨.here, (List.append_nil _).symm, fun x hx => .inl hx, (ok.kind c).trans hk, ok.va c, hi0.sched.lt_nk c (by rw [hbase]; simp), ?_⟩
    refine .live (below := rest) (hh := hh) ?_ ?_ ?_ ?_ (by simp) ?_
    · simp [absSt, hc]
    · show (co c).phase = _
      rw [ok.phase, hbase]; rfl
    · simp [absSt, hl, absCtl, Coro.posC]
    · simp [absSt, hf]
    · show (co c).val = _
      have hp : pullSide (s0.kind c) = .syn := by rw [hk]; rfl
      have hsyn' : (s0.cbs ⟨c, pullSide (s0.kind c)⟩).life = .alive := by rw [hp]; exact hsyn
      have hrep := hsl.rep hsyn'
      rcases ok.val c hsyn' with ⟨w, e1, e2, e3⟩ | ⟨e1, _, _⟩
      · have e4 : w = v := slotRep_last (mv := P.mv) (va := s0.va c) hv hg (by rw [hrep]; exact e2)
        rw [e3, e4]
      · have := congrArg Prod.snd hrep
        rw [slotRep_valid, hv] at this
        simp only [e1] at this
        cases this
  obtain ⟨ys, cfg, hi⟩ := Coro.SInv.run hm hself hc0 hva m hs0 ha0 hU g0 hb
  refine ⟨ys, cfg, ?_, hi.runs, ?_, ?_⟩
  · have := hi.out
    rw [hsb.agree.events, ag.events, pushedList_noticed, pushedList_noticed] at this
    exact this
  · intro x hx
    have := hi.fin x (by rw [hsb.agree.events]; exact List.mem_filter.2 ⟨hx, rfl⟩)
    rcases this with h | h
    · rw [ag.events] at h
      exact absurd (List.mem_filter.1 h).1 (hnofin x)
    · exact h
  · intro l' h1 h2
    have h3 := (hsb.agree.user l').2 h2
    have h4 : b.active.head? = some c := by rw [← h1]; exact hsb.agree.running
    have h5 := hsb.agree.scopes c
    rw [← h5]
    have m := hi.mode
    cases m with
    | @live x t w below hh ha hp hc hs ht hw =>
      cases x with
      | «at» l =>
        rw [h3] at hc
        cases hc
        refine ⟨w, ?_⟩
        simp only [Coro.opened, hs, List.filterMap_map, Sink.Cfg.mk.injEq, true_and, and_true]
        have : ∀ o : Open L E, (Coro.scopeOf ∘ (Coro.opn : Open L E → Coro.Fr L V E)) o = some o := by intro o; cases o <;> rfl
        rw [show (Coro.scopeOf ∘ (Coro.opn : Open L E → Coro.Fr L V E)) = some from funext this, List.filterMap_some]
      | _ => rw [h3] at hc; cases hc
    | use _ _ hc => rw [h3] at hc; cases hc
    | iter _ _ hc => rw [h3] at hc; cases hc
    | back _ _ _ hc => rw [h3] at hc; cases hc
    | waiting _ ha => exact absurd (List.mem_of_mem_head? h4) ha
    | dying _ hc => rw [h3] at hc; cases hc
    | left _ hc => rw [h3] at hc; rcases hc with hc | hc <;> cases hc
    | deep ha => exact absurd h4 ha
    | over ha => exact absurd (List.mem_of_mem_head? h4) ha

/-- C70: two producers (other programs, other coroutines, other points in time) for the same function with the same first value: if one has
pushed the beginning of what the other one has pushed, and the function has come to its end under both, then both have pushed the same
values and the function has ended in the same way. -/
theorem C70_producers {l0' : L} {g0' : G} {s0' t' : St L G V E} {c' : Nat}
    (hm : Coro.Meaningful P l0 g0) (h0 : Reach P l0 g0 s0) (hc : s0.cur = c) (hc0 : c ≠ 0) (hl : s0.ctl = .eval l)
    (hf : s0.frames c = []) (hk : s0.kind c = .push) (hv : lastPushed c s0.log = some v) (hg : gotSince c s0.log = none)
    (hself : SelfContained P h (s0.va c) (start l v))
    (hArg : ∀ n t, run P n s0 = .next t → t.cur = c → UserRuns t → Refers t h .pull (some ⟨c, .syn⟩))
    (hm' : Coro.Meaningful P l0' g0') (h0' : Reach P l0' g0' s0') (hc' : s0'.cur = c') (hc0' : c' ≠ 0) (hl' : s0'.ctl = .eval l)
    (hf' : s0'.frames c' = []) (hk' : s0'.kind c' = .push) (hv' : lastPushed c' s0'.log = some v) (hg' : gotSince c' s0'.log = none)
    (hva : s0'.va c' = s0.va c)
    (hArg' : ∀ n t, run P n s0' = .next t → t.cur = c' → UserRuns t → Refers t h .pull (some ⟨c', .syn⟩))
    {n n' : Nat} (hr : run P n s0 = .next t) (hr' : run P n' s0' = .next t') :
    ∃ xs ys, pushedList c t.log = pushedList c s0.log ++ xs ∧ pushedList c' t'.log = pushedList c' s0'.log ++ ys ∧
      (xs <+: ys ∨ ys <+: xs → ∀ x y, .fin c x ∈ t.log → .fin c' y ∈ t'.log → xs = ys ∧ x = y) := by
  obtain ⟨xs, cfg, e1, r1, f1, _⟩ := C70_sink hm h0 hc hc0 hl hf hk hv hg hself hArg hr
  obtain ⟨ys, cfg', e2, r2, f2, _⟩ := C70_sink hm' h0' hc' hc0' hl' hf' hk' hv' hg' (by rw [hva]; exact hself) hArg' hr'
  rw [hva] at r2
  refine ⟨xs, ys, e1, e2, ?_⟩
  intro hp x y hx hy
  have stop : ∀ {d e : Sink.Cfg L V E} {zs : List V} {x : Option E}, Ended d x → Runs P h (s0.va c) d zs e → zs = [] ∧ e = d := by
    intro d e zs x he r
    induction r with
    | here => exact ⟨rfl, rfl⟩
    | more _ s ih =>
      obtain ⟨_, e'⟩ := ih
      rw [e'] at s
      obtain ⟨p, t, w⟩ := d
      cases p <;> cases t <;> first | exact he.elim | (cases s with | inner s => cases s)
  have same : ∀ {d : Sink.Cfg L V E} {x y : Option E}, Ended d x → Ended d y → x = y := by
    intro d x y h1 h2
    obtain ⟨p, t, w⟩ := d
    cases p <;> cases t <;> first | exact h1.elim | exact (show _ = _ from h1).trans (show _ = _ from h2).symm
  rcases r1.cmp g0 r2 hp with ⟨zs, e, r⟩ | ⟨zs, e, r⟩
  · obtain ⟨rfl, rfl⟩ := stop (f1 x hx) r
    exact ⟨by simp [e], same (f1 x hx) (f2 y hy)⟩
  · obtain ⟨rfl, rfl⟩ := stop (f2 y hy) r
    exact ⟨by simp [e], same (f1 x hx) (f2 y hy)⟩

/-! ## Example: a function that adds up what it gets, with an iterator, and throws the sum when it gets 0 -/
namespace Sum

/-- program points: the function, and a main function that pushes the values of a list -/
inductive Pt
  | first (h : Nat)
  | look (h acc : Nat)
  | have_ (h acc v : Nat)
  | main (xs : List Nat)
  | feed (h : Nat) (xs : List Nat)
  | lost
  | stop

/-- the program -/
def prog : Prog Pt Unit Nat Nat where
  code := fun l _ =>
    match l with
    | .first h => .api (.itBegin h) (fun r => match r with | .it (some _) => .look h 0 | _ => .lost)
    | .look h acc => .api (.itDeref (some h)) (fun r => match r with | .val v => .have_ h acc v | _ => .lost)
    | .have_ _ acc 0 => .throw acc
    | .have_ h acc (v + 1) => .api (.itNext (some h)) (fun r => match r with | .it (some _) => .look h (acc + (v + 1)) | _ => .lost)
    | .main xs => .api (.mk .push .val .ok .first) (fun r => match r with | .handle h => .feed h xs | _ => .stop)
    | .feed h [] => .api (.destroy h) (fun _ => .stop)
    | .feed h (x :: xs) => .api (.push h (.copy x)) (fun _ => .feed h xs)
    | .lost => .ret
    | .stop => .ret
  mv := id

/-- on its own, after the values `xs`: it has not got 0 and has the sum of all but the value it can read, or it has got 0 and throws the sum -/
def Fine (h v : Nat) (xs : List Nat) (cfg : Sink.Cfg Pt Nat Nat) : Prop :=
  cfg.open_ = [] ∧ ((cfg.pos = .at (.first h) ∧ xs = [] ∧ cfg.now = v) ∨ (∃ acc, cfg.pos = .at (.look h acc) ∧ acc + cfg.now = v + xs.sum) ∨
    (∃ acc, cfg.pos = .at (.have_ h acc cfg.now) ∧ acc + cfg.now = v + xs.sum) ∨ cfg.pos = .throws (v + xs.sum))

theorem solo {h v : Nat} {va : Var} {xs : List Nat} {cfg : Sink.Cfg Pt Nat Nat} (r : Runs prog h va (start (.first h) v) xs cfg) : Fine h v xs cfg := by
  induction r with
  | here => exact ⟨rfl, .inl ⟨rfl, rfl, rfl⟩⟩
  | @more xs d e o _ s ih =>
    obtain ⟨p, t, w⟩ := d
    obtain ⟨h1, h2⟩ := ih
    simp only at h1 h2
    subst h1
    rcases h2 with ⟨rfl, rfl, rfl⟩ | ⟨acc, rfl, h2⟩ | ⟨acc, rfl, h2⟩ | rfl
    · cases s
      case inner s => cases s <;> (rename_i hc; have e := hc (); simp [prog] at e)
      case begin_ hc => have e := hc (); simp only [prog] at e; cases e; exact ⟨rfl, .inr (.inl ⟨0, rfl, by simp⟩)⟩
      all_goals (rename_i hc; have e := hc (); simp [prog] at e)
    · cases s
      case inner s => cases s <;> (rename_i hc; have e := hc (); simp [prog] at e)
      case look hc => have e := hc (); simp only [prog] at e; cases e; exact ⟨rfl, .inr (.inr (.inl ⟨acc, rfl, by simpa using h2⟩))⟩
      all_goals (rename_i hc; have e := hc (); simp [prog] at e)
    · cases w with
      | zero =>
        cases s
        case inner s =>
          cases s
          case throw hc => have e := hc (); simp only [prog] at e; cases e; exact ⟨rfl, .inr (.inr (.inr (by simpa using h2)))⟩
          all_goals (rename_i hc; have e := hc (); simp [prog] at e)
        all_goals (rename_i hc; have e := hc (); simp [prog] at e)
      | succ w =>
        cases s
        case inner s => cases s <;> (rename_i hc; have e := hc (); simp [prog] at e)
        case nextIt hc =>
          have e := hc (); simp only [prog] at e; cases e
          refine ⟨rfl, .inr (.inl ⟨acc + (w + 1), rfl, ?_⟩)⟩
          simp at h2 ⊢
          omega
        all_goals (rename_i hc; have e := hc (); simp [prog] at e)
    · cases s with | inner s => cases s

theorem self {h v : Nat} : SelfContained prog h .val (start (.first h) v) := by
  intro xs cfg r
  obtain ⟨p, t, w⟩ := cfg
  obtain ⟨h1, h2⟩ := solo r
  simp only at h1 h2
  subst h1
  rcases h2 with ⟨rfl, _, _⟩ | ⟨acc, rfl, _⟩ | ⟨acc, rfl, _⟩ | rfl
  · exact .inr ⟨_, _, .begin_ (by simp) (fun _ => rfl)⟩
  · exact .inr ⟨_, _, .look (by simp) (fun _ => rfl)⟩
  · cases w with
    | zero => exact .inr ⟨_, _, .inner (.throw (fun _ => rfl))⟩
    | succ w => exact .inr ⟨some 0, _, .nextIt (fun _ => rfl)⟩
  · exact .inl ⟨some _, rfl⟩

/-- the state after `n` steps -/
def stateAt (xs : List Nat) (n : Nat) : St Pt Unit Nat Nat :=
  match run prog n (init (.main xs) ()) with
  | .next s => s
  | _ => init (.main xs) ()

/-- at all times up to step `m` after `s0`, while the function of coroutine 1 runs, object 0 is its argument; and at step `m` the program is over -/
def argOk (s0 : St Pt Unit Nat Nat) : Nat → Bool
  | 0 => false
  | m + 1 =>
    (s0.cur != 1 || (match s0.ctl with
      | .eval _ => match s0.hs 0 with
        | some ⟨.pull, _, some ⟨1, .syn⟩⟩ => true
        | _ => false
      | _ => true)) &&
    match step prog s0 with
    | .next s1 => argOk s1 m
    | _ => true

theorem argOk_spec : ∀ {m : Nat} {s0 : St Pt Unit Nat Nat}, argOk s0 m = true → ∀ n t, run prog n s0 = .next t → t.cur = 1 → UserRuns t →
    Refers t 0 .pull (some ⟨1, .syn⟩)
  | m + 1, s0, h, 0, t, hr, hc, ⟨l, hl⟩ => by
    cases hr
    simp only [argOk, Bool.and_eq_true, Bool.or_eq_true] at h
    have h1 := h.1
    simp only [hc, hl, bne_self_eq_false, Bool.false_eq_true, false_or] at h1
    split at h1
    · exact ⟨_, by assumption, rfl, rfl⟩
    · cases h1
  | m + 1, s0, h, n + 1, t, hr, hc, hu => by
    simp only [argOk, Bool.and_eq_true] at h
    simp only [run] at hr
    cases hs : step prog s0 with
    | next s1 =>
      rw [hs] at hr
      have h2 := h.2
      rw [hs] at h2
      exact argOk_spec h2 n t hr hc hu
    | _ => rw [hs] at hr; cases hr

theorem meaningful : Coro.Meaningful prog (.main [1, 2, 3, 0]) () := C55_ends_meaningful (n := 60) (.inr (by rfl))
theorem meaningful' : Coro.Meaningful prog (.main [1, 5, 7]) () := C55_ends_meaningful (n := 100) (.inl (by rfl))
theorem reach : Reach prog (.main [1, 2, 3, 0]) () (stateAt [1, 2, 3, 0] 6) := .step (.step (.step (.step (.step (.step .init rfl) rfl) rfl) rfl) rfl) rfl
theorem reach' : Reach prog (.main [1, 5, 7]) () (stateAt [1, 5, 7] 6) := .step (.step (.step (.step (.step (.step .init rfl) rfl) rfl) rfl) rfl) rfl

/-- at every point in time: if the function has ended, then with the sum of the values pushed; if it is about to look at a value, it has the
sum of the values pushed before it -/
theorem always {n : Nat} {t : St Pt Unit Nat Nat} (hr : run prog n (stateAt [1, 2, 3, 0] 6) = .next t) :
    (∀ x, .fin 1 x ∈ t.log → x = some (pushedList 1 t.log).sum) ∧
      ∀ acc, t.cur = 1 → t.ctl = .eval (.look 0 acc) → ∃ w, acc + w = (pushedList 1 t.log).sum := by
  obtain ⟨ys, ⟨p, o, w⟩, h1, h2, h3, h4⟩ := C70_sink (c := 1) (h := 0) (v := 1) meaningful reach rfl (by decide) rfl rfl rfl rfl rfl self
    (argOk_spec (m := 60) (by decide +kernel)) hr
  have hl : (pushedList 1 t.log).sum = 1 + ys.sum := by
    rw [h1, show pushedList 1 (stateAt [1, 2, 3, 0] 6).log = [1] from rfl]; simp
  obtain ⟨h5, h6⟩ := solo h2
  simp only at h5 h6
  subst h5
  constructor
  · intro x hx
    have := h3 x hx
    rcases h6 with ⟨rfl, _, _⟩ | ⟨acc, rfl, _⟩ | ⟨acc, rfl, _⟩ | rfl
    · exact this.elim
    · exact this.elim
    · exact this.elim
    · rw [hl]; exact this
  · intro acc hc hl'
    obtain ⟨w', h7⟩ := h4 _ hc hl'
    simp only [Sink.Cfg.mk.injEq] at h7
    obtain ⟨rfl, _, rfl⟩ := h7
    rcases h6 with ⟨h, _, _⟩ | ⟨acc, h, h8⟩ | ⟨acc, h, _⟩ | h
    · cases h
    · cases h; exact ⟨w, by rw [hl]; exact h8⟩
    · cases h
    · cases h

/-- two programs that push `1, 2, 3, 0` and `1, 5, 7` -/
example {n n' : Nat} {t t' : St Pt Unit Nat Nat} (hr : run prog n (stateAt [1, 2, 3, 0] 6) = .next t) (hr' : run prog n' (stateAt [1, 5, 7] 6) = .next t') :
    ∃ xs ys, pushedList 1 t.log = 1 :: xs ∧ pushedList 1 t'.log = 1 :: ys ∧
      (xs <+: ys ∨ ys <+: xs → ∀ x y, .fin 1 x ∈ t.log → .fin 1 y ∈ t'.log → xs = ys ∧ x = y) :=
  C70_producers (c := 1) (c' := 1) (h := 0) (v := 1) meaningful reach rfl (by decide) rfl rfl rfl rfl rfl self (argOk_spec (m := 60) (by decide +kernel))
    meaningful' reach' rfl (by decide) rfl rfl rfl rfl rfl rfl (argOk_spec (m := 100) (by decide +kernel)) hr hr'

/-- four values have been pushed and the function has been left by the exception 6 -/
def over (t : St Pt Unit Nat Nat) : Bool :=
  pushedList 1 t.log == [1, 2, 3, 0] && t.log.any fun
    | .fin 1 (some 6) => true
    | _ => false

example : over (stateAt [1, 2, 3, 0] 42) = true := by decide +kernel
end Sum

/-! ## Example: a function that takes its values with `get()` and by calling its argument, and returns when it has got two -/
namespace Two

/-- program points -/
inductive Pt
  | one (h : Nat)
  | call (h x : Nat)
  | two (h x : Nat)
  | sum (n : Nat)
  | lost
  | main
  | feed (h : Nat) (xs : List Nat)
  | stop

/-- the program -/
def prog : Prog Pt Unit Nat Nat where
  code := fun l _ =>
    match l with
    | .one h => .api (.get h) (fun r => match r with | .val x => .call h x | _ => .lost)
    | .call h x => .api (.resume h) (fun _ => .two h x)
    | .two h x => .api (.get h) (fun r => match r with | .val y => .sum (x + y) | _ => .lost)
    | .sum n => .throw n
    | .lost => .ret
    | .main => .api (.mk .push .val .ok .one) (fun r => match r with | .handle h => .feed h [3, 4] | _ => .stop)
    | .feed h [] => .api (.destroy h) (fun _ => .stop)
    | .feed h (x :: xs) => .api (.push h (.copy x)) (fun _ => .feed h xs)
    | .stop => .ret
  mv := fun _ => 0

/-- on its own: two values in, then an exception with their sum -/
example : Runs prog 0 .val (start (.one 0) 3) [4] ⟨.throws 7, [], 0⟩ :=
  ((((Runs.here.more (.get rfl (fun _ => rfl))).more (.next (w := 4) (fun _ => rfl))).more (.get rfl (fun _ => rfl))).more (.inner (.throw (fun _ => rfl))))

end Two
end Verif
