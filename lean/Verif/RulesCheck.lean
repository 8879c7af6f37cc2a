import Verif.Rules
import Verif.Demo

/-!
# A checker for the rules

Decides `Rules P s`, so that concrete programs can be shown to obey the rules.  Used by the non-vacuity examples only; nothing
here models library code.
-/
namespace Verif
variable {L G V E : Type}

def suspendedB (k : Nat) (log : List (Ev V E)) : Bool :=
  match lastJump k log with
  | some (r, i, _) => r == ⟨k, .syn⟩ && i == k
  | none => false

def mayResumeB (s : St L G V E) (h : Nat) : Bool :=
  match s.hs h with
  | some ⟨_, _, some ⟨k, .own⟩⟩ => nFin k s.log == 0 && suspendedB k s.log
  | some ⟨_, _, some ⟨k, .syn⟩⟩ => k == s.cur
  | _ => false

def mayGetB (s : St L G V E) (h : Nat) : Bool :=
  match s.hs h with
  | some ⟨_, _, some ⟨k, .own⟩⟩ => nFin k s.log == 0
  | some ⟨_, _, some ⟨k, .syn⟩⟩ => k == s.cur
  | _ => false

def mayAskB (s : St L G V E) (h : Nat) : Bool :=
  match s.hs h with
  | some ⟨_, _, some ⟨k, .syn⟩⟩ => k == s.cur
  | some _ => true
  | none => false

def mayDestroyB (s : St L G V E) (h : Nat) : Bool :=
  match s.hs h with
  | some ⟨_, _, some ⟨k, .own⟩⟩ => suspendedB k s.log
  | some ⟨_, _, some ⟨k, .syn⟩⟩ => k == s.cur
  | some ⟨_, _, none⟩ => true
  | none => false

def goodArgB : PushArg V E → Bool
  | .faulty _ | .alias => false
  | _ => true

def opB (s : St L G V E) : Op L V E → Bool
  | .mk _ _ _ _ => true
  | .resume h => mayResumeB s h
  | .push h a => mayResumeB s h && goodArgB a
  | .get h => mayGetB s h
  | .valid h | .bang h | .itBegin h => mayAskB s h
  | .moveCtor h => (s.hs h).isSome
  | .moveAssign d c => (s.hs d).isSome && (s.hs c).isSome
  | .destroy h => mayDestroyB s h
  | .itNext i => match i with | some h => mayResumeB s h | none => false
  | .itDeref i => match i with | some h => mayGetB s h | none => false
  | .itPut i a => match i with | some h => mayResumeB s h && goodArgB a | none => false

/-- The next step destroys a coroutine object that is the top of the stack: it may be destroyed. -/
def topB (s : St L G V E) : Bool :=
  match s.fr with
  | .gCoro h :: _ => mayDestroyB s h
  | _ => true

def rulesB (P : Prog L G V E) (s : St L G V E) : Bool :=
  match s.ctl with
  | .eval l =>
    match P.code l s.g with
    | .api op _ => opB s op
    | .leave _ => topB s
    | _ => true
  | .retn => topB s
  | .raise (.user _) => topB s
  | .raise .forced =>
    topB s && (match s.fr with | .hdl true _ :: _ => false | _ => true) &&
    (match s.fr, s.base s.cur with
      | [], .inFn h | [], .final h | [], .pushEntry h _ => mayDestroyB s h
      | _, _ => true)
  | .deliver _ => match s.fr with | .fetch h :: _ | .pfetch h :: _ => mayAskB s h | _ => true
  | .recv => true

theorem suspendedB_ok {k : Nat} {log : List (Ev V E)} (h : suspendedB k log = true) : Suspended k log := by
  unfold suspendedB at h
  split at h
  · rename_i r i j hl
    simp only [Bool.and_eq_true, beq_iff_eq] at h
    exact ⟨j, by rw [hl, h.1, h.2]⟩
  · cases h

theorem mayResumeB_ok {s : St L G V E} {h : Nat} (hb : mayResumeB s h = true) : ∃ hd, s.hs h = some hd ∧ MayResume s hd := by
  unfold mayResumeB at hb
  split at hb
  · rename_i hh
    simp only [Bool.and_eq_true, beq_iff_eq] at hb
    exact ⟨_, hh, .inl ⟨_, rfl, hb.1, suspendedB_ok hb.2⟩⟩
  · rename_i hh
    simp only [beq_iff_eq] at hb
    subst hb
    exact ⟨_, hh, .inr rfl⟩
  · cases hb

theorem mayGetB_ok {s : St L G V E} {h : Nat} (hb : mayGetB s h = true) : ∃ hd, s.hs h = some hd ∧ MayGet s hd := by
  unfold mayGetB at hb
  split at hb
  · rename_i hh
    simp only [beq_iff_eq] at hb
    exact ⟨_, hh, .inl ⟨_, rfl, hb⟩⟩
  · rename_i hh
    simp only [beq_iff_eq] at hb
    subst hb
    exact ⟨_, hh, .inr rfl⟩
  · cases hb

theorem mayAskB_ok {s : St L G V E} {h : Nat} (hb : mayAskB s h = true) : ∃ hd, s.hs h = some hd ∧ MayAsk s hd := by
  unfold mayAskB at hb
  split at hb
  · rename_i hh
    simp only [beq_iff_eq] at hb
    subst hb
    exact ⟨_, hh, fun k hk => by cases hk; rfl⟩
  · rename_i hd hn hh
    exact ⟨_, hh, fun k hk => (hn hd.ty hd.va k (by rw [← hk])).elim⟩
  · cases hb

theorem mayDestroyB_ok {s : St L G V E} {h : Nat} (hb : mayDestroyB s h = true) : ∃ hd, s.hs h = some hd ∧ MayDestroy s hd := by
  unfold mayDestroyB at hb
  split at hb
  · rename_i hh
    exact ⟨_, hh, fun k hk => (by cases hk; exact suspendedB_ok hb), fun k hk => by cases hk⟩
  · rename_i hh
    simp only [beq_iff_eq] at hb
    subst hb
    exact ⟨_, hh, fun k hk => (by cases hk), fun k hk => by cases hk; rfl⟩
  · rename_i hh
    exact ⟨_, hh, fun k hk => (by cases hk), fun k hk => by cases hk⟩
  · cases hb

theorem goodArgB_ok {a : PushArg V E} (h : goodArgB a = true) : GoodArg a := by
  cases a <;> first | trivial | cases h

theorem rulesB_ok {P : Prog L G V E} {s : St L G V E} (h : rulesB P s = true) : Rules P s := by
  have op : ∀ {o : Op L V E} {k : Res V → L}, Calls P s o k → opB s o = true := by
    rintro o k ⟨l, h1, h2⟩
    simpa [rulesB, h1, h2] using h
  have top : ∀ {x : Nat} {t : List (Frame L V E)}, topB s = true → s.fr = .gCoro x :: t →
      ∃ hd, s.hs x = some hd ∧ MayDestroy s hd := by
    intro x t h1 h2
    unfold topB at h1
    rw [h2] at h1
    exact mayDestroyB_ok h1
  constructor
  · exact fun _ _ hc => mayResumeB_ok (op hc)
  · intro i k hc
    have := op hc
    cases i with
    | none => cases this
    | some x =>
      obtain ⟨hd, h1, h2⟩ := mayResumeB_ok (h := x) this
      exact ⟨_, hd, rfl, h1, h2⟩
  · intro _ _ _ hc
    have := op hc
    simp only [opB, Bool.and_eq_true] at this
    exact ⟨mayResumeB_ok this.1, goodArgB_ok this.2⟩
  · intro i a k hc
    have := op hc
    cases i with
    | none => cases this
    | some x =>
      simp only [opB, Bool.and_eq_true] at this
      obtain ⟨hd, h1, h2⟩ := mayResumeB_ok this.1
      exact ⟨⟨_, hd, rfl, h1, h2⟩, goodArgB_ok this.2⟩
  · exact fun _ _ hc => mayGetB_ok (op hc)
  · intro i k hc
    have := op hc
    cases i with
    | none => cases this
    | some x =>
      obtain ⟨hd, h1, h2⟩ := mayGetB_ok (h := x) this
      exact ⟨_, hd, rfl, h1, h2⟩
  · rintro x k (hc | hc | hc) <;> exact mayAskB_ok (op hc)
  · intro x k hc
    have := op hc
    intro hn
    simp [opB, hn] at this
  · intro d c k hc
    have := op hc
    simp only [opB, Bool.and_eq_true] at this
    exact ⟨fun hn => by simp [hn] at this, fun hn => by simp [hn] at this⟩
  · intro x hd
    cases hd with
    | api hc => exact mayDestroyB_ok (op hc)
    | leave h1 h2 h3 => exact top (by simpa [rulesB, h1, h2] using h) h3
    | @raise y t h1 h2 =>
      cases y with
      | user e => exact top (by simpa [rulesB, h1] using h) h2
      | forced =>
        simp only [rulesB, h1, Bool.and_eq_true] at h
        exact top h.1.1 h2
    | ret h1 h2 => exact top (by simpa [rulesB, h1] using h) h2
    | arg h1 h2 h3 =>
      simp only [rulesB, h1, h2, Bool.and_eq_true] at h
      rcases h3 with h3 | h3 | ⟨fn, h3⟩ <;> rw [h3] at h <;> exact mayDestroyB_ok h.2
  · intro r x t h1 h2
    rcases h2 with h2 | h2 <;> simp only [rulesB, h1, h2] at h <;> exact mayAskB_ok h
  · intro f t h1 h2
    simp [rulesB, h1, h2] at h

/-- The rules are obeyed by the execution from `s`, which ends within `n` steps. -/
def okRun (P : Prog L G V E) : Nat → St L G V E → Bool
  | 0, _ => false
  | n+1, s => rulesB P s && match step P s with | .next s' => okRun P n s' | _ => true

/-- The rules are obeyed in the first `n` states of the execution from `s`. -/
def okPre (P : Prog L G V E) : Nat → St L G V E → Bool
  | 0, _ => true
  | n+1, s => rulesB P s && match step P s with | .next s' => okPre P n s' | _ => false

theorem obeys_of {P : Prog L G V E} {l0 : L} {g0 : G} (n : Nat) (h : okRun P n (init l0 g0) = true) : Obeys P l0 g0 := by
  have key : ∀ s, Reach P l0 g0 s → ∃ m, okRun P m s = true := by
    intro s hr
    induction hr with
    | init => exact ⟨n, h⟩
    | step _ hs ih =>
      obtain ⟨m, hm⟩ := ih
      cases m with
      | zero => cases hm
      | succ m =>
        simp only [okRun, hs, Bool.and_eq_true] at hm
        exact ⟨m, hm.2⟩
  intro s hr
  obtain ⟨m, hm⟩ := key s hr
  cases m with
  | zero => cases hm
  | succ m =>
    simp only [okRun, Bool.and_eq_true] at hm
    exact rulesB_ok hm.1

theorem reachOk_run {P : Prog L G V E} {l0 : L} {g0 : G} : ∀ (n : Nat) {s : St L G V E}, ReachOk P l0 g0 s → okPre P n s = true →
    ∃ s', run P n s = .next s' ∧ ReachOk P l0 g0 s'
  | 0, s, hr, _ => ⟨s, rfl, hr⟩
  | n+1, s, hr, h => by
    simp only [okPre, Bool.and_eq_true] at h
    obtain ⟨h1, h2⟩ := h
    split at h2
    · rename_i s1 hs
      obtain ⟨s', h3, h4⟩ := reachOk_run n (hr.step (rulesB_ok h1) hs) h2
      exact ⟨s', by simp only [run, hs, h3], h4⟩
    · cases h2

namespace Demo

theorem reachOk (c : C) (n : Nat) (h : okPre P n (init c []) = true) : ReachOk P c [] (stateAt c n) := by
  obtain ⟨s', h1, h2⟩ := reachOk_run n .init h
  have : stateAt c n = s' := by unfold stateAt; rw [h1]; rfl
  rw [this]; exact h2

theorem obeys (c : C) (n : Nat) (h : okRun P n (init c []) = true) : Obeys P c [] := obeys_of n h

end Demo
end Verif
namespace Verif.Demo
example : Obeys P pullMain [] := obeys _ 40 rfl
example : Obeys P pushMain [] := obeys _ 40 rfl
example : Obeys P fullMain [] := obeys _ 50 rfl
example : Obeys P throwMain [] := obeys _ 40 rfl
example : Obeys P earlyMain [] := obeys _ 40 rfl
end Verif.Demo
