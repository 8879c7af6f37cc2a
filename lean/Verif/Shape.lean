import Verif.Machine

/-!
# Shapes of context stacks

Auxiliary (proof) definitions: which frames can be where.  No library code is modelled here.
-/
namespace Verif
variable {L G V E : Type}

@[simp, grind =] theorem upd_same {α β : Type} [DecidableEq α] (f : α → β) (a : α) (b : β) : upd f a b a = b := by
  simp [upd]
theorem upd_ne {α β : Type} [DecidableEq α] (f : α → β) {a x : α} (b : β) (h : x ≠ a) : upd f a b x = f x := by
  simp [upd, h]
@[grind =] theorem upd_apply {α β : Type} [DecidableEq α] (f : α → β) (a x : α) (b : β) :
    upd f a b x = if x = a then b else f x := rfl

@[simp, grind =] theorem partner_partner (r : CbRef) : r.partner.partner = r := by
  rcases r with ⟨k, _ | _⟩ <;> rfl
@[simp, grind =] theorem partner_own (k : Nat) : CbRef.partner ⟨k, .own⟩ = ⟨k, .syn⟩ := rfl
@[simp, grind =] theorem partner_syn (k : Nat) : CbRef.partner ⟨k, .syn⟩ = ⟨k, .own⟩ := rfl
@[simp, grind =] theorem partner_co (r : CbRef) : r.partner.co = r.co := rfl
theorem partner_ne (r : CbRef) : r.partner ≠ r := by
  rcases r with ⟨k, _ | _⟩ <;> simp
theorem partner_inj {r q : CbRef} (h : r.partner = q.partner) : r = q := by
  have := congrArg CbRef.partner h; simpa using this

def Frame.isU : Frame L V E → Bool
  | .gObj _ | .gCoro _ | .hdl _ _ | .fnRet _ => true
  | _ => false

/-- only user scopes -/
def okU (fs : List (Frame L V E)) : Bool := fs.all Frame.isU

def okUsr : List (Frame L V E) → Bool
  | .usr _ :: t => okU t
  | _ => false

/-- user code waiting, possibly with library epilogue -/
def okPost : List (Frame L V E) → Bool
  | .usr _ :: t => okU t
  | .fetch _ :: t | .pfetch _ :: t | .resid _ :: t => okUsr t
  | _ => false

/-- contexts inside user code: main or the coroutine-function -/
def Base.isBody : Base L → Bool
  | .main | .inFn _ => true
  | _ => false

/-- the entry lambda is being left -/
def Base.isLam : Base L → Bool
  | .lamA | .lamB => true
  | _ => false

/-- the stack when a library function returns to it -/
def okRet (b : Base L) : List (Frame L V E) → Bool
  | [] => b.isLam
  | .usr _ :: t => okU t && b.isBody
  | .fetch _ :: t | .pfetch _ :: t | .resid _ :: t => okUsr t && b.isBody
  | .ctorFail _ :: t | .ctorDrop _ :: t => okUsr t && b.isBody
  | .cRaise _ :: t => (okU t || okUsr t) && b.isBody
  | .cRet :: t | .cLeave _ :: t => okU t && b.isBody
  | _ => false

/-- the stack of a switched-out context -/
def okSw (b : Base L) : List (Frame L V E) → Bool
  | [] => match b with | .fresh _ | .pushEntry _ _ | .final _ => true | _ => false
  | .asg _ :: t => okPost t && b.isBody
  | .pullCtor _ :: t | .pushCtor _ :: t => okUsr t && b.isBody
  | .wait :: t => okRet b t
  | _ => false

/-- the stack while a user exception propagates -/
def okRaiseU (b : Base L) (fs : List (Frame L V E)) : Bool := (okU fs || okPost fs) && b.isBody

/-- the stack while `forced_unwind` propagates -/
def okRaiseF (b : Base L) : List (Frame L V E) → Bool
  | [] => match b with | .pushEntry _ _ | .final _ | .main | .inFn _ => true | _ => false
  | .asg _ :: t => okPost t && b.isBody
  | .pullCtor _ :: t | .pushCtor _ :: t => okUsr t && b.isBody
  | fs => okRaiseU b fs

/-- The control block whose `c` the fiber handed to this (switched-out) context will be stored in. -/
def hole (b : Base L) (t : Nat) : List (Frame L V E) → Option CbRef
  | .asg r :: _ => some r
  | .pullCtor k :: _ | .pushCtor k :: _ => some ⟨k, .own⟩
  | [] => match b with | .fresh _ | .pushEntry _ _ | .final _ => some ⟨t, .syn⟩ | _ => none
  | _ => none

def waitTop : List (Frame L V E) → Bool
  | .wait :: _ => true
  | _ => false

def Frame.isCF : Frame L V E → Bool
  | .cRaise .forced => true
  | _ => false

/-- a context in the middle of being unwound / leaving its entry lambda -/
def unwB (b : Base L) (fs : List (Frame L V E)) : Bool :=
  fs.any Frame.isCF || b.isLam

/-- coroutine whose constructor is waiting in this context -/
def ctorOf : List (Frame L V E) → Option Nat
  | .pullCtor k :: _ | .pushCtor k :: _ => some k
  | _ => none

theorem okU_noCF {fs : List (Frame L V E)} (h : okU fs = true) : fs.any Frame.isCF = false := by
  induction fs with
  | nil => rfl
  | cons f t ih =>
    simp only [okU, List.all_cons, Bool.and_eq_true] at h
    rw [List.any_cons, ih h.2]
    cases f <;> simp_all [Frame.isU, Frame.isCF]

theorem okUsr_noCF {fs : List (Frame L V E)} (h : okUsr fs = true) : fs.any Frame.isCF = false := by
  cases fs with
  | nil => rfl
  | cons f t =>
    cases f <;> simp [okUsr] at h
    rw [List.any_cons, okU_noCF h]; rfl

theorem okPost_noCF {fs : List (Frame L V E)} (h : okPost fs = true) : fs.any Frame.isCF = false := by
  cases fs with
  | nil => rfl
  | cons f t =>
    cases f <;> simp [okPost] at h <;> rw [List.any_cons] <;>
      first | rw [okU_noCF h]; rfl | rw [okUsr_noCF h]; rfl

theorem body_noLam {b : Base L} (h : b.isBody = true) :
    b.isLam = false := by
  cases b <;> simp_all [Base.isBody, Base.isLam]

theorem hole_not_unw {b : Base L} {t : Nat} {fs : List (Frame L V E)} {r : CbRef} (h : okSw b fs = true)
    (hh : hole b t fs = some r) : unwB b fs = false := by
  cases fs with
  | nil => cases b <;> simp_all [okSw, hole, unwB, Base.isLam]
  | cons f tl =>
    cases f <;> simp [hole] at hh <;> simp [okSw] at h <;> simp only [unwB, List.any_cons, body_noLam h.2] <;>
      first | rw [okPost_noCF h.1]; rfl | rw [okUsr_noCF h.1]; rfl

theorem hole_not_wait {b : Base L} {t : Nat} {fs : List (Frame L V E)} {r : CbRef}
    (hh : hole b t fs = some r) : waitTop fs = false := by
  cases fs with
  | nil => rfl
  | cons f tl => cases f <;> simp_all [hole, waitTop]

/-- switched out, not inside `~fiber()`, not fresh: can be unwound -/
theorem okRaiseF_of_okSw {b : Base L} {t : Nat} {fs : List (Frame L V E)} {r : CbRef} (h : okSw b fs = true)
    (hh : hole b t fs = some r) (hf : ∀ fn, b ≠ .fresh fn) : okRaiseF b fs = true := by
  cases fs with
  | nil => cases b <;> simp_all [okSw, hole, okRaiseF]
  | cons f tl =>
    cases f <;> simp [hole] at hh <;> simp [okSw] at h <;> simp [okRaiseF, h]

theorem hole_or_wait {b : Base L} {t : Nat} {fs : List (Frame L V E)} (h : okSw b fs = true) :
    (∃ r, hole b t fs = some r) ∨ waitTop fs = true := by
  cases fs with
  | nil => cases b <;> simp_all [okSw, hole]
  | cons f tl => cases f <;> simp_all [okSw, hole, waitTop]

end Verif
