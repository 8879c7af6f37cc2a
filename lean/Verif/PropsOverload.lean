import Verif.Overload

/-!
# C68: which constructor, assignment and `operator()` a call means
-/
namespace Verif.Overload

variable {env : Env} {x : Cls} {a : Arg}

/-- The argument is an object of the class, or of a class derived from it. -/
inductive IsObject (env : Env) (t : Ty) : Ty → Prop where
  | same : IsObject env t t
  | derived {n : Nat} (h : env.base n t = true) : IsObject env t (.other n)

/-- The argument can be changed by its receiver without anybody noticing: a temporary, or `std::move` of something that is not `const`. -/
def Arg.expiring (a : Arg) : Prop := a.rval = true ∧ a.const = false

instance (a : Arg) : Decidable a.expiring := by unfold Arg.expiring; infer_instance

theorem isBaseOf_iff : isBaseOf env x.ty a.ty = true ↔ IsObject env x.ty a.ty := by
  obtain ⟨ty, c, r⟩ := a
  constructor
  · intro h
    cases ty with
    | other n =>
      simp only [isBaseOf, Bool.or_eq_true, beq_iff_eq] at h
      rcases h with h | h
      · cases x <;> cases h
      · exact .derived h
    | _ => simp only [isBaseOf, beq_iff_eq] at h; rw [← h]; exact .same
  · intro h
    generalize hy : x.ty = y at h ⊢
    show isBaseOf env y ty = true
    cases h with
    | same => cases ty <;> simp [isBaseOf]
    | derived h => simp [isBaseOf, h]

/-! what each kind of argument can be bound to -/
theorem block_ne : x.ty ≠ x.block := by cases x <;> simp [Cls.ty, Cls.block]
theorem other_ne {n : Nat} : Ty.other n ≠ x.ty := by cases x <;> simp [Cls.ty]
theorem other_ne_block {n : Nat} : Ty.other n ≠ x.block := by cases x <;> simp [Cls.block]

theorem constRef_same {t : Ty} {c r : Bool} : toConstRef env t ⟨t, c, r⟩ = some ⟨0, some (false, true)⟩ := if_pos rfl
theorem rvalueRef_same {t : Ty} {c r : Bool} : toRvalueRef env t ⟨t, c, r⟩ = if r && !c then some ⟨0, some (true, false)⟩ else none := if_pos rfl
theorem constRef_derived {t : Ty} {n : Nat} {c r : Bool} (hs : Ty.other n ≠ t) (h : env.base n t = true) :
    toConstRef env t ⟨.other n, c, r⟩ = some ⟨1, some (false, true)⟩ := by simp [toConstRef, hs, h]
theorem rvalueRef_derived {t : Ty} {n : Nat} {c r : Bool} (hs : Ty.other n ≠ t) (h : env.base n t = true) :
    toRvalueRef env t ⟨.other n, c, r⟩ = if r && !c then some ⟨1, some (true, false)⟩ else none := by simp [toRvalueRef, hs, h]
theorem constRef_other {t : Ty} (h : ¬ IsObject env t a.ty) :
    (toConstRef env t a = none ∧ toRvalueRef env t a = none ∧ ¬ ∃ n, a.ty = .other n ∧ env.conv n t = true) ∨
    (toConstRef env t a = some ⟨2, some (false, true)⟩ ∧ toRvalueRef env t a = some ⟨2, some (true, false)⟩ ∧ ∃ n, a.ty = .other n ∧ env.conv n t = true) := by
  obtain ⟨ty, c, r⟩ := a
  simp only at h
  have hs : ty ≠ t := by rintro rfl; exact h .same
  cases ty with
  | other n =>
    have hd : ¬ env.base n t = true := fun hh => h (.derived hh)
    by_cases hc : env.conv n t = true
    · right; simp [toConstRef, toRvalueRef, hs, hd, hc]
    · left; simp [toConstRef, toRvalueRef, hs, hd, hc]
  | _ => left; simp [toConstRef, toRvalueRef, hs]
theorem block_same {c r : Bool} : toBlock env x ⟨x.ty, c, r⟩ = none := by cases x <;> simp [toBlock, Cls.ty, Cls.block]
theorem block_other {n : Nat} {c r : Bool} : toBlock env x ⟨.other n, c, r⟩ = none ∨ toBlock env x ⟨.other n, c, r⟩ = some ⟨2, none⟩ := by
  by_cases h : env.conv n x.block = true
  · right; simp [toBlock, other_ne_block, h]
  · left; simp [toBlock, other_ne_block, h]
theorem block_not (h : a.ty ≠ x.block) : toBlock env x a = none ∨ toBlock env x a = some ⟨1, none⟩ ∨ toBlock env x a = some ⟨2, none⟩ := by
  obtain ⟨ty, c, r⟩ := a
  simp only at h
  cases ty with
  | other n => rcases block_other (env := env) (x := x) (n := n) (c := c) (r := r) with h | h <;> simp [h]
  | null => right; left; simp [toBlock, h]
  | _ => left; simp [toBlock, h]

/-- C68: from an object of the class itself, or of one derived from it, a coroutine object is made by the move constructor, if the argument
is expiring; otherwise the program is ill-formed.  Under no circumstances is a coroutine object taken for a function. -/
theorem C68_object (h : IsObject env x.ty a.ty) (inside : Bool) :
    construct env x inside a = if a.expiring then .made .move else .illFormed := by
  have hg : disableOverload env x a = false := by simp [disableOverload, isBaseOf_iff.2 h]
  obtain ⟨ty, c, r⟩ := a
  simp only at h
  simp only [construct, direct, hg, toFn]
  by_cases hs : ty = x.ty
  · subst hs
    rw [block_same, constRef_same, rvalueRef_same]
    cases c <;> cases r <;> rfl
  · obtain ⟨n, rfl, hb⟩ : ∃ n, ty = .other n ∧ env.base n x.ty = true := by
      generalize hy : x.ty = y at h hs
      cases h with
      | same => exact absurd rfl hs
      | derived hb => exact ⟨_, rfl, hb⟩
    rw [constRef_derived hs hb, rvalueRef_derived hs hb]
    rcases block_other (env := env) (x := x) (n := n) (c := c) (r := r) with e | e <;> rw [e] <;> cases c <;> cases r <;> rfl

/-- C68: anything else, whatever it can be converted to, is taken for the function, unless it is a pointer to a control block. -/
theorem C68_function (h : ¬ IsObject env x.ty a.ty) (hb : a.ty ≠ x.block) (inside : Bool) : construct env x inside a = .made .fn := by
  have hg : disableOverload env x a = true := by
    simp only [disableOverload, Bool.not_eq_true']
    cases hh : isBaseOf env x.ty a.ty with
    | false => rfl
    | true => exact absurd (isBaseOf_iff.1 hh) h
  simp only [construct, direct, hg, toFn]
  obtain ⟨ty, c, r⟩ := a
  rcases constRef_other h with ⟨e1, e2, _⟩ | ⟨e1, e2, _⟩ <;> rcases block_not (env := env) hb with e | e | e <;> rw [e, e1, e2] <;> cases c <;> cases r <;> rfl

/-- C68: the counterpart given to the function is made from the pointer to its control block: `synthesized{ & synthesized_cb }`
(pull_control_block_cc.ipp:53, 82, 209, 238, 341, 370; push_control_block_cc.ipp:52, 83, 183, 214, 301, 332) does not start another coroutine,
although the constructor template would take the pointer, too.  Outside the library that constructor cannot be used. -/
theorem C68_synthesized (h : a.ty = x.block) (inside : Bool) : construct env x inside a = if inside then .made .block else .illFormed := by
  obtain ⟨ty, c, r⟩ := a
  simp only at h
  subst h
  have e : toBlock env x ⟨x.block, c, r⟩ = some ⟨0, none⟩ := if_pos rfl
  simp only [construct, direct, e]
  cases x <;> cases c <;> cases r <;> cases inside <;> rfl

/-- C68: a coroutine is never started by an implicit conversion: a function passed where a coroutine object is expected is refused; an object of
the class is accepted if it is expiring. -/
theorem C68_implicit : convert env x a = .made .move ∧ IsObject env x.ty a.ty ∧ a.expiring ∨
    convert env x a = .illFormed ∧ ¬ (IsObject env x.ty a.ty ∧ a.expiring) := by
  have hcc : ∀ y, IsObject { env with conv := fun _ _ => false } x.ty y ↔ IsObject env x.ty y := fun y => by
    generalize x.ty = z
    exact ⟨fun h => by cases h with | same => exact .same | derived h => exact .derived h, fun h => by cases h with | same => exact .same | derived h => exact .derived h⟩
  by_cases h : IsObject env x.ty a.ty
  · have key : convert env x a = if a.expiring then .made .move else .illFormed := by
      obtain ⟨ty, c, r⟩ := a
      simp only at h
      simp only [convert, implicit]
      by_cases hs : ty = x.ty
      · subst hs
        rw [constRef_same, rvalueRef_same]
        cases c <;> cases r <;> rfl
      · obtain ⟨n, rfl, hb⟩ : ∃ n, ty = .other n ∧ env.base n x.ty = true := by
          generalize hy : x.ty = y at h hs
          cases h with
          | same => exact absurd rfl hs
          | derived hb => exact ⟨_, rfl, hb⟩
        rw [constRef_derived (env := { env with conv := fun _ _ => false }) hs hb, rvalueRef_derived (env := { env with conv := fun _ _ => false }) hs hb]
        cases c <;> cases r <;> rfl
    rw [key]
    by_cases he : a.expiring
    · exact .inl ⟨if_pos he, h, he⟩
    · exact .inr ⟨if_neg he, fun hh => he hh.2⟩
  · refine .inr ⟨?_, fun hh => h hh.1⟩
    simp only [convert, implicit]
    rcases constRef_other (mt (hcc _).1 h) with ⟨e1, e2, _⟩ | ⟨_, _, _, _, h3⟩
    · rw [e1, e2]; rfl
    · cases h3

open Classical in
/-- both overloads of a function that takes `X const&` and `X &&` -/
theorem pair {α : Type} [DecidableEq α] {p q : α} (hpq : p ≠ q) (t : Ty) :
    resolve [⟨p, false, toConstRef env t a⟩, ⟨q, false, toRvalueRef env t a⟩] =
    if IsObject env t a.ty then (if a.expiring then .chosen q else .chosen p)
    else if ∃ n, a.ty = .other n ∧ env.conv n t = true then .chosen q else .none := by
  have hqp : q ≠ p := Ne.symm hpq
  by_cases h : IsObject env t a.ty
  · rw [if_pos h]
    obtain ⟨ty, c, r⟩ := a
    simp only at h
    by_cases hs : ty = t
    · subst hs
      rw [constRef_same, rvalueRef_same]
      cases c <;> cases r <;> simp [resolve, viable, beats, Ics.better, Arg.expiring, hpq]
    · cases h with
      | same => exact absurd rfl hs
      | @derived n hb =>
        rw [constRef_derived hs hb, rvalueRef_derived hs hb]
        cases c <;> cases r <;> simp [resolve, viable, beats, Ics.better, Arg.expiring, hpq]
  · rw [if_neg h]
    rcases constRef_other h with ⟨e1, e2, e3⟩ | ⟨e1, e2, e3⟩
    · rw [e1, e2, if_neg e3]; rfl
    · rw [e1, e2, if_pos e3]
      simp [resolve, viable, beats, Ics.better, hpq]

/-- C68: only an expiring object of the class (or something that its own class converts to one) can be assigned; a function cannot. -/
theorem C68_assign : assignable env x a = true ↔
    (IsObject env x.ty a.ty ∧ a.expiring) ∨ (¬ IsObject env x.ty a.ty ∧ ∃ n, a.ty = .other n ∧ env.conv n x.ty = true) := by
  rw [assignable, assigns, pair (by decide)]
  by_cases h : IsObject env x.ty a.ty
  · by_cases he : a.expiring <;> simp [h, he]
  · by_cases he : ∃ n, a.ty = .other n ∧ env.conv n x.ty = true
    · rw [if_neg h, if_pos he]; simp [h, he]
    · rw [if_neg h, if_neg he]
      exact ⟨fun hh => (by cases hh), fun hh => hh.elim (fun hh => absurd hh.1 h) (fun hh => absurd hh.2 he)⟩

open Classical in
/-- C68: an object that is pushed is moved from if it is expiring, and copied otherwise; something else is converted, if it can be, and the
result of the conversion is moved from; or else the program is ill-formed. -/
theorem C68_push (t : Ty) : resolve (calls env t a) =
    if IsObject env t a.ty then (if a.expiring then .chosen .move else .chosen .copy)
    else if ∃ n, a.ty = .other n ∧ env.conv n t = true then .chosen .move else .none := pair (by decide) t

/-- C68: to a `push_coroutine< T & >` only an object that has a name and may be changed can be pushed, so what the receiver gets never is a
temporary. -/
theorem C68_push_ref (t : Ty) : callsRef env t false a = true ↔ IsObject env t a.ty ∧ a.rval = false ∧ a.const = false := by
  obtain ⟨ty, c, r⟩ := a
  by_cases hs : ty = t
  · subst hs
    cases c <;> cases r <;> simp [callsRef, toLvalueRef, IsObject.same]
  · have hi : IsObject env t ty ↔ ∃ n, ty = .other n ∧ env.base n t = true := ⟨fun h => by
        cases h with
        | same => exact absurd rfl hs
        | derived h => exact ⟨_, rfl, h⟩, fun ⟨n, e, h⟩ => e ▸ .derived h⟩
    simp only [hi]
    cases ty <;> cases c <;> cases r <;> simp [callsRef, toLvalueRef, hs]

/-- C68: why the constructor template is guarded: without `disable_overload` an object of the class that has a name and is not `const` would be
taken for the function … -/
theorem C68_guard_needed : (resolve (direct env x true ⟨x.ty, false, false⟩)).init false = .made .fn := by
  simp only [direct, toFn]
  rw [block_same, constRef_same, rvalueRef_same]
  rfl

/-- … and so would every object of a derived class, even an expiring one, which could not be moved any more. -/
theorem C68_guard_needed_derived {n : Nat} (h : env.base n x.ty = true) (const rval : Bool) :
    (resolve (direct env x true ⟨.other n, const, rval⟩)).init false = .made .fn := by
  simp only [direct, toFn]
  rw [constRef_derived other_ne h, rvalueRef_derived other_ne h]
  rcases block_other (env := env) (x := x) (n := n) (c := const) (r := rval) with e | e <;> rw [e] <;> cases const <;> cases rval <;> rfl

/-! ## Examples -/

/-- type 1 is derived from `pull_coroutine< T >`, type 2 is converted to it by a function of its own, type 3 (a lambda) is neither; type 4 is converted to type 5 -/
def exEnv : Env where
  base n t := n == 1 && t == .pull 0
  conv n t := (n == 2 && t == .pull 0) || (n == 4 && t == .other 5)

/-- C68: objects of the class and of a derived class -/
example : IsObject exEnv (Cls.pull 0).ty (.pull 0) ∧ IsObject exEnv (Cls.pull 0).ty (.other 1) ∧ Arg.expiring ⟨.other 1, false, true⟩ :=
  ⟨.same, .derived rfl, rfl, rfl⟩
/-- C68: a lambda, a coroutine object of the other class, and something that can be converted to a coroutine object -/
example : (∀ t ∈ [Ty.other 3, .push 0, .other 2], ¬ IsObject exEnv (Cls.pull 0).ty t ∧ t ≠ (Cls.pull 0).block) := by
  intro t ht
  simp only [List.mem_cons, List.not_mem_nil, or_false] at ht
  rcases ht with rfl | rfl | rfl
  · exact ⟨fun h => (by cases h with | derived h => exact absurd h (by decide)), by decide⟩
  · exact ⟨(fun h => nomatch h), by decide⟩
  · exact ⟨fun h => (by cases h with | derived h => exact absurd h (by decide)), by decide⟩
/-- C68: `pull_type c = convertible` is a matter of the other class, `pull_type c( convertible)` takes it for the function; it can be assigned -/
example : construct exEnv (.pull 0) false ⟨.other 2, false, true⟩ = .made .fn ∧ assignable exEnv (.pull 0) ⟨.other 2, false, true⟩ = true := by
  decide
/-- C68: a value that is converted before it is pushed -/
example : resolve (calls exEnv (.other 5) ⟨.other 4, false, false⟩) = .chosen .move ∧ resolve (calls exEnv (.other 5) ⟨.other 5, false, false⟩) = .chosen .copy := by
  decide
/-- C68: a reference -/
example : callsRef exEnv (.pull 0) false ⟨.other 1, false, false⟩ = true ∧ callsRef exEnv (.pull 0) false ⟨.other 1, false, true⟩ = false := by decide

end Verif.Overload
