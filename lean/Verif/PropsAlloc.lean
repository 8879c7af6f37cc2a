import Verif.Alloc
import Verif.Flags

/-!
# Placement of the control block, and the state flags (C29, C30, C31)
-/
namespace Verif

section Aux

theorem subSz_eq {a b : Nat} (h : b ≤ a) (ha : a < addrs) : subSz a b = a - b := by
  unfold subSz addrs at *
  omega

theorem subSz_wrap {a b : Nat} (h : a < b) (hb : b < addrs) : subSz a b = addrs - (b - a) := by
  unfold subSz addrs at *
  omega

theorem subSz_two {a b c : Nat} (h : b + c ≤ a) (ha : a < addrs) : subSz (subSz a b) c = a - b - c := by
  have h1 := subSz_eq (a := a) (b := b) (by omega) ha
  rw [h1]
  exact subSz_eq (a := a - b) (b := c) (by omega) (by omega)

/-- The address handed over and what remains, if nothing wraps around. -/
theorem subSz_rest {n a q : Nat} (h1 : q ≤ a) (h2 : a - q ≤ n) (ha : a < addrs) (hn : n < addrs) :
    subSz n (subSz a q) = n - (a - q) := by
  have h3 := subSz_eq (a := a) (b := q) h1 ha
  rw [h3]
  exact subSz_eq (a := n) (b := a - q) h2 hn

theorem subSz_rest_wrap {n a q : Nat} (h1 : q ≤ a) (h2 : n < a - q) (ha : a < addrs) :
    subSz n (subSz a q) = addrs - (a - q - n) := by
  have h3 := subSz_eq (a := a) (b := q) h1 ha
  rw [h3]
  exact subSz_wrap (a := n) (b := a - q) h2 (by omega)

theorem roundUp_dvd (al x : Nat) : al ∣ roundUp al x := ⟨(x + al - 1) / al, Nat.mul_comm _ _⟩

theorem roundUp_le {al : Nat} (h : 0 < al) (x : Nat) : x ≤ roundUp al x ∧ roundUp al x < x + al := by
  unfold roundUp
  have h1 := Nat.div_add_mod (x + al - 1) al
  have h2 := Nat.mod_lt (x + al - 1) h
  rw [Nat.mul_comm] at h1
  omega

theorem roundUp_of_dvd {al x : Nat} (h : 0 < al) (hd : al ∣ x) : roundUp al x = x := by
  obtain ⟨c, rfl⟩ := hd
  unfold roundUp
  have : al * c + al - 1 = (al - 1) + al * c := by omega
  rw [this, Nat.add_mul_div_left _ _ h, Nat.div_eq_of_lt (by omega), Nat.zero_add, Nat.mul_comm]

theorem placeAligned_of {c : StackCtx} {fs x q : Nat} (h1 : subSz (subSz c.sp fs) 64 = x) (h2 : roundUp 64 x = q)
    (h3 : q ≤ x + 64) : placeAligned c fs = some ⟨q, subSz c.size (subSz c.sp q)⟩ := by
  have h4 : stdAlign 64 fs x (fs + 64) = some q := by
    unfold stdAlign
    rw [h2, if_pos (by omega)]
  unfold placeAligned
  rw [h1, h4]
  exact Option.map_some _ _

end Aux

/-- C29: if the stack has room for the control block and 64 bytes more, the assertion holds, the block is placed 64-byte aligned and
completely inside the stack, at most 64 bytes are wasted above it, and the size handed to the context is exactly the space below it. -/
theorem C29_placed (c : StackCtx) (fs : Nat) (hsp : c.sp < addrs) (hsz : c.size ≤ c.sp) (hfit : fs + 64 ≤ c.size) :
    ∃ p, placeAligned c fs = some p ∧ 64 ∣ p.sp ∧ c.bottom ≤ p.sp ∧ p.sp + fs ≤ c.sp ∧ c.sp ≤ p.sp + fs + 64 ∧
      p.size = p.sp - c.bottom := by
  have h1 : subSz (subSz c.sp fs) 64 = c.sp - fs - 64 :=
    subSz_two (by omega) hsp
  have h2 := roundUp_le (al := 64) (by decide) (c.sp - fs - 64)
  have h3 := roundUp_dvd 64 (c.sp - fs - 64)
  obtain ⟨q, hq⟩ : ∃ q, roundUp 64 (c.sp - fs - 64) = q := ⟨_, rfl⟩
  rw [hq] at h2 h3
  have h4 : subSz c.size (subSz c.sp q) = q - (c.sp - c.size) := by
    have := subSz_rest (n := c.size) (a := c.sp) (q := q) (by omega) (by omega) hsp (by omega)
    omega
  refine ⟨⟨q, subSz c.size (subSz c.sp q)⟩, placeAligned_of h1 hq (by omega), h3, ?_, ?_, ?_, h4⟩
  · show c.sp - c.size ≤ q; omega
  · show q + fs ≤ c.sp; omega
  · show c.sp ≤ q + fs + 64; omega

/-- C29: the same for the branch without `std::align`; here the block is aligned only as well as the top of the stack is. -/
theorem C29_placed_plain (c : StackCtx) (fs : Nat) (hsp : c.sp < addrs) (hsz : c.size ≤ c.sp) (hfit : fs ≤ c.size) :
    c.bottom ≤ (placePlain c fs).sp ∧ (placePlain c fs).sp + fs = c.sp ∧
      (placePlain c fs).size = (placePlain c fs).sp - c.bottom ∧
      ∀ al, al ∣ fs → al ∣ c.sp → al ∣ (placePlain c fs).sp := by
  have h1 : placePlain c fs = ⟨c.sp - fs, c.size - fs⟩ := by
    unfold placePlain
    rw [subSz_eq (by omega) hsp, subSz_eq hfit (by omega)]
  rw [h1]
  refine ⟨?_, ?_, ?_, fun al h1 h2 => Nat.dvd_sub h2 h1⟩
  · show c.sp - c.size ≤ c.sp - fs; omega
  · show c.sp - fs + fs = c.sp; omega
  · show c.size - fs = c.sp - fs - (c.sp - c.size); omega

/-- C29: the condition "fits" is needed, and the code does not check it: on a stack too small for the block, the block starts below
the stack, and the size handed to the context wraps around to more than half of the address space. -/
theorem C29_too_small (c : StackCtx) (fs : Nat) (hsp : c.sp < addrs) (hfs : fs + 64 ≤ c.sp) (hs : fs ≤ 2 ^ 62)
    (hsz : c.size < fs) :
    ∃ p, placeAligned c fs = some p ∧ p.sp < c.bottom ∧ addrs / 2 < p.size := by
  have h1 : subSz (subSz c.sp fs) 64 = c.sp - fs - 64 :=
    subSz_two (by omega) hsp
  have h2 := roundUp_le (al := 64) (by decide) (c.sp - fs - 64)
  obtain ⟨q, hq⟩ : ∃ q, roundUp 64 (c.sp - fs - 64) = q := ⟨_, rfl⟩
  rw [hq] at h2
  have h3 : subSz c.size (subSz c.sp q) = addrs - (c.sp - q - c.size) :=
    subSz_rest_wrap (by omega) (by omega) hsp
  refine ⟨⟨q, subSz c.size (subSz c.sp q)⟩, placeAligned_of h1 hq (by omega), ?_, ?_⟩
  · show q < c.sp - c.size; omega
  · show addrs / 2 < subSz c.size (subSz c.sp q)
    rw [h3]
    unfold addrs
    omega

/-- C29: a 64 kB stack (Boost.Context's usual default) with the control block of a `pull_coroutine< int >`; and a stack of 32 bytes. -/
example : (placeAligned ⟨0x7f0000010000, 65536⟩ (structSize (pullMembers ⟨4, 4⟩))).map (fun p => (p.sp, p.size)) =
      some (0x7f000000ffc0, 65472) ∧ structSize (pullMembers ⟨4, 4⟩) = 40 ∧ structSize pushMembers = 32 ∧
    (placeAligned ⟨0x7f0000010000, 32⟩ (structSize (pullMembers ⟨4, 4⟩))).map (fun p => p.size) = some (2 ^ 64 - 32) := by decide +kernel

section Layout

/-- Members do not overlap and are aligned; stated by recursion over the members. -/
def LaidOut : Nat → List Ty → List Nat → Nat → Prop
  | lo, [], [], hi => lo ≤ hi
  | lo, t :: ts, o :: os, hi => lo ≤ o ∧ t.align ∣ o ∧ LaidOut (o + t.size) ts os hi
  | _, _, _, _ => False

theorem offsets_ok : ∀ (ts : List Ty) (off : Nat), (∀ t ∈ ts, 0 < t.align) → LaidOut off ts (offsets off ts).1 (offsets off ts).2
  | [], _, _ => Nat.le_refl _
  | t :: ts, off, h =>
    ⟨(roundUp_le (h t (by simp)) off).1, roundUp_dvd _ _, offsets_ok ts _ fun u hu => h u (by simp [hu])⟩

theorem laidOut_mono : ∀ (ts : List Ty) (os : List Nat) (lo : Nat) {hi hi' : Nat}, LaidOut lo ts os hi → hi ≤ hi' → LaidOut lo ts os hi'
  | [], [], _, _, _, h, h' => Nat.le_trans h h'
  | _ :: ts, _ :: os, _, _, _, h, h' => ⟨h.1, h.2.1, laidOut_mono ts os _ h.2.2 h'⟩
  | [], _ :: _, _, _, _, h, _ => h
  | _ :: _, [], _, _, _, h, _ => h

theorem structAlign_pos (ts : List Ty) : 0 < structAlign ts := by
  cases ts with
  | nil => decide
  | cons t ts =>
    show 0 < max t.align (structAlign ts)
    have := structAlign_pos ts
    omega

theorem storageOffset_eq (t : Ty) : storageOffset t = roundUp t.align 33 := by
  show roundUp t.align _ = _
  congr

end Layout

/-- C29: the members of the control block lie in it one after the other, each aligned (relative to the block) for its type. -/
theorem C29_members (t : Ty) (ht : 0 < t.align) :
    LaidOut 0 (pullMembers t) (offsets 0 (pullMembers t)).1 (structSize (pullMembers t)) ∧
    LaidOut 0 pushMembers (offsets 0 pushMembers).1 (structSize pushMembers) := by
  constructor
  · have h0 := offsets_ok (pullMembers t) 0 (by simp [pullMembers, ht])
    have h1 := (roundUp_le (structAlign_pos (pullMembers t)) (offsets 0 (pullMembers t)).2).1
    exact laidOut_mono _ _ _ h0 h1
  · exact laidOut_mono _ _ _ (offsets_ok pushMembers 0 (by simp [pushMembers])) (roundUp_le (structAlign_pos _) _).1

example : (offsets 0 (pullMembers ⟨4, 4⟩)).1 = [0, 8, 16, 24, 32, 36] := by decide +kernel

/-- C30, partial: for every `T` whose alignment is a power of two up to 64, on every stack the storage of the transferred value is
aligned for `T` and inside the control block.  Missing: types with a larger alignment, for which it is false, `C30_misaligned`. -/
theorem C30_partial (c : StackCtx) (t : Ty) (fs a : Nat) (hal : t.align = 2 ^ a) (ha : a ≤ 6)
    (hfs : fs = structSize (pullMembers t)) (hsp : c.sp < addrs) (hsz : c.size ≤ c.sp) (hfit : fs + 64 ≤ c.size) :
    ∃ p, placeAligned c fs = some p ∧ t.align ∣ storageAt t p.sp ∧ storageAt t p.sp + t.size ≤ p.sp + fs := by
  obtain ⟨p, hp, hd, -⟩ := C29_placed c fs hsp hsz hfit
  refine ⟨p, hp, ?_, ?_⟩
  · unfold storageAt
    rw [storageOffset_eq]
    refine Nat.dvd_add (Nat.dvd_trans ?_ hd) (roundUp_dvd _ _)
    rw [hal]
    exact Nat.pow_dvd_pow 2 (n := 6) ha
  · have h1 := (roundUp_le (structAlign_pos (pullMembers t)) (offsets 0 (pullMembers t)).2).1
    have h2 : (offsets 0 (pullMembers t)).2 = storageOffset t + t.size := rfl
    unfold storageAt
    subst hfs
    unfold structSize
    omega

/-- C30 is false: for every type with an alignment that is a multiple of 128, and every amount of stack that fits, there is a
64-byte aligned stack on which the storage of the transferred value is not aligned for the type. -/
theorem C30_misaligned (t : Ty) (n fs : Nat) (hal : 128 ∣ t.align) (h0 : 0 < t.align) (hfs : fs = structSize (pullMembers t))
    (hfit : fs + 64 ≤ n) (hn : n < 2 ^ 62) :
    ∃ c : StackCtx, c.size = n ∧ c.size ≤ c.sp ∧ c.sp < addrs ∧ 64 ∣ c.sp ∧
      ∃ p, placeAligned c fs = some p ∧ ¬ t.align ∣ storageAt t p.sp := by
  -- the size of the block is a multiple of 128, so a top of stack that is an even multiple of 64 gives an odd one for the block
  have hsa : t.align ∣ structAlign (pullMembers t) := by
    have : structAlign (pullMembers t) = t.align := by
      have h128 : 128 ≤ t.align := Nat.le_of_dvd h0 hal
      simp only [structAlign, pullMembers, List.foldr]
      omega
    rw [this]; exact Nat.dvd_refl _
  have hd : 128 ∣ fs := by
    rw [hfs]; exact Nat.dvd_trans (Nat.dvd_trans hal hsa) (roundUp_dvd _ _)
  have hfs0 : fs < 2 ^ 62 := by omega
  refine ⟨⟨2 ^ 63, n⟩, rfl, by show n ≤ 2 ^ 63; omega, by show 2 ^ 63 < addrs; decide, by show 64 ∣ 2 ^ 63; decide, ?_⟩
  have h1 : subSz (subSz (2 ^ 63) fs) 64 = 2 ^ 63 - fs - 64 :=
    subSz_two (by omega) (by unfold addrs; omega)
  have h64 : 64 ∣ 2 ^ 63 - fs - 64 := by
    obtain ⟨c, hc⟩ := hd
    omega
  have h2 : roundUp 64 (2 ^ 63 - fs - 64) = 2 ^ 63 - fs - 64 := roundUp_of_dvd (by decide) h64
  refine ⟨⟨2 ^ 63 - fs - 64, subSz n (subSz (2 ^ 63) (2 ^ 63 - fs - 64))⟩, placeAligned_of (c := ⟨2 ^ 63, n⟩) h1 h2 (by omega), fun hdv => ?_⟩
  have h3 : 128 ∣ storageAt t (2 ^ 63 - fs - 64) := Nat.dvd_trans hal hdv
  have h4 : 128 ∣ storageOffset t := by
    rw [storageOffset_eq]; exact Nat.dvd_trans hal (roundUp_dvd _ _)
  unfold storageAt at h3
  obtain ⟨a, ha⟩ := h3
  obtain ⟨b, hb⟩ := h4
  obtain ⟨d, hd⟩ := hd
  omega

/-- C30: a type with cache-line alignment is fine, one with twice that is not: on a 64 kB stack ending at a multiple of 4096 the
storage of a `T` with `alignof( T) == 128` ends up at an odd multiple of 64. -/
theorem C30_refuted : ∃ (c : StackCtx) (t : Ty) (p : Placed), t.align = 128 ∧ t.size = 128 ∧ c.size = 65536 ∧ 4096 ∣ c.sp ∧
    placeAligned c (structSize (pullMembers t)) = some p ∧ storageAt t p.sp % t.align = 64 :=
  ⟨⟨0x7f0000010000, 65536⟩, ⟨128, 128⟩, ⟨0x7f000000fec0, 65216⟩, by decide +kernel⟩

/-- C30: the hypotheses of `C30_partial` and `C30_misaligned` can be met. -/
example : (placeAligned ⟨0x7f0000010000, 65536⟩ (structSize (pullMembers ⟨64, 64⟩))).map (fun p => storageAt ⟨64, 64⟩ p.sp % 64) = some 0 ∧
    structSize (pullMembers ⟨64, 64⟩) + 64 ≤ 65536 ∧ structSize (pullMembers ⟨256, 256⟩) + 64 ≤ 65536 := by decide +kernel

/-- The bit that stands for a flag. -/
def flagBit (f : StateT) : Nat :=
  if f = StateT.complete then 1 else if f = StateT.unwind then 2 else 3

/-- The three flags. -/
def IsFlag (f : StateT) : Prop := f = StateT.complete ∨ f = StateT.unwind ∨ f = StateT.destroy

section Aux

theorem flag_bits {f : StateT} (hf : IsFlag f) (i : Nat) : f.getLsbD i = decide (i = flagBit f) := by
  rcases hf with rfl | rfl | rfl
  · show (BitVec.ofNat 32 2).getLsbD i = decide (i = 1)
    by_cases h : i < 32
    · revert i; decide
    · simp only [BitVec.getLsbD_of_ge _ _ (Nat.le_of_not_lt h)]; symm; simp; omega
  · show (BitVec.ofNat 32 4).getLsbD i = decide (i = 2)
    by_cases h : i < 32
    · revert i; decide
    · simp only [BitVec.getLsbD_of_ge _ _ (Nat.le_of_not_lt h)]; symm; simp; omega
  · show (BitVec.ofNat 32 8).getLsbD i = decide (i = 3)
    by_cases h : i < 32
    · revert i; decide
    · simp only [BitVec.getLsbD_of_ge _ _ (Nat.le_of_not_lt h)]; symm; simp; omega

theorem has_bit {f : StateT} (hf : IsFlag f) (s : StateT) : StateT.has s f = s.getLsbD (flagBit f) := by
  have hlt : flagBit f < 32 := by unfold flagBit; split <;> (try split) <;> decide
  have he : (s &&& f = 0#32) ↔ s.getLsbD (flagBit f) = false := by
    constructor
    · intro h
      have := congrArg (fun x => x.getLsbD (flagBit f)) h
      simpa [BitVec.getLsbD_and, flag_bits hf] using this
    · intro h
      apply BitVec.eq_of_getLsbD_eq
      intro i hi
      rw [BitVec.getLsbD_and, flag_bits hf]
      by_cases hi' : i = flagBit f
      · subst hi'; simp [h]
      · simp [hi']
  show (s &&& f != 0#32) = _
  cases hb : s.getLsbD (flagBit f)
  · simp [he.2 hb]
  · simp only [bne_iff_ne, ne_eq]
    intro h
    rw [he.1 h] at hb
    cases hb

theorem flagBit_inj {f g : StateT} (hf : IsFlag f) (hg : IsFlag g) (h : flagBit f = flagBit g) : f = g := by
  rcases hf with rfl | rfl | rfl <;> rcases hg with rfl | rfl | rfl <;> first | rfl | (revert h; decide)

end Aux

/-- C31: after `state |= f` a flag tests as set exactly if it was set before or is `f`. -/
theorem C31_set_flag {f g : StateT} (hf : IsFlag f) (hg : IsFlag g) (s : StateT) :
    StateT.has (StateT.orAssign s f) g = (StateT.has s g || decide (f = g)) := by
  rw [has_bit hg, has_bit hg]
  show (s ||| f).getLsbD _ = _
  rw [BitVec.getLsbD_or, flag_bits hf]
  congr 1
  rw [decide_eq_decide]
  exact ⟨fun h => flagBit_inj hf hg h.symm, fun h => by rw [h]⟩

/-- C31: `state |= f` changes no other bit at all, and doing it twice is doing it once. -/
theorem C31_other_bits {f : StateT} (hf : IsFlag f) (s : StateT) :
    (∀ i, i ≠ flagBit f → (StateT.orAssign s f).getLsbD i = s.getLsbD i) ∧
    (StateT.orAssign s f).getLsbD (flagBit f) = true ∧
    StateT.orAssign (StateT.orAssign s f) f = StateT.orAssign s f := by
  have hl : flagBit f < 32 := by unfold flagBit; split <;> (try split) <;> decide
  refine ⟨fun i hi => ?_, ?_, ?_⟩
  · show (s ||| f).getLsbD i = _
    rw [BitVec.getLsbD_or, flag_bits hf]; simp [hi]
  · show (s ||| f).getLsbD _ = _
    rw [BitVec.getLsbD_or, flag_bits hf]; simp
  · show s ||| f ||| f = s ||| f
    rw [BitVec.or_assoc, BitVec.or_self]

/-- C31: a fresh flag word has no flag, and the flags occupy different bits. -/
theorem C31_distinct {f g : StateT} (hf : IsFlag f) (hg : IsFlag g) :
    StateT.has StateT.none f = false ∧ (StateT.has f g = true ↔ f = g) := by
  rw [has_bit hf, has_bit hg, flag_bits hf]
  refine ⟨BitVec.getLsbD_zero .., ?_⟩
  rw [decide_eq_true_iff]
  exact ⟨fun h => flagBit_inj hf hg h.symm, fun h => by rw [h]⟩

/-- C31: setting `complete` on the word of a fresh control block keeps `unwind` and does not set `destroy`. -/
example : StateT.has (StateT.orAssign StateT.unwind StateT.complete) StateT.unwind = true ∧
    StateT.has (StateT.orAssign StateT.unwind StateT.complete) StateT.complete = true ∧
    StateT.has (StateT.orAssign StateT.unwind StateT.complete) StateT.destroy = false := by decide +kernel

end Verif
