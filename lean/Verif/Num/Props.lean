import Verif.Num.Model
/-!
# C69, C70, C86, C87: time and floating-point helpers
-/
namespace Verif.Num
open Verif

/-! ## C69 -/

/-- C69 in full: for all 64-bit seconds and nanoseconds the result is their sum in nanoseconds. -/
def DurationTotal : Prop := ∀ sec nsec : Int, InRange sec → InRange nsec → timespecToDuration sec nsec = .ok (sec * 1000000000 + nsec)

/-- C69 is false of the code: the year 2262 is beyond the range of 64-bit nanoseconds; the multiplication overflows. -/
theorem C69_overflow_refuted : ¬ DurationTotal := by
  intro h
  have := h 10000000000 0 (by decide) (by decide)
  revert this
  decide

/-- C69, exactly what holds: the result is `s * 10^9 + n` if `s * 10^9` and that sum fit 64 bits; otherwise the behaviour is undefined. -/
theorem C69_duration_partial (sec nsec : Int) :
    (InRange (sec * 1000000000) ∧ InRange (sec * 1000000000 + nsec) → timespecToDuration sec nsec = .ok (sec * 1000000000 + nsec)) ∧
    (¬ (InRange (sec * 1000000000) ∧ InRange (sec * 1000000000 + nsec)) → timespecToDuration sec nsec = .error .signedOverflow) := by
  unfold timespecToDuration checked
  by_cases h1 : InRange (sec * 1000000000)
  · by_cases h2 : InRange (sec * 1000000000 + nsec)
    · simp [h1, h2, bind, Except.bind]
    · simp [h1, h2, bind, Except.bind]
  · simp [h1, bind, Except.bind]

/-- C69, for every time a normalised `timespec` can have between the years 1678 and 2262. -/
theorem C69_normal_partial (sec nsec : Int) (h1 : -9223372036 ≤ sec) (h2 : sec < 9223372036) (h3 : 0 ≤ nsec) (h4 : nsec < 1000000000) :
    timespecToDuration sec nsec = .ok (sec * 1000000000 + nsec) := by
  apply (C69_duration_partial sec nsec).1
  unfold InRange
  omega

example : timespecToDuration 1700000000 5 = .ok 1700000000000000005 := by decide
example : timespecToDuration (-5) 999999999 = .ok (-4000000001) := by decide

/-! ## C87 -/

/-- C87: `TimespecToTimePoint` gives, for every clock resolution, the largest multiple of the clock's tick in magnitude that does not go beyond the time, towards zero: it is
a multiple of the tick, off by less than one tick, and exact if the time is a multiple of the tick. -/
theorem C87_time_point (tick sec nsec d : Int) (ht : 0 < tick) (hd : timespecToDuration sec nsec = .ok d) :
    ∃ t, timespecToTimePoint tick sec nsec = .ok t ∧ tick ∣ t ∧ (0 ≤ d → 0 ≤ t ∧ t ≤ d ∧ d < t + tick) ∧ (d ≤ 0 → t ≤ 0 ∧ d ≤ t ∧ t - tick < d) ∧
      (tick ∣ d → t = d) := by
  have hr : InRange d := by
    unfold timespecToDuration checked at hd
    by_cases h1 : InRange (sec * 1000000000)
    · by_cases h2 : InRange (sec * 1000000000 + nsec)
      · simp [h1, h2, bind, Except.bind] at hd; rw [← hd]; exact h2
      · simp [h1, h2, bind, Except.bind] at hd
    · simp [h1, bind, Except.bind] at hd
  have e := Int.mul_tdiv_add_tmod d tick
  have hm : (0 ≤ d → 0 ≤ Int.tmod d tick) ∧ (d ≤ 0 → Int.tmod d tick ≤ 0) ∧ Int.tmod d tick < tick ∧ -tick < Int.tmod d tick := by
    refine ⟨fun h => Int.tmod_nonneg _ h, fun h => ?_, Int.tmod_lt_of_pos d ht, ?_⟩
    · have := Int.tmod_nonneg tick (show 0 ≤ -d by omega)
      rw [Int.neg_tmod] at this; omega
    · have := Int.tmod_lt_of_pos (-d) ht
      rw [Int.neg_tmod] at this; omega
  obtain ⟨m1, m2, m3, m4⟩ := hm
  have hsgn : (0 ≤ d → 0 ≤ Int.tdiv d tick * tick) ∧ (d ≤ 0 → Int.tdiv d tick * tick ≤ 0) := by
    refine ⟨fun h => Int.mul_nonneg (Int.tdiv_nonneg h (by omega)) (by omega), fun h => ?_⟩
    have := Int.mul_nonneg (Int.tdiv_nonneg (show 0 ≤ -d by omega) (show 0 ≤ tick by omega)) (show 0 ≤ tick by omega)
    rw [Int.neg_tdiv, Int.neg_mul] at this; omega
  have e' : Int.tdiv d tick * tick + Int.tmod d tick = d := by rw [Int.mul_comm]; exact e
  refine ⟨Int.tdiv d tick * tick, ?_, ⟨Int.tdiv d tick, Int.mul_comm _ _⟩, fun h => ⟨hsgn.1 h, by have := m1 h; omega, by omega⟩,
    fun h => ⟨hsgn.2 h, by have := m2 h; omega, by omega⟩, fun h => Int.tdiv_mul_cancel h⟩
  simp only [timespecToTimePoint, hd, bind, Except.bind, checked]
  rw [if_pos]
  unfold InRange at *
  rcases Int.le_total 0 d with h | h
  · have := hsgn.1 h; have := m1 h; omega
  · have := hsgn.2 h; have := m2 h; omega

example : timespecToTimePoint 1000 3 1999 = .ok 3000001000 ∧ timespecToTimePoint 1000 (-3) 1999 = .ok (-2999998000) := by decide

/-! ## C70 -/

/-- The value of a `float` with these bits is an infinity (IEEE 754 binary32). -/
def Inf32 (b : BitVec 32) : Prop := b = 0x7F800000#32 ∨ b = 0xFF800000#32
/-- It is a NaN: exponent field all ones, significand field not zero. -/
def NaN32 (b : BitVec 32) : Prop := b.toNat / 2 ^ 23 % 2 ^ 8 = 255 ∧ b.toNat % 2 ^ 23 ≠ 0
def Inf64 (b : BitVec 64) : Prop := b = 0x7FF0000000000000#64 ∨ b = 0xFFF0000000000000#64

instance (b : BitVec 32) : Decidable (Inf32 b) := by unfold Inf32; infer_instance
instance (b : BitVec 32) : Decidable (NaN32 b) := by unfold NaN32; infer_instance
instance (b : BitVec 64) : Decidable (Inf64 b) := by unfold Inf64; infer_instance

/-- C70 in full, for `float`. -/
def InfiniteExact32 : Prop := ∀ b : BitVec 32, isInfinite32 b = true ↔ Inf32 b
/-- C70 in full, for `double`; the indeterminate bits may be anything. -/
def InfiniteExact64 : Prop := ∀ (narrow : BitVec 64 → BitVec 32) (junk : BitVec 32) (v : BitVec 64), isInfinite64 narrow junk v = true ↔ Inf64 v

/-- C70 is false of the code for `float`: a NaN is reported infinite. -/
theorem C70_nan_refuted : ¬ InfiniteExact32 := by
  intro h
  have := (h 0x7FC00000#32).1 (by decide)
  revert this; decide

/-- C70 is false of the code for `double`, whatever the conversion to `float` does. -/
theorem C70_double_refuted : ¬ InfiniteExact64 := by
  intro h
  have h1 := h (fun _ => 0#32) 0#32 0x7FF0000000000000#64
  revert h1; decide

theorem and_mask (x : Nat) : x &&& 0x7F800000 = (x / 2 ^ 23 % 2 ^ 8) * 2 ^ 23 := by
  rw [← Nat.and_two_pow_sub_one_eq_mod, ← Nat.shiftRight_eq_div_pow, ← Nat.shiftLeft_eq]
  apply Nat.eq_of_testBit_eq
  intro i
  have hm : (0x7F800000 : Nat) = (2 ^ 8 - 1) <<< 23 := by decide
  rw [hm]
  simp only [Nat.testBit_and, Nat.testBit_shiftLeft, Nat.testBit_shiftRight]
  by_cases h : 23 ≤ i
  · have : 23 + (i - 23) = i := by omega
    simp [h, this]
  · simp [h]

theorem isInfinite32_iff (b : BitVec 32) : isInfinite32 b = true ↔ b.toNat / 2 ^ 23 % 2 ^ 8 = 255 := by
  unfold isInfinite32
  rw [beq_iff_eq, ← BitVec.toNat_inj, BitVec.toNat_and]
  have : mask32.toNat = 0x7F800000 := by decide
  rw [this, and_mask]
  constructor <;> intro h <;> omega

/-- C70, exactly what holds for `float`: infinities and NaNs are reported, nothing else; so for all values but NaN the answer is right. -/
theorem C70_float_partial (b : BitVec 32) : (isInfinite32 b = true ↔ Inf32 b ∨ NaN32 b) ∧ (¬ NaN32 b → (isInfinite32 b = true ↔ Inf32 b)) := by
  have key : isInfinite32 b = true ↔ Inf32 b ∨ NaN32 b := by
    rw [isInfinite32_iff]
    have hlt := b.isLt
    have hi : Inf32 b ↔ (b.toNat / 2 ^ 23 % 2 ^ 8 = 255 ∧ b.toNat % 2 ^ 23 = 0) := by
      unfold Inf32
      rw [← BitVec.toNat_inj, ← BitVec.toNat_inj]
      have e1 : (0x7F800000#32).toNat = 0x7F800000 := by decide
      have e2 : (0xFF800000#32).toNat = 0xFF800000 := by decide
      rw [e1, e2]
      omega
    unfold NaN32
    rw [hi]
    omega
  exact ⟨key, fun h => by rw [key]; exact ⟨fun h' => h'.resolve_right h, .inl⟩⟩

/-- C70, for `double`: the answer does not depend on the argument at all, only on the 32 bits that were never written. -/
theorem C70_double_partial (narrow : BitVec 64 → BitVec 32) (junk : BitVec 32) (v : BitVec 64) :
    isInfinite64 narrow junk v = ((junk &&& 0x7FFF0000#32) == 0x7FFF0000#32) := by
  unfold isInfinite64 layout64
  have hm : mask64 = (0x7FFF0000#32 : BitVec 32) ++ (0#32 : BitVec 32) := by decide
  rw [hm, BitVec.and_append, BitVec.and_zero]
  rw [Bool.eq_iff_iff, beq_iff_eq, beq_iff_eq]
  constructor
  · intro h; exact (BitVec.append_left_inj _).1 h
  · intro h; rw [h]

example : Inf32 0xFF800000#32 ∧ isInfinite32 0xFF800000#32 = true ∧ isInfinite32 0x7F7FFFFF#32 = false ∧ ¬ NaN32 0x7F7FFFFF#32 := by decide

/-! ## C86 -/

def Zero32 (b : BitVec 32) : Prop := b = 0#32 ∨ b = 0x80000000#32
instance (b : BitVec 32) : Decidable (Zero32 b) := by unfold Zero32; infer_instance

/-- The special cases documented for `FloatModulo` (am-float.h:113-120): NaN in, infinite dividend or zero divisor give NaN; a finite dividend and an infinite
divisor give the dividend; a zero dividend gives itself. -/
structure Documented (m : BitVec 32 → BitVec 32 → BitVec 32) (x y : BitVec 32) : Prop where
  nan : NaN32 x ∨ NaN32 y → NaN32 (m x y)
  inf : Inf32 x → NaN32 (m x y)
  zero : Zero32 y → NaN32 (m x y)
  byInf : ¬ NaN32 x → ¬ Inf32 x → Inf32 y → m x y = x
  ofZero : Zero32 x → ¬ NaN32 y → ¬ Zero32 y → m x y = x

/-- What is assumed of the platform's `fmod`: the first three cases, and elsewhere than on Windows also the others (C standard, annex F.10.7.1). -/
structure Fmod (windows : Bool) (m : BitVec 32 → BitVec 32 → BitVec 32) : Prop where
  nan : ∀ x y, NaN32 x ∨ NaN32 y → NaN32 (m x y)
  inf : ∀ x y, Inf32 x → NaN32 (m x y)
  zero : ∀ x y, Zero32 y → NaN32 (m x y)
  others : windows = false → ∀ x y, Documented m x y

/-- C86 in full. -/
def ModuloDocumented (windows : Bool) : Prop :=
  ∀ fmod, Fmod windows fmod → ∀ x y, Documented (floatModulo windows fmod) x y

/-- C86 holds everywhere but on Windows (there the function is `fmod`). -/
theorem C86_posix : ModuloDocumented false := by
  intro fmod hf x y
  have h := hf.others rfl x y
  have e : floatModulo false fmod = fmod := by funext a b; simp [floatModulo]
  rw [e]; exact h

/-- An `fmod` such as Windows has: NaN for an infinite divisor, +0 for a zero dividend. -/
def windowsFmod (x y : BitVec 32) : BitVec 32 :=
  if NaN32 x ∨ NaN32 y ∨ Inf32 x ∨ Zero32 y ∨ Inf32 y then 0x7FC00000#32 else 0#32

theorem windowsFmod_ok : Fmod true windowsFmod := by
  have hq : NaN32 0x7FC00000#32 := by decide
  refine ⟨fun x y h => ?_, fun x y h => ?_, fun x y h => ?_, fun h => by cases h⟩
  · unfold windowsFmod
    rw [if_pos (by rcases h with h | h <;> simp [h])]; exact hq
  · unfold windowsFmod; rw [if_pos (by simp [h])]; exact hq
  · unfold windowsFmod; rw [if_pos (by simp [h])]; exact hq

/-- C86 is false of the code on Windows: 42 mod NaN is 42, because `IsInfinite` takes NaN for an infinity; and 0 mod 0 is 0. -/
theorem C86_windows_refuted : ¬ ModuloDocumented true := by
  intro h
  have := (h windowsFmod windowsFmod_ok 0x42280000#32 0x7FC00000#32).nan (.inr (by decide))
  revert this; decide

theorem C86_windows_zero_refuted : ¬ ∀ fmod, Fmod true fmod → NaN32 (floatModulo true fmod 0#32 0#32) := by
  intro h
  have := h windowsFmod windowsFmod_ok
  revert this; decide

/-- C86, what holds on Windows: the documented cases, unless the divisor is NaN or both arguments are zero. -/
theorem C86_windows_partial (fmod : BitVec 32 → BitVec 32 → BitVec 32) (hf : Fmod true fmod) (x y : BitVec 32) (h1 : ¬ NaN32 y)
    (h2 : ¬ (Zero32 x ∧ Zero32 y)) : Documented (floatModulo true fmod) x y := by
  have hz : ∀ b : BitVec 32, eqZero b = true ↔ Zero32 b := by
    intro b
    have hlt := b.isLt
    unfold eqZero Zero32
    rw [decide_eq_true_iff, ← BitVec.toNat_inj, ← BitVec.toNat_inj]
    have e1 : (0#32).toNat = 0 := by decide
    have e2 : (0x80000000#32).toNat = 0x80000000 := by decide
    rw [e1, e2]; omega
  have hinf := fun b => (C70_float_partial b).1
  have hyi := (C70_float_partial y).2 h1
  have zx : ∀ b, Zero32 b → isInfinite32 b = false := by
    rintro b (rfl | rfl) <;> decide
  have ret : isInfinite32 x = false → isInfinite32 y = true → floatModulo true fmod x y = x := by
    intro a b; simp [floatModulo, a, b]
  have ret2 : eqZero x = true → isInfinite32 y = false → floatModulo true fmod x y = x := by
    intro a b; simp [floatModulo, a, b]
  have pass : (isInfinite32 x = true ∨ isInfinite32 y = false) → (eqZero x = false ∨ isInfinite32 y = true) → floatModulo true fmod x y = fmod x y := by
    intro a b
    have : (!isInfinite32 x && isInfinite32 y || eqZero x && !isInfinite32 y) = false := by
      cases hx : isInfinite32 x <;> cases hy : isInfinite32 y <;> cases hq : eqZero x <;> simp_all
    simp [floatModulo, this]
  have notZ : isInfinite32 x = true → eqZero x = false := by
    intro h
    cases hq : eqZero x with
    | false => rfl
    | true => rw [zx x ((hz x).1 hq)] at h; cases h
  refine ⟨fun h => ?_, fun h => ?_, fun h => ?_, fun h3 h4 h5 => ?_, fun h3 h4 h5 => ?_⟩
  · have hx : NaN32 x := h.resolve_right h1
    have hi : isInfinite32 x = true := (hinf x).2 (.inr hx)
    rw [pass (.inl hi) (.inl (notZ hi))]; exact hf.nan _ _ h
  · have hi : isInfinite32 x = true := (hinf x).2 (.inl h)
    rw [pass (.inl hi) (.inl (notZ hi))]; exact hf.inf _ _ h
  · have hy : isInfinite32 y = false := zx y h
    have hxz : eqZero x = false := by
      cases hq : eqZero x with
      | false => rfl
      | true => exact (h2 ⟨(hz x).1 hq, h⟩).elim
    rw [pass (.inr hy) (.inl hxz)]; exact hf.zero _ _ h
  · have hx : isInfinite32 x = false := by
      cases hq : isInfinite32 x with
      | false => rfl
      | true => rcases (hinf x).1 hq with h | h
                · exact (h4 h).elim
                · exact (h3 h).elim
    exact ret hx (hyi.2 h5)
  · cases hq : isInfinite32 y with
    | true => exact ret (zx x h3) hq
    | false => exact ret2 ((hz x).2 h3) hq

example : floatModulo true windowsFmod 0x42280000#32 0x7F800000#32 = 0x42280000#32 := by decide

end Verif.Num
