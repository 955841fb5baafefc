import Verif.Bits.Target
import Verif.Bits.Lemmas
/-!
# The bit functions on every target (C99, C100)
-/
namespace Verif.Bits
open Verif

/-- `k` is the position of the most significant one of `x`. -/
def IsTop (x k : Nat) : Prop := 2 ^ k ≤ x ∧ x < 2 ^ (k + 1)

/-- `k` is the position of the least significant one of `x`. -/
def IsBottom (x k : Nat) : Prop := x.testBit k = true ∧ ∀ j, j < k → x.testBit j = false

/-- `f` returns the position of the most significant one of every nonzero argument of `w` bits. -/
def FindsTop (w : Nat) (f : Nat → Exec Nat) : Prop := ∀ x, x ≠ 0 → x < 2 ^ w → ∃ k, f x = .ok k ∧ IsTop x k

def FindsBottom (w : Nat) (f : Nat → Exec Nat) : Prop := ∀ x, x ≠ 0 → x < 2 ^ w → ∃ k, f x = .ok k ∧ IsBottom x k

/-- C99, the full statement: on every target the four functions find the bit for every nonzero argument of their parameter type. -/
def ScansPortable : Prop := ∀ t ∈ targets, FindsTop t.size (log2On t t.size) ∧ FindsTop 32 (leftmost32On t) ∧
  FindsTop 64 (leftmost64On t) ∧ FindsBottom t.size (rightmostOn t)

theorem clz_top {w x : Nat} (h0 : x ≠ 0) (hx : x < 2 ^ w) : IsTop x (w - 1 - clzScan x w) := by
  obtain ⟨h1, h2, h3⟩ := clzScan_spec x w h0 hx
  exact ⟨h2, by rw [show w - 1 - clzScan x w + 1 = w - clzScan x w by omega]; exact h3⟩

theorem bsr_top {x : Nat} (h0 : x ≠ 0) : IsTop x (Nat.log2 x) := ⟨Nat.log2_self_le h0, Nat.lt_log2_self⟩

theorem ctz_bottom {w x : Nat} (h0 : x ≠ 0) (hx : x < 2 ^ w) : IsBottom x (ctzScan x 0 w) := by
  obtain ⟨j, hj, hb⟩ := exists_testBit_of_ne_zero x w h0 hx
  obtain ⟨h1, h2⟩ := ctzScan_spec x w 0 ⟨j, by omega, by omega, hb⟩
  exact ⟨by simpa using h1, fun j hj => h2 j (by omega) (by omega)⟩

theorem top_shift {x k : Nat} (h : IsTop (x / 2 ^ 32) k) : IsTop x (k + 32) := by
  obtain ⟨h1, h2⟩ := h
  rw [Nat.le_div_iff_mul_le (by decide), ← Nat.pow_add] at h1
  rw [Nat.div_lt_iff_lt_mul (by decide), ← Nat.pow_add] at h2
  exact ⟨h1, by rw [show k + 32 + 1 = k + 1 + 32 by omega]; exact h2⟩

theorem top_unique {x j k : Nat} (h : IsTop x j) (h' : IsTop x k) : j = k := by
  have a : j < k + 1 := (Nat.pow_lt_pow_iff_right (a := 2) (by decide)).1 (Nat.lt_of_le_of_lt h.1 h'.2)
  have b : k < j + 1 := (Nat.pow_lt_pow_iff_right (a := 2) (by decide)).1 (Nat.lt_of_le_of_lt h'.1 h.2)
  omega

/-- C99: `FindLeftmostBit32` is right on every target. -/
theorem C99_leftmost32 (t : Target) (_ht : t ∈ targets) : FindsTop 32 (leftmost32On t) := by
  intro x h0 hx
  unfold leftmost32On
  rw [if_neg h0]
  cases t.msvc with
  | true => exact ⟨_, by simp [bitScanReverse, h0], bsr_top h0⟩
  | false =>
    refine ⟨31 - clzScan x 32, ?_, clz_top h0 hx⟩
    simp [clzW, h0, bind, Except.bind]

theorem log2U64_top (t : Target) {x : Nat} (h0 : x ≠ 0) (hx : x < 2 ^ 64) : ∃ k, log2U64 t x = .ok k ∧ IsTop x k := by
  unfold log2U64
  rw [if_neg h0]
  split
  · exact ⟨_, by simp [bitScanReverse, h0], bsr_top h0⟩
  split
  · rename_i _ hl
    have hd : x / 2 ^ 32 % 2 ^ 32 = x / 2 ^ 32 := Nat.mod_eq_of_lt (by omega)
    have hd0 : x / 2 ^ 32 ≠ 0 := by omega
    refine ⟨Nat.log2 (x / 2 ^ 32) + 32, ?_, top_shift (bsr_top hd0)⟩
    rw [hd]; simp only [bitScanReverse, hd0, if_false, bind, Except.bind]
  · rename_i _ hl
    have hd : x % 2 ^ 32 = x := Nat.mod_eq_of_lt (by omega)
    exact ⟨Nat.log2 x, by rw [hd]; simp [bitScanReverse, h0], bsr_top h0⟩

theorem log2U32_top {x : Nat} (h0 : x ≠ 0) : ∃ k, log2U32 x = .ok k ∧ IsTop x k :=
  ⟨Nat.log2 x, by simp [log2U32, bitScanReverse, h0], bsr_top h0⟩

/-- C99, `Log2`: right exactly where `size_t` has 32 bits or the compiler is MSVC. (Missing: 64-bit GCC and Clang.) -/
theorem C99_log2_partial (t : Target) (ht : t ∈ targets) : FindsTop t.size (log2On t t.size) ↔ t.msvc = true ∨ t.size = 32 := by
  constructor
  · intro h
    simp only [targets, List.mem_cons, List.not_mem_nil, or_false] at ht
    rcases ht with rfl | rfl | rfl | rfl | rfl | rfl
    · obtain ⟨k, h1, -⟩ := h (2 ^ 32) (by decide) (by decide)
      have e : log2On gccLP64 gccLP64.size (2 ^ 32) = .error .badBuiltin := rfl
      rw [e] at h1; cases h1
    · exact .inr rfl
    · obtain ⟨k, h1, -⟩ := h (2 ^ 32) (by decide) (by decide)
      have e : log2On gccLLP64 gccLLP64.size (2 ^ 32) = .error .badBuiltin := rfl
      rw [e] at h1; cases h1
    · exact .inl rfl
    · exact .inl rfl
    · exact .inl rfl
  · intro h x h0 hx
    unfold log2On
    have hsz : t.size = 32 ∨ t.size = 64 := by
      simp only [targets, List.mem_cons, List.not_mem_nil, or_false] at ht
      rcases ht with rfl | rfl | rfl | rfl | rfl | rfl <;> simp [gccLP64, gccILP32, gccLLP64, msvc32, msvcX64, msvcArm64]
    cases hm : t.msvc with
    | true =>
      simp only [if_true]
      rcases hsz with e | e
      · rw [if_pos e]; exact log2U32_top h0
      · rw [if_neg (by omega)]; exact log2U64_top t h0 (by rw [e] at hx; exact hx)
    | false =>
      have e : t.size = 32 := by rcases h with h | h; · rw [hm] at h; cases h
                                 · exact h
      rw [e] at hx ⊢
      have e1 : x % 2 ^ 32 = x := Nat.mod_eq_of_lt hx
      refine ⟨31 - clzScan x 32, ?_, clz_top h0 hx⟩
      simp [e1, clzW, h0, bind, Except.bind]

/-- C99, `FindLeftmostBit64`: right exactly where `unsigned long` has 64 bits or the compiler is MSVC. (Missing: 32-bit GCC and MinGW.) -/
theorem C99_leftmost64_partial (t : Target) (ht : t ∈ targets) : FindsTop 64 (leftmost64On t) ↔ t.msvc = true ∨ t.long = 64 := by
  constructor
  · intro h
    simp only [targets, List.mem_cons, List.not_mem_nil, or_false] at ht
    rcases ht with rfl | rfl | rfl | rfl | rfl | rfl
    · exact .inr rfl
    · obtain ⟨k, h1, h2⟩ := h 1 (by decide) (by decide)
      have e : leftmost64On gccILP32 1 = .ok 32 := rfl
      rw [e] at h1; injection h1 with h1; subst h1
      exact absurd h2.1 (by decide)
    · obtain ⟨k, h1, h2⟩ := h 1 (by decide) (by decide)
      have e : leftmost64On gccLLP64 1 = .ok 32 := rfl
      rw [e] at h1; injection h1 with h1; subst h1
      exact absurd h2.1 (by decide)
    · exact .inl rfl
    · exact .inl rfl
    · exact .inl rfl
  · intro h x h0 hx
    unfold leftmost64On
    rw [if_neg h0]
    cases hm : t.msvc with
    | true =>
      simp only [if_true]
      split
      · split
        · rename_i hq
          have hd : x / 2 ^ 32 % 2 ^ 32 = x / 2 ^ 32 := Nat.mod_eq_of_lt (by omega)
          obtain ⟨k, h1, h2⟩ := C99_leftmost32 t ht (x / 2 ^ 32) hq (by omega)
          refine ⟨32 + k, by rw [hd, h1]; rfl, by rw [Nat.add_comm]; exact top_shift h2⟩
        · rename_i hq
          have hd : x % 2 ^ 32 = x := Nat.mod_eq_of_lt (by omega)
          obtain ⟨k, h1, h2⟩ := C99_leftmost32 t ht x h0 (by omega)
          exact ⟨k, by rw [hd, h1], h2⟩
      · exact ⟨_, by simp [bitScanReverse, h0], bsr_top h0⟩
    | false =>
      have e : t.long = 64 := by rcases h with h | h; · rw [hm] at h; cases h
                                 · exact h
      have e1 : x % 2 ^ 64 = x := Nat.mod_eq_of_lt hx
      refine ⟨63 - clzScan x 64, ?_, clz_top h0 hx⟩
      simp [e, e1, clzW, h0, bind, Except.bind]

/-- What 32-bit GCC and MinGW return instead: the position of the highest one of the low half, plus 32. -/
theorem C99_leftmost64_off (t : Target) (hm : t.msvc = false) (hl : t.long = 32) (x : Nat) (h0 : x % 2 ^ 32 ≠ 0) :
    ∃ k, leftmost64On t x = .ok (k + 32) ∧ IsTop (x % 2 ^ 32) k := by
  have hx : x ≠ 0 := by rintro rfl; exact h0 rfl
  have hs := (clzScan_spec (x % 2 ^ 32) 32 h0 (Nat.mod_lt _ (by decide))).1
  refine ⟨31 - clzScan (x % 2 ^ 32) 32, ?_, clz_top h0 (Nat.mod_lt _ (by decide))⟩
  unfold leftmost64On
  rw [if_neg hx, hm, hl]
  simp only [clzW, h0, if_false, Bool.false_eq_true, bind, Except.bind]
  congr 1; omega

/-- C99, `FindRightmostBit`: right exactly where it is not GCC with a 32-bit `long` and a 64-bit `size_t`. (Missing: MinGW for 64 bit.) -/
theorem C99_rightmost_partial (t : Target) (ht : t ∈ targets) :
    FindsBottom t.size (rightmostOn t) ↔ t.msvc = true ∨ t.long = t.size := by
  constructor
  · intro h
    simp only [targets, List.mem_cons, List.not_mem_nil, or_false] at ht
    rcases ht with rfl | rfl | rfl | rfl | rfl | rfl
    · exact .inr rfl
    · exact .inr rfl
    · obtain ⟨k, h1, h2⟩ := h (2 ^ 32) (by decide) (by decide)
      have e : rightmostOn gccLLP64 (2 ^ 32) = .error .badBuiltin := rfl
      rw [e] at h1; cases h1
    · exact .inl rfl
    · exact .inl rfl
    · exact .inl rfl
  · intro h x h0 hx
    unfold rightmostOn
    rw [if_neg h0]
    have hsz : t.size = 32 ∨ t.size = 64 := by
      simp only [targets, List.mem_cons, List.not_mem_nil, or_false] at ht
      rcases ht with rfl | rfl | rfl | rfl | rfl | rfl <;> simp [gccLP64, gccILP32, gccLLP64, msvc32, msvcX64, msvcArm64]
    cases hm : t.msvc with
    | true => exact ⟨_, by simp [bitScanForward, h0], ctz_bottom h0 hx⟩
    | false =>
      have e : t.long = t.size := by rcases h with h | h; · rw [hm] at h; cases h
                                     · exact h
      rcases hsz with e' | e'
      · rw [e'] at hx
        refine ⟨ctzScan x 0 32, ?_, ctz_bottom h0 hx⟩
        have e1 : x % 2 ^ 32 = x := Nat.mod_eq_of_lt hx
        simp [e, e', e1, ctzW, h0]
      · rw [e'] at hx
        exact ⟨ctzScan x 0 64, by simp [e, e', ctzW, h0], ctz_bottom h0 hx⟩

/-- C99 fails on both families of GCC targets. -/
theorem C99_portable_refuted : ¬ ScansPortable := by
  intro h
  have := (C99_log2_partial gccLP64 (by simp [targets])).1 (h gccLP64 (by simp [targets])).1
  revert this; decide

/-- All four are right on every MSVC target. -/
theorem C99_msvc_partial (t : Target) (ht : t ∈ targets) (hm : t.msvc = true) : FindsTop t.size (log2On t t.size) ∧
    FindsTop 32 (leftmost32On t) ∧ FindsTop 64 (leftmost64On t) ∧ FindsBottom t.size (rightmostOn t) ∧
    FindsTop 32 (log2On t 32) ∧ FindsTop 64 (log2On t 64) :=
  ⟨(C99_log2_partial t ht).2 (.inl hm), C99_leftmost32 t ht, (C99_leftmost64_partial t ht).2 (.inl hm),
    (C99_rightmost_partial t ht).2 (.inl hm), fun x h0 _ => by simp only [log2On, hm, if_true]; exact log2U32_top h0,
    fun x h0 hx => by
      have : ¬ (64 = 32) := by decide
      simp only [log2On, hm, if_true, this, if_false]; exact log2U64_top t h0 hx⟩

/-- The model of Model.lean is the one of target `gccLP64`. -/
theorem C99_same_as_model (n : BitVec 64) (m : BitVec 32) : log2On gccLP64 64 n.toNat = log2 n ∧
    leftmost32On gccLP64 m.toNat = findLeftmostBit32 m ∧ leftmost64On gccLP64 n.toNat = findLeftmostBit64 n ∧
    rightmostOn gccLP64 n.toNat = findRightmostBit n := by
  have z : ∀ {w : Nat} (v : BitVec w), v.toNat = 0 ↔ v = 0 := fun v =>
    ⟨fun h => BitVec.eq_of_toNat_eq (by simpa using h), fun h => by simp [h]⟩
  have e : n.toNat % 2 ^ 64 = n.toNat := Nat.mod_eq_of_lt n.isLt
  have et : (n.truncate 32).toNat = n.toNat % 2 ^ 32 := by simp
  refine ⟨?_, ?_, ?_, ?_⟩
  · simp only [log2On, gccLP64, e, log2, clzW, builtinClz, ← et, z, Bool.false_eq_true, if_false]
  · simp only [leftmost32On, gccLP64, findLeftmostBit32, clzW, builtinClz, z, Bool.false_eq_true, if_false]
  · simp only [leftmost64On, gccLP64, findLeftmostBit64, e, clzW, builtinClzl, z, Bool.false_eq_true, if_false]
  · simp only [rightmostOn, gccLP64, findRightmostBit, ctzW, builtinCtzl, z, Bool.false_eq_true, if_false, and_self, if_true]

example : gccILP32 ∈ targets ∧ msvcArm64 ∈ targets ∧ log2On msvcArm64 64 (2 ^ 40 + 3) = .ok 40 ∧ leftmost64On msvc32 (2 ^ 40 + 3) = .ok 40 ∧
    leftmost64On gccILP32 (2 ^ 40 + 3) = .ok 33 ∧ rightmostOn msvc32 40 = .ok 3 := by decide +kernel

/-! ## C100 the overflow checks -/

/-- C100, the full statement for one target and one width: the check for sums accepts only sums that fit. -/
def AddSoundOn (t : Target) (w : Nat) : Prop := ∀ a b, a < 2 ^ w → b < 2 ^ w → addSafeOn t w a b = .ok true → a + b < 2 ^ w

/-- ... and the check for products only products that fit. -/
def MultiplySoundOn (t : Target) (w : Nat) : Prop := ∀ a b, a < 2 ^ w → b < 2 ^ w → multiplySafeOn t w a b = .ok true → a * b < 2 ^ w

/-- C100: on every target, for both widths, `IsUintAddSafe` never answers `false`. -/
theorem C100_addSafe_never_false (t : Target) (w : Nat) (hw : w = 32 ∨ w = 64) (a b : Nat) (ha : a < 2 ^ w) (hb : b < 2 ^ w) :
    addSafeOn t w a b ≠ .ok false := by
  have key : ∀ x k, x < 2 ^ w → log2On t w x = .ok k → k < w := by
    intro x k hx hk
    unfold log2On at hk
    split at hk
    · split at hk
      · rename_i e
        unfold log2U32 at hk
        split at hk
        · cases hk
        rename_i h0
        simp only [bitScanReverse, h0, if_false] at hk
        injection hk with hk; subst hk
        exact (Nat.log2_lt h0).2 hx
      · rename_i e
        have hw : w = 64 := by omega
        unfold log2U64 at hk
        split at hk
        · cases hk
        rename_i h0
        obtain ⟨k', h1, h2⟩ := log2U64_top t h0 (by rw [hw] at hx; exact hx)
        unfold log2U64 at h1
        rw [if_neg h0, hk] at h1
        injection h1 with h1; subst h1
        exact (Nat.pow_lt_pow_iff_right (a := 2) (by decide)).1 (Nat.lt_of_le_of_lt h2.1 hx)
    · split at hk
      · cases hk
      · simp only [clzW, bind, Except.bind] at hk
        split at hk
        · cases hk
        · injection hk with hk; omega
  unfold addSafeOn
  split
  · simp
  · cases h1 : log2On t w a with
    | error => simp [bind, Except.bind]
    | ok k =>
      cases h2 : log2On t w b with
      | error => simp [bind, Except.bind]
      | ok k' =>
        have g1 := key a k ha h1
        have g2 := key b k' hb h2
        have : w / 8 * 8 = w := by rcases hw with rfl | rfl <;> rfl
        simp [bind, Except.bind, this, g1, g2]

/-- C100 fails on every target, for both checks, for 32 and for 64 bits. -/
theorem C100_checks_refuted (t : Target) (ht : t ∈ targets) :
    ¬ AddSoundOn t 32 ∧ ¬ AddSoundOn t 64 ∧ ¬ MultiplySoundOn t 32 ∧ ¬ MultiplySoundOn t 64 := by
  have key : ∀ t ∈ targets, addSafeOn t 32 0xFFFFFFFF 1 = .ok true ∧ addSafeOn t 64 0xFFFFFFFFFFFFFFFF 1 = .ok true ∧
      multiplySafeOn t 32 0x1FFFF 0xFFFF = .ok true ∧ multiplySafeOn t 64 0x1FFFFFFFF 0xFFFFFFFF = .ok true := by decide +kernel
  obtain ⟨h1, h2, h3, h4⟩ := key t ht
  refine ⟨fun h => ?_, fun h => ?_, fun h => ?_, fun h => ?_⟩
  · exact absurd (h _ _ (by decide) (by decide) h1) (by decide)
  · exact absurd (h _ _ (by decide) (by decide) h2) (by decide)
  · exact absurd (h _ _ (by decide) (by decide) h3) (by decide)
  · exact absurd (h _ _ (by decide) (by decide) h4) (by decide)

/-- C100, what holds: where `Log2` is right, `IsUintMultiplySafe` errs by a factor of two at most: `false` means the product
does not fit, `true` that it is less than twice too large, and a product that fits is accepted.
(Missing: products between 2^w and 2^(w+1) may be accepted.) -/
theorem C100_multiplySafe_partial (t : Target) (w : Nat) (hw : w = 32 ∨ w = 64) (hl : FindsTop w (log2On t w)) (a b : Nat)
    (ha : a < 2 ^ w) (hb : b < 2 ^ w) : ∃ r, multiplySafeOn t w a b = .ok r ∧ (r = false → 2 ^ w ≤ a * b) ∧
      (r = true → a * b < 2 ^ (w + 1)) ∧ (a * b < 2 ^ w → r = true) := by
  have hw8 : w / 8 * 8 = w := by rcases hw with rfl | rfl <;> rfl
  have hw1 : 2 ^ (w + 1) = 2 * 2 ^ w := by rw [Nat.pow_succ]; omega
  unfold multiplySafeOn
  split
  · rename_i h
    refine ⟨true, rfl, by simp, fun _ => ?_, fun _ => rfl⟩
    rcases h with h | h
    · have : a * b ≤ 1 * b := Nat.mul_le_mul_right _ h
      omega
    · have : a * b ≤ a * 1 := Nat.mul_le_mul_left _ h
      omega
  · rename_i h
    obtain ⟨k, h1, h2⟩ := hl a (by omega) ha
    obtain ⟨k', h1', h2'⟩ := hl b (by omega) hb
    have lo : 2 ^ (k + k') ≤ a * b := by rw [Nat.pow_add]; exact Nat.mul_le_mul h2.1 h2'.1
    have hi : a * b < 2 ^ (k + k' + 2) := by
      have : a * b < 2 ^ (k + 1) * 2 ^ (k' + 1) := Nat.mul_lt_mul'' h2.2 h2'.2
      rw [← Nat.pow_add] at this
      rw [show k + k' + 2 = k + 1 + (k' + 1) by omega]; exact this
    refine ⟨decide (k + k' < w), by rw [h1, h1']; simp [bind, Except.bind, hw8], ?_, ?_, ?_⟩
    · intro hf
      have : w ≤ k + k' := by simpa using hf
      exact Nat.le_trans (Nat.pow_le_pow_right (by decide) this) lo
    · intro hf
      have : k + k' < w := by simpa using hf
      exact Nat.lt_of_lt_of_le hi (Nat.pow_le_pow_right (by decide) (by omega))
    · intro hf
      have : k + k' < w := (Nat.pow_lt_pow_iff_right (a := 2) (by decide)).1 (Nat.lt_of_le_of_lt lo hf)
      simpa using this

/-- `Log2` is right for both widths on MSVC, and for 32 bits everywhere, so that C100_multiplySafe_partial applies there. -/
theorem C100_where (t : Target) (ht : t ∈ targets) : FindsTop 32 (log2On t 32) ∧ (t.msvc = true → FindsTop 64 (log2On t 64)) := by
  refine ⟨fun x h0 hx => ?_, fun hm => (C99_msvc_partial t ht hm).2.2.2.2.2⟩
  cases hm : t.msvc with
  | true => exact (C99_msvc_partial t ht hm).2.2.2.2.1 x h0 hx
  | false =>
    have hsz : t.size = 32 ∨ t.size = 64 := by
      simp only [targets, List.mem_cons, List.not_mem_nil, or_false] at ht
      rcases ht with rfl | rfl | rfl | rfl | rfl | rfl <;> simp [gccLP64, gccILP32, gccLLP64, msvc32, msvcX64, msvcArm64]
    have e : x % 2 ^ t.size = x := Nat.mod_eq_of_lt (Nat.lt_of_lt_of_le hx (Nat.pow_le_pow_right (by decide) (by omega)))
    have e1 : x % 2 ^ 32 = x := Nat.mod_eq_of_lt hx
    refine ⟨31 - clzScan x 32, ?_, clz_top h0 hx⟩
    simp [log2On, hm, e, e1, clzW, h0, bind, Except.bind]

example : multiplySafeOn msvcX64 64 (2 ^ 33) (2 ^ 31) = .ok false ∧ multiplySafeOn msvcX64 64 (2 ^ 33 - 1) (2 ^ 31 - 1) = .ok true ∧
    multiplySafeOn gccILP32 32 0x1FFFF 0xFFFF = .ok true := by decide +kernel

end Verif.Bits
