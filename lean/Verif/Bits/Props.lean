import Verif.Bits.Lemmas
/-!
# Properties of `am-bits.h` (C17 - C24)

All statements are about natural numbers: `x.toNat` is the value of a machine word.
-/
namespace Verif.Bits
open Verif

/-! ## C17 IsPowerOfTwo -/

/-- C17: `IsPowerOfTwo(v)` is true exactly for the powers of two, whatever the width of `size_t`. -/
theorem C17_isPowerOfTwo_iff {w : Nat} (v : BitVec w) :
    isPowerOfTwo v = true ↔ ∃ k, v.toNat = 2 ^ k := isPowerOfTwo_iff v

example : isPowerOfTwo 4096#64 = true ∧ isPowerOfTwo 0#64 = false ∧ isPowerOfTwo 4097#64 = false ∧ isPowerOfTwo 4096#32 = true := by decide

/-! ## C18 Align -/

/-- C18: if some multiple of the alignment that is at least `n` fits in `size_t`, `Align` returns the
least such multiple. -/
theorem C18_align_is_least_multiple {w : Nat} (n a : BitVec w) (ha : ∃ k, a.toNat = 2 ^ k)
    (fits : ∃ m, a.toNat ∣ m ∧ n.toNat ≤ m ∧ m < 2 ^ w) :
    ∃ r, align n a = .ok r ∧ a.toNat ∣ r.toNat ∧ n.toNat ≤ r.toNat ∧
      ∀ m, a.toNat ∣ m → n.toNat ≤ m → r.toNat ≤ m := by
  obtain ⟨k, hk⟩ := ha
  have hp : isPowerOfTwo a = true := (isPowerOfTwo_iff a).2 ⟨k, hk⟩
  have h0 : 0 < 2 ^ k := Nat.pow_pos (by decide)
  obtain ⟨h1, h2, _, h4⟩ := roundUp_spec n.toNat (2 ^ k) h0
  obtain ⟨m, hm1, hm2, hm3⟩ := fits
  have hle := h4 m (hk ▸ hm1) hm2
  refine ⟨_, by simp only [align, hp, if_true]; rfl, ?_⟩
  rw [toNat_align n a k hk, Nat.mod_eq_of_lt (by omega), hk]
  exact ⟨h1, h2, h4⟩

/-- C18: when no multiple of the alignment that is at least `n` fits, `Align` wraps around to `0`. -/
theorem C18_align_wraps_to_zero {w : Nat} (n a : BitVec w) (ha : ∃ k, a.toNat = 2 ^ k)
    (nofit : ¬ ∃ m, a.toNat ∣ m ∧ n.toNat ≤ m ∧ m < 2 ^ w) : align n a = .ok 0 := by
  obtain ⟨k, hk⟩ := ha
  have hp : isPowerOfTwo a = true := (isPowerOfTwo_iff a).2 ⟨k, hk⟩
  have hk64 := pow_lt_width hk
  have h0 : 0 < 2 ^ k := Nat.pow_pos (by decide)
  obtain ⟨h1, h2, h3, h4⟩ := roundUp_spec n.toNat (2 ^ k) h0
  have hd : 2 ^ k ∣ 2 ^ w := Nat.pow_dvd_pow 2 (by omega)
  have hge : 2 ^ w ≤ n.toNat + (2 ^ k - n.toNat % 2 ^ k) % 2 ^ k := by
    rcases Nat.lt_or_ge (n.toNat + (2 ^ k - n.toNat % 2 ^ k) % 2 ^ k) (2 ^ w) with h | h
    · exact absurd ⟨_, hk ▸ h1, h2, h⟩ nofit
    · exact h
  have hle := h4 (2 ^ w) hd (Nat.le_of_lt n.isLt)
  have : n.toNat + (2 ^ k - n.toNat % 2 ^ k) % 2 ^ k = 2 ^ w := by omega
  simp only [align, hp, if_true]
  congr 1
  apply BitVec.eq_of_toNat_eq
  rw [toNat_align n a k hk, this]; simp

/-- C18: aligning an aligned value changes nothing. -/
theorem C18_align_idempotent {w : Nat} (n a r : BitVec w) (h : align n a = .ok r) : align r a = .ok r := by
  unfold align at h
  split at h
  · rename_i hp
    obtain ⟨k, hk⟩ := (isPowerOfTwo_iff a).1 hp
    have h0 : 0 < 2 ^ k := Nat.pow_pos (by decide)
    have hk64 := pow_lt_width hk
    have hd : 2 ^ k ∣ 2 ^ w := Nat.pow_dvd_pow 2 (by omega)
    injection h with h
    have hr : 2 ^ k ∣ r.toNat := by
      rw [← h, toNat_align n a k hk]
      exact (Nat.dvd_mod_iff hd).2 (roundUp_spec n.toNat (2 ^ k) h0).1
    simp only [align, hp, if_true]
    congr 1
    apply BitVec.eq_of_toNat_eq
    rw [toNat_align r a k hk, Nat.mod_eq_zero_of_dvd hr]
    simp only [Nat.sub_zero, Nat.mod_self, Nat.add_zero]
    exact Nat.mod_eq_of_lt r.isLt
  · cases h

/-- C18: `Align` is monotone as long as the larger argument can be rounded up. -/
theorem C18_align_monotone {w : Nat} (n n' a r r' : BitVec w) (hle : n.toNat ≤ n'.toNat)
    (fits : ∃ m, a.toNat ∣ m ∧ n'.toNat ≤ m ∧ m < 2 ^ w)
    (h : align n a = .ok r) (h' : align n' a = .ok r') : r.toNat ≤ r'.toNat := by
  have hp : isPowerOfTwo a = true := by
    unfold align at h; split at h
    · assumption
    · cases h
  have ha := (isPowerOfTwo_iff a).1 hp
  obtain ⟨m, m1, m2, m3⟩ := fits
  obtain ⟨q, q1, q2, q3, q4⟩ := C18_align_is_least_multiple n a ha ⟨m, m1, by omega, m3⟩
  obtain ⟨q', q1', q2', q3', q4'⟩ := C18_align_is_least_multiple n' a ha ⟨m, m1, m2, m3⟩
  rw [h] at q1; rw [h'] at q1'
  injection q1 with q1; injection q1' with q1'
  subst q1; subst q1'
  exact q4 _ q2' (by omega)

/-- C18: an alignment that is not a power of two is rejected by the assertion. -/
theorem C18_align_rejects_bad_alignment {w : Nat} (n a : BitVec w) (h : ¬ ∃ k, a.toNat = 2 ^ k) :
    align n a = .error .assertFail := by
  have : ¬ isPowerOfTwo a = true := fun hp => h ((isPowerOfTwo_iff a).1 hp)
  simp [align, this]

example : align 13#64 8 = .ok 16 ∧ align 13#32 8 = .ok 16 := ⟨rfl, rfl⟩
example : (∃ k, (8 : BitVec 64).toNat = 2 ^ k) ∧
    (∃ m, (8 : BitVec 64).toNat ∣ m ∧ (13 : BitVec 64).toNat ≤ m ∧ m < 2 ^ 64) :=
  ⟨⟨3, rfl⟩, 16, ⟨2, rfl⟩, by decide, by decide⟩
example : ¬ ∃ m, (8 : BitVec 64).toNat ∣ m ∧ (BitVec.allOnes 64).toNat ≤ m ∧ m < 2 ^ 64 := by
  rintro ⟨m, ⟨q, rfl⟩, h1, h2⟩
  have h1' : 2 ^ 64 - 1 ≤ 8 * q := h1
  have h2' : 8 * q < 2 ^ 64 := h2
  omega

/-! ## C19 Log2 -/

/-- What a caller of `Log2` relies on: the floor of the binary logarithm of every nonzero `size_t`. -/
def Log2Correct : Prop :=
  ∀ n : BitVec 64, n ≠ 0 → ∃ k, log2 n = .ok k ∧ 2 ^ k ≤ n.toNat ∧ n.toNat < 2 ^ (k + 1)

/-- C19 is false of the code on LP64: `Log2(2^32 + 1)` is 0 and `Log2(2^32)` is undefined, because
`__builtin_clz` takes a 32-bit argument. -/
theorem C19_log2_refuted : ¬ Log2Correct := by
  intro h
  obtain ⟨k, h1, h2, h3⟩ := h (BitVec.ofNat 64 (2 ^ 32 + 1)) (by decide)
  have e : log2 (BitVec.ofNat 64 (2 ^ 32 + 1)) = .ok 0 := by rfl
  rw [e] at h1; injection h1 with h1; subst h1
  revert h3; decide

/-- C19: `Log2` calls the builtin outside its domain for every nonzero multiple of `2^32`. -/
theorem C19_log2_undefined (n : BitVec 64) (h0 : n.toNat ≠ 0) (h : 2 ^ 32 ∣ n.toNat) :
    log2 n = .error .badBuiltin := log2_low_zero n h0 (Nat.mod_eq_zero_of_dvd h)

/-- C19, what does hold (missing: arguments `>= 2^32`): `Log2` is the floor of the binary logarithm for
every nonzero value below `2^32`. -/
theorem C19_log2_partial (n : BitVec 64) (h0 : n ≠ 0) (hlt : n.toNat < 2 ^ 32) :
    ∃ k, log2 n = .ok k ∧ 2 ^ k ≤ n.toNat ∧ n.toNat < 2 ^ (k + 1) := by
  have hn : n.toNat ≠ 0 := by
    intro h'; apply h0; apply BitVec.eq_of_toNat_eq; simpa using h'
  have hm : n.toNat % 2 ^ 32 = n.toNat := Nat.mod_eq_of_lt hlt
  obtain ⟨k, h1, _, h3, h4⟩ := log2_low n (by rw [hm]; exact hn)
  exact ⟨k, h1, hm ▸ h3, hm ▸ h4⟩

/-- C19: in general `Log2` sees only the low 32 bits. -/
theorem C19_log2_sees_low_word (n : BitVec 64) (h : n.toNat % 2 ^ 32 ≠ 0) :
    ∃ k, log2 n = .ok k ∧ 2 ^ k ≤ n.toNat % 2 ^ 32 ∧ n.toNat % 2 ^ 32 < 2 ^ (k + 1) := by
  obtain ⟨k, h1, _, h3, h4⟩ := log2_low n h
  exact ⟨k, h1, h3, h4⟩

/-- C19: zero is rejected by the assertion. -/
theorem C19_log2_zero : log2 0 = .error .assertFail := rfl

example : log2 1000 = .ok 9 := by rfl

/-! ## C20 bit scans -/

/-- C20: `FindLeftmostBit32` returns the index of the most significant set bit. -/
theorem C20_findLeftmostBit32 (n : BitVec 32) (h0 : n ≠ 0) :
    ∃ k, findLeftmostBit32 n = .ok k ∧ n.toNat.testBit k = true ∧
      ∀ j, k < j → n.toNat.testBit j = false := by
  have hn : n.toNat ≠ 0 := by
    intro h'; apply h0; apply BitVec.eq_of_toNat_eq; simpa using h'
  obtain ⟨a, b, c⟩ := clzScan_spec n.toNat 32 hn n.isLt
  refine ⟨31 - clzScan n.toNat 32, ?_, ?_, ?_⟩
  · unfold findLeftmostBit32 builtinClz
    rw [if_neg h0, if_neg h0]; rfl
  · rw [Nat.testBit_eq_decide_div_mod_eq]
    have e : n.toNat / 2 ^ (31 - clzScan n.toNat 32) = 1 := by
      apply Nat.div_eq_of_lt_le
      · simpa using b
      · rw [Nat.mul_comm, ← Nat.pow_succ, show (31 - clzScan n.toNat 32).succ = 32 - clzScan n.toNat 32 by omega]; exact c
    simp [e]
  · intro j hj
    apply Nat.testBit_lt_two_pow
    exact Nat.lt_of_lt_of_le c (Nat.pow_le_pow_right (by decide) (by omega))

/-- C20: `FindLeftmostBit64` returns the index of the most significant set bit. -/
theorem C20_findLeftmostBit64 (n : BitVec 64) (h0 : n ≠ 0) :
    ∃ k, findLeftmostBit64 n = .ok k ∧ n.toNat.testBit k = true ∧
      ∀ j, k < j → n.toNat.testBit j = false := by
  have hn : n.toNat ≠ 0 := by
    intro h'; apply h0; apply BitVec.eq_of_toNat_eq; simpa using h'
  obtain ⟨a, b, c⟩ := clzScan_spec n.toNat 64 hn n.isLt
  refine ⟨63 - clzScan n.toNat 64, ?_, ?_, ?_⟩
  · unfold findLeftmostBit64 builtinClzl
    rw [if_neg h0, if_neg h0]; rfl
  · rw [Nat.testBit_eq_decide_div_mod_eq]
    have e : n.toNat / 2 ^ (63 - clzScan n.toNat 64) = 1 := by
      apply Nat.div_eq_of_lt_le
      · simpa using b
      · rw [Nat.mul_comm, ← Nat.pow_succ, show (63 - clzScan n.toNat 64).succ = 64 - clzScan n.toNat 64 by omega]; exact c
    simp [e]
  · intro j hj
    apply Nat.testBit_lt_two_pow
    exact Nat.lt_of_lt_of_le c (Nat.pow_le_pow_right (by decide) (by omega))

/-- C20: `FindRightmostBit` returns the index of the least significant set bit. -/
theorem C20_findRightmostBit (n : BitVec 64) (h0 : n ≠ 0) :
    ∃ k, findRightmostBit n = .ok k ∧ n.toNat.testBit k = true ∧
      ∀ j, j < k → n.toNat.testBit j = false := by
  have hn : n.toNat ≠ 0 := by
    intro h'; apply h0; apply BitVec.eq_of_toNat_eq; simpa using h'
  obtain ⟨j, hj, hb⟩ := exists_testBit_of_ne_zero n.toNat 64 hn n.isLt
  obtain ⟨a, b⟩ := ctzScan_spec n.toNat 64 0 ⟨j, by omega, by omega, hb⟩
  refine ⟨ctzScan n.toNat 0 64, ?_, by simpa using a, ?_⟩
  · unfold findRightmostBit builtinCtzl
    rw [if_neg h0, if_neg h0]
  · intro j hj; exact b j (by omega) (by omega)

/-- C20: all three reject zero by assertion. -/
theorem C20_zero : findLeftmostBit32 0 = .error .assertFail ∧
    findLeftmostBit64 0 = .error .assertFail ∧ findRightmostBit 0 = .error .assertFail :=
  ⟨rfl, rfl, rfl⟩

example : findLeftmostBit64 (BitVec.ofNat 64 (2 ^ 40 + 5)) = .ok 40 ∧
    findRightmostBit (BitVec.ofNat 64 (2 ^ 40 + 2 ^ 7)) = .ok 7 := ⟨rfl, rfl⟩

/-! ## C21 IsUintAddSafe -/

/-- What a caller relies on: an accepted 32-bit addition does not wrap. -/
def Uint32AddSafeSound : Prop :=
  ∀ a b : BitVec 32, isUint32AddSafe a b = .ok true → a.toNat + b.toNat < 2 ^ 32
/-- What a caller relies on: an accepted 64-bit addition does not wrap. -/
def Uint64AddSafeSound : Prop :=
  ∀ a b : BitVec 64, isUint64AddSafe a b = .ok true → a.toNat + b.toNat < 2 ^ 64

/-- `IsUint32AddSafe` accepts every pair. -/
theorem C21_isUint32AddSafe_always_true (a b : BitVec 32) : isUint32AddSafe a b = .ok true := by
  unfold isUint32AddSafe
  split
  · rfl
  · rename_i h
    have ha : a ≠ 0 := fun h' => h (Or.inl h')
    have hb : b ≠ 0 := fun h' => h (Or.inr h')
    obtain ⟨k, h1, h2, _⟩ := log2_32 a ha
    obtain ⟨k', h1', h2', _⟩ := log2_32 b hb
    rw [h1, h1']
    have : (decide (k < 4 * 8) && decide (k' < 4 * 8)) = true := by simp; omega
    show Except.ok (decide (k < 4 * 8) && decide (k' < 4 * 8)) = _
    rw [this]

/-- `IsUint64AddSafe` never returns false: it accepts or is undefined (an operand that is a nonzero
multiple of `2^32`). -/
theorem C21_isUint64AddSafe_never_false (a b : BitVec 64) : isUint64AddSafe a b ≠ .ok false := by
  unfold isUint64AddSafe
  split
  · simp
  · rename_i h
    have conv : ∀ x : BitVec 64, x ≠ 0 → x.toNat ≠ 0 := by
      intro x hx h'; apply hx; apply BitVec.eq_of_toNat_eq; simpa using h'
    have ha := conv a fun h' => h (Or.inl h')
    have hb := conv b fun h' => h (Or.inr h')
    by_cases za : a.toNat % 2 ^ 32 = 0
    · rw [log2_low_zero a ha za]; intro h; cases h
    · obtain ⟨k, h1, h2, _⟩ := log2_low a za
      rw [h1]
      by_cases zb : b.toNat % 2 ^ 32 = 0
      · rw [log2_low_zero b hb zb]; intro h; cases h
      · obtain ⟨k', h1', h2', _⟩ := log2_low b zb
        rw [h1']
        have : (decide (k < 8 * 8) && decide (k' < 8 * 8)) = true := by simp; omega
        show Except.ok (decide (k < 8 * 8) && decide (k' < 8 * 8)) ≠ _
        rw [this]; simp

/-- C21 is false of the code: `0xFFFFFFFF + 1` and `0xFFFFFFFFFFFFFFFF + 1` are reported safe. -/
theorem C21_addSafe_refuted : ¬ Uint32AddSafeSound ∧ ¬ Uint64AddSafeSound := by
  constructor
  · intro h
    have := h (BitVec.allOnes 32) 1 (C21_isUint32AddSafe_always_true _ _)
    revert this; decide
  · intro h
    have := h (BitVec.allOnes 64) 1 (by rfl)
    revert this; decide

/-! ## C22 IsUintMultiplySafe -/

/-- What a caller relies on: an accepted 32-bit product does not wrap. -/
def Uint32MultiplySafeSound : Prop :=
  ∀ a b : BitVec 32, isUint32MultiplySafe a b = .ok true → a.toNat * b.toNat < 2 ^ 32
/-- What a caller relies on: an accepted 64-bit product does not wrap. -/
def Uint64MultiplySafeSound : Prop :=
  ∀ a b : BitVec 64, isUint64MultiplySafe a b = .ok true → a.toNat * b.toNat < 2 ^ 64

/-- C22 is false of the code: `0x1FFFF * 0xFFFF` is reported safe in 32 bits although it is
`0x1FFFE0001`; in 64 bits even `(2^63+1)^2` is. -/
theorem C22_multiplySafe_refuted : ¬ Uint32MultiplySafeSound ∧ ¬ Uint64MultiplySafeSound := by
  constructor
  · intro h
    have := h 0x1FFFF 0xFFFF (by rfl)
    revert this; decide
  · intro h
    have := h (BitVec.ofNat 64 (2 ^ 63 + 1)) (BitVec.ofNat 64 (2 ^ 63 + 1)) (by rfl)
    revert this; decide

theorem log_mul_bounds {a b k k' : Nat} (h3 : 2 ^ k ≤ a) (h4 : a < 2 ^ (k + 1))
    (h3' : 2 ^ k' ≤ b) (h4' : b < 2 ^ (k' + 1)) :
    2 ^ (k + k') ≤ a * b ∧ a * b < 2 ^ (k + k' + 2) := by
  constructor
  · rw [Nat.pow_add]; exact Nat.mul_le_mul h3 h3'
  · rw [show k + k' + 2 = (k + 1) + (k' + 1) by omega, Nat.pow_add]
    exact Nat.mul_lt_mul'' h4 h4'

/-- C22, what does hold for 32 bits (missing: soundness in the last factor of two): the test always
returns; a rejected product really overflows; an accepted one is below `2^33`, and every product
below `2^32` is accepted. -/
theorem C22_uint32MultiplySafe_partial (a b : BitVec 32) :
    ∃ r, isUint32MultiplySafe a b = .ok r ∧
      (r = false → 2 ^ 32 ≤ a.toNat * b.toNat) ∧ (r = true → a.toNat * b.toNat < 2 ^ 33) ∧
      (a.toNat * b.toNat < 2 ^ 32 → r = true) := by
  unfold isUint32MultiplySafe
  split
  · rename_i h
    refine ⟨true, rfl, by simp, ?_, by simp⟩
    intro _
    have ha := a.isLt
    have hb := b.isLt
    rcases h with h | h
    · have h : a.toNat ≤ 1 := h
      calc a.toNat * b.toNat ≤ 1 * b.toNat := Nat.mul_le_mul_right _ h
        _ < 2 ^ 33 := by omega
    · have h : b.toNat ≤ 1 := h
      calc a.toNat * b.toNat ≤ a.toNat * 1 := Nat.mul_le_mul_left _ h
        _ < 2 ^ 33 := by omega
  · rename_i h
    have ha : a ≠ 0 := by rintro rfl; exact h (Or.inl (by decide))
    have hb : b ≠ 0 := by rintro rfl; exact h (Or.inr (by decide))
    obtain ⟨k, h1, h2, h3, h4⟩ := log2_32 a ha
    obtain ⟨k', h1', h2', h3', h4'⟩ := log2_32 b hb
    obtain ⟨l, u⟩ := log_mul_bounds h3 h4 h3' h4'
    rw [h1, h1']
    refine ⟨decide (k + k' < 4 * 8), rfl, ?_, ?_, ?_⟩
    · intro hr
      have hr : 32 ≤ k + k' := by simpa using hr
      exact Nat.le_trans (Nat.pow_le_pow_right (by decide) hr) l
    · intro hr
      have hr : k + k' < 32 := by simpa using hr
      exact Nat.lt_of_lt_of_le u (Nat.pow_le_pow_right (by decide) (by omega))
    · intro hlt
      simp only [decide_eq_true_eq]
      rcases Nat.lt_or_ge (k + k') (4 * 8) with h | h
      · exact h
      · have := Nat.le_trans (Nat.pow_le_pow_right (n := 2) (by decide) h) l
        omega

/-- C22: the 64-bit test never rejects anything (it accepts or is undefined). -/
theorem C22_isUint64MultiplySafe_never_false (a b : BitVec 64) :
    isUint64MultiplySafe a b ≠ .ok false := by
  unfold isUint64MultiplySafe
  split
  · simp
  · rename_i h
    have conv : ∀ x : BitVec 64, ¬ x ≤ 1 → x.toNat ≠ 0 := by
      intro x hx h'; apply hx
      have : x = 0 := BitVec.eq_of_toNat_eq (by simpa using h')
      subst this; decide
    have ha := conv a fun h' => h (Or.inl h')
    have hb := conv b fun h' => h (Or.inr h')
    by_cases za : a.toNat % 2 ^ 32 = 0
    · rw [log2_low_zero a ha za]; intro h; cases h
    · obtain ⟨k, h1, h2, _⟩ := log2_low a za
      rw [h1]
      by_cases zb : b.toNat % 2 ^ 32 = 0
      · rw [log2_low_zero b hb zb]; intro h; cases h
      · obtain ⟨k', h1', h2', _⟩ := log2_low b zb
        rw [h1']
        have : decide (k + k' < 8 * 8) = true := by simp; omega
        show Except.ok (decide (k + k' < 8 * 8)) ≠ _
        rw [this]; simp

/-- C22, what does hold for 64 bits (missing: operands `>= 2^32`): for operands below `2^32` an accepted
product does not overflow. -/
theorem C22_uint64MultiplySafe_partial (a b : BitVec 64) (ha : a.toNat < 2 ^ 32)
    (hb : b.toNat < 2 ^ 32) : isUint64MultiplySafe a b = .ok true ∧ a.toNat * b.toNat < 2 ^ 64 := by
  constructor
  · unfold isUint64MultiplySafe
    split
    · rfl
    · rename_i h
      have conv : ∀ x : BitVec 64, ¬ x ≤ 1 → x.toNat < 2 ^ 32 → x.toNat % 2 ^ 32 ≠ 0 := by
        intro x hx hlt h'; apply hx
        have : x = 0 := BitVec.eq_of_toNat_eq (by rw [Nat.mod_eq_of_lt hlt] at h'; simpa using h')
        subst this; decide
      obtain ⟨k, h1, h2, _⟩ := log2_low a (conv a (fun h' => h (Or.inl h')) ha)
      obtain ⟨k', h1', h2', _⟩ := log2_low b (conv b (fun h' => h (Or.inr h')) hb)
      rw [h1, h1']
      have : decide (k + k' < 8 * 8) = true := by simp; omega
      show Except.ok (decide (k + k' < 8 * 8)) = _
      rw [this]
  · calc a.toNat * b.toNat < 2 ^ 32 * 2 ^ 32 := Nat.mul_lt_mul'' ha hb
      _ = 2 ^ 64 := by decide

example : isUint32MultiplySafe 0x80000000 1 = .ok true ∧
    isUint32MultiplySafe 0x80000000 2 = .ok false := ⟨rfl, rfl⟩

/-! ## C23 pointer tag bits -/

/-- C23: tag bits round-trip through an aligned pointer and do not disturb it. -/
theorem C23_pointer_bits_roundtrip {w : Nat} (hw : 32 ≤ w) (N : Nat) (hN : N ≤ 30) (ptr bits : BitVec w)
    (hp : 2 ^ N ∣ ptr.toNat) (hb : bits.toNat < 2 ^ N) :
    getPointerBits N (setPointerBits ptr bits) = .ok bits ∧
    clearPointerBits N (setPointerBits ptr bits) = .ok ptr ∧
    (setPointerBits ptr bits).toNat = ptr.toNat + bits.toNat := by
  obtain ⟨m, hm, hmn⟩ := intMask_toNat hw hN
  have hor : (setPointerBits ptr bits).toNat = ptr.toNat + bits.toNat := by
    obtain ⟨q, hq⟩ := hp
    unfold setPointerBits
    rw [BitVec.toNat_or, hq, ← Nat.two_pow_add_eq_or_of_lt hb q]
  have hmod : (setPointerBits ptr bits).toNat % 2 ^ N = bits.toNat := by
    rw [hor, Nat.add_mod, Nat.mod_eq_zero_of_dvd hp, Nat.zero_add, Nat.mod_mod, Nat.mod_eq_of_lt hb]
  refine ⟨?_, ?_, hor⟩
  · unfold getPointerBits; rw [hm]
    show Except.ok _ = _
    congr 1
    apply BitVec.eq_of_toNat_eq
    rw [toNat_and_mask _ m N hmn, hmod]
  · unfold clearPointerBits; rw [hm]
    show Except.ok _ = _
    congr 1
    apply BitVec.eq_of_toNat_eq
    rw [toNat_and_not_mask _ m N hmn, hmod, hor]; omega

/-- C23: `GetPointerBits` and `ClearPointerBits` split any pointer into tag and aligned base. -/
theorem C23_pointer_bits_split {w : Nat} (hw : 32 ≤ w) (N : Nat) (hN : N ≤ 30) (ptr : BitVec w) :
    ∃ t base, getPointerBits N ptr = .ok t ∧ clearPointerBits N ptr = .ok base ∧
      t.toNat < 2 ^ N ∧ 2 ^ N ∣ base.toNat ∧ ptr.toNat = base.toNat + t.toNat := by
  obtain ⟨m, hm, hmn⟩ := intMask_toNat hw hN
  refine ⟨ptr &&& m, ptr &&& ~~~m, by simp only [getPointerBits, hm]; rfl,
    by simp only [clearPointerBits, hm]; rfl, ?_, ?_, ?_⟩
  · rw [toNat_and_mask _ m N hmn]; exact Nat.mod_lt _ (Nat.pow_pos (by decide))
  · rw [toNat_and_not_mask _ m N hmn]
    exact Nat.dvd_sub_mod _
  · rw [toNat_and_mask _ m N hmn, toNat_and_not_mask _ m N hmn]
    have := Nat.mod_le ptr.toNat (2 ^ N); omega

/-- C23: with 31 or more tag bits the mask expression `(1 << NumBits) - 1` itself is undefined. -/
theorem C23_too_many_bits {w : Nat} (N : Nat) (hN : 31 ≤ N) (ptr : BitVec w) :
    getPointerBits N ptr = .error .signedOverflow ∧
    clearPointerBits N ptr = .error .signedOverflow := by
  have : ¬ N ≤ 30 := by omega
  simp only [getPointerBits, clearPointerBits, intMask, this, if_false]
  exact ⟨rfl, rfl⟩

example : 2 ^ 2 ∣ (0x1000 : BitVec 64).toNat ∧ (3 : BitVec 64).toNat < 2 ^ 2 :=
  ⟨⟨0x400, rfl⟩, by decide⟩

/-! ## C24 IsAligned / AlignedBase -/

/-- C24: `IsAligned(p,a)` for a power of two `a` tells whether `a` divides `p`. -/
theorem C24_isAligned_iff {w : Nat} (p a : BitVec w) (ha : ∃ k, a.toNat = 2 ^ k) :
    ∃ r, isAligned p a = .ok r ∧ (r = true ↔ a.toNat ∣ p.toNat) := by
  obtain ⟨k, hk⟩ := ha
  have hp : isPowerOfTwo a = true := (isPowerOfTwo_iff a).2 ⟨k, hk⟩
  have h0 : 0 < 2 ^ k := Nat.pow_pos (by decide)
  refine ⟨_, by simp only [isAligned, hp, if_true]; rfl, ?_⟩
  have hm := toNat_sub_one (v := a) (by omega)
  have e := toNat_and_mask p (a - 1) k (by rw [hm, hk])
  rw [hk, Nat.dvd_iff_mod_eq_zero, ← e, beq_iff_eq]
  constructor
  · intro h; rw [h]; rfl
  · intro h; apply BitVec.eq_of_toNat_eq; simpa using h

/-- C24: `AlignedBase(p,a)` is the greatest multiple of `a` not above `p`. -/
theorem C24_alignedBase_greatest {w : Nat} (p a : BitVec w) (ha : ∃ k, a.toNat = 2 ^ k) :
    ∃ r, alignedBase p a = .ok r ∧ a.toNat ∣ r.toNat ∧ r.toNat ≤ p.toNat ∧
      ∀ m, a.toNat ∣ m → m ≤ p.toNat → m ≤ r.toNat := by
  obtain ⟨k, hk⟩ := ha
  have hp : isPowerOfTwo a = true := (isPowerOfTwo_iff a).2 ⟨k, hk⟩
  have h0 : 0 < 2 ^ k := Nat.pow_pos (by decide)
  have hm := toNat_sub_one (v := a) (by omega)
  have e := toNat_and_not_mask p (a - 1) k (by rw [hm, hk])
  refine ⟨_, by simp only [alignedBase, hp, if_true]; rfl, ?_⟩
  rw [e, hk]
  refine ⟨Nat.dvd_sub_mod _, Nat.sub_le _ _, ?_⟩
  rintro m ⟨q, rfl⟩ hle
  have hd := Nat.div_add_mod p.toNat (2 ^ k)
  have : q ≤ p.toNat / 2 ^ k := by
    rw [Nat.le_div_iff_mul_le h0, Nat.mul_comm]; exact hle
  have := Nat.mul_le_mul_left (2 ^ k) this
  omega

/-- C24: both reject an alignment that is not a power of two. -/
theorem C24_rejects_bad_alignment {w : Nat} (p a : BitVec w) (h : ¬ ∃ k, a.toNat = 2 ^ k) :
    isAligned p a = .error .assertFail ∧ alignedBase p a = .error .assertFail := by
  have : ¬ isPowerOfTwo a = true := fun hp => h ((isPowerOfTwo_iff a).1 hp)
  simp [isAligned, alignedBase, this]

example : isAligned 24#64 8 = .ok true ∧ isAligned 25#64 8 = .ok false ∧ alignedBase 31#64 8 = .ok 24 :=
  ⟨rfl, rfl, rfl⟩

end Verif.Bits
