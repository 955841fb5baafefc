import Verif.Bits.Model
/-! Helper lemmas for `Verif.Bits.Props`. -/
namespace Verif.Bits
open Verif

theorem clzScan_le (x w : Nat) : clzScan x w ≤ w := by
  induction w with
  | zero => simp [clzScan]
  | succ w ih => simp only [clzScan]; split <;> omega

theorem clzScan_spec (x : Nat) : ∀ w, x ≠ 0 → x < 2 ^ w →
    clzScan x w < w ∧ 2 ^ (w - 1 - clzScan x w) ≤ x ∧ x < 2 ^ (w - clzScan x w) := by
  intro w
  induction w with
  | zero => intro h h2; omega
  | succ w ih =>
    intro h0 hlt
    simp only [clzScan]
    split
    · rename_i hb
      have := Nat.ge_two_pow_of_testBit hb
      simp; omega
    · rename_i hb
      have hx : x < 2 ^ w := by
        rcases Nat.lt_or_ge x (2 ^ w) with h | h
        · exact h
        · exfalso
          apply hb
          rw [Nat.testBit_eq_decide_div_mod_eq]
          have : x / 2 ^ w = 1 := by
            apply Nat.div_eq_of_lt_le <;> rw [Nat.pow_succ] at hlt <;> omega
          simp [this]
      obtain ⟨h1, h2, h3⟩ := ih h0 hx
      refine ⟨by omega, ?_, ?_⟩
      · rw [show w + 1 - 1 - (1 + clzScan x w) = w - 1 - clzScan x w by omega]; exact h2
      · rw [show w + 1 - (1 + clzScan x w) = w - clzScan x w by omega]; exact h3

theorem ctzScan_spec (x : Nat) : ∀ fuel i, (∃ j, i ≤ j ∧ j < i + fuel ∧ x.testBit j = true) →
    x.testBit (i + ctzScan x i fuel) = true ∧
    ∀ j, i ≤ j → j < i + ctzScan x i fuel → x.testBit j = false := by
  intro fuel
  induction fuel with
  | zero => rintro i ⟨j, h1, h2, h3⟩; omega
  | succ fuel ih =>
    rintro i ⟨j, h1, h2, h3⟩
    simp only [ctzScan]
    split
    · rename_i hb
      refine ⟨by simpa using hb, ?_⟩
      intro j' hj hj'; omega
    · rename_i hb
      have hne : j ≠ i := by rintro rfl; exact hb h3
      obtain ⟨a, b⟩ := ih (i + 1) ⟨j, by omega, by omega, h3⟩
      refine ⟨by rw [show i + (1 + ctzScan x (i + 1) fuel) = i + 1 + ctzScan x (i + 1) fuel by omega]; exact a, ?_⟩
      intro j' hj hj'
      rcases Nat.eq_or_lt_of_le hj with h | h
      · subst h; simpa using hb
      · exact b j' h (by omega)

theorem exists_testBit_of_ne_zero (x w : Nat) (h : x ≠ 0) (hw : x < 2 ^ w) :
    ∃ j, j < w ∧ x.testBit j = true := by
  obtain ⟨j, hj⟩ := Nat.exists_testBit_of_ne_zero h
  refine ⟨j, ?_, hj⟩
  have := Nat.ge_two_pow_of_testBit hj
  rcases Nat.lt_or_ge j w with h | h
  · exact h
  · have := Nat.pow_le_pow_right (n := 2) (by decide) h
    omega

theorem toNat_one_of {w : Nat} {v : BitVec w} (h : v.toNat ≠ 0) : (1 : BitVec w).toNat = 1 := by
  have hw : 0 < w := by
    rcases Nat.eq_zero_or_pos w with rfl | h'
    · exact absurd (by have := v.isLt; omega) h
    · exact h'
  have : 1 < 2 ^ w := Nat.one_lt_two_pow (by omega)
  show (BitVec.ofNat w 1).toNat = 1
  rw [BitVec.toNat_ofNat, Nat.mod_eq_of_lt this]

theorem isPowerOfTwo_iff {w : Nat} (v : BitVec w) : isPowerOfTwo v = true ↔ ∃ k, v.toNat = 2 ^ k := by
  unfold isPowerOfTwo
  have key := Nat.ne_zero_and_sub_one_eq_zero_iff_isPowerOfTwo (n := v.toNat)
  unfold Nat.isPowerOfTwo at key
  rw [← key]
  by_cases h : v = 0
  · subst h; simp
  · have hn : v.toNat ≠ 0 := by
      intro h'; apply h; apply BitVec.eq_of_toNat_eq; simpa using h'
    have hlt := v.isLt
    have hsub : (v - 1).toNat = v.toNat - 1 := by
      rw [BitVec.toNat_sub]
      rw [toNat_one_of hn, show 2 ^ w - 1 + v.toNat = 2 ^ w + (v.toNat - 1) by omega, Nat.add_mod_left, Nat.mod_eq_of_lt (by omega)]
    rw [if_neg h]
    simp only [beq_iff_eq]
    constructor
    · intro hz
      refine ⟨hn, ?_⟩
      have := congrArg BitVec.toNat hz
      simp only [BitVec.toNat_and, hsub] at this
      simpa using this
    · rintro ⟨-, hz⟩
      apply BitVec.eq_of_toNat_eq
      simp only [BitVec.toNat_and, hsub]
      simpa using hz

theorem pow_lt_width {w : Nat} {v : BitVec w} {k : Nat} (h : v.toNat = 2 ^ k) : k < w := by
  have := v.isLt
  rw [h] at this
  exact (Nat.pow_lt_pow_iff_right (by decide)).1 this

theorem toNat_sub_one {w : Nat} {v : BitVec w} (h : v.toNat ≠ 0) : (v - 1).toNat = v.toNat - 1 := by
  have hlt := v.isLt
  rw [BitVec.toNat_sub]
  rw [toNat_one_of h, show 2 ^ w - 1 + v.toNat = 2 ^ w + (v.toNat - 1) by omega, Nat.add_mod_left, Nat.mod_eq_of_lt (by omega)]

theorem toNat_align {w : Nat} (n a : BitVec w) (k : Nat) (ha : a.toNat = 2 ^ k) :
    (n + (a - n % a) % a).toNat =
      (n.toNat + (2 ^ k - n.toNat % 2 ^ k) % 2 ^ k) % 2 ^ w := by
  have hk : 0 < 2 ^ k := Nat.pow_pos (by decide)
  have hm : n.toNat % 2 ^ k < 2 ^ k := Nat.mod_lt _ hk
  have hlt := a.isLt
  rw [BitVec.toNat_add, BitVec.toNat_umod, BitVec.toNat_sub, BitVec.toNat_umod, ha]
  rw [ha] at hlt
  congr 2
  congr 1
  rw [show 2 ^ w - n.toNat % 2 ^ k + 2 ^ k = 2 ^ k - n.toNat % 2 ^ k + 2 ^ w by omega,
      Nat.add_mod_right, Nat.mod_eq_of_lt (by omega)]

/-- Rounding up, on natural numbers. -/
theorem roundUp_spec (n A : Nat) (hA : 0 < A) :
    A ∣ n + (A - n % A) % A ∧ n ≤ n + (A - n % A) % A ∧ (A - n % A) % A < A ∧
    ∀ m, A ∣ m → n ≤ m → n + (A - n % A) % A ≤ m := by
  have hm : n % A < A := Nat.mod_lt _ hA
  have hdm := Nat.div_add_mod n A
  by_cases h0 : n % A = 0
  · have : (A - n % A) % A = 0 := by simp [h0]
    rw [this]
    refine ⟨Nat.dvd_of_mod_eq_zero (by simpa using h0), by omega, by omega, ?_⟩
    intro m _ h; omega
  · have : (A - n % A) % A = A - n % A := Nat.mod_eq_of_lt (by omega)
    rw [this]
    have e : n + (A - n % A) = A * (n / A + 1) := by rw [Nat.mul_add]; omega
    refine ⟨e ▸ Nat.dvd_mul_right _ _, by omega, by omega, ?_⟩
    rintro m ⟨q, rfl⟩ h
    rw [e]
    apply Nat.mul_le_mul_left
    rcases Nat.lt_or_ge (n / A) q with h' | h'
    · exact h'
    · have := Nat.mul_le_mul_left A h'
      omega

theorem log2_low (n : BitVec 64) (h : n.toNat % 2 ^ 32 ≠ 0) :
    ∃ k, log2 n = .ok k ∧ k < 32 ∧ 2 ^ k ≤ n.toNat % 2 ^ 32 ∧ n.toNat % 2 ^ 32 < 2 ^ (k + 1) := by
  have hn0 : n ≠ 0 := by rintro rfl; simp at h
  have ht : (n.truncate 32).toNat = n.toNat % 2 ^ 32 := by simp
  have ht0 : n.truncate 32 ≠ 0 := by
    intro h'; rw [h'] at ht; apply h; rw [← ht]; rfl
  have hs := clzScan_spec (n.truncate 32).toNat 32 (by rw [ht]; exact h) (by omega)
  refine ⟨31 - clzScan (n.truncate 32).toNat 32, ?_, by omega, ?_, ?_⟩
  · unfold log2 builtinClz
    rw [if_neg hn0, if_neg ht0]; rfl
  · rw [← ht]; rw [show 32 - 1 = 31 from rfl] at hs; exact hs.2.1
  · rw [← ht]
    rw [show 31 - clzScan (n.truncate 32).toNat 32 + 1 = 32 - clzScan (n.truncate 32).toNat 32 by omega]
    exact hs.2.2

theorem log2_low_zero (n : BitVec 64) (h0 : n.toNat ≠ 0) (h : n.toNat % 2 ^ 32 = 0) :
    log2 n = .error .badBuiltin := by
  have hn0 : n ≠ 0 := by rintro rfl; simp at h0
  have ht0 : n.truncate 32 = 0 := by
    apply BitVec.eq_of_toNat_eq; simpa using h
  unfold log2 builtinClz
  rw [if_neg hn0, if_pos ht0]; rfl

theorem log2_32 (a : BitVec 32) (h : a ≠ 0) :
    ∃ k, log2 (a.zeroExtend 64) = .ok k ∧ k < 32 ∧ 2 ^ k ≤ a.toNat ∧ a.toNat < 2 ^ (k + 1) := by
  have hlt := a.isLt
  have hz : (a.zeroExtend 64).toNat = a.toNat := by
    simp only [BitVec.zeroExtend, BitVec.toNat_setWidth]; omega
  have ha : a.toNat ≠ 0 := by
    intro h'; apply h; apply BitVec.eq_of_toNat_eq; simpa using h'
  have hm : (a.zeroExtend 64).toNat % 2 ^ 32 = a.toNat := by rw [hz]; omega
  obtain ⟨k, h1, h2, h3, h4⟩ := log2_low (a.zeroExtend 64) (by rw [hm]; exact ha)
  exact ⟨k, h1, h2, by rw [hm] at h3; exact h3, by rw [hm] at h4; exact h4⟩

theorem intMask_toNat {w N : Nat} (hw : 32 ≤ w) (h : N ≤ 30) :
    ∃ m, intMask w N = .ok m ∧ m.toNat = 2 ^ N - 1 := by
  refine ⟨BitVec.ofNat w (2 ^ N - 1), by simp [intMask, h], ?_⟩
  rw [BitVec.toNat_ofNat]
  have := Nat.pow_lt_pow_right (a := 2) (by decide) (show N < w by omega)
  have := Nat.two_pow_pos N
  exact Nat.mod_eq_of_lt (by omega)

/-- `x &&& ~~~(2^k - 1)` clears the low `k` bits. -/
theorem toNat_and_not_mask {w : Nat} (x m : BitVec w) (k : Nat) (hm : m.toNat = 2 ^ k - 1) :
    (x &&& ~~~m).toNat = x.toNat - x.toNat % 2 ^ k := by
  have e : x.toNat - x.toNat % 2 ^ k = (x.toNat >>> k) <<< k := by
    rw [Nat.shiftRight_eq_div_pow, Nat.shiftLeft_eq]
    have := Nat.div_add_mod x.toNat (2 ^ k)
    rw [Nat.mul_comm (x.toNat / 2 ^ k)]; omega
  rw [e]
  apply Nat.eq_of_testBit_eq
  intro i
  rw [BitVec.testBit_toNat, BitVec.getLsbD_and, BitVec.getLsbD_not, ← BitVec.testBit_toNat,
    ← BitVec.testBit_toNat, hm, Nat.testBit_two_pow_sub_one, Nat.testBit_shiftLeft,
    Nat.testBit_shiftRight]
  by_cases hik : i < k
  · have : ¬ i ≥ k := by omega
    simp [hik, this]
  · have hge : i ≥ k := by omega
    simp only [hik, decide_false, Bool.not_false, Bool.and_true, hge, decide_true, Bool.true_and]
    rw [show k + (i - k) = i by omega]
    by_cases hi : i < w
    · simp [hi]
    · have : x.toNat.testBit i = false := by
        apply Nat.testBit_lt_two_pow
        exact Nat.lt_of_lt_of_le x.isLt (Nat.pow_le_pow_right (by decide) (by omega))
      simp [this]

/-- `x &&& (2^k - 1)` keeps the low `k` bits. -/
theorem toNat_and_mask {w : Nat} (x m : BitVec w) (k : Nat) (hm : m.toNat = 2 ^ k - 1) :
    (x &&& m).toNat = x.toNat % 2 ^ k := by
  rw [BitVec.toNat_and, hm, Nat.and_two_pow_sub_one_eq_mod]

end Verif.Bits
