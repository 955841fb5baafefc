import Verif.Bits.Props
/-!
# C21, C22: exactly when the overflow tests accept
-/
namespace Verif.Bits
open Verif

theorem log2_unique {n k : Nat} (h1 : 2 ^ k ≤ n) (h2 : n < 2 ^ (k + 1)) : n.log2 = k := by
  have hn : n ≠ 0 := by
    intro h; subst h
    have := Nat.two_pow_pos k
    omega
  have a := Nat.log2_self_le hn
  have b := Nat.lt_log2_self (n := n)
  have e1 : n.log2 < k + 1 := (Nat.pow_lt_pow_iff_right (a := 2) (by decide)).1 (Nat.lt_of_le_of_lt a h2)
  have e2 : k < n.log2 + 1 := (Nat.pow_lt_pow_iff_right (a := 2) (by decide)).1 (Nat.lt_of_le_of_lt h1 b)
  omega

/-- C22, exactly (32 bits): always defined, and accepted if an operand is at most 1 or the bit lengths of
the operands add up to at most 33. -/
theorem C22_uint32MultiplySafe_exact (a b : BitVec 32) :
    isUint32MultiplySafe a b = .ok (decide (a.toNat ≤ 1 ∨ b.toNat ≤ 1 ∨ a.toNat.log2 + b.toNat.log2 < 32)) := by
  unfold isUint32MultiplySafe
  split
  · rename_i h
    have h : a.toNat ≤ 1 ∨ b.toNat ≤ 1 := h
    congr 1
    symm
    simp only [decide_eq_true_eq]
    rcases h with h | h
    · exact .inl h
    · exact .inr (.inl h)
  · rename_i h
    have ha : a ≠ 0 := by rintro rfl; exact h (Or.inl (by decide))
    have hb : b ≠ 0 := by rintro rfl; exact h (Or.inr (by decide))
    have h : ¬ (a.toNat ≤ 1 ∨ b.toNat ≤ 1) := h
    obtain ⟨k, h1, h2, h3, h4⟩ := log2_32 a ha
    obtain ⟨k', h1', h2', h3', h4'⟩ := log2_32 b hb
    rw [h1, h1', log2_unique h3 h4, log2_unique h3' h4']
    show Except.ok _ = _
    congr 1
    rw [decide_eq_decide]
    omega

/-- C22, exactly (64 bits): accepted if an operand is at most 1 or both have a bit in their low half, else
undefined; it does not depend on the product. -/
theorem C22_uint64MultiplySafe_exact (a b : BitVec 64) :
    isUint64MultiplySafe a b =
      if a.toNat ≤ 1 ∨ b.toNat ≤ 1 ∨ (a.toNat % 2 ^ 32 ≠ 0 ∧ b.toNat % 2 ^ 32 ≠ 0) then .ok true
      else .error .badBuiltin := by
  unfold isUint64MultiplySafe
  by_cases h : a.toNat ≤ 1 ∨ b.toNat ≤ 1
  · rw [if_pos (show a ≤ 1 ∨ b ≤ 1 from h), if_pos (by rcases h with h | h <;> simp [h])]
  · rw [if_neg (show ¬ (a ≤ 1 ∨ b ≤ 1) from h)]
    by_cases za : a.toNat % 2 ^ 32 = 0
    · rw [log2_low_zero a (by omega) za, if_neg (by omega)]; rfl
    · obtain ⟨k, h1, h2, -⟩ := log2_low a za
      rw [h1]
      by_cases zb : b.toNat % 2 ^ 32 = 0
      · simp only [bind, Except.bind]
        rw [log2_low_zero b (by omega) zb, if_neg (by omega)]
      · obtain ⟨k', h1', h2', -⟩ := log2_low b zb
        rw [h1', if_pos (.inr (.inr ⟨za, zb⟩))]
        show Except.ok (decide (k + k' < 8 * 8)) = _
        congr 1
        simp; omega

/-- C21, exactly (64 bits): accepted whatever the sum is, unless a nonzero operand has no bit in its low
half, which is undefined. -/
theorem C21_uint64AddSafe_exact (a b : BitVec 64) :
    isUint64AddSafe a b =
      if a.toNat = 0 ∨ b.toNat = 0 ∨ (a.toNat % 2 ^ 32 ≠ 0 ∧ b.toNat % 2 ^ 32 ≠ 0) then .ok true
      else .error .badBuiltin := by
  unfold isUint64AddSafe
  have conv : ∀ x : BitVec 64, x = 0 ↔ x.toNat = 0 := by
    intro x
    constructor
    · rintro rfl; rfl
    · intro h; exact BitVec.eq_of_toNat_eq (by simpa using h)
  by_cases h : a.toNat = 0 ∨ b.toNat = 0
  · rw [if_pos (by rw [conv, conv]; exact h), if_pos (by rcases h with h | h <;> simp [h])]
  · rw [if_neg (by rw [conv, conv]; exact h)]
    by_cases za : a.toNat % 2 ^ 32 = 0
    · rw [log2_low_zero a (by omega) za, if_neg (by omega)]; rfl
    · obtain ⟨k, h1, h2, -⟩ := log2_low a za
      rw [h1]
      by_cases zb : b.toNat % 2 ^ 32 = 0
      · simp only [bind, Except.bind]
        rw [log2_low_zero b (by omega) zb, if_neg (by omega)]
      · obtain ⟨k', h1', h2', -⟩ := log2_low b zb
        rw [h1', if_pos (.inr (.inr ⟨za, zb⟩))]
        show Except.ok (decide (k < 8 * 8) && decide (k' < 8 * 8)) = _
        congr 1
        simp; omega

example : isUint32MultiplySafe 0x1FFFF 0xFFFF = .ok true ∧ isUint32MultiplySafe 0x10000 0x10000 = .ok false := ⟨rfl, rfl⟩

end Verif.Bits
