import Verif.Arith.Model
/-!
# Properties of `am-arithmetic.h` (C25, C26)
-/
namespace Verif.Arith
open Verif

/-- C25: `TryUint32Add` succeeds exactly when the sum fits, storing it; otherwise `*out` is untouched. -/
theorem C25_tryUint32Add_exact (l r out : BitVec 32) :
    (l.toNat + r.toNat < 2 ^ 32 →
      ∃ s, tryUint32Add l r out = (true, s) ∧ s.toNat = l.toNat + r.toNat) ∧
    (2 ^ 32 ≤ l.toNat + r.toNat → tryUint32Add l r out = (false, out)) := by
  have hl := l.isLt
  have hr := r.isLt
  have e : (l + r).toNat = (l.toNat + r.toNat) % 2 ^ 32 := BitVec.toNat_add l r
  have hlt : (l + r < umax l r) ↔ (l.toNat + r.toNat) % 2 ^ 32 < max l.toNat r.toNat := by
    rw [BitVec.lt_def, e]
    unfold umax
    split <;> rename_i h <;> rw [BitVec.lt_def] at h
    · rw [Nat.max_eq_right (by omega)]
    · rw [Nat.max_eq_left (by omega)]
  constructor
  · intro h
    have : ¬ (l + r < umax l r) := by rw [hlt, Nat.mod_eq_of_lt h]; omega
    refine ⟨l + r, by simp [tryUint32Add, this], by rw [e, Nat.mod_eq_of_lt h]⟩
  · intro h
    have : l + r < umax l r := by rw [hlt]; omega
    simp [tryUint32Add, this]

/-- C25: `TryUint64Add` succeeds exactly when the sum fits, storing it; otherwise `*out` is untouched. -/
theorem C25_tryUint64Add_exact (l r out : BitVec 64) :
    (l.toNat + r.toNat < 2 ^ 64 →
      ∃ s, tryUint64Add l r out = (true, s) ∧ s.toNat = l.toNat + r.toNat) ∧
    (2 ^ 64 ≤ l.toNat + r.toNat → tryUint64Add l r out = (false, out)) := by
  have hl := l.isLt
  have hr := r.isLt
  have e : (l + r).toNat = (l.toNat + r.toNat) % 2 ^ 64 := BitVec.toNat_add l r
  have hlt : (l + r < umax l r) ↔ (l.toNat + r.toNat) % 2 ^ 64 < max l.toNat r.toNat := by
    rw [BitVec.lt_def, e]
    unfold umax
    split <;> rename_i h <;> rw [BitVec.lt_def] at h
    · rw [Nat.max_eq_right (by omega)]
    · rw [Nat.max_eq_left (by omega)]
  constructor
  · intro h
    have : ¬ (l + r < umax l r) := by rw [hlt, Nat.mod_eq_of_lt h]; omega
    refine ⟨l + r, by simp [tryUint64Add, this], by rw [e, Nat.mod_eq_of_lt h]⟩
  · intro h
    have : l + r < umax l r := by rw [hlt]; omega
    simp [tryUint64Add, this]

example : tryUint32Add 0xFFFFFFFF 0 7 = (true, 0xFFFFFFFF) ∧
    tryUint32Add 0xFFFFFFFF 1 7 = (false, 7) := by decide

/-! ## C26 TryUint64Multiply -/

/-- What a caller relies on: the product is accepted exactly when it fits, and then stored exactly. -/
def TryMultiplyExact : Prop :=
  ∀ l r out : BitVec 64,
    (l.toNat * r.toNat < 2 ^ 64 →
      ∃ s, tryUint64Multiply l r out = .ok (true, s) ∧ s.toNat = l.toNat * r.toNat) ∧
    (2 ^ 64 ≤ l.toNat * r.toNat → tryUint64Multiply l r out = .ok (false, out))

/-- C26 is false of the code: `2^32 * 2^32` is accepted with result `0`. -/
theorem C26_tryUint64Multiply_refuted : ¬ TryMultiplyExact := by
  intro h
  have := (h (BitVec.ofNat 64 (2 ^ 32)) (BitVec.ofNat 64 (2 ^ 32)) 7).2 (by decide)
  have e : tryUint64Multiply (BitVec.ofNat 64 (2 ^ 32)) (BitVec.ofNat 64 (2 ^ 32)) 7 = .ok (true, 0) := by
    rfl
  rw [e] at this
  injection this with this
  revert this; decide

/-- C26, what does hold (missing: overflowing products that are multiples of `2^64`, which are accepted
with result 0): products that fit are accepted exactly; overflowing products that are not multiples of
`2^64` are rejected leaving `*out` alone; overflowing multiples of `2^64` are reported as `0`. -/
theorem C26_tryUint64Multiply_partial (l r out : BitVec 64) :
    (l.toNat * r.toNat < 2 ^ 64 →
      ∃ s, tryUint64Multiply l r out = .ok (true, s) ∧ s.toNat = l.toNat * r.toNat) ∧
    (2 ^ 64 ≤ l.toNat * r.toNat → ¬ 2 ^ 64 ∣ l.toNat * r.toNat →
      tryUint64Multiply l r out = .ok (false, out)) ∧
    (2 ^ 64 ∣ l.toNat * r.toNat → tryUint64Multiply l r out = .ok (true, 0)) := by
  have e : (l * r).toNat = (l.toNat * r.toNat) % 2 ^ 64 := BitVec.toNat_mul l r
  have ne : ∀ {x : BitVec 64}, x ≠ 0 ↔ x.toNat ≠ 0 := by
    intro x
    constructor
    · intro h h'; apply h; apply BitVec.eq_of_toNat_eq; simpa using h'
    · rintro h rfl; simp at h
  refine ⟨?_, ?_, ?_⟩
  · intro h
    have e' : (l * r).toNat = l.toNat * r.toNat := by rw [e, Nat.mod_eq_of_lt h]
    refine ⟨l * r, ?_, e'⟩
    unfold tryUint64Multiply
    by_cases hz : l * r = 0
    · simp [hz]
    · have hl : l ≠ 0 := by
        rintro rfl; apply hz; simp
      have hl0 : 0 < l.toNat := Nat.pos_of_ne_zero (ne.1 hl)
      have hd : l * r / l = r := by
        apply BitVec.eq_of_toNat_eq
        rw [BitVec.toNat_udiv, e', Nat.mul_div_cancel_left _ hl0]
      dsimp only
      rw [if_pos hz, if_neg hl, if_neg (not_not_intro hd)]
  · intro h hnd
    have hz : l * r ≠ 0 := by
      rw [ne, e]; intro h'; exact hnd (Nat.dvd_of_mod_eq_zero h')
    have hl : l ≠ 0 := by rintro rfl; apply hz; simp
    have hl0 : 0 < l.toNat := Nat.pos_of_ne_zero (ne.1 hl)
    have hd : l * r / l ≠ r := by
      intro hc
      have hc := congrArg BitVec.toNat hc
      rw [BitVec.toNat_udiv, e] at hc
      have : l.toNat * (l.toNat * r.toNat % 2 ^ 64 / l.toNat) ≤ l.toNat * r.toNat % 2 ^ 64 :=
        Nat.mul_div_le _ _
      rw [hc] at this
      have := Nat.mod_lt (l.toNat * r.toNat) (show 2 ^ 64 > 0 by decide)
      omega
    unfold tryUint64Multiply
    dsimp only
    rw [if_pos hz, if_neg hl, if_pos hd]
  · intro h
    have hz : l * r = 0 := by
      apply BitVec.eq_of_toNat_eq; rw [e, Nat.mod_eq_zero_of_dvd h]; rfl
    unfold tryUint64Multiply
    simp [hz]

/-- C26: the guarded division never divides by zero. -/
theorem C26_tryUint64Multiply_no_fault (l r out : BitVec 64) :
    ∃ b s, tryUint64Multiply l r out = .ok (b, s) := by
  rcases Nat.lt_or_ge (l.toNat * r.toNat) (2 ^ 64) with h | h
  · obtain ⟨s, h, _⟩ := (C26_tryUint64Multiply_partial l r out).1 h; exact ⟨_, _, h⟩
  · by_cases hd : 2 ^ 64 ∣ l.toNat * r.toNat
    · exact ⟨_, _, (C26_tryUint64Multiply_partial l r out).2.2 hd⟩
    · exact ⟨_, _, (C26_tryUint64Multiply_partial l r out).2.1 h hd⟩

example : tryUint64Multiply 6 7 0 = .ok (true, 42) ∧
    tryUint64Multiply (BitVec.ofNat 64 (2 ^ 63)) 3 9 = .ok (false, 9) := ⟨rfl, rfl⟩

end Verif.Arith
