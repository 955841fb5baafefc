import Verif.Flags.Props
/-!
# C96: enumerations without a fixed underlying type, and comparisons with integers
-/
namespace Verif.Flags
open Verif

/-! ### Operators on plain enumerations -/

/-- C96, first part in full: on every enumeration the operators are defined for all its values, yield values of it, and are the set operations on bits. -/
def PlainCorrect : Prop :=
  ∀ (e : Plain) (a b : BitVec 32), 1 ≤ e.width → e.width ≤ 32 → e.inRange a = true → e.inRange b = true →
    ∃ o n x c, e.or a b = .ok o ∧ e.and a b = .ok n ∧ e.xor a b = .ok x ∧ e.not a = .ok c ∧
      (e.inRange o = true ∧ e.inRange n = true ∧ e.inRange x = true ∧ e.inRange c = true) ∧
      ∀ i, i < 32 → ((Has o i ↔ Has a i ∨ Has b i) ∧ (Has n i ↔ Has a i ∧ Has b i) ∧
        (Has x i ↔ (Has a i ∧ ¬ Has b i) ∨ (Has b i ∧ ¬ Has a i)) ∧ (Has c i ↔ ¬ Has a i))

/-- C96 does not hold: `~` leaves the range of an enumeration without a fixed underlying type and without negative enumerators. -/
theorem C96_complement_refuted : ¬ PlainCorrect := by
  intro h
  obtain ⟨o, n, x, c, -, -, -, h4, -⟩ := h ⟨false, 2⟩ 1#32 2#32 (by decide) (by decide) (by decide) (by decide)
  have e : (⟨false, 2⟩ : Plain).not 1#32 = .error .badEnum := by decide
  rw [e] at h4; cases h4

theorem lt_bits (k : Nat) (v : BitVec 32) : v.toNat < 2 ^ k ↔ ∀ i, k ≤ i → i < 32 → v.getLsbD i = false := by
  constructor
  · intro h i hi _
    rw [BitVec.getLsbD]
    exact Nat.testBit_lt_two_pow (Nat.lt_of_lt_of_le h (Nat.pow_le_pow_right (by decide) hi))
  · intro h
    apply Nat.lt_pow_two_of_testBit
    intro i hi
    by_cases h' : i < 32
    · exact h i hi h'
    · exact Nat.testBit_lt_two_pow (Nat.lt_of_lt_of_le v.isLt (Nat.pow_le_pow_right (by decide) (by omega)))

/-- The values of a plain enumeration are the ones whose high bits are all zero, or all equal to the sign bit. -/
theorem range_bits (e : Plain) (v : BitVec 32) :
    e.inRange v = true ↔ if e.signed then ∀ i, e.width - 1 ≤ i → i < 32 → v.getLsbD i = v.getLsbD 31 else ∀ i, e.width ≤ i → i < 32 → v.getLsbD i = false := by
  unfold Plain.inRange
  cases hs : e.signed with
  | false =>
    simp only [Bool.false_eq_true, if_false, decide_eq_true_eq]
    exact lt_bits _ _
  | true =>
    simp only [if_true, decide_eq_true_eq]
    have hm : v.getLsbD 31 = v.msb := by rw [BitVec.msb_eq_getLsbD_last]
    rw [hm]
    generalize e.width - 1 = k
    have hc : ((2 ^ k : Nat) : Int) = 2 ^ k := by norm_cast
    have hp : 0 < 2 ^ k := Nat.two_pow_pos k
    cases h : v.msb with
    | false =>
      rw [BitVec.toInt_eq_toNat_of_msb h, ← lt_bits, ← hc]
      omega
    | true =>
      have h1 := BitVec.toInt_eq_msb_cond v
      rw [h, if_pos rfl] at h1
      have h2 : (~~~ v).toNat = 2 ^ 32 - 1 - v.toNat := BitVec.toNat_not
      have hv := v.isLt
      have h3 := lt_bits k (~~~ v)
      have h4 : (∀ i, k ≤ i → i < 32 → (~~~ v).getLsbD i = false) ↔ ∀ i, k ≤ i → i < 32 → v.getLsbD i = true := by
        refine forall_congr' fun i => forall_congr' fun _ => forall_congr' fun hi => ?_
        rw [BitVec.getLsbD_not]; simp [hi]
      rw [← h4, ← h3, h2, h1, ← hc]
      have e32 : ((2 ^ 32 : Nat) : Int) = 4294967296 := rfl
      have hneg : 2 ^ 31 ≤ v.toNat := by
        have := BitVec.msb_eq_decide v
        rw [h] at this
        exact of_decide_eq_true this.symm
      omega

/-- C96: `|`, `&` and `^` are defined on the values of every enumeration, yield values of it and are the set operations. -/
theorem C96_plain_operators (e : Plain) (a b : BitVec 32) (ha : e.inRange a = true) (hb : e.inRange b = true) :
    ∃ o n x, e.or a b = .ok o ∧ e.and a b = .ok n ∧ e.xor a b = .ok x ∧ (e.inRange o = true ∧ e.inRange n = true ∧ e.inRange x = true) ∧
      ∀ i, (Has o i ↔ Has a i ∨ Has b i) ∧ (Has n i ↔ Has a i ∧ Has b i) ∧ (Has x i ↔ (Has a i ∧ ¬ Has b i) ∨ (Has b i ∧ ¬ Has a i)) := by
  have ho : e.inRange (a ||| b) = true := by
    rw [range_bits] at ha hb ⊢
    cases hs : e.signed with
    | false => rw [hs] at ha hb; intro i h1 h2; rw [BitVec.getLsbD_or, ha i h1 h2, hb i h1 h2]; rfl
    | true => rw [hs] at ha hb; intro i h1 h2; rw [BitVec.getLsbD_or, BitVec.getLsbD_or, ha i h1 h2, hb i h1 h2]
  have hn : e.inRange (a &&& b) = true := by
    rw [range_bits] at ha hb ⊢
    cases hs : e.signed with
    | false => rw [hs] at ha hb; intro i h1 h2; rw [BitVec.getLsbD_and, ha i h1 h2, hb i h1 h2]; rfl
    | true => rw [hs] at ha hb; intro i h1 h2; rw [BitVec.getLsbD_and, BitVec.getLsbD_and, ha i h1 h2, hb i h1 h2]
  have hx : e.inRange (a ^^^ b) = true := by
    rw [range_bits] at ha hb ⊢
    cases hs : e.signed with
    | false => rw [hs] at ha hb; intro i h1 h2; rw [BitVec.getLsbD_xor, ha i h1 h2, hb i h1 h2]; rfl
    | true => rw [hs] at ha hb; intro i h1 h2; rw [BitVec.getLsbD_xor, BitVec.getLsbD_xor, ha i h1 h2, hb i h1 h2]
  refine ⟨_, _, _, if_pos ho, if_pos hn, if_pos hx, ⟨ho, hn, hx⟩, fun i => ?_⟩
  simp only [Has, BitVec.getLsbD_or, BitVec.getLsbD_and, BitVec.getLsbD_xor]
  cases a.getLsbD i <;> cases b.getLsbD i <;> decide

/-- C96: `~` on an enumeration with a negative enumerator, or whose bit field is as wide as its underlying type. What is missing: the other ones, where it is undefined for every value. -/
theorem C96_complement_partial (e : Plain) (a : BitVec 32) (he : e.signed = true ∨ e.width = 32) (ha : e.inRange a = true) :
    ∃ c, e.not a = .ok c ∧ e.inRange c = true ∧ ∀ i, i < 32 → (Has c i ↔ ¬ Has a i) := by
  have hc : e.inRange (~~~ a) = true := by
    rw [range_bits] at ha ⊢
    cases hs : e.signed with
    | false =>
      rw [hs] at he
      intro i h1 h2
      have := he.resolve_left (by simp)
      omega
    | true =>
      rw [hs] at ha
      intro i h1 h2
      rw [BitVec.getLsbD_not, BitVec.getLsbD_not, ha i h1 h2]; simp [h2]
  refine ⟨_, if_pos hc, hc, fun i hi => ?_⟩
  simp [Has, BitVec.getLsbD_not, hi]

/-- C96: ... there `~` is undefined for every value. -/
theorem C96_complement_undefined_refuted (e : Plain) (a : BitVec 32) (hs : e.signed = false) (hw : e.width < 32) (ha : e.inRange a = true) : e.not a = .error .badEnum := by
  unfold Plain.not Plain.convert
  rw [if_neg]
  intro hc
  rw [range_bits, hs] at ha hc
  have h1 := ha 31 (by omega) (by decide)
  have h2 := hc 31 (by omega) (by decide)
  rw [BitVec.getLsbD_not, h1] at h2
  cases h2

/-! ### Comparisons -/

/-- C96, second part in full: an enumerator equals an integer exactly if their values are equal, in both orders, and `!=` is the opposite. -/
def ComparisonCorrect : Prop :=
  ∀ (se st : Bool) (w w2 : Nat) (e : BitVec w) (v : BitVec w2), 0 < w → 0 < w2 →
    (eqLeft se e v = true ↔ intOf se e = intOf st v) ∧ (eqRight se v e = true ↔ intOf se e = intOf st v) ∧
    (neLeft se e v = true ↔ intOf se e ≠ intOf st v) ∧ (neRight se v e = true ↔ intOf se e ≠ intOf st v)

/-- C96 does not hold: with a type narrower than the enumeration, 256 equals 0. -/
theorem C96_comparison_refuted : ¬ ComparisonCorrect := by
  intro h
  have := (h false false 16 8 256#16 0#8 (by decide) (by decide)).1
  revert this; decide

/-- ... and with an unsigned type -1 equals 4294967295. -/
theorem C96_comparison_sign_refuted : eqLeft true (-1 : BitVec 8) (4294967295#32) = true ∧ intOf true (-1 : BitVec 8) ≠ intOf false (4294967295#32) := by decide

theorem intOf_inj (s : Bool) {w : Nat} {a b : BitVec w} (h : intOf s a = intOf s b) : a = b := by
  cases s with
  | true => exact BitVec.toInt_inj.1 h
  | false => exact BitVec.toNat_inj.1 (Int.ofNat.inj h)

/-- Converting a value the type can represent keeps it. -/
theorem toType_value (se st : Bool) {w w2 : Nat} (e : BitVec w)
    (hr : if st then -(2 ^ (w2 - 1) : Int) ≤ intOf se e ∧ intOf se e < 2 ^ (w2 - 1) else 0 ≤ intOf se e ∧ intOf se e < 2 ^ w2) (h2 : 0 < w2) :
    intOf st (toType se w2 e) = intOf se e := by
  have hmod : ∀ x : Int, st = true → -(2 ^ (w2 - 1) : Int) ≤ x → x < 2 ^ (w2 - 1) → x.bmod (2 ^ w2) = x := by
    intro x _ h1 h3
    have hp : ((2 ^ w2 : Nat) : Int) = 2 * 2 ^ (w2 - 1) := by
      have : w2 = (w2 - 1) + 1 := by omega
      rw [this, Nat.pow_succ]; push_cast; rw [Int.mul_comm]
    exact Int.bmod_eq_of_le (by omega) (by omega)
  cases st with
  | true =>
    simp only [if_true] at hr
    cases se with
    | true =>
      show (e.signExtend w2).toInt = e.toInt
      by_cases hw : w ≤ w2
      · exact BitVec.toInt_signExtend_of_le hw
      · rw [BitVec.toInt_signExtend_eq_toInt_bmod_of_le _ (by omega)]
        exact hmod _ rfl hr.1 hr.2
    | false =>
      show (e.setWidth w2).toInt = e.toNat
      rw [BitVec.toInt_setWidth]
      exact hmod _ rfl hr.1 hr.2
  | false =>
    simp only [Bool.false_eq_true, if_false] at hr
    cases se with
    | true =>
      show ((e.signExtend w2).toNat : Int) = e.toInt
      have h0 : 0 ≤ e.toInt := hr.1
      have hm : e.msb = false := by
        cases h : e.msb with
        | false => rfl
        | true =>
          have := BitVec.toInt_neg_of_msb_true h
          omega
      have hn : e.toInt = e.toNat := BitVec.toInt_eq_toNat_of_msb hm
      rw [BitVec.signExtend_eq_setWidth_of_msb_false hm, hn, BitVec.toNat_setWidth, Nat.mod_eq_of_lt]
      have h3 : ((e.toNat : Nat) : Int) < ((2 ^ w2 : Nat) : Int) := by push_cast; rw [← hn]; exact hr.2
      exact Int.ofNat_lt.1 h3
    | false =>
      show ((e.setWidth w2).toNat : Int) = e.toNat
      rw [BitVec.toNat_setWidth, Nat.mod_eq_of_lt]
      have := hr.2
      have h3 : ((e.toNat : Nat) : Int) < ((2 ^ w2 : Nat) : Int) := by push_cast; exact this
      exact Int.ofNat_lt.1 h3

/-- C96, for enumerators the type can represent. What is missing: the others. -/
theorem C96_comparison_partial (se st : Bool) (w w2 : Nat) (e : BitVec w) (v : BitVec w2) (h2 : 0 < w2)
    (hr : if st then -(2 ^ (w2 - 1) : Int) ≤ intOf se e ∧ intOf se e < 2 ^ (w2 - 1) else 0 ≤ intOf se e ∧ intOf se e < 2 ^ w2) :
    (eqLeft se e v = true ↔ intOf se e = intOf st v) ∧ (eqRight se v e = true ↔ intOf se e = intOf st v) ∧
    (neLeft se e v = true ↔ intOf se e ≠ intOf st v) ∧ (neRight se v e = true ↔ intOf se e ≠ intOf st v) := by
  have key : toType se w2 e = v ↔ intOf se e = intOf st v := by
    rw [← toType_value se st e hr h2]
    exact ⟨fun h => by rw [h], fun h => intOf_inj st h⟩
  refine ⟨?_, ?_, ?_, ?_⟩
  · simp only [eqLeft, beq_iff_eq]; exact key
  · simp only [eqRight, beq_iff_eq]; rw [eq_comm]; exact key
  · simp only [neLeft, bne_iff_ne, ne_eq]; exact not_congr key
  · simp only [neRight, bne_iff_ne, ne_eq]; rw [eq_comm]; exact not_congr key

/-- An enumeration of three flags: 5 | 2 is 7 and a value of it, ~5 is not; with a negative enumerator ~5 is -6. -/
example : (⟨false, 3⟩ : Plain).or 5#32 2#32 = .ok 7#32 ∧ (⟨false, 3⟩ : Plain).inRange 5#32 = true ∧ (⟨false, 3⟩ : Plain).not 5#32 = .error .badEnum ∧
    (⟨true, 4⟩ : Plain).inRange 5#32 = true ∧ (⟨true, 4⟩ : Plain).not 5#32 = .ok (-6) := by decide

/-- A signed 8-bit enumerator and a 32-bit int. -/
example : eqLeft true (-3 : BitVec 8) (-3 : BitVec 32) = true ∧ neRight true (3 : BitVec 32) (-3 : BitVec 8) = true := by decide

end Verif.Flags
