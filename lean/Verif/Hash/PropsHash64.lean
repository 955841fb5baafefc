import Verif.Hash.Props
/-!
# C14 for `HashInt64` and `HashPointer`: exactly the arguments for which they are defined
-/
namespace Verif.Hash
open Verif

theorem xor_le_add' : ∀ (n a b : Nat), a < n → a ^^^ b ≤ a + b := by
  intro n
  induction n with
  | zero => intro a b h; omega
  | succ n ih =>
    intro a b h
    by_cases h0 : a = 0
    · subst h0; simp
    · have h1 := ih (a / 2) (b / 2) (by omega)
      have h2 : (a ^^^ b) / 2 = a / 2 ^^^ b / 2 := Nat.xor_div_two
      have h3 : (a ^^^ b) % 2 = 1 ↔ ¬ (a % 2 = 1 ↔ b % 2 = 1) := Nat.xor_mod_two_eq_one
      rw [← h2] at h1
      omega

theorem xor_le_add (a b : Nat) : a ^^^ b ≤ a + b := xor_le_add' (a + 1) a b (Nat.lt_succ_self a)

theorem le_xor_add (a b : Nat) : a ≤ (a ^^^ b) + b := by
  have := xor_le_add (a ^^^ b) b
  rwa [Nat.xor_assoc, Nat.xor_self, Nat.xor_zero] at this

/-- `k ^= k >> 31; k *= 21; k ^= k >> 11`. -/
def mixTail (a : Nat) : Nat := (21 * (a ^^^ a / 2 ^ 31)) ^^^ (21 * (a ^^^ a / 2 ^ 31)) / 2 ^ 11

/-- The number before the last shift and addition of the published function, for a key `n`, over the integers:
`k = n * 2^18 - n - 1; k ^= k >> 31; k *= 21; k ^= k >> 11`. -/
def mixed (n : Nat) : Nat := mixTail (n * 2 ^ 18 - n - 1)

theorem mixed_eq (n : Nat) : mixed n = mixTail (n * 2 ^ 18 - n - 1) := by rw [mixed]

/-- The lines after the first addition, am-hashtable.h:620-625. -/
def tail64 (m : Mode) (key : BitVec 64) : Exec (BitVec 32) := do
  let key := key ^^^ (key >>> 31)
  let key ← smul m key 21#64
  let key := key ^^^ (key >>> 11)
  let k6 ← sshl m key 6
  let key ← sadd m key k6
  let key := key ^^^ (key >>> 22)
  .ok (key.setWidth 32)

theorem hashInt64_tail (m : Mode) (key : BitVec 64) : hashInt64 m key = (do
    let k18 ← sshl m key 18
    let k ← sadd m (~~~key) k18
    tail64 m k) := rfl

theorem toInt_neg {x : BitVec 64} (h : 2 ^ 63 ≤ x.toNat) : x.toInt = (x.toNat : Int) - 2 ^ 64 := by
  rw [BitVec.toInt_eq_toNat_cond]; split <;> omega

theorem xor_shr_nat (x : BitVec 64) (k : Nat) : (x ^^^ (x >>> k)).toNat = x.toNat ^^^ x.toNat / 2 ^ k := by
  rw [BitVec.toNat_xor, BitVec.toNat_ushiftRight, Nat.shiftRight_eq_div_pow]

/-- A number with its top bit set keeps it. -/
theorem xor_shr_top {x : BitVec 64} {k : Nat} (hk : 1 ≤ k) (h : 2 ^ 63 ≤ x.toNat) : 2 ^ 63 ≤ (x ^^^ (x >>> k)).toNat := by
  rw [xor_shr_nat]
  refine Nat.le_of_not_lt fun hlt => ?_
  have h1 : x.toNat / 2 ^ k < 2 ^ 63 := by
    have : x.toNat / 2 ^ k ≤ x.toNat / 2 ^ 1 := Nat.div_le_div_left (Nat.pow_le_pow_right (by decide) hk) (by decide)
    have := x.isLt
    omega
  have := Nat.xor_lt_two_pow hlt h1
  rw [Nat.xor_assoc, Nat.xor_self, Nat.xor_zero] at this
  omega

theorem sshl_fail {x : BitVec 64} {k : Nat} (h : 2 ^ 64 ≤ x.toNat * 2 ^ k) (hk : k ≤ 62) : sshl .strict x k = .error .signedOverflow := by
  unfold sshl
  rw [if_pos]
  refine ⟨rfl, fun ⟨h1, h2⟩ => ?_⟩
  by_cases h63 : x.toNat < 2 ^ 63
  · rw [toInt_small h63] at h2
    have : (x.toNat : Int) * 2 ^ k = ((x.toNat * 2 ^ k : Nat) : Int) := by push_cast; rfl
    omega
  · rw [toInt_neg (by omega)] at h1
    have := x.isLt
    omega

theorem sshl_ok {x : BitVec 64} {k : Nat} (h63 : x.toNat < 2 ^ 63) (h : x.toNat * 2 ^ k < 2 ^ 64) : sshl .strict x k = .ok (x <<< k) := by
  unfold sshl
  rw [if_neg]
  rintro ⟨_, hn⟩
  apply hn
  rw [toInt_small h63]
  have : (x.toNat : Int) * 2 ^ k = ((x.toNat * 2 ^ k : Nat) : Int) := by push_cast; rfl
  omega

theorem e21 : (21#64).toInt = 21 := by decide

/-- From a negative number on. -/
theorem tail_neg {k1 : BitVec 64} (h : 2 ^ 63 ≤ k1.toNat) : tail64 .strict k1 = .error .signedOverflow := by
  have h2 := xor_shr_top (k := 31) (by decide) h
  simp only [tail64, bind, Except.bind]
  generalize k1 ^^^ (k1 >>> 31) = k2 at h2
  unfold smul
  rw [e21]
  by_cases hm : -(2 ^ (64 - 1) : Int) ≤ k2.toInt * 21 ∧ k2.toInt * 21 < 2 ^ (64 - 1)
  · rw [if_neg (fun h => h.2 hm)]
    have i2 := toInt_neg h2
    have hlt := k2.isLt
    have h3 : 2 ^ 63 ≤ (k2 * 21#64).toNat := by
      rw [BitVec.toNat_mul, show (21#64).toNat = 21 from rfl]
      rw [i2] at hm
      have hr : k2.toNat * 21 = 2 ^ 64 * 20 + (k2.toNat * 21 - 2 ^ 64 * 20) := by omega
      rw [hr, Nat.mul_add_mod, Nat.mod_eq_of_lt (by omega)]
      omega
    have h4 := xor_shr_top (k := 11) (by decide) h3
    simp only
    rw [sshl_fail (by omega) (by decide)]
  · rw [if_pos ⟨rfl, hm⟩]

/-- From a large number on. -/
theorem tail_big {k1 : BitVec 64} (h : 2 ^ 54 - 2 ^ 37 ≤ k1.toNat) : tail64 .strict k1 = .error .signedOverflow := by
  by_cases h63 : 2 ^ 63 ≤ k1.toNat
  · exact tail_neg h63
  have h2 := le_xor_add k1.toNat (k1.toNat / 2 ^ 31)
  rw [← xor_shr_nat] at h2
  have h2' : (k1 ^^^ (k1 >>> 31)).toNat < 2 ^ 63 := xor_shr_lt (by omega)
  simp only [tail64, bind, Except.bind]
  generalize k1 ^^^ (k1 >>> 31) = k2 at h2 h2'
  unfold smul
  rw [e21, toInt_small h2']
  by_cases hm : -(2 ^ (64 - 1) : Int) ≤ (k2.toNat : Int) * 21 ∧ (k2.toNat : Int) * 21 < 2 ^ (64 - 1)
  · rw [if_neg (fun h => h.2 hm)]
    have h3 : (k2 * 21#64).toNat = k2.toNat * 21 := by
      rw [BitVec.toNat_mul, show (21#64).toNat = 21 from rfl]
      omega
    have h4 := le_xor_add (k2 * 21#64).toNat ((k2 * 21#64).toNat / 2 ^ 11)
    rw [← xor_shr_nat] at h4
    simp only
    rw [sshl_fail (by omega) (by decide)]
  · rw [if_pos ⟨rfl, hm⟩]

/-- From a number that is not large on. -/
theorem tail_small {k1 : BitVec 64} (h : k1.toNat < 2 ^ 54) :
    if mixTail k1.toNat < 2 ^ 58 ∧ (65 * mixTail k1.toNat < 2 ^ 63 ∨ 2 ^ 57 ≤ mixTail k1.toNat) then ∃ v, tail64 .strict k1 = .ok v ∧ tail64 .wrap k1 = .ok v
    else tail64 .strict k1 = .error .signedOverflow := by
  have w1 : ∀ x k, sshl (w := 64) .wrap x k = .ok (x <<< k) := fun x k => rfl
  have w2 : ∀ x y, sadd (w := 64) .wrap x y = .ok (x + y) := fun x k => rfl
  have w3 : ∀ x y, smul (w := 64) .wrap x y = .ok (x * y) := fun x k => rfl
  obtain ⟨b, hb⟩ : ∃ b, b = 21 * (k1 ^^^ (k1 >>> 31)).toNat := ⟨_, rfl⟩
  obtain ⟨d, hd0⟩ : ∃ d, mixTail k1.toNat = d := ⟨_, rfl⟩
  have hbd : d = b ^^^ b / 2 ^ 11 := by rw [← hd0, hb, xor_shr_nat, mixTail]
  rw [hd0]
  have b2 : (k1 ^^^ (k1 >>> 31)).toNat < 2 ^ 54 := xor_shr_lt h
  simp only [tail64, bind, Except.bind, w1, w2, w3]
  generalize k1 ^^^ (k1 >>> 31) = k2 at b2 hb
  have e3 : smul .strict k2 21#64 = .ok (k2 * 21#64) := by
    unfold smul; rw [if_neg]; rintro ⟨_, h⟩; apply h
    rw [e21, toInt_small (by omega)]; constructor <;> omega
  have n3 : (k2 * 21#64).toNat = b := by
    rw [BitVec.toNat_mul, show (21#64).toNat = 21 from rfl, hb]; omega
  have n4 : ((k2 * 21#64) ^^^ ((k2 * 21#64) >>> 11)).toNat = d := by rw [xor_shr_nat, n3, hbd]
  have l4 : ((k2 * 21#64) ^^^ ((k2 * 21#64) >>> 11)).toNat < 2 ^ 59 := xor_shr_lt (by rw [n3, hb]; omega)
  simp only [e3]
  generalize (k2 * 21#64) ^^^ ((k2 * 21#64) >>> 11) = k4 at n4 l4
  by_cases hd : d < 2 ^ 58
  · rw [sshl_ok (by omega) (by omega)]
    have n5 : (k4 <<< 6).toNat = d * 64 := by
      rw [BitVec.toNat_shiftLeft, Nat.shiftLeft_eq, n4]; omega
    have i4 : k4.toInt = d := by rw [toInt_small (by omega), n4]
    by_cases h57 : d < 2 ^ 57
    · have i5 : (k4 <<< 6).toInt = (d * 64 : Nat) := by rw [toInt_small (by omega), n5]
      by_cases h65 : 65 * d < 2 ^ 63
      · rw [if_pos ⟨hd, .inl h65⟩]
        have : sadd .strict k4 (k4 <<< 6) = .ok (k4 + k4 <<< 6) := by
          unfold sadd; rw [if_neg]; rintro ⟨_, h⟩; apply h
          rw [i4, i5]; constructor <;> omega
        simp only [this]
        exact ⟨_, rfl, rfl⟩
      · rw [if_neg (fun h => by rcases h.2 with h | h <;> omega)]
        have : sadd .strict k4 (k4 <<< 6) = .error .signedOverflow := by
          unfold sadd; rw [if_pos]; refine ⟨rfl, ?_⟩; rintro ⟨_, h⟩
          rw [i4, i5] at h; omega
        simp only [this]
    · have i5 : (k4 <<< 6).toInt = ((d * 64 : Nat) : Int) - 2 ^ 64 := by rw [toInt_neg (by omega), n5]
      rw [if_pos ⟨hd, .inr (by omega)⟩]
      have : sadd .strict k4 (k4 <<< 6) = .ok (k4 + k4 <<< 6) := by
        unfold sadd; rw [if_neg]; rintro ⟨_, h⟩; apply h
        rw [i4, i5]; constructor <;> omega
      simp only [this]
      exact ⟨_, rfl, rfl⟩
  · rw [if_neg (fun h => hd h.1), sshl_fail (by omega) (by decide)]

/-- The keys for which `HashInt64` is defined. -/
def Defined64 (n : Nat) : Prop :=
  0 < n ∧ n < 2 ^ 36 ∧ mixed n < 2 ^ 58 ∧ (65 * mixed n < 2 ^ 63 ∨ 2 ^ 57 ≤ mixed n)

theorem defined64_iff (n : Nat) (h0 : n ≠ 0) (h36 : ¬ 2 ^ 36 ≤ n) :
    Defined64 n ↔ mixed n < 2 ^ 58 ∧ (65 * mixed n < 2 ^ 63 ∨ 2 ^ 57 ≤ mixed n) :=
  ⟨fun h => h.2.2, fun h => ⟨Nat.pos_of_ne_zero h0, Nat.lt_of_not_le h36, h⟩⟩

/-- C14 for `HashInt64`, exactly: it is defined for the keys of `Defined64`, with the value of the wrap-around arithmetic, and
overflows for all others: for 0, for every negative number, and for everything from 2^36 on. -/
theorem C14_hashInt64_exact (key : BitVec 64) :
    (Defined64 key.toNat → ∃ v, hashInt64 .strict key = .ok v ∧ hashInt64 .wrap key = .ok v) ∧
    (¬ Defined64 key.toNat → hashInt64 .strict key = .error .signedOverflow) := by
  by_cases h0 : key.toNat = 0
  · have : key = 0 := BitVec.eq_of_toNat_eq h0
    subst this
    exact ⟨fun h => absurd h.1 (by decide), fun _ => by decide +kernel⟩
  by_cases h46 : 2 ^ 46 ≤ key.toNat
  · refine ⟨fun h => ?_, fun _ => ?_⟩
    · have := h.2.1; omega
    · rw [hashInt64_tail, sshl_fail (by omega) (by decide)]; rfl
  have e1 : sshl .strict key 18 = .ok (key <<< 18) := sshl_ok (by omega) (by omega)
  have n1 : (key <<< 18).toNat = key.toNat * 2 ^ 18 := by
    rw [BitVec.toNat_shiftLeft, Nat.shiftLeft_eq]; apply Nat.mod_eq_of_lt; omega
  have n2 : (~~~key + key <<< 18).toNat = key.toNat * 2 ^ 18 - key.toNat - 1 := by
    rw [BitVec.toNat_add, BitVec.toNat_not, n1]; omega
  have e2 : sadd .strict (~~~key) (key <<< 18) = .ok (~~~key + key <<< 18) ∨ sadd .strict (~~~key) (key <<< 18) = .error .signedOverflow := by
    unfold sadd
    split
    · exact .inr rfl
    · exact .inl rfl
  by_cases h36 : 2 ^ 36 ≤ key.toNat
  · refine ⟨fun h => ?_, fun _ => ?_⟩
    · have := h.2.1; omega
    · rw [hashInt64_tail, e1]
      show (sadd .strict (~~~key) (key <<< 18) >>= tail64 .strict) = _
      rcases e2 with e2 | e2
      · rw [e2]; exact tail_big (by rw [n2]; omega)
      · rw [e2]; rfl
  have e2 : sadd .strict (~~~key) (key <<< 18) = .ok (~~~key + key <<< 18) := by
    have i1 : (~~~key).toInt = -1 - (key.toNat : Int) := by
      rw [BitVec.toInt_eq_toNat_cond, BitVec.toNat_not]; split <;> omega
    unfold sadd; rw [if_neg]; rintro ⟨_, h⟩; apply h
    rw [i1, toInt_small (by omega), n1]; constructor <;> omega
  have hs : hashInt64 .strict key = tail64 .strict (~~~key + key <<< 18) := by
    rw [hashInt64_tail, e1]
    show (sadd .strict (~~~key) (key <<< 18) >>= tail64 .strict) = _
    rw [e2]; rfl
  have hw : hashInt64 .wrap key = tail64 .wrap (~~~key + key <<< 18) := by
    have w1 : ∀ x k, sshl (w := 64) .wrap x k = .ok (x <<< k) := fun x k => rfl
    have w2 : ∀ x y, sadd (w := 64) .wrap x y = .ok (x + y) := fun x k => rfl
    simp only [hashInt64_tail, w1, w2, bind, Except.bind]
  have ht := tail_small (k1 := ~~~key + key <<< 18) (by rw [n2]; omega)
  rw [n2] at ht
  rw [hs, hw]
  rw [← mixed_eq] at ht
  have hdef := defined64_iff key.toNat h0 h36
  by_cases hd : mixed key.toNat < 2 ^ 58 ∧ (65 * mixed key.toNat < 2 ^ 63 ∨ 2 ^ 57 ≤ mixed key.toNat)
  · rw [if_pos hd] at ht
    exact ⟨fun _ => ht, fun h => absurd (hdef.2 hd) h⟩
  · rw [if_neg hd] at ht
    exact ⟨fun h => absurd (hdef.1 h) hd, fun _ => ht⟩

/-- In particular for every key from 1 to 2^34. -/
theorem C14_hashInt64_range (n : Nat) (h0 : 0 < n) (h34 : n ≤ 2 ^ 34) : Defined64 n := by
  have ha : n * 2 ^ 18 - n - 1 < 2 ^ 52 - 2 ^ 33 := by omega
  have h1 := xor_le_add (n * 2 ^ 18 - n - 1) ((n * 2 ^ 18 - n - 1) / 2 ^ 31)
  have hm : mixed n = (21 * ((n * 2 ^ 18 - n - 1) ^^^ (n * 2 ^ 18 - n - 1) / 2 ^ 31)) ^^^
      (21 * ((n * 2 ^ 18 - n - 1) ^^^ (n * 2 ^ 18 - n - 1) / 2 ^ 31)) / 2 ^ 11 := by rw [mixed, mixTail]
  generalize (n * 2 ^ 18 - n - 1) ^^^ (n * 2 ^ 18 - n - 1) / 2 ^ 31 = c at h1 hm
  have h2 := xor_le_add (21 * c) (21 * c / 2 ^ 11)
  rw [← hm] at h2
  refine ⟨h0, by omega, by omega, .inl (by omega)⟩

/-- So on the usual 64-bit machines `HashPointer` is defined for no heap pointer: their addresses are above 2^36; and for no null pointer. -/
theorem C14_hashPointer (p : BitVec 64) (h : p = 0 ∨ 2 ^ 36 ≤ p.toNat) : hashPointer .strict p = .error .signedOverflow := by
  refine (C14_hashInt64_exact p).2 fun hd => ?_
  rcases h with rfl | h
  · exact absurd hd.1 (by decide)
  · have := hd.2.1; omega

-- Between 2^34 and 2^36 both occur: 2^35 is a key with a hash, 26000000000 and 2^35 + 2^34 + 2^33 are not.
example : Defined64 (2 ^ 35) := ⟨by decide, by decide, by decide +kernel, by decide +kernel⟩
example : ¬ Defined64 (26000000000) := fun h => absurd h.2.2.2 (by decide +kernel)
example : hashPointer .strict 0x7fff00001000#64 = .error .signedOverflow := C14_hashPointer _ (.inr (by decide))

end Verif.Hash
