import Verif.Hash.Lemmas
import Verif.HashTable.Model
import Mathlib.Data.BitVec
import Mathlib.Tactic.Ring
/-!
# Properties of the hash functions: C13-C16, C82, C83

Theorems about `HashInt32` and `HashInt64` say which arithmetic they are about: `Mode.wrap` is
two's-complement wrap-around, `Mode.strict` the C++14/17 rules.
-/
namespace Verif.Hash
open Verif

/-! ### C13 -/

/-- C13 in full (first clause): different integers have different hashes. -/
def HashInt32Injective : Prop :=
  ∀ a b : BitVec 32, hashInt32 .wrap a = hashInt32 .wrap b → a = b

/-- C13 is false of the code: `>>` is an arithmetic shift on `int32_t`, so every integer collides with
its bitwise complement; 0 and -1 have the same hash. -/
theorem C13_hashInt32_refuted : ¬ HashInt32Injective := by
  intro h
  exact absurd (h 0 (-1) (by decide +kernel)) (by decide)

/-- C13, what does hold (missing: injectivity): every integer collides with its complement, but no nine
different integers share a hash. -/
theorem C13_hashInt32_partial :
    (∀ a : BitVec 32, hashInt32 .wrap (~~~a) = hashInt32 .wrap a) ∧
    (∀ (l : List (BitVec 32)) (v : BitVec 32), l.Nodup → (∀ a ∈ l, hashInt32 .wrap a = .ok v) →
      l.length ≤ 8) := by
  constructor
  · intro a; rw [hashInt32_wrap, hashInt32_wrap, xs_not]
  · intro l v hnd hl
    have h1 : AtMost (2 * 1) (fun a : BitVec 32 => (xs 16 a ^^^ 61#32) * 9#32) :=
      AtMost.comp (g := fun y : BitVec 32 => (y ^^^ 61#32) * 9#32)
        (xs_atMost (by decide) (by decide)) (AtMost.of_inj (by
        intro x y h
        have := mul_const_inj (d := 0x38e38e39#32) (by decide) h
        have := congrArg (· ^^^ 61#32) this
        simpa [BitVec.xor_assoc] using this))
    have h2 : AtMost (2 * 1) (fun y : BitVec 32 => xs 4 y * 0x27d4eb2d#32) :=
      AtMost.comp (g := fun y : BitVec 32 => y * 0x27d4eb2d#32)
        (xs_atMost (by decide) (by decide)) (AtMost.of_inj (by
        intro x y h
        exact mul_const_inj (d := 0xfb699ca5#32) (by decide) h))
    have h3 : AtMost 2 (xs 15 : BitVec 32 → BitVec 32) := xs_atMost (by decide) (by decide)
    have h := AtMost.comp (AtMost.comp h1 h2) h3
    have hc := h l.toFinset v (by
      intro a ha
      have := hl a (List.mem_toFinset.1 ha)
      rw [hashInt32_wrap] at this
      exact Except.ok.inj this)
    rwa [List.toFinset_card_of_nodup hnd] at hc

/-- C13, second clause: whatever the policy's hash, the table's own scrambling merges two different hash
values only if it maps one of them to a reserved value (0 = free, 1 = removed). -/
theorem C13_computeHash {L P : Type} (pol : HashTable.Policy L P) (k1 k2 : L)
    (h : HashTable.computeHash pol k1 = HashTable.computeHash pol k2) :
    pol.hash k1 = pol.hash k2 ∨ ∃ k ∈ [k1, k2], pol.hash k * 0x9E3779B9#32 = 0 ∨ pol.hash k * 0x9E3779B9#32 = 1 := by
  by_cases hc1 : pol.hash k1 * 0x9E3779B9#32 = 0 ∨ pol.hash k1 * 0x9E3779B9#32 = 1
  · exact .inr ⟨k1, by simp, hc1⟩
  by_cases hc2 : pol.hash k2 * 0x9E3779B9#32 = 0 ∨ pol.hash k2 * 0x9E3779B9#32 = 1
  · exact .inr ⟨k2, by simp, hc2⟩
  have e1 : HashTable.computeHash pol k1 = pol.hash k1 * 0x9E3779B9#32 := if_neg hc1
  have e2 : HashTable.computeHash pol k2 = pol.hash k2 * 0x9E3779B9#32 := if_neg hc2
  rw [e1, e2] at h
  exact .inl (mul_const_inj (d := 0x144cbc89#32) (by decide) h)

/-- Non-vacuity: the hash is far from constant. -/
example : hashInt32 .wrap 1 ≠ hashInt32 .wrap 2 := by decide +kernel

/-! ### C14 -/

/-- C14 in full. -/
def IntHashesDefined : Prop :=
  (∀ a, ∃ v, hashInt32 .strict a = .ok v) ∧ (∀ key, ∃ v, hashInt64 .strict key = .ok v)

/-- C14 is false of the code. -/
theorem C14_int_hashes_refuted : ¬ IntHashesDefined := by
  rintro ⟨h, _⟩
  obtain ⟨v, hv⟩ := h 1
  have : hashInt32 .strict 1 = .error .signedOverflow := by decide +kernel
  rw [this] at hv
  cases hv

/-- C14, exact for `HashInt32` (missing: every other argument, where it is undefined): under the C++14/17
rules `HashInt32` is defined on four arguments only, 61, 0x1c71db50 and their complements. -/
theorem C14_hashInt32_partial (a v : BitVec 32) :
    hashInt32 .strict a = .ok v ↔
      ((a = 61#32 ∨ a = ~~~61#32) ∧ v = 0) ∨
      ((a = 0x1c71db50#32 ∨ a = ~~~0x1c71db50#32) ∧ v = 0x777e2f7a#32) := by
  constructor
  · intro h
    have hx : a ^^^ 61#32 ^^^ a.sshiftRight 16 = xs 16 a ^^^ 61#32 := by
      simp only [xs, BitVec.xor_assoc]; congr 1; exact BitVec.xor_comm _ _
    simp only [hashInt32, bind, Except.bind] at h
    rw [hx] at h
    generalize hb : xs 16 a ^^^ 61#32 = b at h
    have ha : ∀ c : BitVec 32, b = xs 16 c ^^^ 61#32 → a = c ∨ a = ~~~c := by
      intro c hc
      refine (xs_eq_iff (k := 16) (by decide) (by decide) a c).1 ?_
      have := congrArg (· ^^^ 61#32) (hb.trans hc)
      simpa [BitVec.xor_assoc] using this
    simp only [sshl] at h
    split at h
    · cases h
    · rename_i v1 h1
      split at h1
      · cases h1
      · rename_i hs
        cases h1
        simp only [sadd] at h
        split at h
        · cases h
        · rename_i v2 h2
          split at h2
          · cases h2
          · rename_i hadd
            cases h2
            simp only [smul] at h
            split at h
            · cases h
            · rename_i v3 h3
              split at h3
              · cases h3
              · rename_i hmul
                cases h3
                have hs := Decidable.not_not.1 (fun hh => hs ⟨trivial, hh⟩)
                have hadd := Decidable.not_not.1 (fun hh => hadd ⟨trivial, hh⟩)
                have hmul := Decidable.not_not.1 (fun hh => hmul ⟨trivial, hh⟩)
                have hbn : b.toInt = b.toNat := by
                  rw [BitVec.toInt_eq_toNat_of_msb]
                  rw [BitVec.msb_eq_toInt]; simp; omega
                rw [add_shl3] at hmul h
                change -(2 ^ 31) ≤ (xs 4 (b * 9#32)).toInt * 668265261 ∧
                  (xs 4 (b * 9#32)).toInt * 668265261 < 2 ^ 31 at hmul
                change Except.ok (xs 15 (xs 4 (b * 9#32) * 668265261#32)) = Except.ok v at h
                have hv := Except.ok.inj h
                have hbl : b.toNat < 2 ^ 29 := by rw [hbn] at hs; omega
                have hynat : (b * 9#32).toNat = b.toNat * 9 % 2 ^ 32 := by
                  rw [BitVec.toNat_mul]; rfl
                generalize hy : b * 9#32 = y at *
                have hx0 : (xs 4 y).msb = false := xs_msb (by decide) (by decide) y
                have hxn : (xs 4 y).toInt = (xs 4 y).toNat := BitVec.toInt_eq_toNat_of_msb hx0
                have hlt : (xs 4 y).toNat < 4 := by rw [hxn] at hmul; omega
                have hfix : xs 4 (xs 4 y) = xs 4 y := by
                  have : ∀ n : Fin 4, xs 4 (BitVec.ofNat 32 n.1) = BitVec.ofNat 32 n.1 := by decide +kernel
                  have := this ⟨_, hlt⟩
                  simpa using this
                have hyc := (xs_eq_iff (by decide) (by decide) y (xs 4 y)).1 hfix.symm
                have hq : b.toNat * 9 / 2 ^ 32 = 0 ∨ b.toNat * 9 / 2 ^ 32 = 1 := by omega
                have hb2 : b.toNat = 0 ∨ b.toNat = 477218588 := by
                  rcases hyc with hyc | hyc
                  · rw [hyc] at hynat; clear hadd hs hmul; rcases hq with hq | hq <;> omega
                  · have : y.toNat = 2 ^ 32 - 1 - (xs 4 y).toNat := by
                      conv_lhs => rw [hyc]
                      rw [BitVec.toNat_not]
                    rw [this] at hynat; clear hadd hs hmul; rcases hq with hq | hq <;> omega
                rcases hb2 with hb2 | hb2
                · have hb0 : b = 0 := BitVec.eq_of_toNat_eq hb2
                  left
                  refine ⟨ha _ (by rw [hb0]; decide +kernel), ?_⟩
                  rw [← hv, ← hy, hb0]; decide +kernel
                · have hb0 : b = 477218588#32 := BitVec.eq_of_toNat_eq hb2
                  right
                  refine ⟨ha _ (by rw [hb0]; decide +kernel), ?_⟩
                  rw [← hv, ← hy, hb0]; decide +kernel
  · rintro (⟨rfl | rfl, rfl⟩ | ⟨rfl | rfl, rfl⟩) <;> decide +kernel

theorem xor_shr_lt {w k n : Nat} {x : BitVec w} (h : x.toNat < 2 ^ n) : (x ^^^ (x >>> k)).toNat < 2 ^ n := by
  rw [BitVec.toNat_xor, BitVec.toNat_ushiftRight]
  apply Nat.xor_lt_two_pow h
  rw [Nat.shiftRight_eq_div_pow]
  exact Nat.lt_of_le_of_lt (Nat.div_le_self _ _) h

theorem toInt_small {x : BitVec 64} (h : x.toNat < 2 ^ 63) : x.toInt = x.toNat := by
  rw [BitVec.toInt_eq_toNat_cond]; split <;> omega

/-- C14 for `HashInt64` / `HashPointer` (missing: every other argument; the null pointer and typical
heap addresses are undefined): defined on 1 .. 2^32, with the wrap-around value. -/
theorem C14_hashInt64_partial :
    (∀ key : BitVec 64, 0 < key.toNat → key.toNat ≤ 2 ^ 32 →
      ∃ v, hashInt64 .strict key = .ok v ∧ hashInt64 .wrap key = .ok v) ∧
    hashPointer .strict 0 = .error .signedOverflow ∧
    hashPointer .strict 0x7fff00001000#64 = .error .signedOverflow := by
  refine ⟨?_, by decide +kernel, by decide +kernel⟩
  intro key h0 h32
  have e1 : sshl .strict key 18 = .ok (key <<< 18) := by
    unfold sshl; rw [if_neg]; rintro ⟨_, h⟩; apply h
    rw [toInt_small (by omega)]; omega
  have n1 : (key <<< 18).toNat = key.toNat * 2 ^ 18 := by
    rw [BitVec.toNat_shiftLeft, Nat.shiftLeft_eq]; apply Nat.mod_eq_of_lt; omega
  have i1 : (~~~key).toInt = -1 - (key.toNat : Int) := by
    rw [BitVec.toInt_eq_toNat_cond, BitVec.toNat_not]; split <;> omega
  have e2 : sadd .strict (~~~key) (key <<< 18) = .ok (~~~key + key <<< 18) := by
    unfold sadd; rw [if_neg]; rintro ⟨_, h⟩; apply h
    rw [i1, toInt_small (by omega), n1]; constructor <;> omega
  have n2 : (~~~key + key <<< 18).toNat = key.toNat * 2 ^ 18 - key.toNat - 1 := by
    rw [BitVec.toNat_add, BitVec.toNat_not, n1]; omega
  have w1 : ∀ x k, sshl (w := 64) .wrap x k = .ok (x <<< k) := fun x k => rfl
  have w2 : ∀ x y, sadd (w := 64) .wrap x y = .ok (x + y) := fun x k => rfl
  have w3 : ∀ x y, smul (w := 64) .wrap x y = .ok (x * y) := fun x k => rfl
  simp only [hashInt64, bind, Except.bind, e1, e2, w1, w2, w3]
  generalize ~~~key + key <<< 18 = k1 at n2
  have b2 : (k1 ^^^ (k1 >>> 31)).toNat < 2 ^ 50 := xor_shr_lt (by omega)
  generalize k1 ^^^ (k1 >>> 31) = k2 at b2
  have e3 : smul .strict k2 21#64 = .ok (k2 * 21#64) := by
    unfold smul; rw [if_neg]; rintro ⟨_, h⟩; apply h
    have : (21#64).toInt = 21 := by decide
    rw [this, toInt_small (by omega)]; constructor <;> omega
  have b3 : (k2 * 21#64).toNat < 2 ^ 55 := by
    rw [BitVec.toNat_mul]
    have : (21#64).toNat = 21 := rfl
    rw [this, Nat.mod_eq_of_lt (by omega)]; omega
  simp only [e3]
  generalize k2 * 21#64 = k3 at b3
  have b4 : (k3 ^^^ (k3 >>> 11)).toNat < 2 ^ 55 := xor_shr_lt b3
  generalize k3 ^^^ (k3 >>> 11) = k4 at b4
  have e5 : sshl .strict k4 6 = .ok (k4 <<< 6) := by
    unfold sshl; rw [if_neg]; rintro ⟨_, h⟩; apply h
    rw [toInt_small (by omega)]; omega
  have n5 : (k4 <<< 6).toNat = k4.toNat * 64 := by
    rw [BitVec.toNat_shiftLeft, Nat.shiftLeft_eq]; omega
  have e6 : sadd .strict k4 (k4 <<< 6) = .ok (k4 + k4 <<< 6) := by
    unfold sadd; rw [if_neg]; rintro ⟨_, h⟩; apply h
    rw [toInt_small (by omega), toInt_small (by omega), n5]; constructor <;> omega
  simp only [e5, e6]
  exact ⟨_, rfl, rfl⟩

example : 0 < (12345#64).toNat ∧ (12345#64).toNat ≤ 2 ^ 32 := by decide

/-! ### C15 -/

/-- C15, chunking: feeding any sequence of chunks is feeding their concatenation. -/
theorem C15_chunking (chunks : List (List (BitVec 8))) (h : Hasher) :
    chunks.foldl (fun h c => h.addAll c) h = h.addAll chunks.flatten ∧
    (chunks.foldl (fun h c => h.addAll c) Hasher.new).result.1 = hashCharSequence chunks.flatten := by
  have app : ∀ (a b : List (BitVec 8)) (h : Hasher), h.addAll (a ++ b) = (h.addAll a).addAll b := by
    intro a
    induction a with
    | nil => intro b h; rfl
    | cons x a ih => intro b h; exact ih b _
  have key : ∀ (chunks : List (List (BitVec 8))) (h : Hasher),
      chunks.foldl (fun h c => h.addAll c) h = h.addAll chunks.flatten := by
    intro chunks
    induction chunks with
    | nil => intro h; rfl
    | cons c cs ih => intro h; rw [List.foldl_cons, ih, List.flatten_cons, app]
  exact ⟨key chunks h, by rw [key]; rfl⟩

/-- The single-character `add` is the one-element chunk. -/
theorem C15_add_char (h : Hasher) (c : BitVec 8) : h.addChar c = h.addAll [c] := rfl

/-- C15 in full, second clause: reading the result again gives it again. -/
def ResultRepeatable : Prop := ∀ h : Hasher, h.result.2.result.1 = h.result.1

/-- C15's second clause is false of the code: `result()` mixes the final rounds into the stored state. -/
theorem C15_result_refuted : ¬ ResultRepeatable := by
  intro h
  exact absurd (h (Hasher.new.addAll [97])) (by decide +kernel)

/-! ### C16 -/

/-- The value of a character as an integer modulo 2^32. -/
def charVal (c : BitVec 8) : BitVec 32 := BitVec.ofInt 32 c.toInt

/-- Specification: the polynomial `sum s[i] * 65599^(n-1-i)` modulo 2^32. -/
def poly : List (BitVec 8) → BitVec 32
  | [] => 0
  | c :: cs => charVal c * (65599 : BitVec 32) ^ cs.length + poly cs

theorem fastStep (hash c : BitVec 32) : c + (hash <<< 6) + (hash <<< 16) - hash = c + hash * 65599#32 := by
  have e6 : hash <<< 6 = hash * 64#32 := by rw [BitVec.shiftLeft_eq_mul_twoPow]; rfl
  have e16 : hash <<< 16 = hash * 65536#32 := by rw [BitVec.shiftLeft_eq_mul_twoPow]; rfl
  have : (65599#32 : BitVec 32) = 64#32 + 65536#32 - 1#32 := by decide
  rw [e6, e16, this, BitVec.mul_sub, BitVec.mul_add, BitVec.mul_one]
  ring

theorem signExtend_charVal (c : BitVec 8) : c.signExtend 32 = charVal c := rfl

theorem fastHashLoop_eq (s : List (BitVec 8)) : ∀ hash,
    fastHashLoop hash s = hash * (65599 : BitVec 32) ^ s.length + poly s := by
  induction s with
  | nil => intro hash; simp [fastHashLoop, poly]
  | cons c cs ih =>
    intro hash
    rw [fastHashLoop, ih, fastStep, signExtend_charVal, poly, List.length_cons, pow_succ]
    have : (65599#32 : BitVec 32) = (65599 : BitVec 32) := rfl
    rw [this]; ring

/-- C16. -/
theorem C16_sdbm (s : List (BitVec 8)) : fastHashCharSequence s = poly s := by
  rw [fastHashCharSequence, fastHashLoop_eq]; simp

/-- C16, concatenation. -/
theorem C16_append (s t : List (BitVec 8)) :
    fastHashCharSequence (s ++ t) =
      fastHashCharSequence s * (65599 : BitVec 32) ^ t.length + fastHashCharSequence t := by
  have app : ∀ (a b : List (BitVec 8)) (h : BitVec 32),
      fastHashLoop h (a ++ b) = fastHashLoop (fastHashLoop h a) b := by
    intro a
    induction a with
    | nil => intro b h; rfl
    | cons x a ih => intro b h; exact ih b _
  rw [fastHashCharSequence, app, fastHashLoop_eq t, ← C16_sdbm t]; rfl

example : fastHashCharSequence [97, 98] = 97 * 65599 + 98 := by decide +kernel

/-! ### C82 -/

/-- C82: for a fixed second argument `HashCombine` is a bijection of the first: combining never merges
two different accumulated hashes. -/
theorem C82_hashCombine_injective (a b second : BitVec 32)
    (h : hashCombine a second = hashCombine b second) : a = b := by
  unfold hashCombine at h
  have hs : ∀ x : BitVec 32, second + 0x9e3779b9#32 + x <<< 6 + second >>> 2 =
      (second + 0x9e3779b9#32 + second >>> 2) + x <<< 6 := by intro x; ring
  rw [hs, hs] at h
  generalize second + 0x9e3779b9#32 + second >>> 2 = k at h
  -- the low `n` bits agree, for every `n`
  have key : ∀ n, n ≤ 32 → a.toNat % 2 ^ n = b.toNat % 2 ^ n := by
    intro n
    induction n with
    | zero => intro _; simp [Nat.mod_one]
    | succ n ih =>
      intro hn
      have ih := ih (by omega)
      have hlow : (k + a <<< 6).toNat % 2 ^ (n + 1) = (k + b <<< 6).toNat % 2 ^ (n + 1) := by
        have hd : 2 ^ (n + 1) ∣ 2 ^ 32 := Nat.pow_dvd_pow 2 hn
        rw [BitVec.toNat_add, BitVec.toNat_add, Nat.mod_mod_of_dvd _ hd, Nat.mod_mod_of_dvd _ hd,
          BitVec.toNat_shiftLeft, BitVec.toNat_shiftLeft, Nat.shiftLeft_eq, Nat.shiftLeft_eq,
          Nat.add_mod, Nat.mod_mod_of_dvd _ hd, Nat.add_mod k.toNat (b.toNat * 2 ^ 6 % 2 ^ 32),
          Nat.mod_mod_of_dvd _ hd]
        have : a.toNat * 2 ^ 6 % 2 ^ (n + 1) = b.toNat * 2 ^ 6 % 2 ^ (n + 1) := by
          have e : (2 : Nat) ^ 6 = 2 * 2 ^ 5 := rfl
          have h2 : ∀ z : Nat, z * 2 ^ 6 % 2 ^ (n + 1) = 2 * (z % 2 ^ n * 2 ^ 5 % 2 ^ n) := by
            intro z
            rw [pow_succ 2 n, Nat.mul_comm (2 ^ n) 2, e, Nat.mul_left_comm, Nat.mul_mod_mul_left,
              Nat.mod_mul_mod]
          rw [h2, h2, ih]
        rw [this]
      have hx := congrArg (fun v : BitVec 32 => v.toNat % 2 ^ (n + 1)) h
      simp only [BitVec.toNat_xor, Nat.xor_mod_two_pow] at hx
      rw [hlow] at hx
      generalize (k + b <<< 6).toNat % 2 ^ (n + 1) = q at hx
      rw [← Nat.xor_zero (a.toNat % 2 ^ (n + 1)), ← Nat.xor_self q, ← Nat.xor_assoc, hx, Nat.xor_assoc,
        Nat.xor_self, Nat.xor_zero]
  apply BitVec.eq_of_toNat_eq
  have := key 32 (by omega)
  have h1 := a.isLt
  have h2 := b.isLt
  omega

/-! ### C83 -/

/-- Under wrap-around `HashInt64` is injective before its final truncation, so each 32-bit hash value is
shared by at most 2^32 of the 2^64 keys: the hash is perfectly balanced. -/
theorem C83_hashInt64_balanced (l : List (BitVec 64)) (v : BitVec 32) (hnd : l.Nodup)
    (hl : ∀ a ∈ l, hashInt64 .wrap a = .ok v) : l.length ≤ 2 ^ 32 := by
  let f : BitVec 64 → BitVec 64 := fun key =>
    let k := (~~~key + key <<< 18)
    let k := (k ^^^ k >>> 31) * 21#64
    let k := k ^^^ k >>> 11
    let k := k + k <<< 6
    k ^^^ k >>> 22
  have hf : ∀ key, hashInt64 .wrap key = .ok ((f key).setWidth 32) := fun key => rfl
  have hinj : ∀ x y, f x = f y → x = y := by
    intro x y h
    have h := xor_ushiftRight_inj (by decide) h
    simp only [add_shl6] at h
    have h := mul_const_inj (d := 0x0fc0fc0fc0fc0fc1#64) (by decide) h
    have h := xor_ushiftRight_inj (by decide) h
    have h := mul_const_inj (d := 0xcf3cf3cf3cf3cf3d#64) (by decide) h
    have h := xor_ushiftRight_inj (by decide) h
    have e : ∀ z : BitVec 64, ~~~z + z <<< 18 = z * 262143#64 - 1 := by
      intro z
      have e18 : z <<< 18 = z * 262144#64 := by rw [BitVec.shiftLeft_eq_mul_twoPow]; rfl
      have : (262143#64 : BitVec 64) = 262144#64 - 1#64 := by decide
      rw [e18, this, BitVec.mul_sub, BitVec.mul_one, BitVec.not_eq_neg_add]
      have one : (1#64 : BitVec 64) = 1 := rfl
      rw [one]; ring
    rw [e, e] at h
    have h : x * 262143#64 = y * 262143#64 := by
      have := congrArg (· + 1) h
      simpa using this
    exact mul_const_inj (d := 0xffbfffeffffbffff#64) (by decide) h
  have hg : AtMost (2 ^ 32) (fun x : BitVec 64 => x.setWidth 32) := by
    intro s y hs
    have hi : s.card ≤ (Finset.range (2 ^ 32)).card := by
      apply Finset.card_le_card_of_injOn (fun x : BitVec 64 => x.toNat / 2 ^ 32)
      · intro x hx
        simp only [Finset.coe_range, Set.mem_Iio]
        have := x.isLt
        omega
      · intro x hx z hz hxz
        have h1 := congrArg BitVec.toNat (hs x hx)
        have h2 := congrArg BitVec.toNat (hs z hz)
        simp only [BitVec.toNat_setWidth] at h1 h2
        apply BitVec.eq_of_toNat_eq
        simp only at hxz
        omega
    simpa using hi
  have h := AtMost.comp (AtMost.of_inj hinj) hg
  have hc := h l.toFinset v (by
    intro a ha
    have := hl a (List.mem_toFinset.1 ha)
    rw [hf] at this
    exact Except.ok.inj this)
  rw [List.toFinset_card_of_nodup hnd] at hc
  omega

end Verif.Hash
