import Verif.Hash.Lemmas
import Verif.Hash.SpecRef
/-!
# C131: the hash functions against the published functions they cite
-/
namespace Verif.Hash
open Verif

/-- The byte that the object representation of a `char` holds, 0..255. -/
def byteOf (c : BitVec 8) : Nat := c.toNat

/-- C131 in full: `HashCharSequence` is Jenkins's one-at-a-time hash of the bytes, `HashInt32` the published
32-bit integer hash and `HashInt64` Wang's 64-bit one (under wrap-around arithmetic). -/
def PublishedHashes : Prop :=
  (∀ s : List (BitVec 8), (hashCharSequence s).toNat = Ref.oaat (s.map byteOf)) ∧
  (∀ a : BitVec 32, (hashInt32 .wrap a).map BitVec.toNat = .ok (Ref.int32 a.toNat)) ∧
  (∀ k : BitVec 64, (hashInt64 .wrap k).map BitVec.toNat = .ok (Ref.int64 k.toNat))

/-- C131's first clause is false of the code: `hash += c` adds a *signed* char, so the one-byte text
`"\x80"` does not get its one-at-a-time hash. -/
theorem C131_text_refuted :
    ¬ ∀ s : List (BitVec 8), (hashCharSequence s).toNat = Ref.oaat (s.map byteOf) := by
  intro h
  exact absurd (h [0x80]) (by decide +kernel)

/-- C131's second clause is false of the code: the right shifts are arithmetic, so -1 hashes like 0. -/
theorem C131_int32_refuted :
    ¬ ∀ a : BitVec 32, (hashInt32 .wrap a).map BitVec.toNat = .ok (Ref.int32 a.toNat) := by
  intro h
  exact absurd (h (-1)) (by decide +kernel)

/-- So C131 in full is false of the code. -/
theorem C131_published_refuted : ¬ PublishedHashes := fun h => C131_text_refuted h.1

theorem shl_toNat {w : Nat} (x : BitVec w) (k : Nat) : (x <<< k).toNat = (x.toNat * 2 ^ k) % 2 ^ w := by
  rw [BitVec.toNat_shiftLeft, Nat.shiftLeft_eq]

theorem shr_toNat {w : Nat} (x : BitVec w) (k : Nat) : (x >>> k).toNat = x.toNat / 2 ^ k := by
  rw [BitVec.toNat_ushiftRight, Nat.shiftRight_eq_div_pow]

theorem add_shl_toNat {w : Nat} (x : BitVec w) (k : Nat) :
    (x + x <<< k).toNat = (x.toNat + x.toNat * 2 ^ k) % 2 ^ w := by
  rw [BitVec.toNat_add, shl_toNat, Nat.add_mod_mod]

theorem xor_shr_toNat {w : Nat} (x : BitVec w) (k : Nat) :
    (x ^^^ x >>> k).toNat = Nat.xor x.toNat (x.toNat / 2 ^ k) := by
  rw [BitVec.toNat_xor, shr_toNat]; rfl

/-- A signed character, as the number the code adds to the running hash (a negative character adds
`2^32 - 128 .. 2^32 - 1`). -/
def signedByte (c : BitVec 8) : Nat := if c.toNat < 128 then c.toNat else 2 ^ 32 - 256 + c.toNat

theorem signedByte_eq (c : BitVec 8) : (c.signExtend 32).toNat = signedByte c := by
  revert c; decide +kernel

theorem addChar_ref (h : Hasher) (c : BitVec 8) :
    (h.addChar c).hash.toNat = Ref.oaatRound h.hash.toNat (signedByte c) := by
  simp only [Hasher.addChar, Ref.oaatRound]
  rw [xor_shr_toNat, add_shl_toNat, BitVec.toNat_add, signedByte_eq]

theorem addAll_ref (s : List (BitVec 8)) : ∀ h : Hasher,
    (h.addAll s).hash.toNat = (s.map signedByte).foldl Ref.oaatRound h.hash.toNat := by
  induction s with
  | nil => intro h; rfl
  | cons c s ih => intro h; simp only [Hasher.addAll, List.map_cons, List.foldl_cons]; rw [ih, addChar_ref]

theorem result_ref (h : Hasher) : h.result.1.toNat = Ref.oaatFinal h.hash.toNat := by
  simp only [Hasher.result, Ref.oaatFinal]
  rw [add_shl_toNat, xor_shr_toNat, add_shl_toNat]

/-- C131, what does hold of text: the hash is Jenkins's function of the sign-extended characters, so it is
the published hash of every text of 7-bit characters - also when the text is fed in pieces. -/
theorem C131_text_partial (s : List (BitVec 8)) :
    (hashCharSequence s).toNat = Ref.oaat (s.map signedByte) ∧
    ((∀ c ∈ s, c.toNat < 128) → (hashCharSequence s).toNat = Ref.oaat (s.map byteOf)) ∧
    (∀ chunks : List (List (BitVec 8)), chunks.flatten = s → (∀ c ∈ s, c.toNat < 128) →
      (chunks.foldl (fun h c => h.addAll c) Hasher.new).result.1.toNat = Ref.oaat (s.map byteOf)) := by
  have h1 : ∀ s : List (BitVec 8), (hashCharSequence s).toNat = Ref.oaat (s.map signedByte) := by
    intro s
    rw [hashCharSequence, result_ref, addAll_ref]; rfl
  have h2 : ∀ s : List (BitVec 8), (∀ c ∈ s, c.toNat < 128) → s.map signedByte = s.map byteOf := by
    intro s hs
    apply List.map_congr_left
    intro c hc
    simp [signedByte, byteOf, hs c hc]
  refine ⟨h1 s, fun hs => by rw [h1, h2 s hs], fun chunks hch hs => ?_⟩
  have key : ∀ (chunks : List (List (BitVec 8))) (h : Hasher),
      (chunks.foldl (fun h c => h.addAll c) h).hash.toNat =
        (chunks.flatten.map signedByte).foldl Ref.oaatRound h.hash.toNat := by
    intro chunks
    induction chunks with
    | nil => intro h; rfl
    | cons c cs ih =>
      intro h
      rw [List.foldl_cons, ih, addAll_ref, List.flatten_cons, List.map_append, List.foldl_append]
  rw [result_ref, key, hch, h2 s hs]; rfl

/-- "hello" meets the hypothesis, and its hash is not a small number. -/
example : (∀ c ∈ ([104, 101, 108, 108, 111] : List (BitVec 8)), c.toNat < 128) ∧
    (hashCharSequence [104, 101, 108, 108, 111]).toNat = Ref.oaat [104, 101, 108, 108, 111] ∧
    Ref.oaat [104, 101, 108, 108, 111] = 0xc8fd181b := by decide +kernel

theorem sshl_wrap {w : Nat} (x : BitVec w) (k : Nat) : sshl .wrap x k = .ok (x <<< k) := by simp [sshl]
theorem sadd_wrap {w : Nat} (x y : BitVec w) : sadd .wrap x y = .ok (x + y) := by simp [sadd]
theorem smul_wrap {w : Nat} (x y : BitVec w) : smul .wrap x y = .ok (x * y) := by simp [smul]

theorem times9 (x : Nat) : x + x * 2 ^ 3 = x * 9 := by omega
theorem times65 (x : Nat) : x + x * 2 ^ 6 = x * 65 := by omega
theorem lit61 : (61#32).toNat = 61 := by decide +kernel
theorem lit32 : (0x27d4eb2d#32).toNat = 0x27d4eb2d := by decide +kernel
theorem lit64 : (21#64).toNat = 21 := by decide +kernel

theorem sshr_nonneg {x : BitVec 32} (h : x.toNat < 2 ^ 31) (k : Nat) : x.sshiftRight k = x >>> k := by
  apply BitVec.sshiftRight_eq_of_msb_false
  rw [BitVec.msb_eq_decide]; simpa using h


/-- The five lines of `HashInt32` under wrap-around. -/
theorem hashInt32_lines (a x y z : BitVec 32) (hx : x = (a ^^^ 61#32) ^^^ a.sshiftRight 16)
    (hy : y = x + x <<< 3) (hz : z = (y ^^^ y.sshiftRight 4) * 0x27d4eb2d#32) :
    hashInt32 .wrap a = .ok (z ^^^ z.sshiftRight 15) := by
  subst hx
  rw [hashInt32, sshl_wrap]
  simp only [bind, Except.bind]
  rw [sadd_wrap]
  simp only
  rw [← hy, smul_wrap]
  simp only
  rw [← hz]

theorem lineA (a : BitVec 32) (hA : a.toNat < 2 ^ 31) :
    ((a ^^^ 61#32) ^^^ a.sshiftRight 16).toNat = Ref.int32A a.toNat := by
  rw [sshr_nonneg hA, BitVec.toNat_xor, BitVec.toNat_xor, shr_toNat, lit61, Ref.int32A]; rfl

theorem lineC (a : Nat) (y : BitVec 32) (hB : y.toNat < 2 ^ 31) (hy : y.toNat = Ref.int32B a) :
    ((y ^^^ y.sshiftRight 4) * 0x27d4eb2d#32).toNat = Ref.int32C a := by
  rw [BitVec.toNat_mul, sshr_nonneg hB, xor_shr_toNat, hy, Ref.int32C, lit32]

/-- C131, what does hold of `HashInt32`: it is the published hash of every integer for which none of the
three values the published function shifts right has its top bit set. -/
theorem C131_int32_partial (a : BitVec 32) (hA : a.toNat < 2 ^ 31) (hB : Ref.int32B a.toNat < 2 ^ 31)
    (hC : Ref.int32C a.toNat < 2 ^ 31) :
    (hashInt32 .wrap a).map BitVec.toNat = .ok (Ref.int32 a.toNat) := by
  have eA := lineA a hA
  have eB : ((a ^^^ 61#32 ^^^ a.sshiftRight 16) + (a ^^^ 61#32 ^^^ a.sshiftRight 16) <<< 3).toNat =
      Ref.int32B a.toNat := by rw [add_shl_toNat, eA, Ref.int32B, times9]
  have hB' := hB
  rw [← eB] at hB'
  have eC := lineC a.toNat _ hB' eB
  have hC' := hC
  rw [← eC] at hC'
  rw [hashInt32_lines a _ _ _ rfl rfl rfl]
  refine congrArg Except.ok ?_
  rw [sshr_nonneg hC', xor_shr_toNat, eC, Ref.int32]

/-- 12 meets the hypotheses. -/
example : (12#32).toNat < 2 ^ 31 ∧ Ref.int32B 12 < 2 ^ 31 ∧ Ref.int32C 12 < 2 ^ 31 := by decide +kernel

/-- C131, third clause, holds: `HashInt64` is Wang's hash of the key's 64 bits, for every key; so are
`HashInteger<8>` and, with 8-byte pointers, `HashPointer`: every bit of the address counts. -/
theorem C131_int64 (k : BitVec 64) :
    (hashInt64 .wrap k).map BitVec.toNat = .ok (Ref.int64 k.toNat) ∧
    (hashInteger8 .wrap k).map BitVec.toNat = .ok (Ref.int64 k.toNat) ∧
    (hashPointer .wrap k).map BitVec.toNat = .ok (Ref.int64 k.toNat) := by
  have key : (hashInt64 .wrap k).map BitVec.toNat = .ok (Ref.int64 k.toNat) := by
    have e1 : (~~~k + k <<< 18).toNat = ((2 ^ 64 - 1 - k.toNat) + k.toNat * 2 ^ 18) % 2 ^ 64 := by
      rw [BitVec.toNat_add, BitVec.toNat_not, shl_toNat, Nat.add_mod_mod]
    rw [hashInt64, Ref.int64]
    have d1 : sshl .wrap k 18 = .ok (k <<< 18) := sshl_wrap _ _
    have d2 : sadd .wrap (~~~k) (k <<< 18) = .ok (~~~k + k <<< 18) := sadd_wrap _ _
    simp only [d1, d2, bind, Except.bind]
    rw [← e1]
    generalize ~~~k + k <<< 18 = a
    rw [← xor_shr_toNat]
    generalize a ^^^ a >>> 31 = b
    have d3 : smul .wrap b 21#64 = .ok (b * 21#64) := smul_wrap _ _
    have e3 : (b * 21#64).toNat = (b.toNat * 21) % 2 ^ 64 := by
      rw [BitVec.toNat_mul, lit64]
    simp only [d3]
    rw [← e3]
    generalize b * 21#64 = c
    rw [← xor_shr_toNat]
    generalize c ^^^ c >>> 11 = d
    have d4 : sshl .wrap d 6 = .ok (d <<< 6) := sshl_wrap _ _
    have d5 : sadd .wrap d (d <<< 6) = .ok (d + d <<< 6) := sadd_wrap _ _
    have e4 : (d + d <<< 6).toNat = (d.toNat * 65) % 2 ^ 64 := by
      rw [add_shl_toNat, times65]
    simp only [d4, d5]
    rw [← e4]
    generalize d + d <<< 6 = e
    rw [← xor_shr_toNat]
    generalize e ^^^ e >>> 22 = f
    show Except.ok (f.setWidth 32).toNat = _
    rw [BitVec.toNat_setWidth]
  exact ⟨key, key, key⟩

/-- `HashInteger<4>` is `HashInt32` of the low half of its argument: the high half never counts, the low
half is hashed as `HashInt32` hashes it. -/
theorem C131_integer4 (m : Mode) (hi lo : BitVec 32) :
    hashInteger4 m (hi ++ lo) = hashInt32 m lo := by
  have : ((hi ++ lo : BitVec 64)).setWidth 32 = lo := by
    apply BitVec.eq_of_toNat_eq
    rw [BitVec.toNat_setWidth]
    show (hi ++ lo).toNat % 2 ^ 32 = _
    rw [BitVec.toNat_append]
    apply Nat.eq_of_testBit_eq
    intro i
    rw [Nat.testBit_mod_two_pow, Nat.testBit_or, Nat.testBit_shiftLeft]
    by_cases h : i < 32
    · simp [h]
    · have : lo.toNat.testBit i = false :=
        Nat.testBit_lt_two_pow (Nat.lt_of_lt_of_le lo.isLt (Nat.pow_le_pow_right (by decide) (by omega)))
      simp [h, this]
  rw [hashInteger4, this]

example : hashInteger4 .wrap (7#32 ++ 12#32) = hashInt32 .wrap 12#32 := by decide +kernel

end Verif.Hash
