/-!
# The published hash functions that `amtl/am-hashtable.h` cites

These are written in plain natural-number arithmetic, independently of the model: `x * 2^k` for a left
shift, `x / 2^k` for a logical right shift, everything modulo the word size. They are what the cited pages
give for *unsigned* bytes and words.
-/
namespace Verif.Hash.Ref

/-- One round of Bob Jenkins's one-at-a-time hash for the byte value `c` (0..255 in the published version). -/
def oaatRound (h c : Nat) : Nat :=
  let h := (h + c) % 2 ^ 32
  let h := (h + h * 2 ^ 10) % 2 ^ 32
  Nat.xor h (h / 2 ^ 6)

/-- The final avalanche of the one-at-a-time hash. -/
def oaatFinal (h : Nat) : Nat :=
  let h := (h + h * 2 ^ 3) % 2 ^ 32
  let h := Nat.xor h (h / 2 ^ 11)
  (h + h * 2 ^ 15) % 2 ^ 32

/-- Bob Jenkins's one-at-a-time hash of a sequence of byte values. -/
def oaat (bytes : List Nat) : Nat := oaatFinal (bytes.foldl oaatRound 0)

/-- The integer hash of burtleburtle.net/bob/hash/integer.html, first mix: `(a ^ 61) ^ (a >> 16)`. -/
def int32A (a : Nat) : Nat := Nat.xor (Nat.xor a 61) (a / 2 ^ 16)
/-- Second line, `a + (a << 3)`. -/
def int32B (a : Nat) : Nat := (int32A a * 9) % 2 ^ 32
/-- Third and fourth lines, `(a ^ (a >> 4)) * 0x27d4eb2d`. -/
def int32C (a : Nat) : Nat := (Nat.xor (int32B a) (int32B a / 2 ^ 4) * 0x27d4eb2d) % 2 ^ 32
/-- The published 32-bit integer hash. -/
def int32 (a : Nat) : Nat := Nat.xor (int32C a) (int32C a / 2 ^ 15)

/-- Thomas Wang's 64-to-32-bit integer hash (`hash6432shift`). -/
def int64 (key : Nat) : Nat :=
  let k := ((2 ^ 64 - 1 - key) + key * 2 ^ 18) % 2 ^ 64
  let k := Nat.xor k (k / 2 ^ 31)
  let k := (k * 21) % 2 ^ 64
  let k := Nat.xor k (k / 2 ^ 11)
  let k := (k * 65) % 2 ^ 64
  let k := Nat.xor k (k / 2 ^ 22)
  k % 2 ^ 32

end Verif.Hash.Ref
