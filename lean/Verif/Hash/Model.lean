import Verif.Common
/-!
# Model of the hash functions of `amtl/am-hashtable.h` (lines 555-654)

`char` is signed 8 bit, `int32_t`/`int64_t` are two's complement. Signed overflow and C++14/17 invalid
left shifts are faults under `Mode.strict` (the language standard the project builds with) and wrap
around under `Mode.wrap` (what `-fwrapv` or a benign compiler gives).
-/
namespace Verif.Hash
open Verif

/-- How the compiler treats the signed arithmetic of am-hashtable.h:603-626. -/
inductive Mode where
  | strict
  | wrap
deriving DecidableEq, Repr

/-- Signed `x + y` (language rule [expr.pre]: overflow is undefined). As at am-hashtable.h:608, 619 and 623. -/
def sadd {w : Nat} (m : Mode) (x y : BitVec w) : Exec (BitVec w) :=
  if m = .strict ∧ ¬ (-(2 ^ (w - 1) : Int) ≤ x.toInt + y.toInt ∧ x.toInt + y.toInt < 2 ^ (w - 1)) then
    .error .signedOverflow
  else .ok (x + y)

/-- Signed `x * y`. As at am-hashtable.h:610 and 621. -/
def smul {w : Nat} (m : Mode) (x y : BitVec w) : Exec (BitVec w) :=
  if m = .strict ∧ ¬ (-(2 ^ (w - 1) : Int) ≤ x.toInt * y.toInt ∧ x.toInt * y.toInt < 2 ^ (w - 1)) then
    .error .signedOverflow
  else .ok (x * y)

/-- Signed `x << k`, C++14/17 [expr.shift]: `x` must be non-negative and `x * 2^k` representable in the
corresponding unsigned type. As at am-hashtable.h:608, 619 and 623. -/
def sshl {w : Nat} (m : Mode) (x : BitVec w) (k : Nat) : Exec (BitVec w) :=
  if m = .strict ∧ ¬ (0 ≤ x.toInt ∧ x.toInt * 2 ^ k < 2 ^ w) then .error .signedOverflow
  else .ok (x <<< k)

/-- `HashInt32`, amtl/am-hashtable.h:605-613. `>>` on a negative `int32_t` is an arithmetic shift. -/
def hashInt32 (m : Mode) (a : BitVec 32) : Exec (BitVec 32) := do
  let a := (a ^^^ 61#32) ^^^ a.sshiftRight 16
  let a8 ← sshl m a 3
  let a ← sadd m a a8
  let a := a ^^^ a.sshiftRight 4
  let a ← smul m a 0x27d4eb2d#32
  let a := a ^^^ a.sshiftRight 15
  .ok a

/-- `HashInt64`, amtl/am-hashtable.h:617-626. The `uint64_t(key) >> n` shifts are logical and the xor
with them is unsigned. -/
def hashInt64 (m : Mode) (key : BitVec 64) : Exec (BitVec 32) := do
  let k18 ← sshl m key 18
  let key ← sadd m (~~~key) k18
  let key := key ^^^ (key >>> 31)
  let key ← smul m key 21#64
  let key := key ^^^ (key >>> 11)
  let k6 ← sshl m key 6
  let key ← sadd m key k6
  let key := key ^^^ (key >>> 22)
  .ok (key.setWidth 32)

/-- `HashInteger<4>`, amtl/am-hashtable.h:631-636. -/
def hashInteger4 (m : Mode) (value : BitVec 64) : Exec (BitVec 32) := hashInt32 m (value.setWidth 32)

/-- `HashInteger<8>`, amtl/am-hashtable.h:638-643. -/
def hashInteger8 (m : Mode) (value : BitVec 64) : Exec (BitVec 32) := hashInt64 m value

/-- `HashPointer`, amtl/am-hashtable.h:645-649, `sizeof(ptr) == 8`. -/
def hashPointer (m : Mode) (ptr : BitVec 64) : Exec (BitVec 32) := hashInteger8 m ptr

/-- `HashCombine`, amtl/am-hashtable.h:651-654. -/
def hashCombine (first second : BitVec 32) : BitVec 32 :=
  first ^^^ (second + 0x9e3779b9#32 + (first <<< 6) + (second >>> 2))

/-- `CharacterStreamHasher`, amtl/am-hashtable.h:558-565: the object is its `hash` field. -/
structure Hasher where
  hash : BitVec 32
deriving DecidableEq, Repr

/-- Constructor, amtl/am-hashtable.h:563-565. -/
def Hasher.new : Hasher := ⟨0⟩

/-- `add(char)`, amtl/am-hashtable.h:567-571; `hash += c` sign-extends `c`. -/
def Hasher.addChar (h : Hasher) (c : BitVec 8) : Hasher :=
  let hash := h.hash + c.signExtend 32
  let hash := hash + (hash <<< 10)
  let hash := hash ^^^ (hash >>> 6)
  ⟨hash⟩

/-- `add(const char*, size_t)`, amtl/am-hashtable.h:573-576; the list is `s[0..length-1]`. -/
def Hasher.addAll (h : Hasher) : List (BitVec 8) → Hasher
  | [] => h
  | c :: cs => (h.addChar c).addAll cs

/-- `result()`, amtl/am-hashtable.h:578-583: returns the value and updates the object. -/
def Hasher.result (h : Hasher) : BitVec 32 × Hasher :=
  let hash := h.hash + (h.hash <<< 3)
  let hash := hash ^^^ (hash >>> 11)
  let hash := hash + (hash <<< 15)
  (hash, ⟨hash⟩)

/-- `HashCharSequence`, amtl/am-hashtable.h:586-592. -/
def hashCharSequence (s : List (BitVec 8)) : BitVec 32 := (Hasher.new.addAll s).result.1

/-- Loop of `FastHashCharSequence`, amtl/am-hashtable.h:598-599. -/
def fastHashLoop (hash : BitVec 32) : List (BitVec 8) → BitVec 32
  | [] => hash
  | c :: cs => fastHashLoop (c.signExtend 32 + (hash <<< 6) + (hash <<< 16) - hash) cs

/-- `FastHashCharSequence`, amtl/am-hashtable.h:594-601. -/
def fastHashCharSequence (s : List (BitVec 8)) : BitVec 32 := fastHashLoop 0 s

end Verif.Hash
