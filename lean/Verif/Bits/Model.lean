import Verif.Common
/-!
# Model of `amtl/am-bits.h` (GCC/Clang, LP64)

`size_t`, `uintptr_t` are `BitVec w` where the width does not matter, and `BitVec 64` where it does; `uint64_t` is
`BitVec 64`, `unsigned`, `uint32_t` are `BitVec 32`. The other targets (the MSVC branches of lines 61-92, 114-117,
128-138, 149-156, and 32-bit `size_t` or `long`) are modelled in Target.lean.
-/
namespace Verif.Bits
open Verif

/-- Number of zero bits of `x` at positions `w-1, w-2, ...` before the first one bit. Library: `__builtin_clz`/`__builtin_clzl` of am-bits.h:100, 119 and 140. -/
def clzScan (x : Nat) : Nat → Nat
  | 0 => 0
  | w + 1 => if x.testBit w then 0 else 1 + clzScan x w

/-- Number of zero bits of `x` at positions `i, i+1, ...` before the first one bit, `fuel` positions
at most. Library: `__builtin_ctzl`/`__builtin_ctz` of am-bits.h:159 and 161. -/
def ctzScan (x : Nat) (i : Nat) : Nat → Nat
  | 0 => 0
  | fuel + 1 => if x.testBit i then 0 else 1 + ctzScan x (i + 1) fuel

/-- GCC `__builtin_clz(unsigned)`: leading zeros of a 32-bit value, undefined at 0
(GCC manual; used at amtl/am-bits.h:100,119). -/
def builtinClz (x : BitVec 32) : Exec Nat :=
  if x = 0 then .error .badBuiltin else .ok (clzScan x.toNat 32)

/-- GCC `__builtin_clzl(unsigned long)`: 64 bit on LP64, undefined at 0 (amtl/am-bits.h:140). -/
def builtinClzl (x : BitVec 64) : Exec Nat :=
  if x = 0 then .error .badBuiltin else .ok (clzScan x.toNat 64)

/-- GCC `__builtin_ctzl(unsigned long)`: undefined at 0 (amtl/am-bits.h:159). -/
def builtinCtzl (x : BitVec 64) : Exec Nat :=
  if x = 0 then .error .badBuiltin else .ok (ctzScan x.toNat 0 64)

/-- `Log2(size_t)`, amtl/am-bits.h:94-106 (GCC branch, line 100): the 64-bit argument is passed to
`__builtin_clz`, whose parameter is a 32-bit `unsigned`, so only its low 32 bits survive.
`31 - clz` is an `int` in 0..31. -/
def log2 (number : BitVec 64) : Exec Nat :=
  if number = 0 then .error .assertFail
  else do
    let c ← builtinClz (number.truncate 32)
    .ok (31 - c)

/-- `FindLeftmostBit32`, amtl/am-bits.h:109-121 (GCC branch). -/
def findLeftmostBit32 (number : BitVec 32) : Exec Nat :=
  if number = 0 then .error .assertFail
  else do
    let c ← builtinClz number
    .ok (31 - c)

/-- `FindLeftmostBit64`, amtl/am-bits.h:123-142 (GCC branch, `__builtin_clzl`, LP64). -/
def findLeftmostBit64 (number : BitVec 64) : Exec Nat :=
  if number = 0 then .error .assertFail
  else do
    let c ← builtinClzl number
    .ok (63 - c)

/-- `FindRightmostBit`, amtl/am-bits.h:144-164 (GCC, `__LP64__`). -/
def findRightmostBit (number : BitVec 64) : Exec Nat :=
  if number = 0 then .error .assertFail
  else builtinCtzl number

/-- `IsPowerOfTwo`, amtl/am-bits.h:166-172. -/
def isPowerOfTwo {w : Nat} (value : BitVec w) : Bool :=
  if value = 0 then false
  else (value &&& (value - 1)) == 0

/-- `Align`, amtl/am-bits.h:174-179. The assertion that the alignment is a power of two comes first. -/
def align {w : Nat} (count alignment : BitVec w) : Exec (BitVec w) :=
  if isPowerOfTwo alignment then
    .ok (count + (alignment - count % alignment) % alignment)
  else .error .assertFail

/-- `IsUintAddSafe<uint32_t>` = `IsUint32AddSafe`, amtl/am-bits.h:181-196.
`Log2` takes a `size_t`, so the 32-bit arguments are zero-extended. -/
def isUint32AddSafe (a b : BitVec 32) : Exec Bool :=
  if a = 0 ∨ b = 0 then .ok true
  else do
    let log2_a ← log2 (a.zeroExtend 64)
    let log2_b ← log2 (b.zeroExtend 64)
    .ok (decide (log2_a < 4 * 8) && decide (log2_b < 4 * 8))

/-- `IsUintAddSafe<uint64_t>` = `IsUint64AddSafe`, amtl/am-bits.h:181-190,198-202; `IsUintPtrAddSafe`
(204-208) is the same instantiation on LP64. -/
def isUint64AddSafe (a b : BitVec 64) : Exec Bool :=
  if a = 0 ∨ b = 0 then .ok true
  else do
    let log2_a ← log2 a
    let log2_b ← log2 b
    .ok (decide (log2_a < 8 * 8) && decide (log2_b < 8 * 8))

/-- `IsUintMultiplySafe<uint32_t>` = `IsUint32MultiplySafe`, amtl/am-bits.h:210-226. -/
def isUint32MultiplySafe (a b : BitVec 32) : Exec Bool :=
  if a ≤ 1 ∨ b ≤ 1 then .ok true
  else do
    let log2_a ← log2 (a.zeroExtend 64)
    let log2_b ← log2 (b.zeroExtend 64)
    .ok (decide (log2_a + log2_b < 4 * 8))

/-- `IsUintMultiplySafe<uint64_t>` = `IsUint64MultiplySafe`, amtl/am-bits.h:210-220,228-232;
`IsUintPtrMultiplySafe` (234-238) is the same instantiation on LP64. -/
def isUint64MultiplySafe (a b : BitVec 64) : Exec Bool :=
  if a ≤ 1 ∨ b ≤ 1 then .ok true
  else do
    let log2_a ← log2 a
    let log2_b ← log2 b
    .ok (decide (log2_a + log2_b < 8 * 8))

/-- `IsAligned`, amtl/am-bits.h:240-246 (also the macro `IS_ALIGNED`, amtl/am-utility.h:56, without
the assertion). -/
def isAligned {w : Nat} (addr alignment : BitVec w) : Exec Bool :=
  if isPowerOfTwo alignment then .ok ((addr &&& (alignment - 1)) == 0)
  else .error .assertFail

/-- `AlignedBase`, amtl/am-bits.h:248-253. -/
def alignedBase {w : Nat} (addr alignment : BitVec w) : Exec (BitVec w) :=
  if isPowerOfTwo alignment then .ok (addr &&& ~~~(alignment - 1))
  else .error .assertFail

/-- `SetPointerBits`, amtl/am-bits.h:255-258. -/
def setPointerBits {w : Nat} (ptr bits : BitVec w) : BitVec w := ptr ||| bits

/-- The `int` expression `(1 << NumBits) - 1` of amtl/am-bits.h:262,267. `1 << 31` and beyond is not
representable in `int` (and `INT_MIN - 1` overflows), so it is a fault; otherwise the non-negative
`int` is converted to `uintptr_t`. -/
def intMask (w numBits : Nat) : Exec (BitVec w) :=
  if numBits ≤ 30 then .ok (BitVec.ofNat w (2 ^ numBits - 1)) else .error .signedOverflow

/-- `GetPointerBits<NumBits>`, amtl/am-bits.h:260-263. -/
def getPointerBits {w : Nat} (numBits : Nat) (ptr : BitVec w) : Exec (BitVec w) := do
  let m ← intMask w numBits
  .ok (ptr &&& m)

/-- `ClearPointerBits<NumBits>`, amtl/am-bits.h:265-268. -/
def clearPointerBits {w : Nat} (numBits : Nat) (ptr : BitVec w) : Exec (BitVec w) := do
  let m ← intMask w numBits
  .ok (ptr &&& ~~~m)

end Verif.Bits
