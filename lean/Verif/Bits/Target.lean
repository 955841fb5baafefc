import Verif.Bits.Model
/-!
# Model of `amtl/am-bits.h` on every compiler and data model its `#if`s distinguish

Model.lean has the GCC/LP64 build; here the target is a parameter. Values are natural numbers; a conversion to an
unsigned type of `w` bits is `% 2^w`.
-/
namespace Verif.Bits
open Verif

/-- What the `#if`s of am-bits.h:61, 80, 98, 114, 118, 128-139, 149-158 and the conversions depend on. -/
structure Target where
  /-- `_MSC_VER` is defined; otherwise `__GNUC__` is -/
  msvc : Bool
  /-- `_M_X64` is defined (only if `msvc`) -/
  x64 : Bool
  /-- bits of `size_t` and `uintptr_t` -/
  size : Nat
  /-- bits of `unsigned long`; `__LP64__` is defined if this and `size` are 64 -/
  long : Nat
deriving DecidableEq

/-- GCC or Clang on 64-bit Linux, macOS. am-bits.h:98-100, 118, 139, 157-159. -/
def gccLP64 : Target := ⟨false, false, 64, 64⟩
/-- GCC or Clang on 32-bit systems. am-bits.h:98-100, 118, 139, 160-161. -/
def gccILP32 : Target := ⟨false, false, 32, 32⟩
/-- GCC (MinGW) on 64-bit Windows: `unsigned long` has 32 bits. am-bits.h:98-100, 118, 139, 160-161. -/
def gccLLP64 : Target := ⟨false, false, 64, 32⟩
/-- MSVC for x86 and ARM. am-bits.h:61-92, 114, 129-133, 151-152. -/
def msvc32 : Target := ⟨true, false, 32, 32⟩
/-- MSVC for x64. am-bits.h:80-81, 114, 134-137, 153-154. -/
def msvcX64 : Target := ⟨true, true, 64, 32⟩
/-- MSVC for ARM64: `_M_X64` is not defined. am-bits.h:82-89, 114, 134-137, 153-154. -/
def msvcArm64 : Target := ⟨true, false, 64, 32⟩

/-- The targets am-bits.h:61-162 has code for. -/
def targets : List Target := [gccLP64, gccILP32, gccLLP64, msvc32, msvcX64, msvcArm64]

/-- Library: `__builtin_clz`, `__builtin_clzl` on a `w`-bit argument; undefined at 0. am-bits.h:100, 119, 140. -/
def clzW (w x : Nat) : Exec Nat := if x = 0 then .error .badBuiltin else .ok (clzScan x w)

/-- Library: `__builtin_ctz`, `__builtin_ctzl` on a `w`-bit argument; undefined at 0. am-bits.h:159, 161. -/
def ctzW (w x : Nat) : Exec Nat := if x = 0 then .error .badBuiltin else .ok (ctzScan x 0 w)

/-- Library: `_BitScanReverse`, `_BitScanReverse64`, the position of the most significant one; at 0 the output is
undefined. am-bits.h:72, 81, 84, 87, 116, 136. -/
def bitScanReverse (x : Nat) : Exec Nat := if x = 0 then .error .badBuiltin else .ok (Nat.log2 x)

/-- Library: `_BitScanForward`, `_BitScanForward64` on a `w`-bit argument; at 0 the output is undefined. am-bits.h:152, 154. -/
def bitScanForward (w x : Nat) : Exec Nat := if x = 0 then .error .badBuiltin else .ok (ctzScan x 0 w)

/-- `Log2<uint32_t>`, am-bits.h:67-74 (MSVC). -/
def log2U32 (number : Nat) : Exec Nat := if number = 0 then .error .assertFail else bitScanReverse number

/-- `Log2<uint64_t>`, am-bits.h:76-92 (MSVC). -/
def log2U64 (t : Target) (number : Nat) : Exec Nat :=
  if number = 0 then .error .assertFail
  else if t.x64 then bitScanReverse number
  else if 0xFFFFFFFF < number then do
    let r ← bitScanReverse (number / 2 ^ 32 % 2 ^ 32)
    .ok (r + 32)
  else bitScanReverse (number % 2 ^ 32)

/-- `Log2` called with an argument of `w` bits (32 or 64). On MSVC the type of the argument selects the specialisation
(am-bits.h:61-92); otherwise the argument is converted to `size_t` and then, for `__builtin_clz`, to `unsigned`
(am-bits.h:94-106). -/
def log2On (t : Target) (w number : Nat) : Exec Nat :=
  if t.msvc then (if w = 32 then log2U32 number else log2U64 t number)
  else if number % 2 ^ t.size = 0 then .error .assertFail
  else do
    let c ← clzW 32 (number % 2 ^ t.size % 2 ^ 32)
    .ok (31 - c)

/-- `FindLeftmostBit32`, am-bits.h:109-121. -/
def leftmost32On (t : Target) (number : Nat) : Exec Nat :=
  if number = 0 then .error .assertFail
  else if t.msvc then bitScanReverse number
  else do
    let c ← clzW 32 number
    .ok (31 - c)

/-- `FindLeftmostBit64`, am-bits.h:123-142. `_M_IX86`, `_M_ARM`: 32-bit `size_t`. The parameter of `__builtin_clzl` is an
`unsigned long`. -/
def leftmost64On (t : Target) (number : Nat) : Exec Nat :=
  if number = 0 then .error .assertFail
  else if t.msvc then
    if t.size = 32 then
      if number / 2 ^ 32 ≠ 0 then do
        let r ← leftmost32On t (number / 2 ^ 32 % 2 ^ 32)
        .ok (32 + r)
      else leftmost32On t (number % 2 ^ 32)
    else bitScanReverse number
  else do
    let c ← clzW t.long (number % 2 ^ t.long)
    .ok (63 - c)

/-- `FindRightmostBit`, am-bits.h:144-164. -/
def rightmostOn (t : Target) (number : Nat) : Exec Nat :=
  if number = 0 then .error .assertFail
  else if t.msvc then bitScanForward t.size number
  else if t.long = 64 ∧ t.size = 64 then ctzW 64 number
  else ctzW 32 (number % 2 ^ 32)

/-- `IsUintAddSafe<T>` for a `T` of `w` bits, am-bits.h:181-190. -/
def addSafeOn (t : Target) (w a b : Nat) : Exec Bool :=
  if a = 0 ∨ b = 0 then .ok true
  else do
    let log2_a ← log2On t w a
    let log2_b ← log2On t w b
    .ok (decide (log2_a < w / 8 * 8) && decide (log2_b < w / 8 * 8))

/-- `IsUintMultiplySafe<T>` for a `T` of `w` bits, am-bits.h:210-220. -/
def multiplySafeOn (t : Target) (w a b : Nat) : Exec Bool :=
  if a ≤ 1 ∨ b ≤ 1 then .ok true
  else do
    let log2_a ← log2On t w a
    let log2_b ← log2On t w b
    .ok (decide (log2_a + log2_b < w / 8 * 8))

end Verif.Bits
