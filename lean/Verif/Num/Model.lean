import Verif.Common
/-!
# Models of amtl/am-time.h and amtl/am-float.h
-/
namespace Verif.Num
open Verif

/-! ## am-time.h -/

/-- The values of a 64-bit signed integer. The representation types of the durations of am-time.h:44-57. -/
def InRange (x : Int) : Prop := -(2 ^ 63) ≤ x ∧ x < 2 ^ 63
instance (x : Int) : Decidable (InRange x) := by unfold InRange; infer_instance

/-- Signed 64-bit arithmetic: a result out of range is undefined behaviour. The arithmetic inside the library conversions of am-time.h:44-57. -/
def checked (x : Int) : Exec Int := if InRange x then .ok x else .error .signedOverflow

/-- `TimespecToDuration`, am-time.h:44-49, in nanoseconds. `std::chrono::operator+` converts both to the common type, nanoseconds (a multiplication
of 64-bit integers), then adds; the `duration_cast` is from nanoseconds to nanoseconds. -/
def timespecToDuration (sec nsec : Int) : Exec Int := do
  let s ← checked (sec * 1000000000)
  checked (s + nsec)

/-- `TimespecToTimePoint<Clock>`, am-time.h:51-57, for a clock that counts ticks of `tick` nanoseconds: `duration_cast` divides, truncating towards zero; the
conversion of the result to a nanosecond `time_point` multiplies. -/
def timespecToTimePoint (tick sec nsec : Int) : Exec Int := do
  let d ← timespecToDuration sec nsec
  let t := Int.tdiv d tick
  checked (t * tick)

/-! ## am-float.h -/

/-- `kFloat32ExponentMask`, am-float.h:40. -/
def mask32 : BitVec 32 := 0x7F800000#32
/-- `kFloat64ExponentMask`, am-float.h:41. -/
def mask64 : BitVec 64 := 0x7FFF000000000000#64

/-- `IsInfinite<float>`, am-float.h:95-103, on the bits of its argument. -/
def isInfinite32 (b : BitVec 32) : Bool := (b &&& mask32) == mask32

/-- `float64_bits::to_layout(v).bits`, am-float.h:65-75: the argument is converted to `float`, `narrow` of the bits of the `double`, and stored in the
`float` member of a union; the 64-bit member then has its 32 bits (little-endian) and 32 bits that were never written, `junk`. -/
def layout64 (narrow : BitVec 64 → BitVec 32) (junk : BitVec 32) (v : BitVec 64) : BitVec 64 := junk ++ narrow v

/-- `IsInfinite<double>`, am-float.h:95-103. -/
def isInfinite64 (narrow : BitVec 64 → BitVec 32) (junk : BitVec 32) (v : BitVec 64) : Bool :=
  (layout64 narrow junk v &&& mask64) == mask64

/-- `left == 0` on floats. am-float.h:129. -/
def eqZero (b : BitVec 32) : Bool := b.toNat % 2 ^ 31 = 0

/-- `FloatModulo<float>`, am-float.h:121-135, with `KE_WINDOWS` (`windows`) or without. -/
def floatModulo (windows : Bool) (fmod : BitVec 32 → BitVec 32 → BitVec 32) (left right : BitVec 32) : BitVec 32 :=
  if windows && ((!isInfinite32 left && isInfinite32 right) || (eqZero left && !isInfinite32 right)) then left
  else fmod left right

end Verif.Num
