import Verif.Common
/-!
# Model of `ke::Flags` (amtl/am-flags.h) and `KE_DEFINE_ENUM_OPERATORS` (amtl/am-enum.h)

An enum value is the `w`-bit pattern of its underlying integer type, `signed` or not. Bitwise operators promote operands
narrower than `int` (32 bits) by sign or zero extension; `static_cast<T>` reduces modulo `2^w`.
-/
namespace Verif.Flags
open Verif

/-- The width bitwise operators work at: that of `int` or of the wider underlying type. Language rule, used by am-flags.h:76-88 and am-enum.h:48-63. -/
def promoted (w : Nat) : Nat := max w 32

/-- The integral promotion of a value of the underlying type. Language rule, used by am-flags.h:76-88 and am-enum.h:48-63. -/
def promote (signed : Bool) {w : Nat} (v : BitVec w) : BitVec (promoted w) :=
  if signed then v.signExtend (promoted w) else v.setWidth (promoted w)

/-- `static_cast<T>` of a promoted integer. am-flags.h:76-88 and am-enum.h:48-63. -/
def toEnum {w : Nat} (x : BitVec (promoted w)) : BitVec w := x.setWidth w

/-- `value_`, am-flags.h:124. -/
structure Flags (w : Nat) where
  value : BitVec w
deriving DecidableEq

variable {w : Nat} (signed : Bool)

/-- `Flags()`, am-flags.h:46-48. -/
def Flags.empty : Flags w := ⟨0#w⟩
/-- `operator bool`, am-flags.h:61-63. -/
def Flags.toBool (a : Flags w) : Bool := a.value != 0#w
/-- `operator !`, am-flags.h:64-66. -/
def Flags.not (a : Flags w) : Bool := a.value == 0#w
/-- `bits()`, am-flags.h:68-70. -/
def Flags.bits (a : Flags w) : BitVec w := a.value
/-- `operator +`, am-flags.h:75-77. -/
def Flags.add (a b : Flags w) : Flags w := ⟨toEnum (promote signed a.bits ||| promote signed b.bits)⟩
/-- `operator -`, am-flags.h:78-80. The inner result has the promoted type. -/
def Flags.sub (a b : Flags w) : Flags w := ⟨toEnum (promote signed a.bits &&& (promote signed a.bits ^^^ promote signed b.bits))⟩
/-- `operator |`, am-flags.h:81-83. -/
def Flags.or (a b : Flags w) : Flags w := ⟨toEnum (promote signed a.bits ||| promote signed b.bits)⟩
/-- `operator &`, am-flags.h:84-86. -/
def Flags.and (a b : Flags w) : Flags w := ⟨toEnum (promote signed a.bits &&& promote signed b.bits)⟩
/-- `operator ^`, am-flags.h:87-89. -/
def Flags.xor (a b : Flags w) : Flags w := ⟨toEnum (promote signed a.bits ^^^ promote signed b.bits)⟩
/-- `operator ==`, am-flags.h:90-92. -/
def Flags.eq (a b : Flags w) : Bool := a.value == b.value
/-- `operator !=`, am-flags.h:93-95. -/
def Flags.ne (a b : Flags w) : Bool := a.value != b.value

/-- The compound assignments. am-flags.h:97-116. -/
inductive Compound where
  | add | sub | or | and | xor
deriving DecidableEq

/-- `operator +=` … `operator ^=` between the variables `x` and `y` (which may be the same), am-flags.h:97-116: the operation, then the copy
assignment of :118-121. -/
def assignOp {V : Type} [DecidableEq V] (env : V → Flags w) (x y : V) (op : Compound) : V → Flags w :=
  let r := match op with
    | .add => (env x).add signed (env y)
    | .sub => (env x).sub signed (env y)
    | .or => (env x).or signed (env y)
    | .and => (env x).and signed (env y)
    | .xor => (env x).xor signed (env y)
  fun v => if v = x then r else env v

/-! `KE_DEFINE_ENUM_OPERATORS` -/

/-- `operator|`, am-enum.h:48-51. -/
def enumOr (a b : BitVec w) : BitVec w := toEnum (promote signed a ||| promote signed b)
/-- `operator&`, am-enum.h:52-55. -/
def enumAnd (a b : BitVec w) : BitVec w := toEnum (promote signed a &&& promote signed b)
/-- `operator^`, am-enum.h:56-59. -/
def enumXor (a b : BitVec w) : BitVec w := toEnum (promote signed a ^^^ promote signed b)
/-- `operator~`, am-enum.h:60-63. -/
def enumNot (a : BitVec w) : BitVec w := toEnum (~~~ promote signed a)
/-- `operator!`, am-enum.h:73-76. -/
def enumBang (a : BitVec w) : Bool := a == 0#w

/-! The same operators on an enumeration without a fixed underlying type: its values are those of the smallest bit field that holds all enumerators
(C++17 [dcl.enum]/8), and converting any other integer to it is undefined ([expr.static.cast]/10). The underlying type is `int` or `unsigned int`, 32 bits. -/

/-- An enumeration without a fixed underlying type: whether some enumerator is negative, and the width of the smallest bit field. Operand of am-enum.h:47-76. -/
structure Plain where
  signed : Bool
  width : Nat

/-- The value of an object of the underlying type. For am-enum.h:49-62. -/
def intOf (signed : Bool) {w : Nat} (v : BitVec w) : Int := if signed then v.toInt else v.toNat

/-- The range of values of the enumeration. Language rule, for am-enum.h:50, 54, 58, 62. -/
def Plain.inRange (e : Plain) (v : BitVec 32) : Bool :=
  if e.signed then decide (-(2 ^ (e.width - 1) : Int) ≤ v.toInt ∧ v.toInt < 2 ^ (e.width - 1)) else decide (v.toNat < 2 ^ e.width)

/-- `EnumName(...)` in am-enum.h:50, 54, 58, 62. -/
def Plain.convert (e : Plain) (v : BitVec 32) : Exec (BitVec 32) := if e.inRange v then .ok v else .error .badEnum

/-- `operator|`, am-enum.h:48-51. -/
def Plain.or (e : Plain) (a b : BitVec 32) : Exec (BitVec 32) := e.convert (a ||| b)
/-- `operator&`, am-enum.h:52-55. -/
def Plain.and (e : Plain) (a b : BitVec 32) : Exec (BitVec 32) := e.convert (a &&& b)
/-- `operator^`, am-enum.h:56-59. -/
def Plain.xor (e : Plain) (a b : BitVec 32) : Exec (BitVec 32) := e.convert (a ^^^ b)
/-- `operator~`, am-enum.h:60-63. -/
def Plain.not (e : Plain) (a : BitVec 32) : Exec (BitVec 32) := e.convert (~~~ a)

/-! `KE_DEFINE_ENUM_COMPARATORS(EnumName, Type)` -/

/-- `Type(left)`, am-enum.h:80, 83, 86, 89: conversion between integer types, modulo the width of the target. -/
def toType (signed : Bool) {w : Nat} (w2 : Nat) (e : BitVec w) : BitVec w2 := if signed then e.signExtend w2 else e.setWidth w2

/-- `operator==(EnumName, Type)`, am-enum.h:79-81. -/
def eqLeft (signed : Bool) {w w2 : Nat} (e : BitVec w) (v : BitVec w2) : Bool := toType signed w2 e == v
/-- `operator==(Type, EnumName)`, am-enum.h:82-84. -/
def eqRight (signed : Bool) {w w2 : Nat} (v : BitVec w2) (e : BitVec w) : Bool := v == toType signed w2 e
/-- `operator!=(EnumName, Type)`, am-enum.h:85-87. -/
def neLeft (signed : Bool) {w w2 : Nat} (e : BitVec w) (v : BitVec w2) : Bool := toType signed w2 e != v
/-- `operator!=(Type, EnumName)`, am-enum.h:88-90. -/
def neRight (signed : Bool) {w w2 : Nat} (v : BitVec w2) (e : BitVec w) : Bool := v != toType signed w2 e

end Verif.Flags
