import Verif.Str.Model
/-!
# Case conversion in any locale, with signed or unsigned `char` (amtl/am-string.h:324-336)
-/
namespace Verif.Str
open Verif

/-- A locale's table for `toupper` or `tolower`: what it makes of each `unsigned char`. Called at am-string.h:327, 334. -/
abbrev CaseTable := Byte → Byte

/-- `toupper` or `tolower` under a locale (C11 7.4p1, 7.4.2): the argument must be an `unsigned char` value or `EOF` (-1), which stays. Called at am-string.h:327, 334. -/
def ctype (tab : CaseTable) (c : Int) : Exec Int :=
  if c = -1 then .ok (-1)
  else if 0 ≤ c ∧ c < 256 then .ok (tab (UInt8.ofNat c.toNat)).toNat
  else .error .badBuiltin

/-- A `char` as an `int`, where `char` is signed (x86, Windows) or not (ARM Linux). At am-string.h:327, 334. -/
def charVal (signed : Bool) (b : Byte) : Int := if signed then charToInt b else b.toNat

/-- `result[i] = toupper(result[i])`, or `tolower`, for every `i`, am-string.h:326-327, 333-334. -/
def convert (signed : Bool) (tab : CaseTable) : List Byte → Exec (List Byte)
  | [] => .ok []
  | b :: bs => do
    let i ← ctype tab (charVal signed b)
    let r ← convert signed tab bs
    .ok (intToChar i :: r)

end Verif.Str
