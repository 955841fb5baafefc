import Verif.Common
/-!
# Model of `amtl/am-arithmetic.h`

The out-parameter `*out` is modelled by passing its previous content and returning its new content.
-/
namespace Verif.Arith
open Verif

/-- `std::max` on unsigned values (used at amtl/am-arithmetic.h:50,59). -/
def umax {w : Nat} (a b : BitVec w) : BitVec w := if a < b then b else a

/-- `TryUint64Multiply`, amtl/am-arithmetic.h:36-45. Unsigned multiplication wraps; `r / left` with
`left = 0` would be undefined (it is guarded by `r != 0`). -/
def tryUint64Multiply (left right out : BitVec 64) : Exec (Bool × BitVec 64) :=
  let r := left * right
  if r ≠ 0 then
    if left = 0 then .error .divZero
    else if r / left ≠ right then .ok (false, out)
    else .ok (true, r)
  else .ok (true, r)

/-- `TryUint32Add`, amtl/am-arithmetic.h:47-54. -/
def tryUint32Add (left right out : BitVec 32) : Bool × BitVec 32 :=
  if left + right < umax left right then (false, out)
  else (true, left + right)

/-- `TryUint64Add`, amtl/am-arithmetic.h:56-63. -/
def tryUint64Add (left right out : BitVec 64) : Bool × BitVec 64 :=
  if left + right < umax left right then (false, out)
  else (true, left + right)

end Verif.Arith
