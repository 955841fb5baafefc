import Verif.Str.Model
/-!
# Model of `SafeStrcpy`, `SafeStrcat` and `SafeStrcpyN` with source and destination in one object

As in `Verif.Str.Model`, but both pointers are offsets into the same memory `m`.
-/
namespace Verif.Str
open Verif

/-- The loop of `SafeStrcpy`, amtl/am-string.h:206-207: `iter = d + i`, `src = s + i`. -/
def strcpyInLoop (d s : Nat) (m : List Byte) (i : Nat) : Nat → Exec (List Byte × Nat)
  | 0 => .error .diverge
  | count + 1 => do
    let c ← ld m (s + i)
    if c = 0 then .ok (m, i)
    else if count = 0 then .ok (m, i)
    else do
      let m ← st m (d + i) c
      strcpyInLoop d s m (i + 1) count

/-- `SafeStrcpy(m + d, max, m + s)`, amtl/am-string.h:198-211. -/
def strcpyIn (m : List Byte) (d max s : Nat) : Exec (List Byte × Nat) :=
  if max = 0 then .ok (m, 0)
  else do
    let (m, i) ← strcpyInLoop d s m 0 max
    let m ← st m (d + i) 0
    .ok (m, i)

/-- The copy loop of `SafeStrcat`, amtl/am-string.h:223-224: `iter = d + i`, `src = s + j`. -/
def strcatInLoop (d max s : Nat) (m : List Byte) (i j : Nat) : Exec (List Byte × Nat) := do
  let c ← ld m (s + j)
  if c = 0 then .ok (m, i)
  else if h : i + 1 < max then do
    let m ← st m (d + i) c
    strcatInLoop d max s m (i + 1) (j + 1)
  else .ok (m, i)
termination_by max - i

/-- `SafeStrcat(m + d, max, m + s)`, amtl/am-string.h:215-227. -/
def strcatIn (m : List Byte) (d max s : Nat) : Exec (List Byte × Nat) := do
  let e ← scanNul m d
  let (m, i) ← strcatInLoop d max s m (e - d) 0
  let m ← st m (d + i) 0
  .ok (m, i)

/-- The loop of `SafeStrcpyN`, amtl/am-string.h:238-239. -/
def strcpyNInLoop (d s : Nat) (m : List Byte) (i n : Nat) : Nat → Exec (List Byte × Nat)
  | 0 => .error .diverge
  | count + 1 =>
    if count = 0 then .ok (m, i)
    else match n with
      | 0 => .ok (m, i)
      | n + 1 => do
        let c ← ld m (s + i)
        let m ← st m (d + i) c
        strcpyNInLoop d s m (i + 1) n count

/-- `SafeStrcpyN(m + d, max, m + s, n)`, amtl/am-string.h:230-243. -/
def strcpyNIn (m : List Byte) (d max s n : Nat) : Exec (List Byte × Nat) :=
  if max = 0 then .ok (m, 0)
  else if n = 0 then .ok (m, 0)
  else do
    let (m, i) ← strcpyNInLoop d s m 0 n max
    let m ← st m (d + i) 0
    .ok (m, i)

end Verif.Str
