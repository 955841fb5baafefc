import Verif.Str.Model
/-!
# The printf helpers of amtl/am-string.h built with MSVC (lines 66-67, 96-97)
-/
namespace Verif.Str
open Verif

/-- `_vsnprintf(buffer, size, ...)` (library function, Microsoft): unlike `vsnprintf` it stores up to `size` characters and a terminator only if there is
room for it; the result is the length of the text, or negative if the text is longer than `size` or on error. Called at am-string.h:122 and 158. -/
def msVsnprintf (f : Fmt) (m : List Byte) (size : Nat) : Exec (Int × List Byte) :=
  if m.length < size then .error .outOfBounds
  else match f with
    | .text t =>
      if 2 ^ 31 ≤ t.length then .ok (-1, blit m (t.take size))
      else if t.length < size then .ok (t.length, blit m (t ++ [0]))
      else if t.length = size then .ok (t.length, blit m t)
      else .ok (-1, blit m (t.take size))
    | .fail code garbage => .ok (-1 - (code % 2 ^ 31 : Nat), blit m (garbage.take size))

/-- `_vscprintf(fmt, ap)` (library function, Microsoft): the length of the text, negative on error. Called at am-string.h:97. -/
def msVscprintf : Fmt → Int
  | .text t => if 2 ^ 31 ≤ t.length then -1 else t.length
  | .fail code _ => -1 - (code % 2 ^ 31 : Nat)

/-- `SafeVsprintf`, amtl/am-string.h:152-166, MSVC. -/
def msSafeVsprintf (f : Fmt) (buffer : List Byte) (maxlength : Nat) : Exec (List Byte × Nat) :=
  if maxlength = 0 then .ok (buffer, 0)
  else do
    let (r, buffer) ← msVsnprintf f buffer maxlength
    let len := toSizeT r
    if len ≥ maxlength then do
      let buffer ← st buffer (maxlength - 1) 0
      .ok (buffer, maxlength - 1)
    else .ok (buffer, len)

/-- `SprintfArgsImpl`, amtl/am-string.h:88-131, MSVC. Simplified as `sprintfArgsImpl`. -/
def msSprintfArgsImpl (f1 f2 : Fmt) : Exec (Option (List Byte) × Nat) := do
  let len := msVscprintf f1
  if len < 0 then .ok (none, 0)
  else if len = 0 then .ok (some [0], 0)
  else if len + 1 ≥ 2 ^ 31 then .error .signedOverflow
  else do
    let buffer := List.replicate (len + 1).toNat (0 : Byte)
    let (newLen, buffer) ← msVsnprintf f2 buffer (len + 1).toNat
    if newLen < 0 then .ok (none, 0)
    else if len ≠ newLen then .error .assertFail
    else .ok (some buffer, newLen.toNat)

end Verif.Str
