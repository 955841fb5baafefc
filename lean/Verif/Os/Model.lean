import Verif.Str.Model
/-!
# Model of `amtl/os/am-fsutil-posix.h`, `amtl/os/am-fsutil-windows.h` and `amtl/os/am-system-errors.h`

System calls are parameters: what they answer is given, and what may be assumed of the answers is in Spec.lean.
-/
namespace Verif.Os
open Verif
open Verif.Str (Byte Fmt blit safeVsprintf)

/-! ### am-fsutil-posix.h -/

/-- `mode_t`, read at am-fsutil-posix.h:49 and 57. -/
abbrev Mode := BitVec 32

/-- `S_ISREG`, used at am-fsutil-posix.h:49. -/
def sIsReg (m : Mode) : Bool := m &&& 0o170000#32 == 0o100000#32

/-- `S_ISDIR`, used at am-fsutil-posix.h:57. -/
def sIsDir (m : Mode) : Bool := m &&& 0o170000#32 == 0o040000#32

/-- `PathExists`, am-fsutil-posix.h:38-41. `answer` is what `stat` reports about the path: the mode, or nothing if it fails. -/
def pathExists (answer : Option Mode) : Bool := answer.isSome

/-- `IsFile`, am-fsutil-posix.h:43-49. -/
def isFile (answer : Option Mode) : Bool :=
  match answer with
  | none => false
  | some m => if sIsReg m then true else false

/-- `IsDirectory`, am-fsutil-posix.h:51-57. -/
def isDirectory (answer : Option Mode) : Bool :=
  match answer with
  | none => false
  | some m => if sIsDir m then true else false

/-- `CreateDirectory`, am-fsutil-posix.h:59-62 (and am-fsutil-windows.h:63-66): `mkdir` returned `rc`. -/
def createDirectory (rc : Int) : Bool := rc == 0

/-! ### am-fsutil-windows.h -/

/-- `DWORD`, am-fsutil-windows.h:46 and 56. -/
abbrev Attr := BitVec 32

/-- `INVALID_FILE_ATTRIBUTES`, am-fsutil-windows.h:41. -/
def invalidAttr : Attr := 0xFFFFFFFF#32
/-- `FILE_ATTRIBUTE_DIRECTORY`, am-fsutil-windows.h:49. -/
def attrDirectory : Attr := 0x10#32
/-- `FILE_ATTRIBUTE_DEVICE`, am-fsutil-windows.h:49. -/
def attrDevice : Attr := 0x40#32

/-- `PathExists`, am-fsutil-windows.h:39-42. `attr` is what `GetFileAttributesA` returns. -/
def winPathExists (attr : Attr) : Bool := attr != invalidAttr

/-- `IsFile`, am-fsutil-windows.h:44-52. -/
def winIsFile (attr : Attr) : Bool :=
  if attr = invalidAttr then false
  else if attr &&& (attrDirectory ||| attrDevice) ≠ 0 then false
  else true

/-- `IsDirectory`, am-fsutil-windows.h:54-60. -/
def winIsDirectory (attr : Attr) : Bool :=
  if attr = invalidAttr then false
  else attr &&& (attrDirectory ||| attrDevice) == attrDirectory

/-! ### am-system-errors.h -/

/-- What the system says when asked for the message of an error code. am-system-errors.h:47-58. -/
inductive Reply where
  /-- glibc `strerror_r` writes the text into the buffer it was given and returns that buffer -/
  | gnuBuffer (t : List Byte)
  /-- glibc `strerror_r` returns a string of its own -/
  | gnuOwn (t : List Byte)
  /-- the POSIX `strerror_r` succeeds -/
  | posix (t : List Byte)
  /-- the POSIX `strerror_r` fails; it may have written anything to the buffer -/
  | posixFails (garbage : List Byte)
  /-- `FormatMessageA` succeeds -/
  | windows (t : List Byte)
  /-- `FormatMessageA` returns 0; it may have written anything to the buffer -/
  | windowsFails (garbage : List Byte)

/-- A hexadecimal digit as `%x` prints it. For am-system-errors.h:50. -/
def hexDigit (n : Nat) : Byte := UInt8.ofNat (if n < 10 then 48 + n else 87 + n)

/-- The text of `"error code %08x"`. am-system-errors.h:50. -/
def codeText (code : BitVec 32) : List Byte :=
  [101, 114, 114, 111, 114, 32, 99, 111, 100, 101, 32] ++
    [7, 6, 5, 4, 3, 2, 1, 0].map (fun i => hexDigit (code.toNat / 16 ^ i % 16))

/-- Bytes a library function writes at the start of the buffer. For am-system-errors.h:48, 54 and 58. -/
def fill (buffer bs : List Byte) : Exec (List Byte) := if buffer.length < bs.length then .error .outOfBounds else .ok (blit buffer bs)

/-- `FormatSystemErrorCode`, am-system-errors.h:45-60, and `FormatSystemError`, 62-69, which passes the last error of the thread. `FormatMessageA` takes the
length as a 32-bit number (:49). -/
def formatSystemErrorCode (code : BitVec 32) (reply : Reply) (buffer : List Byte) (maxlength : Nat) : Exec (List Byte) :=
  match reply with
  | .windows t => fill buffer (t ++ [0])
  | .windowsFails garbage => do
    let buffer ← fill buffer (garbage.take (maxlength % 2 ^ 32))
    let (buffer, _) ← safeVsprintf (.text (codeText code)) buffer maxlength
    .ok buffer
  | .gnuBuffer t => if maxlength = 0 then .ok buffer else fill buffer (t.take (maxlength - 1) ++ [0])
  | .gnuOwn t => do
    let (buffer, _) ← safeVsprintf (.text t) buffer maxlength
    .ok buffer
  | .posix t => fill buffer (t ++ [0])
  | .posixFails garbage => fill buffer (garbage.take maxlength)

end Verif.Os
