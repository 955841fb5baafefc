import Verif.Common
/-!
# Model of `amtl/am-string.h` and `amtl/os/am-path.h`

A `char` object sequence is a list of bytes; a pointer into it is an index. Every load and store is
checked: leaving the object is `Fault.outOfBounds`. Source and destination are distinct objects (the
code does not support overlap). `size_t` quantities are `Nat`; where the code could wrap, the
wrap-around is written out.
-/
namespace Verif.Str
open Verif

/-- A `char` of am-string.h:47-368 by its bits. -/
abbrev Byte := UInt8

/-- `*(p + i)`: As at am-string.h:206-208, 219-225 and 238-240. -/
def ld (m : List Byte) (i : Nat) : Exec Byte :=
  match m[i]? with
  | some b => .ok b
  | none => .error .outOfBounds

/-- `*(p + i) = b`: As at am-string.h:206-208, 219-225 and 238-240. -/
def st (m : List Byte) (i : Nat) (b : Byte) : Exec (List Byte) :=
  if i < m.length then .ok (m.set i b) else .error .outOfBounds

/-- The loop of `SafeStrcpy`, amtl/am-string.h:206-207 (`while (*src && --count) *iter++ = *src++;`);
`i` is both `iter - dest` and the offset into `src`. A `count` of zero before the decrement would wrap;
it cannot occur, and is a fault here so that the theorems exclude it. -/
def strcpyLoop (src : List Byte) (dest : List Byte) (i : Nat) : Nat → Exec (List Byte × Nat)
  | 0 => .error .diverge
  | count + 1 => do
    let c ← ld src i
    if c = 0 then .ok (dest, i)
    else if count = 0 then .ok (dest, i)
    else do
      let dest ← st dest i c
      strcpyLoop src dest (i + 1) count

/-- `SafeStrcpy`, amtl/am-string.h:198-211; a null `dest` is `none`. Returns the destination and the
return value. -/
def safeStrcpy (dest : Option (List Byte)) (maxlength : Nat) (src : List Byte) :
    Exec (Option (List Byte) × Nat) :=
  match dest with
  | none => .ok (none, 0)
  | some d =>
    if maxlength = 0 then .ok (some d, 0)
    else do
      let (d, i) ← strcpyLoop src d 0 maxlength
      let d ← st d i 0
      .ok (some d, i)

/-- `while (*iter) iter++;`, amtl/am-string.h:219-220 (also `strlen`). -/
def scanNul (m : List Byte) (i : Nat) : Exec Nat :=
  if h : i < m.length then
    if m[i] = 0 then .ok i else scanNul m (i + 1)
  else .error .outOfBounds
termination_by m.length - i

/-- The copy loop of `SafeStrcat`, amtl/am-string.h:223-224; `i = iter - dest`, `j` the offset into
`src`. -/
def strcatLoop (maxlength : Nat) (src : List Byte) (dest : List Byte) (i j : Nat) :
    Exec (List Byte × Nat) := do
  let c ← ld src j
  if c = 0 then .ok (dest, i)
  else if h : i + 1 < maxlength then do
    let dest ← st dest i c
    strcatLoop maxlength src dest (i + 1) (j + 1)
  else .ok (dest, i)
termination_by maxlength - i

/-- `SafeStrcat`, amtl/am-string.h:215-227. -/
def safeStrcat (dest : List Byte) (maxlength : Nat) (src : List Byte) : Exec (List Byte × Nat) := do
  let i ← scanNul dest 0
  let (dest, i) ← strcatLoop maxlength src dest i 0
  let dest ← st dest i 0
  .ok (dest, i)

/-- The loop of `SafeStrcpyN`, amtl/am-string.h:238-239 (`while (--count && n--) *iter++ = *src++;`). -/
def strcpyNLoop (src : List Byte) (dest : List Byte) (i n : Nat) : Nat → Exec (List Byte × Nat)
  | 0 => .error .diverge
  | count + 1 =>
    if count = 0 then .ok (dest, i)
    else match n with
      | 0 => .ok (dest, i)
      | n + 1 => do
        let c ← ld src i
        let dest ← st dest i c
        strcpyNLoop src dest (i + 1) n count

/-- `SafeStrcpyN`, amtl/am-string.h:230-243. -/
def safeStrcpyN (dest : Option (List Byte)) (maxlength : Nat) (src : List Byte) (n : Nat) :
    Exec (Option (List Byte) × Nat) :=
  match dest with
  | none => .ok (none, 0)
  | some d =>
    if maxlength = 0 then .ok (some d, 0)
    else if n = 0 then .ok (some d, 0)
    else do
      let (d, i) ← strcpyNLoop src d 0 n maxlength
      let d ← st d i 0
      .ok (some d, i)

/-! ### printf family -/

/-- What formatting `fmt` with the given arguments amounts to: the whole text, or an error, in which
case the bytes of the buffer that were allowed to be written are arbitrary. Arguments of am-string.h:101, 122 and 158. -/
inductive Fmt where
  | text (t : List Byte)
  | fail (code : Nat) (garbage : List Byte)

/-- Overwrites the start of `m` with `bs`. Memory effect of the library calls at am-string.h:101, 122, 158, 312 and 316. -/
def blit (m bs : List Byte) : List Byte := bs ++ m.drop bs.length

/-- The C contract of `vsnprintf(buffer, size, ...)` (library function, C11 7.21.6.12): at most `size`
bytes are written, a non-zero `size` gets a terminator, the result is the length of the whole text, or
negative on error; a text longer than `INT_MAX` is an error. `code` makes the negative result arbitrary. Called at am-string.h:101, 122 and 158. -/
def vsnprintf (f : Fmt) (m : List Byte) (size : Nat) : Exec (Int × List Byte) :=
  if m.length < size then .error .outOfBounds
  else match f with
    | .text t =>
      if 2 ^ 31 ≤ t.length then .ok (-1, m)
      else if size = 0 then .ok (t.length, m)
      else .ok (t.length, blit m (t.take (size - 1) ++ [0]))
    | .fail code garbage => .ok (-1 - (code % 2 ^ 31 : Nat), blit m (garbage.take size))

/-- Conversion of an `int` to `size_t`. At am-string.h:127 and 158. -/
def toSizeT (x : Int) : Nat := (x % 2 ^ 64).toNat

/-- `SafeVsprintf`, amtl/am-string.h:152-166 (and `SafeSprintf`, 168-176). -/
def safeVsprintf (f : Fmt) (buffer : List Byte) (maxlength : Nat) : Exec (List Byte × Nat) :=
  if maxlength = 0 then .ok (buffer, 0)
  else do
    let (r, buffer) ← vsnprintf f buffer maxlength
    let len := toSizeT r
    if len ≥ maxlength then do
      let buffer ← st buffer (maxlength - 1) 0
      .ok (buffer, maxlength - 1)
    else .ok (buffer, len)

/-- `SprintfArgsImpl`, amtl/am-string.h:88-131, non-MSVC. `f1`, `f2` are the outcomes of the two
`vsnprintf` calls. Returns the buffer (`none` = null) and `*out_len`. `make_unique` value-initialises;
its throwing on exhaustion is not modelled. `int len + 1` overflows at `INT_MAX`. -/
def sprintfArgsImpl (f1 f2 : Fmt) : Exec (Option (List Byte) × Nat) := do
  let (len, _) ← vsnprintf f1 [0, 0] 2
  if len < 0 then .ok (none, 0)
  else if len = 0 then .ok (some [0], 0)
  else if len + 1 ≥ 2 ^ 31 then .error .signedOverflow
  else do
    let buffer := List.replicate (len + 1).toNat (0 : Byte)
    let (newLen, buffer) ← vsnprintf f2 buffer (len + 1).toNat
    if newLen < 0 then .ok (none, 0)
    else if len ≠ newLen then .error .assertFail
    else .ok (some buffer, newLen.toNat)

/-- `SprintfArgs`, `Sprintf`, amtl/am-string.h:135-150. -/
def sprintf (f1 f2 : Fmt) : Exec (Option (List Byte)) := do
  let (r, _) ← sprintfArgsImpl f1 f2
  .ok r

/-- `StringPrintfVa`, `StringPrintf`, amtl/am-string.h:178-196: `std::string(result.get(), len)`. -/
def stringPrintf (f1 f2 : Fmt) : Exec (List Byte) := do
  let (r, len) ← sprintfArgsImpl f1 f2
  match r with
  | none => .ok []
  | some m => if len ≤ m.length then .ok (m.take len) else .error .outOfBounds

/-- The replacement loop of `FormatVa`, amtl/os/am-path.h:42-50. `win`: KE_WINDOWS is defined. -/
def slashLoop (win : Bool) (dest : List Byte) (i : Nat) (len : Nat) : Exec (List Byte) :=
  if h : i < len then do
    let c ← ld dest i
    let dest ← if win then (if c = 47 then st dest i 92 else .ok dest) else (if c = 92 then st dest i 47 else .ok dest)
    slashLoop win dest (i + 1) len
  else .ok dest
termination_by len - i

/-- `path::FormatVa`, `path::Format`, amtl/os/am-path.h:38-62. -/
def pathFormat (win : Bool) (f : Fmt) (dest : List Byte) (maxlength : Nat) : Exec (List Byte × Nat) := do
  let (dest, len) ← safeVsprintf f dest maxlength
  let dest ← slashLoop win dest 0 len
  .ok (dest, len)

/-! ### Split and Join -/

/-- `strstr` (library function): offset of the first place where `sep` starts. Called at am-string.h:271. -/
def strstr (hay sep : List Byte) : Option Nat :=
  if sep.isPrefixOf hay then some 0
  else match hay with
    | [] => none
    | _ :: t => (strstr t sep).map (· + 1)

/-- The loop and the tail of `Split`, amtl/am-string.h:270-280. `cursor` is the text from the cursor to
the terminator; `matched` tells whether `match` is non-null; each round pushes one piece. -/
def splitLoop (sep : List Byte) (hsep : sep ≠ []) (cursor : List Byte) (matched : Bool) :
    List (List Byte) :=
  if _h : cursor = [] then (if matched then [[]] else [])
  else match strstr cursor sep with
    | none => [cursor]
    | some off => cursor.take off :: splitLoop sep hsep (cursor.drop (off + sep.length)) true
termination_by cursor.length
decreasing_by
  have h1 : 0 < cursor.length := List.length_pos_iff.2 _h
  have h2 : 0 < sep.length := List.length_pos_iff.2 hsep
  simp only [List.length_drop]; omega

/-- The loop and the tail of `Split`, amtl/am-string.h:268-280, with any separator and asserts compiled out, for at most `fuel` rounds; `none`: it has not ended. -/
def splitRounds (sep : List Byte) : Nat → List Byte → Bool → List (List Byte) → Option (List (List Byte))
  | 0, _, _, _ => none
  | fuel + 1, cursor, matched, out =>
    if cursor = [] then some (if matched then out ++ [cursor] else out)
    else match strstr cursor sep with
      | none => some (out ++ [cursor])
      | some off => splitRounds sep fuel (cursor.drop (off + sep.length)) true (out ++ [cursor.take off])

/-- `Split(const char*, const char*)`, amtl/am-string.h:260-282. With asserts compiled out an empty
separator loops for ever. -/
def split (debug : Bool) (str sep : List Byte) : Exec (List (List Byte)) :=
  if h : sep = [] then
    if debug then .error .assertFail
    else if str = [] then .ok [] else .error .diverge
  else .ok (splitLoop sep h str false)

/-- `Split(const std::string&, const char*)`, amtl/am-string.h:284-288: `c_str()` is cut at the first
NUL. -/
def splitString (debug : Bool) (str sep : List Byte) : Exec (List (List Byte)) :=
  split debug (str.takeWhile (· ≠ 0)) sep

/-- `memcpy(buffer + iter, bs, n)`: Called at am-string.h:312 and 316. -/
def memcpy (buffer : List Byte) (iter : Nat) (bs : List Byte) : Exec (List Byte) :=
  if iter + bs.length ≤ buffer.length then
    .ok (buffer.take iter ++ bs ++ buffer.drop (iter + bs.length))
  else .error .outOfBounds

/-- The loop of `Join`, amtl/am-string.h:311-319; `i != pieces.size() - 1` is "a piece remains". -/
def joinLoop (sep : List Byte) (buffer : List Byte) (iter : Nat) :
    List (List Byte) → Exec (List Byte × Nat)
  | [] => .ok (buffer, iter)
  | piece :: rest => do
    let buffer ← memcpy buffer iter piece
    let iter := iter + piece.length
    if rest ≠ [] then do
      let buffer ← memcpy buffer iter sep
      joinLoop sep buffer (iter + sep.length) rest
    else joinLoop sep buffer iter rest

/-- `buffer_len` of `Join`, amtl/am-string.h:298-303, computed in `size_t`. -/
def joinLen (pieces : List (List Byte)) (sep : List Byte) : Nat :=
  let buffer_len := pieces.foldl (fun n p => (n + p.length) % 2 ^ 64) 0
  if pieces.isEmpty then buffer_len
  else (buffer_len + sep.length * (pieces.length - 1)) % 2 ^ 64

/-- `Join`, amtl/am-string.h:294-322. -/
def join (pieces : List (List Byte)) (sep : List Byte) : Exec (List Byte) := do
  let len := joinLen pieces sep
  let (buffer, iter) ← joinLoop sep (List.replicate len 0) 0 pieces
  if iter = len then .ok buffer else .error .assertFail

/-! ### Case conversion and prefix tests -/

/-- `toupper` of the C locale on an `int` (library function): the argument must be an `unsigned char`
value or `EOF` (-1). Called at am-string.h:327. -/
def toupper (c : Int) : Exec Int :=
  if c = -1 then .ok (-1)
  else if 0 ≤ c ∧ c < 256 then .ok (if 97 ≤ c ∧ c ≤ 122 then c - 32 else c)
  else .error .badBuiltin

/-- `tolower` of the C locale. Called at am-string.h:334. -/
def tolower (c : Int) : Exec Int :=
  if c = -1 then .ok (-1)
  else if 0 ≤ c ∧ c < 256 then .ok (if 65 ≤ c ∧ c ≤ 90 then c + 32 else c)
  else .error .badBuiltin

/-- A (signed) `char` as an `int`. At am-string.h:327 and 334. -/
def charToInt (b : Byte) : Int := if b.toNat < 128 then b.toNat else (b.toNat : Int) - 256

/-- An `int` stored into a `char`. At am-string.h:327 and 334. -/
def intToChar (i : Int) : Byte := UInt8.ofNat (i % 256).toNat

/-- `result[i] = f(result[i])` for every `i`, amtl/am-string.h:326-327, 333-334. -/
def mapChars (f : Int → Exec Int) : List Byte → Exec (List Byte)
  | [] => .ok []
  | b :: bs => do
    let i ← f (charToInt b)
    let r ← mapChars f bs
    .ok (intToChar i :: r)

/-- `Uppercase`, amtl/am-string.h:324-329. -/
def uppercase (s : List Byte) : Exec (List Byte) := mapChars toupper s

/-- `Lowercase`, amtl/am-string.h:331-336. -/
def lowercase (s : List Byte) : Exec (List Byte) := mapChars tolower s

/-- `strncmp(a, b, n) == 0` (library function) on the memory of two C strings. Called at am-string.h:339 and 343. -/
def strncmpEq (a b : List Byte) : Nat → Nat → Exec Bool
  | _, 0 => .ok true
  | i, n + 1 => do
    let x ← ld a i
    let y ← ld b i
    if x ≠ y then .ok false
    else if x = 0 then .ok true
    else strncmpEq a b (i + 1) n

/-- `StartsWith`, amtl/am-string.h:338-344 (both overloads: `first.c_str()` is the bytes of the string
followed by NUL); the arguments are the memory of the two strings. -/
def startsWith (first other : List Byte) : Exec Bool := do
  let n ← scanNul other 0
  strncmpEq first other 0 n

/-- `EndsWith`, amtl/am-string.h:346-349, on `std::string` contents. -/
def endsWith (first second : List Byte) : Bool :=
  decide (first.length ≥ second.length) &&
    ((first.drop (first.length - second.length)).take second.length == second)

end Verif.Str
