import Verif.Str.Model
/-!
# Argument lists and memory in the formatting functions (am-string.h:83-196, os/am-path.h:38-62, am-argparser.h:606-620)

C11 7.16.1: a `va_list` begun by `va_start` or `va_copy` must be ended by `va_end` in the same function; after it was passed to `vsnprintf` its value is indeterminate, and it may
only be ended. `std::make_unique` and the constructor of `std::string` may throw. What is formatted is as in `Verif.Str.Model`.
-/
namespace Verif.Str.Va
open Verif

/-- The argument lists begun and not ended (the flag: passed on already) and the heap blocks, by number; and how many allocations there were. am-string.h:91, 109, 115. -/
structure St where
  next : Nat
  lists : List (Nat × Bool)
  blocks : List Nat
  clock : Nat

/-- `va_start`: am-string.h:146, 172, 192, am-path.h:58, am-argparser.h:609. -/
def vaStart (s : St) : St × Nat := ({ s with next := s.next + 1, lists := (s.next, false) :: s.lists }, s.next)

/-- `va_copy`: the source must be begun and not used up. am-string.h:92. -/
def vaCopy (s : St) (ap : Nat) : Exec (St × Nat) :=
  if (ap, false) ∈ s.lists then .ok (vaStart s) else .error .uninitialised

/-- A list is passed to a function that reads arguments from it. am-string.h:101, 122, 158. -/
def vaUse (s : St) (ap : Nat) : Exec St :=
  if (ap, false) ∈ s.lists then .ok { s with lists := s.lists.map fun x => if x.1 = ap then (ap, true) else x } else .error .uninitialised

/-- `va_end`: am-string.h:105, 112, 118, 129, 148, 174, 194, am-path.h:60. -/
def vaEnd (s : St) (ap : Nat) : Exec St :=
  if ap ∈ s.lists.map (·.1) then .ok { s with lists := s.lists.filter fun x => decide (x.1 ≠ ap) } else .error .doubleFree

/-- `std::make_unique<char[]>`: `none` if it throws. am-string.h:109, 115. -/
def makeUnique (throws : Nat → Bool) (s : St) : St × Option Nat :=
  if throws s.clock then ({ s with clock := s.clock + 1 }, none)
  else ({ s with clock := s.clock + 1, next := s.next + 1, blocks := s.next :: s.blocks }, some s.next)

/-- `~unique_ptr`: am-string.h:124, 148, 187. -/
def dropUnique (s : St) (b : Nat) : Exec St := if b ∈ s.blocks then .ok { s with blocks := s.blocks.erase b } else .error .doubleFree

/-- What `SprintfArgsImpl` returns: a block and its contents or null, and `*out_len`. am-string.h:88-131. -/
abbrev Buf := Option (Nat × List Byte) × Nat

/-- `SprintfArgsImpl`, am-string.h:88-131, not MSVC; `none`: it threw. -/
def sprintfArgsImpl (throws : Nat → Bool) (s : St) (ap : Nat) (f1 f2 : Fmt) : Exec (St × Option Buf) := do
  let (s, argv) ← vaCopy s ap
  let s ← vaUse s ap
  let (len, _) ← vsnprintf f1 [0, 0] 2
  if len < 0 then do
    let s ← vaEnd s argv
    .ok (s, some (none, 0))
  else if len = 0 then
    match makeUnique throws s with
    | (s, none) => .ok (s, none)
    | (s, some b) => do
      let s ← vaEnd s argv
      .ok (s, some (some (b, [0]), 0))
  else if len + 1 ≥ 2 ^ 31 then .error .signedOverflow
  else
    match makeUnique throws s with
    | (s, none) => .ok (s, none)
    | (s, some b) => do
      let s ← vaUse s argv
      let (newLen, buffer) ← vsnprintf f2 (List.replicate (len + 1).toNat (0 : Byte)) (len + 1).toNat
      if newLen < 0 then do
        let s ← dropUnique s b
        .ok (s, some (none, 0))
      else if len ≠ newLen then .error .assertFail
      else do
        let s ← vaEnd s argv
        .ok (s, some (some (b, buffer), newLen.toNat))

/-- `Sprintf`, am-string.h:142-150 (`SprintfArgs`, 135-140, is the call in it). -/
def sprintf (throws : Nat → Bool) (s : St) (f1 f2 : Fmt) : Exec (St × Option (Option (Nat × List Byte))) := do
  let (s, ap) := vaStart s
  let (s, r) ← sprintfArgsImpl throws s ap f1 f2
  match r with
  | none => .ok (s, none)
  | some (buf, _) => do
    let s ← vaEnd s ap
    .ok (s, some buf)

/-- `StringPrintfVa`, am-string.h:178-186: the string's constructor may throw, and the buffer is freed in any case. -/
def stringPrintfVa (throws : Nat → Bool) (s : St) (ap : Nat) (f1 f2 : Fmt) : Exec (St × Option (List Byte)) := do
  let (s, r) ← sprintfArgsImpl throws s ap f1 f2
  match r with
  | none => .ok (s, none)
  | some (none, _) => .ok (s, some [])
  | some (some (b, m), len) =>
    if len ≤ m.length then do
      let threw := throws s.clock
      let s ← dropUnique { s with clock := s.clock + 1 } b
      .ok (s, if threw then none else some (m.take len))
    else .error .outOfBounds

/-- `StringPrintf`, am-string.h:188-196. -/
def stringPrintf (throws : Nat → Bool) (s : St) (f1 f2 : Fmt) : Exec (St × Option (List Byte)) := do
  let (s, ap) := vaStart s
  let (s, r) ← stringPrintfVa throws s ap f1 f2
  match r with
  | none => .ok (s, none)
  | some t => do
    let s ← vaEnd s ap
    .ok (s, some t)

/-- `SafeVsprintf`, am-string.h:152-166. -/
def safeVsprintf (s : St) (ap : Nat) (f : Fmt) (buffer : List Byte) (maxlength : Nat) : Exec (St × List Byte × Nat) :=
  if maxlength = 0 then .ok (s, buffer, 0)
  else do
    let s ← vaUse s ap
    let r ← Str.safeVsprintf f buffer maxlength
    .ok (s, r)

/-- `SafeSprintf`, am-string.h:168-176. -/
def safeSprintf (s : St) (f : Fmt) (buffer : List Byte) (maxlength : Nat) : Exec (St × List Byte × Nat) := do
  let (s, ap) := vaStart s
  let (s, r) ← safeVsprintf s ap f buffer maxlength
  let s ← vaEnd s ap
  .ok (s, r)

/-- `path::Format`, am-path.h:55-62 (`FormatVa`, 38-53, is the call in it). -/
def pathFormat (win : Bool) (s : St) (f : Fmt) (dest : List Byte) (maxlength : Nat) : Exec (St × List Byte × Nat) := do
  let (s, ap) := vaStart s
  let (s, dest, len) ← safeVsprintf s ap f dest maxlength
  let dest ← slashLoop win dest 0 len
  let s ← vaEnd s ap
  .ok (s, dest, len)

/-- `Parser::parsev`, am-argparser.h:606-620, as far as the list goes: the arguments are read from it, and it is not ended. -/
def parsev (s : St) (args : List (List Byte)) : St × List (List Byte) :=
  let (s, _) := vaStart s
  (s, args)

end Verif.Str.Va
