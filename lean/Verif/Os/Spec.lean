import Verif.Os.Model
/-!
# Specification: a file system, and messages for error codes
-/
namespace Verif.Os
open Verif
open Verif.Str (Byte)

/-- Kinds of files. -/
inductive Kind where
  | regular | directory | character | block | fifo | socket
deriving DecidableEq

/-- What a path names: a file with its permission bits, or a symbolic link to another path. -/
inductive Entry (Path : Type) where
  | node (k : Kind) (perm : BitVec 12)
  | link (target : Path)

/-- A file system at one moment. -/
abbrev FS (Path : Type) := Path → Option (Entry Path)

/-- Following at most `n` symbolic links from `p` leads to a file of kind `k`. -/
inductive Leads {Path : Type} (fs : FS Path) : Nat → Path → Kind → BitVec 12 → Prop
  | here {n : Nat} {p : Path} {k : Kind} {perm : BitVec 12} : fs p = some (.node k perm) → Leads fs n p k perm
  | follow {n : Nat} {p q : Path} {k : Kind} {perm : BitVec 12} : fs p = some (.link q) → Leads fs n q k perm → Leads fs (n + 1) p k perm

/-- The file type field of `st_mode` (POSIX <sys/stat.h>, values as on Linux and the BSDs). -/
def Kind.bits : Kind → BitVec 32
  | .regular => 0o100000#32
  | .directory => 0o040000#32
  | .character => 0o020000#32
  | .block => 0o060000#32
  | .fifo => 0o010000#32
  | .socket => 0o140000#32

/-- The contract of `stat` (POSIX): it succeeds on the paths that lead to a file through at most `limit` links, and reports type and permission bits. -/
def StatContract {Path : Type} (limit : Nat) (fs : FS Path) (stat : Path → Option Mode) : Prop :=
  ∀ p m, stat p = some m ↔ ∃ k perm, Leads fs limit p k perm ∧ m = k.bits ||| perm.setWidth 32

/-- The contract of `mkdir` (POSIX): it succeeds only if the name was free, and makes it a directory; if it fails nothing changes. -/
def MkdirContract {Path : Type} (fs : FS Path) (p : Path) (rc : Int) (fs' : FS Path) : Prop :=
  (rc = 0 ∧ fs p = none ∧ (∃ perm, fs' p = some (.node .directory perm)) ∧ ∀ q, q ≠ p → fs' q = fs q) ∨ (rc = -1 ∧ fs' = fs)

/-- What the platforms guarantee of their replies, for a buffer of `maxlength` bytes. glibc: nothing to require. POSIX: a reported success stored the text and its
terminator. Windows: a reported success stored a text and its terminator within the length given. -/
def Reply.Possible (maxlength : Nat) : Reply → Prop
  | .posix t => t.length < maxlength
  | .windows t => t.length < maxlength % 2 ^ 32
  | _ => True

/-- The text the system has for the code, if it has one. -/
def Reply.text : Reply → Option (List Byte)
  | .gnuBuffer t | .gnuOwn t | .posix t | .windows t => some t
  | _ => none

/-- The bytes of an ASCII string. -/
def bytes (s : String) : List Byte := s.toList.map (fun c => UInt8.ofNat c.toNat)

/-- A lower-case hexadecimal digit. -/
def IsHex (b : Byte) : Prop := (48 ≤ b.toNat ∧ b.toNat ≤ 57) ∨ (97 ≤ b.toNat ∧ b.toNat ≤ 102)

instance (b : Byte) : Decidable (IsHex b) := inferInstanceAs (Decidable (_ ∨ _))

/-- Its value. -/
def hexValue (b : Byte) : Nat := if b.toNat ≤ 57 then b.toNat - 48 else b.toNat - 87

/-- The number a list of hexadecimal digits spells. -/
def hexNumber (ds : List Byte) : Nat := ds.foldl (fun n d => 16 * n + hexValue d) 0

end Verif.Os
