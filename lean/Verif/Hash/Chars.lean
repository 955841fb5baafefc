import Verif.Hash.Model
/-!
# The text and pointer hashes on other targets (am-hashtable.h:555-649)

Whether `char` is signed is the target's choice (it is on x86, it is not on ARM and PowerPC Linux), and so is the size of a pointer.
-/
namespace Verif.Hash
open Verif

/-- What the character `c` contributes where it is converted to `uint32_t`: am-hashtable.h:568, 599. -/
def charOn (signed : Bool) (c : BitVec 8) : BitVec 32 := if signed then c.signExtend 32 else c.setWidth 32

/-- `CharacterStreamHasher::add(char)`, am-hashtable.h:567-571. -/
def Hasher.addCharOn (signed : Bool) (h : Hasher) (c : BitVec 8) : Hasher :=
  let hash := h.hash + charOn signed c
  let hash := hash + (hash <<< 10)
  let hash := hash ^^^ (hash >>> 6)
  ⟨hash⟩

/-- `CharacterStreamHasher::add(const char*, size_t)`, am-hashtable.h:573-576. -/
def Hasher.addAllOn (signed : Bool) (h : Hasher) : List (BitVec 8) → Hasher
  | [] => h
  | c :: cs => (h.addCharOn signed c).addAllOn signed cs

/-- `HashCharSequence`, am-hashtable.h:586-592. -/
def hashCharSequenceOn (signed : Bool) (s : List (BitVec 8)) : BitVec 32 := (Hasher.new.addAllOn signed s).result.1

/-- Loop of `FastHashCharSequence`, am-hashtable.h:598-599. -/
def fastHashLoopOn (signed : Bool) (hash : BitVec 32) : List (BitVec 8) → BitVec 32
  | [] => hash
  | c :: cs => fastHashLoopOn signed (charOn signed c + (hash <<< 6) + (hash <<< 16) - hash) cs

/-- `FastHashCharSequence`, am-hashtable.h:594-601. -/
def fastHashCharSequenceOn (signed : Bool) (s : List (BitVec 8)) : BitVec 32 := fastHashLoopOn signed 0 s

/-- `HashPointer` where `sizeof(ptr) == 4`: `HashInteger<4>`, am-hashtable.h:631-636, 645-649. -/
def hashPointer32 (m : Mode) (ptr : BitVec 32) : Exec (BitVec 32) := hashInt32 m ptr

end Verif.Hash
