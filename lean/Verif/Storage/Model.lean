import Verif.Common
/-!
# Model of the storage in which the library constructs client objects

`ke::StorageBuffer` (amtl/am-storagebuffer.h) and its use in `ke::Maybe` (amtl/am-maybe.h), the inline buffer
of `ke::Function` (amtl/am-function.h), and the tables of `ke::HashTable` and `ke::FixedArray`, which come
from `malloc`. What is modelled is where the bytes are: sizes, alignments, offsets and addresses, as the
Itanium and Microsoft ABIs lay out these classes (members in order, each at the next multiple of its
alignment, the whole padded to a multiple of the largest alignment).
-/
namespace Verif.Storage
open Verif

/-- `sizeof` and `alignof` of a type. am-storagebuffer.h:52, am-function.h:204, am-hashtable.h:156. -/
structure Ty where
  size : Nat
  align : Nat
deriving DecidableEq

/-- The sizes that depend on the platform: `sizeof(void*)` (am-function.h:89), `alignof(uint64_t)` (am-storagebuffer.h:53) and `alignof(double)` (am-function.h:215) as
members, and the alignment `malloc` guarantees (am-bits.h:47-54). -/
structure Abi where
  ptr : Nat
  al64 : Nat
  aldbl : Nat
  malloc : Nat
deriving DecidableEq

/-- LP64 Linux and macOS. -/
def lp64 : Abi := ⟨8, 8, 8, 16⟩

/-- 32-bit x86 Linux: eight-byte members are aligned to four. -/
def i386 : Abi := ⟨4, 4, 4, 16⟩

/-- 32-bit Windows. -/
def win32 : Abi := ⟨4, 8, 8, 8⟩

/-- The next multiple of `a`: where a member of alignment `a` goes. ABI rule used for am-maybe.h:136-137, am-function.h:86, 213-217, am-hashtable.h:48-49. -/
def roundUp (n a : Nat) : Nat := (n + (a - 1)) / a * a

/-- Offsets of the members of a class (am-maybe.h:136-137, am-function.h:86, 213-217, am-hashtable.h:48-49). -/
def offsets (start : Nat) : List Ty → List Nat
  | [] => []
  | t :: ts => roundUp start t.align :: offsets (roundUp start t.align + t.size) ts

/-- End of the last member. am-maybe.h:136-137, am-function.h:86, 213-217, am-hashtable.h:48-49. -/
def fieldsEnd (start : Nat) : List Ty → Nat
  | [] => start
  | t :: ts => fieldsEnd (roundUp start t.align + t.size) ts

/-- Largest alignment of the members. am-maybe.h:136-137, am-function.h:86, 213-217, am-hashtable.h:48-49. -/
def maxAlign : List Ty → Nat
  | [] => 1
  | t :: ts => max t.align (maxAlign ts)

/-- Largest size of the members of a union. am-storagebuffer.h:51-54, am-function.h:214-217. -/
def maxSize : List Ty → Nat
  | [] => 0
  | t :: ts => max t.size (maxSize ts)

/-- A class with these members. am-maybe.h:136-137, am-function.h:86, 213-217, am-hashtable.h:48-49. -/
def structOf (ts : List Ty) : Ty := ⟨roundUp (fieldsEnd 0 ts) (maxAlign ts), maxAlign ts⟩

/-- A union of these members; each is at offset 0. am-storagebuffer.h:51-54, am-function.h:214-217. -/
def unionOf (ts : List Ty) : Ty := ⟨roundUp (maxSize ts) (maxAlign ts), maxAlign ts⟩

/-- `StorageBuffer<T>`: a union of `char[sizeof(T)]` and `uint64_t`. am-storagebuffer.h:39-55. -/
def storageBuffer (abi : Abi) (t : Ty) : Ty := structOf [unionOf [⟨t.size, 1⟩, ⟨8, abi.al64⟩]]

/-- `address()` of the buffer at `this`: `buffer_` is at offset 0 of the union, which is the only member. am-storagebuffer.h:42-47. -/
def address (this : Nat) : Nat := this

/-- Members of `Maybe<T>`: `bool initialized_` and `StorageBuffer<T> t_`. am-maybe.h:136-137. -/
def maybeMembers (abi : Abi) (t : Ty) : List Ty := [⟨1, 1⟩, storageBuffer abi t]

/-- `Maybe<T>`. am-maybe.h:43-138. -/
def maybe (abi : Abi) (t : Ty) : Ty := structOf (maybeMembers abi t)

/-- Where the `Maybe<T>` at `this` constructs its `T`: `t_.address()`. am-maybe.h:74, 137. -/
def maybeObject (abi : Abi) (t : Ty) (this : Nat) : Nat := address (this + (offsets 0 (maybeMembers abi t)).getD 1 0)

/-- Members of `FunctionHolder<T>`: the table pointer of its polymorphic base, and `T obj_`. am-function.h:42-50, 52-87. -/
def holderMembers (abi : Abi) (t : Ty) : List Ty := [⟨abi.ptr, abi.ptr⟩, t]

/-- `FunctionHolder<T>` (`ImplType`). am-function.h:52-87, 202. -/
def holder (abi : Abi) (t : Ty) : Ty := structOf (holderMembers abi t)

/-- `buffer_` of a `Function`: a union of `double` and `char[3 * sizeof(void*)]`. am-function.h:89, 214-217. -/
def buffer (abi : Abi) : Ty := unionOf [⟨8, abi.aldbl⟩, ⟨abi.ptr * 3, 1⟩]

/-- Members of a `Function`: `impl_` and `buffer_`. am-function.h:213-217. -/
def functionMembers (abi : Abi) : List Ty := [⟨abi.ptr, abi.ptr⟩, buffer abi]

/-- `Function<...>`. am-function.h:94-218. -/
def function (abi : Abi) : Ty := structOf (functionMembers abi)

/-- `sizeof(ImplType) <= sizeof(buffer_)`: the callable goes inline. am-function.h:204. -/
def fitsInline (abi : Abi) (t : Ty) : Bool := decide ((holder abi t).size ≤ (buffer abi).size)

/-- Where the `Function` at `this` constructs an inline holder: `inline_buffer()`. am-function.h:174-176, 205-206. -/
def inlineHolder (abi : Abi) (this : Nat) : Nat := this + (offsets 0 (functionMembers abi)).getD 1 0

/-- Where the holder at `h` has its callable `obj_`. am-function.h:86. -/
def holderObject (abi : Abi) (t : Ty) (h : Nat) : Nat := h + (offsets 0 (holderMembers abi t)).getD 1 0

/-- Members of `HashTableEntry<T>`: `uint32_t hash_` and `T t_`. am-hashtable.h:48-49. -/
def entryMembers (t : Ty) : List Ty := [⟨4, 4⟩, t]

/-- `HashTableEntry<T>`. am-hashtable.h:45-108. -/
def entry (t : Ty) : Ty := structOf (entryMembers t)

/-- Bytes asked for by `createTable`. am-hashtable.h:156. -/
def tableBytes (t : Ty) (capacity : Nat) : Nat := capacity * (entry t).size

/-- Where `table[i].t_` is, in the table at `base`. am-hashtable.h:49, 161, 270-274. -/
def tableObject (t : Ty) (base i : Nat) : Nat := base + i * (entry t).size + (offsets 0 (entryMembers t)).getD 1 0

/-- Where `table[i].hash_` is. am-hashtable.h:48, 57, 78. -/
def tableHash (t : Ty) (base i : Nat) : Nat := base + i * (entry t).size + (offsets 0 (entryMembers t)).getD 0 0

/-- Where `data_[i]` of a `FixedArray<T>` is. am-fixedarray.h:50, 161. -/
def arrayObject (t : Ty) (base i : Nat) : Nat := base + i * t.size

end Verif.Storage
