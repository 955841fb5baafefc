import Verif.Common
import Verif.Bits.Model
/-!
# Model of `amtl/am-hashtable.h` (class `HashTable`), `amtl/am-hashmap.h`, `amtl/am-hashset.h`

* `uint32_t` hashes are `BitVec 32`; the `uint32_t` counters are `Nat` with explicit reduction modulo
  `2^32` (`inc32`, `dec32`, `add32`).
* `table_` is `none` (null) or `some slots`, the allocated array; a pointer to an entry (`Result`,
  `Insert`, iterator) is an index into it.  Every access checks for null and for the array bounds.
* The storage `t_` of an entry is `none` (raw memory) or `some p` (a constructed payload); constructing
  over a live object, destroying or reading raw storage are faults.
* Ghost counters (`ctors`, `dtors`, `mallocs`, `frees`) record lifetimes; the code never reads them.
* Allocation: every operation that can allocate (at most once) takes `memOk`, telling whether
  `am_malloc` succeeds.
* Simplification: payload constructors and destructors and `HashPolicy::hash/matches` are pure and do
  not throw or re-enter the table; moving a payload transfers its value.
-/
namespace Verif.HashTable
open Verif

variable {L P : Type}

/-- `HashPolicy` (amtl/am-hashtable.h:111-128) for one lookup type `L` and payload type `P`. -/
structure Policy (L P : Type) where
  /-- `HashPolicy::hash` -/
  hash : L → BitVec 32
  /-- `HashPolicy::matches` -/
  isMatch : L → P → Bool

/-- Build parameters: `sizeof(Entry)` and the allocation policy.  `aborts` is `true` for
`SystemAllocatorPolicy` (amtl/am-allocator-policies.h:39-69: reportOutOfMemory and
reportAllocationOverflow call `abort()`, `am_malloc` reports on null) and `false` for a policy that
returns null from `am_malloc` and returns from `reportAllocationOverflow`. -/
structure Config where
  entrySize : Nat
  aborts : Bool

/-- `kMinCapacity`, amtl/am-hashtable.h:141. -/
def kMinCapacity : Nat := 16

/-- `kMaxCapacity = INT_MAX / sizeof(Entry)`, amtl/am-hashtable.h:142. -/
def Config.kMaxCapacity (c : Config) : Nat := (2 ^ 31 - 1) / c.entrySize

/-- `x++` on `uint32_t`. As at amtl/am-hashtable.h:366 and 374. -/
def inc32 (x : Nat) : Nat := (x + 1) % 2 ^ 32
/-- `x--` on `uint32_t`. As at amtl/am-hashtable.h:344 and 375. -/
def dec32 (x : Nat) : Nat := (x + (2 ^ 32 - 1)) % 2 ^ 32
/-- `x + y` on `uint32_t`. As at amtl/am-hashtable.h:234 and 238. -/
def add32 (x y : Nat) : Nat := (x + y) % 2 ^ 32

/-! ## `HashTableEntry`, amtl/am-hashtable.h:45-108 -/

/-- `HashTableEntry<T>`, amtl/am-hashtable.h:48-49: `hash_` and the storage `t_`. -/
structure Slot (P : Type) where
  hash : BitVec 32
  obj : Option P
deriving DecidableEq, Repr

/-- `kFreeHash`, amtl/am-hashtable.h:52. -/
def kFreeHash : BitVec 32 := 0
/-- `kRemovedHash`, amtl/am-hashtable.h:53. -/
def kRemovedHash : BitVec 32 := 1

namespace Slot

/-- `removed()`, amtl/am-hashtable.h:84-86. -/
def removed (e : Slot P) : Bool := e.hash == kRemovedHash
/-- `isFree()`, amtl/am-hashtable.h:87-89. -/
def isFree (e : Slot P) : Bool := e.hash == kFreeHash
/-- `isLive()`, amtl/am-hashtable.h:90-92. -/
def isLive (e : Slot P) : Bool := decide (kRemovedHash < e.hash)
/-- `sameHash()`, amtl/am-hashtable.h:101-103. -/
def sameHash (e : Slot P) (h : BitVec 32) : Bool := e.hash == h
/-- `setHash()`, amtl/am-hashtable.h:56-58. -/
def setHash (e : Slot P) (h : BitVec 32) : Slot P := { e with hash := h }
/-- `construct(U&&)`, amtl/am-hashtable.h:59-65. -/
def construct (e : Slot P) (p : P) : Exec (Slot P) :=
  match e.obj with
  | some _ => .error .overwriteLive
  | none => .ok { e with obj := some p }
/-- `destruct()`, amtl/am-hashtable.h:80-83; also returns how many payloads were destroyed. -/
def destruct (e : Slot P) : Exec (Slot P × Nat) :=
  if e.isLive then
    match e.obj with
    | some _ => .ok ({ e with obj := none }, 1)
    | none => .error .uninitialised
  else .ok (e, 0)
/-- `setRemoved()`, amtl/am-hashtable.h:69-72. -/
def setRemoved (e : Slot P) : Exec (Slot P × Nat) := do
  let (e, k) ← e.destruct
  .ok ({ e with hash := kRemovedHash }, k)
/-- `setFree()`, amtl/am-hashtable.h:73-76. -/
def setFree (e : Slot P) : Exec (Slot P × Nat) := do
  let (e, k) ← e.destruct
  .ok ({ e with hash := kFreeHash }, k)
/-- `initialize()` on freshly allocated memory, amtl/am-hashtable.h:77-79. -/
def fresh : Slot P := { hash := kFreeHash, obj := none }
/-- `payload()`, amtl/am-hashtable.h:93-100. -/
def payload (e : Slot P) : Exec P :=
  if e.isLive then
    match e.obj with
    | some p => .ok p
    | none => .error .uninitialised
  else .error .assertFail

end Slot

/-! ## `HashTable`, amtl/am-hashtable.h:132-553 -/

/-- The members of `HashTable`, amtl/am-hashtable.h:548-552, and the ghost counters. -/
structure Table (P : Type) where
  capacity : Nat
  nelements : Nat
  ndeleted : Nat
  table : Option (List (Slot P))
  minCapacity : Nat
  ctors : Nat
  dtors : Nat
  mallocs : Nat
  frees : Nat
deriving Repr

/-- Default constructor, amtl/am-hashtable.h:379-386. -/
def Table.new : Table P :=
  { capacity := 0, nelements := 0, ndeleted := 0, table := none, minCapacity := kMinCapacity,
    ctors := 0, dtors := 0, mallocs := 0, frees := 0 }

/-- `computeHash`, amtl/am-hashtable.h:145-151. -/
def computeHash (pol : Policy L P) (key : L) : BitVec 32 :=
  let hash := pol.hash key * 0x9E3779B9#32
  if hash = kFreeHash ∨ hash = kRemovedHash then hash + 2 else hash

/-- `createTable`, amtl/am-hashtable.h:153-164; `none` is a null return. -/
def createTable (c : Config) (capacity : Nat) (memOk : Bool) : Exec (Option (List (Slot P))) :=
  if capacity ≤ c.kMaxCapacity then
    if memOk then .ok (some (List.replicate capacity Slot.fresh))
    else if c.aborts then .error .abort
    else .ok none
  else .error .assertFail

/-- `reportAllocationOverflow`, amtl/am-allocator-policies.h:46-49. -/
def reportAllocationOverflow (c : Config) : Exec Unit :=
  if c.aborts then .error .abort else .ok ()

/-- Read of `table_[i]`. As at amtl/am-hashtable.h:287, 291, 302, 309, 320, 330 and through the iterator's pointer at 503-541. -/
def Table.load (t : Table P) (i : Nat) : Exec (Slot P) :=
  match t.table with
  | none => .error .nullDeref
  | some s => match s[i]? with
    | none => .error .outOfBounds
    | some e => .ok e

/-- Write of `table_[i]`. As at amtl/am-hashtable.h:373, 405 and 480, and through the entry pointers the lookups return. -/
def Table.store (t : Table P) (i : Nat) (e : Slot P) : Exec (Table P) :=
  match t.table with
  | none => .error .nullDeref
  | some s => if i < s.length then .ok { t with table := some (s.set i e) } else .error .outOfBounds

/-- `Insert`, amtl/am-hashtable.h:194-207 (with the `Result` base): entry pointer and hash. -/
structure Insert where
  entry : Nat
  hash : BitVec 32
deriving DecidableEq, Repr

/-- `Result::found()`, amtl/am-hashtable.h:189-191. -/
def Table.found (t : Table P) (entry : Nat) : Exec Bool := do
  let e ← t.load entry
  .ok e.isLive

/-- The assertion in the `Probulator` constructor, amtl/am-hashtable.h:216-221. -/
def probulatorCheck (capacity : Nat) : Exec Unit :=
  if Bits.isPowerOfTwo (BitVec.ofNat 64 capacity) then .ok () else .error .assertFail

/-- `Probulator::entry()`, amtl/am-hashtable.h:223-225. -/
def probeEntry (hash : BitVec 32) (capacity : Nat) : Nat :=
  (hash &&& (BitVec.ofNat 32 capacity - 1#32)).toNat

/-- The `for (;;)` loop of `insertUnique`, amtl/am-hashtable.h:287-292. `fuel` is the number of entries
still unseen: the loop does not modify the table, so visiting `capacity` entries without stopping
means that it never stops. -/
def insertUniqueLoop (t : Table P) (cur : BitVec 32) : Nat → Exec Nat
  | 0 => .error .diverge
  | fuel + 1 => do
    let i := probeEntry cur t.capacity
    let e ← t.load i
    if e.isFree || e.removed then .ok i
    else insertUniqueLoop t (cur + 1) fuel

/-- `insertUnique`, amtl/am-hashtable.h:284-295. -/
def insertUnique (t : Table P) (hash : BitVec 32) : Exec Insert := do
  probulatorCheck t.capacity
  let i ← insertUniqueLoop t hash t.capacity
  .ok { entry := i, hash := hash }

/-- The `for (;;)` loop of `lookup`, amtl/am-hashtable.h:302-310. -/
def lookupLoop (pol : Policy L P) (t : Table P) (key : L) (hash cur : BitVec 32) : Nat → Exec Nat
  | 0 => .error .diverge
  | fuel + 1 => do
    let i := probeEntry cur t.capacity
    let e ← t.load i
    if e.isFree then .ok i
    else if e.isLive && e.sameHash hash then do
      let p ← e.payload
      if pol.isMatch key p then .ok i
      else lookupLoop pol t key hash (cur + 1) fuel
    else lookupLoop pol t key hash (cur + 1) fuel

/-- `lookup` / `find`, amtl/am-hashtable.h:298-313, 431-433. -/
def find (pol : Policy L P) (t : Table P) (key : L) : Exec Nat := do
  let hash := computeHash pol key
  probulatorCheck t.capacity
  lookupLoop pol t key hash hash t.capacity

/-- The `for (;;)` loop of `lookupForAdd`, amtl/am-hashtable.h:320-331; returns `e` and
`firstRemoved`. -/
def lookupForAddLoop (pol : Policy L P) (t : Table P) (key : L) (hash cur : BitVec 32)
    (firstRemoved : Option Nat) : Nat → Exec (Nat × Option Nat)
  | 0 => .error .diverge
  | fuel + 1 => do
    let i := probeEntry cur t.capacity
    let e ← t.load i
    if e.isFree then .ok (i, firstRemoved)
    else if e.removed then
      lookupForAddLoop pol t key hash (cur + 1)
        (match firstRemoved with | none => some i | some f => some f) fuel
    else if e.sameHash hash then do
      let p ← e.payload
      if pol.isMatch key p then .ok (i, firstRemoved)
      else lookupForAddLoop pol t key hash (cur + 1) firstRemoved fuel
    else lookupForAddLoop pol t key hash (cur + 1) firstRemoved fuel

/-- `lookupForAdd` / `findForAdd`, amtl/am-hashtable.h:316-337, 437-439. -/
def findForAdd (pol : Policy L P) (t : Table P) (key : L) : Exec Insert := do
  let hash := computeHash pol key
  probulatorCheck t.capacity
  let (i, firstRemoved) ← lookupForAddLoop pol t key hash hash none t.capacity
  let e ← t.load i
  match e.isLive, firstRemoved with
  | false, some f => .ok { entry := f, hash := hash }
  | _, _ => .ok { entry := i, hash := hash }

/-- `underloaded()`, amtl/am-hashtable.h:232-235. -/
def underloaded (t : Table P) : Bool :=
  decide (kMinCapacity < t.capacity) && decide (add32 t.nelements t.ndeleted < t.capacity / 4)

/-- `overloaded()`, amtl/am-hashtable.h:236-239. -/
def overloaded (t : Table P) : Bool :=
  decide (t.capacity / 2 + t.capacity / 4 < add32 t.nelements t.ndeleted)

/-- The re-insertion loop of `changeCapacity`, amtl/am-hashtable.h:269-277. `i` is the loop counter,
`rem` the remaining iterations. The old entry is destructed in place; nothing reads it again. -/
def rehashLoop (old : List (Slot P)) (i : Nat) : Nat → Table P → Exec (Table P)
  | 0, t => .ok t
  | rem + 1, t =>
    match old[i]? with
    | none => .error .outOfBounds
    | some oldEntry =>
      if oldEntry.isLive then do
        let ins ← insertUnique t oldEntry.hash
        let e ← t.load ins.entry
        let t ← t.store ins.entry (e.setHash ins.hash)
        let p ← oldEntry.payload
        let e ← t.load ins.entry
        let e ← e.construct p
        let t ← t.store ins.entry e
        let t := { t with ctors := t.ctors + 1 }
        let (_, k) ← oldEntry.destruct
        rehashLoop old (i + 1) rem { t with dtors := t.dtors + k }
      else do
        let (_, k) ← oldEntry.destruct
        rehashLoop old (i + 1) rem { t with dtors := t.dtors + k }

/-- `changeCapacity`, amtl/am-hashtable.h:255-281. -/
def changeCapacity (c : Config) (t : Table P) (newCapacity : Nat) (memOk : Bool) :
    Exec (Bool × Table P) :=
  if newCapacity ≤ c.kMaxCapacity then do
    let newTable ← createTable c newCapacity memOk
    match newTable with
    | none => .ok (false, t)
    | some s =>
      let oldCapacity := t.capacity
      let t' := { t with table := some s, capacity := newCapacity, ndeleted := 0,
                         mallocs := t.mallocs + 1 }
      match t.table with
      | none => if oldCapacity = 0 then .ok (true, t') else .error .nullDeref
      | some old => do
        let t' ← rehashLoop old 0 oldCapacity t'
        .ok (true, { t' with frees := t'.frees + 1 })
  else .error .assertFail

/-- `shrink`, amtl/am-hashtable.h:241-245. -/
def shrink (c : Config) (t : Table P) (memOk : Bool) : Exec (Bool × Table P) :=
  if t.capacity / 2 < t.minCapacity then .ok (true, t)
  else changeCapacity c t (t.capacity / 2) memOk

/-- `grow`, amtl/am-hashtable.h:247-253. -/
def grow (c : Config) (t : Table P) (memOk : Bool) : Exec (Bool × Table P) :=
  if c.kMaxCapacity ≤ t.capacity then do
    reportAllocationOverflow c
    .ok (false, t)
  else changeCapacity c t (t.capacity * 2 % 2 ^ 32) memOk

/-- `checkDensity`, amtl/am-hashtable.h:470-476. -/
def checkDensity (c : Config) (t : Table P) (memOk : Bool) : Exec (Bool × Table P) :=
  if underloaded t then shrink c t memOk
  else if overloaded t then grow c t memOk
  else .ok (true, t)

/-- The common tail of `internalAdd`, amtl/am-hashtable.h:366-368. -/
def internalAddTail (t : Table P) (i : Insert) : Exec (Bool × Table P × Insert) := do
  let t := { t with nelements := inc32 t.nelements }
  let e ← t.load i.entry
  let t ← t.store i.entry (e.setHash i.hash)
  .ok (true, t, i)

/-- `internalAdd`, amtl/am-hashtable.h:339-369. -/
def internalAdd (c : Config) (t : Table P) (i : Insert) (memOk : Bool) :
    Exec (Bool × Table P × Insert) := do
  let e ← t.load i.entry
  if e.isLive then .error .assertFail
  else if e.removed then
    internalAddTail { t with ndeleted := dec32 t.ndeleted } i
  else if t.nelements = c.kMaxCapacity then do
    reportAllocationOverflow c
    .ok (false, t, i)
  else do
    let oldCapacity := t.capacity
    let (ok, t) ← checkDensity c t memOk
    if ok then
      if t.capacity ≠ oldCapacity then do
        let i ← insertUnique t i.hash
        internalAddTail t i
      else internalAddTail t i
    else .ok (false, t, i)

/-- `add(Insert&, U&&)`, amtl/am-hashtable.h:456-462 (and `add(Insert&)`, 463-468, with `p` the
default-constructed payload). -/
def add (c : Config) (t : Table P) (i : Insert) (p : P) (memOk : Bool) :
    Exec (Bool × Table P × Insert) := do
  let (ok, t, i) ← internalAdd c t i memOk
  if ok then do
    let e ← t.load i.entry
    let e ← e.construct p
    let t ← t.store i.entry e
    .ok (true, { t with ctors := t.ctors + 1 }, i)
  else .ok (false, t, i)

/-- `removeEntry`, amtl/am-hashtable.h:371-376. -/
def removeEntry (t : Table P) (entry : Nat) : Exec (Table P) := do
  let e ← t.load entry
  if e.isLive then do
    let (e, k) ← e.setRemoved
    let t ← t.store entry e
    .ok { t with dtors := t.dtors + k, ndeleted := inc32 t.ndeleted, nelements := dec32 t.nelements }
  else .error .assertFail

/-- `remove(Result&)`, amtl/am-hashtable.h:449-452. -/
def remove (t : Table P) (entry : Nat) : Exec (Table P) := do
  let f ← t.found entry
  if f then removeEntry t entry else .error .assertFail

/-- `removeIfExists`, amtl/am-hashtable.h:441-447. -/
def removeIfExists (pol : Policy L P) (t : Table P) (key : L) : Exec (Table P) := do
  let r ← find pol t key
  let f ← t.found r
  if f then remove t r else .ok t

/-- The loop of `clear`, amtl/am-hashtable.h:479-481. -/
def clearLoop (i : Nat) : Nat → Table P → Exec (Table P)
  | 0, t => .ok t
  | rem + 1, t => do
    let e ← t.load i
    let (e, k) ← e.setFree
    let t ← t.store i e
    clearLoop (i + 1) rem { t with dtors := t.dtors + k }

/-- `clear`, amtl/am-hashtable.h:478-484. -/
def clear (t : Table P) : Exec (Table P) := do
  let t ← clearLoop 0 t.capacity t
  .ok { t with ndeleted := 0, nelements := 0 }

/-- The loop of the destructor, amtl/am-hashtable.h:404-405. -/
def destroyLoop (i : Nat) : Nat → Table P → Exec (Table P)
  | 0, t => .ok t
  | rem + 1, t => do
    let e ← t.load i
    let (e, k) ← e.destruct
    let t ← t.store i e
    destroyLoop (i + 1) rem { t with dtors := t.dtors + k }

/-- The destructor, amtl/am-hashtable.h:403-407; `free(nullptr)` does nothing. The result is only
looked at for its ghost counters. -/
def destroy (t : Table P) : Exec (Table P) := do
  let t ← destroyLoop 0 t.capacity t
  match t.table with
  | none => .ok t
  | some _ => .ok { t with table := none, frees := t.frees + 1 }

/-- The move constructor, amtl/am-hashtable.h:388-401: (the new table, the moved-from table). The new
table takes over the ghost counters of the objects it now owns. -/
def moveFrom (other : Table P) : Table P × Table P :=
  (other,
   { other with capacity := 0, nelements := 0, ndeleted := 0, table := none,
                minCapacity := kMinCapacity, ctors := 0, dtors := 0, mallocs := 0, frees := 0 })

/-- `init`, amtl/am-hashtable.h:409-427. -/
def init (c : Config) (t : Table P) (capacity : Nat) (memOk : Bool) : Exec (Bool × Table P) := do
  let go (capacity : Nat) : Exec (Bool × Table P) := do
    let t := { t with minCapacity := capacity }
    if Bits.isPowerOfTwo (BitVec.ofNat 64 capacity) then do
      let t := { t with capacity := capacity }
      let tbl ← createTable c capacity memOk
      match tbl with
      | none => .ok (false, { t with table := none })
      | some s => .ok (true, { t with table := some s, mallocs := t.mallocs + 1 })
    else .error .assertFail
  if capacity < kMinCapacity then go kMinCapacity
  else if c.kMaxCapacity < capacity then do
    reportAllocationOverflow c
    .ok (false, t)
  else go capacity

/-- `elements()`, amtl/am-hashtable.h:493-495. -/
def elements (t : Table P) : Nat := t.nelements

/-- `estimateMemoryUse()`, amtl/am-hashtable.h:497-499 (`size_t` arithmetic). -/
def estimateMemoryUse (c : Config) (t : Table P) : Nat := c.entrySize * t.capacity % 2 ^ 64

/-- `Result::operator*` for reading, amtl/am-hashtable.h:185-187. -/
def deref (t : Table P) (entry : Nat) : Exec P := do
  let e ← t.load entry
  e.payload

/-- Assigning through `Result::operator*` / `operator->` (amtl/am-hashtable.h:182-187): the payload is
replaced in place (copy assignment, no object is constructed or destroyed). -/
def assign (t : Table P) (entry : Nat) (p : P) : Exec (Table P) := do
  let e ← t.load entry
  let _ ← e.payload
  t.store entry { e with obj := some p }

/-! ## Iterator, amtl/am-hashtable.h:503-541 -/

/-- `iterator`, amtl/am-hashtable.h:538-540 (`i_` and `end_` as indices). -/
structure Iter where
  i : Nat
  stop : Nat

/-- `while (i_ < end_ && !i_->isLive()) i_++;`, amtl/am-hashtable.h:511-512, 534. -/
def skipDead (t : Table P) (stop : Nat) (i : Nat) : Nat → Exec Nat
  | 0 => .ok i
  | rem + 1 =>
    if i < stop then do
      let e ← t.load i
      if e.isLive then .ok i else skipDead t stop (i + 1) rem
    else .ok i

/-- Constructor, amtl/am-hashtable.h:506-513. -/
def iter (t : Table P) : Exec Iter := do
  let i ← skipDead t t.capacity 0 t.capacity
  .ok { i := i, stop := t.capacity }

/-- `empty()`, amtl/am-hashtable.h:515-517. -/
def Iter.empty (it : Iter) : Bool := it.i == it.stop

/-- `next()`, amtl/am-hashtable.h:531-535. -/
def Iter.next (t : Table P) (it : Iter) : Exec Iter := do
  let i ← skipDead t it.stop (it.i + 1) (it.stop - (it.i + 1))
  .ok { it with i := i }

/-- `erase()`, amtl/am-hashtable.h:519-522. -/
def Iter.erase (t : Table P) (it : Iter) : Exec (Table P) :=
  if it.empty then .error .assertFail else removeEntry t it.i

/-- The client's `if (pick(*it)) it.erase();` inside a walk. Client code over amtl/am-hashtable.h:503-541. -/
def eraseIf (pick : P → Bool) (p : P) (t : Table P) (it : Iter) : Exec (Table P) :=
  if pick p then it.erase t else .ok t

/-- The client loop `for (auto it = t.iter(); !it.empty(); it.next()) { visit(*it); if (pick(*it))
it.erase(); }` (as in tests/test-hashmap.cpp); returns the payloads visited. `fuel` bounds the
iterations; running out is reported as divergence. Client code over amtl/am-hashtable.h:503-541. -/
def sweepLoop (pick : P → Bool) : Nat → Table P → Iter → List P → Exec (Table P × List P)
  | 0, _, _, _ => .error .diverge
  | fuel + 1, t, it, acc =>
    if it.empty then .ok (t, acc.reverse)
    else do
      let p ← deref t it.i
      let t ← eraseIf pick p t it
      let it ← it.next t
      sweepLoop pick fuel t it (p :: acc)

/-- The whole client loop. Client code over amtl/am-hashtable.h:503-541. -/
def sweep (pick : P → Bool) (t : Table P) : Exec (Table P × List P) := do
  let it ← iter t
  sweepLoop pick (t.capacity + 1) t it []

/-! ## `HashSet`, amtl/am-hashset.h -/

/-- `HashSet::has`, amtl/am-hashset.h:134-137. -/
def has (pol : Policy L P) (t : Table P) (key : L) : Exec Bool := do
  let r ← find pol t key
  t.found r

/-- `HashSet::add(UK&&)`, amtl/am-hashset.h:141-146. The result of the inner `add` is dropped. -/
def setAdd (c : Config) (pol : Policy P P) (t : Table P) (key : P) (memOk : Bool) :
    Exec (Table P) := do
  let p ← findForAdd pol t key
  let f ← t.found p.entry
  if f then .ok t
  else do
    let (_, t, _) ← add c t p key memOk
    .ok t

end Verif.HashTable
