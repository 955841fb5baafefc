import Verif.HashTable.Spec
/-!
# `amtl/am-hashtable.h` with client code that throws

The functions of `Verif.HashTable.Model`, where `HashPolicy::hash`, `HashPolicy::matches`, the payload's constructors and the allocation policy's `am_malloc` may throw. Nothing in the
header catches an exception or cleans up, so the table stays as it is at that moment. A call that ends with an exception has the result `none`. A payload constructor that throws makes no
payload and leaves its argument as it was. Simplified: destructors and assignments of payloads do not throw.
-/
namespace Verif.HashTable
open Verif

variable {L P S : Type}

/-- `HashPolicy`, amtl/am-hashtable.h:111-128, with a state; the answer `none` is an exception. -/
structure PolicyX (L P S : Type) where
  hash : L → S → Option (BitVec 32) × S
  isMatch : L → P → S → Option Bool × S

/-- What throws in one call of the table, besides the policy: `am_malloc` (amtl/am-hashtable.h:156), and the payload constructor that is called as number `ctor` (from 0) in this call
(:60, :64). -/
structure Plan where
  malloc : Bool
  ctor : Option Nat
deriving DecidableEq, Repr

/-- One payload constructor is called (amtl/am-hashtable.h:59-65); `none`: it throws. Otherwise what is left of the plan. -/
def fire : Option Nat → Option (Option Nat)
  | none => some none
  | some 0 => none
  | some (n + 1) => some (some n)

/-- `computeHash`, amtl/am-hashtable.h:145-151. -/
def computeHashX (pol : PolicyX L P S) (key : L) (s : S) : Option (BitVec 32) × S :=
  match pol.hash key s with
  | (none, s) => (none, s)
  | (some h, s) =>
    let hash := h * 0x9E3779B9#32
    (some (if hash = kFreeHash ∨ hash = kRemovedHash then hash + 2 else hash), s)

/-- The `for (;;)` loop of `lookup`, amtl/am-hashtable.h:302-310. -/
def lookupLoopX (pol : PolicyX L P S) (t : Table P) (key : L) (hash cur : BitVec 32) (s : S) : Nat → Exec (Option Nat × S)
  | 0 => .error .diverge
  | fuel + 1 => do
    let i := probeEntry cur t.capacity
    let e ← t.load i
    if e.isFree then .ok (some i, s)
    else if e.isLive && e.sameHash hash then do
      let p ← e.payload
      match pol.isMatch key p s with
      | (none, s) => .ok (none, s)
      | (some true, s) => .ok (some i, s)
      | (some false, s) => lookupLoopX pol t key hash (cur + 1) s fuel
    else lookupLoopX pol t key hash (cur + 1) s fuel

/-- `lookup` / `find`, amtl/am-hashtable.h:298-313, 431-433. -/
def findX (pol : PolicyX L P S) (t : Table P) (key : L) (s : S) : Exec (Option Nat × S) :=
  match computeHashX pol key s with
  | (none, s) => .ok (none, s)
  | (some hash, s) => do
    probulatorCheck t.capacity
    lookupLoopX pol t key hash hash s t.capacity

/-- The `for (;;)` loop of `lookupForAdd`, amtl/am-hashtable.h:320-331. -/
def lookupForAddLoopX (pol : PolicyX L P S) (t : Table P) (key : L) (hash cur : BitVec 32) (firstRemoved : Option Nat) (s : S) :
    Nat → Exec (Option (Nat × Option Nat) × S)
  | 0 => .error .diverge
  | fuel + 1 => do
    let i := probeEntry cur t.capacity
    let e ← t.load i
    if e.isFree then .ok (some (i, firstRemoved), s)
    else if e.removed then
      lookupForAddLoopX pol t key hash (cur + 1) (match firstRemoved with | none => some i | some f => some f) s fuel
    else if e.sameHash hash then do
      let p ← e.payload
      match pol.isMatch key p s with
      | (none, s) => .ok (none, s)
      | (some true, s) => .ok (some (i, firstRemoved), s)
      | (some false, s) => lookupForAddLoopX pol t key hash (cur + 1) firstRemoved s fuel
    else lookupForAddLoopX pol t key hash (cur + 1) firstRemoved s fuel

/-- `lookupForAdd` / `findForAdd`, amtl/am-hashtable.h:316-337, 437-439. -/
def findForAddX (pol : PolicyX L P S) (t : Table P) (key : L) (s : S) : Exec (Option Insert × S) :=
  match computeHashX pol key s with
  | (none, s) => .ok (none, s)
  | (some hash, s) => do
    probulatorCheck t.capacity
    match ← lookupForAddLoopX pol t key hash hash none s t.capacity with
    | (none, s) => .ok (none, s)
    | (some (i, firstRemoved), s) => do
      let e ← t.load i
      match e.isLive, firstRemoved with
      | false, some f => .ok (some { entry := f, hash := hash }, s)
      | _, _ => .ok (some { entry := i, hash := hash }, s)

/-- The re-insertion loop of `changeCapacity`, amtl/am-hashtable.h:269-277. If the payload's move constructor throws (:274), the new entry has its hash already (:273), and neither the rest of
the old array nor the array itself is destroyed or freed (:276, :278). -/
def rehashLoopX (old : List (Slot P)) (i : Nat) : Nat → Option Nat → Table P → Exec (Table P × Option (Option Nat))
  | 0, k, t => .ok (t, some k)
  | rem + 1, k, t =>
    match old[i]? with
    | none => .error .outOfBounds
    | some oldEntry =>
      if oldEntry.isLive then do
        let ins ← insertUnique t oldEntry.hash
        let e ← t.load ins.entry
        let t ← t.store ins.entry (e.setHash ins.hash)
        let p ← oldEntry.payload
        match fire k with
        | none => .ok (t, none)
        | some k => do
          let e ← t.load ins.entry
          let e ← e.construct p
          let t ← t.store ins.entry e
          let t := { t with ctors := t.ctors + 1 }
          let (_, n) ← oldEntry.destruct
          rehashLoopX old (i + 1) rem k { t with dtors := t.dtors + n }
      else do
        let (_, n) ← oldEntry.destruct
        rehashLoopX old (i + 1) rem k { t with dtors := t.dtors + n }

/-- `changeCapacity`, amtl/am-hashtable.h:255-281. `am_malloc` throws before anything is changed (:258). The result: `none` if something threw, else the value returned and what is left
of the plan for the constructors. -/
def changeCapacityX (c : Config) (t : Table P) (newCapacity : Nat) (memOk : Bool) (plan : Plan) : Exec (Table P × Option (Bool × Option Nat)) :=
  if newCapacity ≤ c.kMaxCapacity then
    if plan.malloc then .ok (t, none)
    else do
      let newTable ← createTable c newCapacity memOk
      match newTable with
      | none => .ok (t, some (false, plan.ctor))
      | some s =>
        let oldCapacity := t.capacity
        let t' := { t with table := some s, capacity := newCapacity, ndeleted := 0, mallocs := t.mallocs + 1 }
        match t.table with
        | none => if oldCapacity = 0 then .ok (t', some (true, plan.ctor)) else .error .nullDeref
        | some old => do
          match ← rehashLoopX old 0 oldCapacity plan.ctor t' with
          | (t', none) => .ok (t', none)
          | (t', some k) => .ok ({ t' with frees := t'.frees + 1 }, some (true, k))
  else .error .assertFail

/-- `shrink`, amtl/am-hashtable.h:241-245. -/
def shrinkX (c : Config) (t : Table P) (memOk : Bool) (plan : Plan) : Exec (Table P × Option (Bool × Option Nat)) :=
  if t.capacity / 2 < t.minCapacity then .ok (t, some (true, plan.ctor))
  else changeCapacityX c t (t.capacity / 2) memOk plan

/-- `grow`, amtl/am-hashtable.h:247-253. -/
def growX (c : Config) (t : Table P) (memOk : Bool) (plan : Plan) : Exec (Table P × Option (Bool × Option Nat)) :=
  if c.kMaxCapacity ≤ t.capacity then do
    reportAllocationOverflow c
    .ok (t, some (false, plan.ctor))
  else changeCapacityX c t (t.capacity * 2 % 2 ^ 32) memOk plan

/-- `checkDensity`, amtl/am-hashtable.h:470-476. -/
def checkDensityX (c : Config) (t : Table P) (memOk : Bool) (plan : Plan) : Exec (Table P × Option (Bool × Option Nat)) :=
  if underloaded t then shrinkX c t memOk plan
  else if overloaded t then growX c t memOk plan
  else .ok (t, some (true, plan.ctor))

/-- `internalAdd`, amtl/am-hashtable.h:339-369; on success also the entry to use and what is left of the plan. -/
def internalAddX (c : Config) (t : Table P) (i : Insert) (memOk : Bool) (plan : Plan) : Exec (Table P × Option (Bool × Insert × Option Nat)) := do
  let e ← t.load i.entry
  if e.isLive then .error .assertFail
  else if e.removed then do
    let (ok, t, i) ← internalAddTail { t with ndeleted := dec32 t.ndeleted } i
    .ok (t, some (ok, i, plan.ctor))
  else if t.nelements = c.kMaxCapacity then do
    reportAllocationOverflow c
    .ok (t, some (false, i, plan.ctor))
  else do
    let oldCapacity := t.capacity
    match ← checkDensityX c t memOk plan with
    | (t, none) => .ok (t, none)
    | (t, some (false, k)) => .ok (t, some (false, i, k))
    | (t, some (true, k)) =>
      if t.capacity ≠ oldCapacity then do
        let i ← insertUnique t i.hash
        let (ok, t, i) ← internalAddTail t i
        .ok (t, some (ok, i, k))
      else do
        let (ok, t, i) ← internalAddTail t i
        .ok (t, some (ok, i, k))

/-- `add(Insert&, U&&)` and `add(Insert&)`, amtl/am-hashtable.h:456-468. The entry has its hash and is counted before the payload is constructed (:366-367, :460). -/
def addX (c : Config) (t : Table P) (i : Insert) (p : P) (memOk : Bool) (plan : Plan) : Exec (Table P × Option (Bool × Insert)) := do
  match ← internalAddX c t i memOk plan with
  | (t, none) => .ok (t, none)
  | (t, some (false, i, _)) => .ok (t, some (false, i))
  | (t, some (true, i, k)) =>
    match fire k with
    | none => .ok (t, none)
    | some _ => do
      let e ← t.load i.entry
      let e ← e.construct p
      let t ← t.store i.entry e
      .ok ({ t with ctors := t.ctors + 1 }, some (true, i))

/-- `removeIfExists`, amtl/am-hashtable.h:441-447; the flag tells whether it returned. -/
def removeIfExistsX (pol : PolicyX L P S) (t : Table P) (key : L) (s : S) : Exec (Table P × Option Unit × S) := do
  match ← findX pol t key s with
  | (none, s) => .ok (t, none, s)
  | (some r, s) => do
    let f ← t.found r
    if f then do
      let t ← remove t r
      .ok (t, some (), s)
    else .ok (t, some (), s)

/-- The client code of `exec` (Spec.lean), which catches what a call throws (`none`). Client code over amtl/am-hashtable.h:431-541. -/
def execX (c : Config) (pol : PolicyX L P S) (t : Table P) (s : S) (op : Op L P) (plan : Plan) : Exec (Table P × Option (Out P) × S) :=
  match op with
  | .find l => do
    match ← findX pol t l s with
    | (none, s) => .ok (t, none, s)
    | (some r, s) => do
      let f ← t.found r
      if f then do
        let p ← deref t r
        .ok (t, some (.found (some p)), s)
      else .ok (t, some (.found none), s)
  | .add l p memOk => do
    match ← findForAddX pol t l s with
    | (none, s) => .ok (t, none, s)
    | (some i, s) => do
      let f ← t.found i.entry
      if f then do
        let q ← deref t i.entry
        .ok (t, some (.present q), s)
      else do
        match ← addX c t i p memOk plan with
        | (t, none) => .ok (t, none, s)
        | (t, some (true, i)) => do
          let q ← deref t i.entry
          .ok (t, some (.added q), s)
        | (t, some (false, _)) => .ok (t, some .failed, s)
  | .assign l p => do
    match ← findX pol t l s with
    | (none, s) => .ok (t, none, s)
    | (some r, s) => do
      let f ← t.found r
      if f then do
        let q ← deref t r
        let t ← assign t r p
        .ok (t, some (.found (some q)), s)
      else .ok (t, some (.found none), s)
  | .removeIfExists l => do
    match ← removeIfExistsX pol t l s with
    | (t, none, s) => .ok (t, none, s)
    | (t, some _, s) => .ok (t, some .done, s)
  | .clear => do
    let t ← clear t
    .ok (t, some .done, s)
  | .checkDensity memOk => do
    match ← checkDensityX c t memOk plan with
    | (t, none) => .ok (t, none, s)
    | (t, some (ok, _)) => .ok (t, some (.density ok), s)
  | .sweep pick => do
    let (t, vs) ← sweep pick t
    .ok (t, some (.visited vs), s)
  | .elements => .ok (t, some (.count (elements t)), s)
  | .move => do
    let (t', old) := moveFrom t
    let _ ← destroy old
    .ok (t', some .done, s)

/-- A client history; stops at the first fault. Client code over amtl/am-hashtable.h:431-541. -/
def runX (c : Config) (pol : PolicyX L P S) (t : Table P) (s : S) : List (Op L P × Plan) → Exec (Table P × List (Option (Out P)) × S)
  | [] => .ok (t, [], s)
  | (op, plan) :: ops => do
    let (t, o, s) ← execX c pol t s op plan
    let (t, os, s) ← runX c pol t s ops
    .ok (t, o :: os, s)

end Verif.HashTable
