import Verif.HashTable.Spec
/-!
# `amtl/am-hashtable.h` with the hash policy as code that is called

`Verif.HashTable.Model` takes `HashPolicy::hash` and `HashPolicy::matches` as functions. Here each call is a step that may change a state `S`, answer differently each time,
or fail. The loops are those of `Verif.HashTable.Model`, with the calls where the code makes them. Functions that take no policy (`add`, `removeEntry`, resizing, `clear`,
iteration) are used unchanged: in the code, too, they call neither function (amtl/am-hashtable.h:241-295, 339-376, 456-541).
-/
namespace Verif.HashTable
open Verif

variable {L P S : Type}

/-- `HashPolicy`, amtl/am-hashtable.h:111-128, with a state. -/
structure PolicyC (L P S : Type) where
  hash : L → S → Exec (BitVec 32 × S)
  isMatch : L → P → S → Exec (Bool × S)

/-- `computeHash`, amtl/am-hashtable.h:145-151. -/
def computeHashC (pol : PolicyC L P S) (key : L) (s : S) : Exec (BitVec 32 × S) := do
  let (h, s) ← pol.hash key s
  let hash := h * 0x9E3779B9#32
  .ok (if hash = kFreeHash ∨ hash = kRemovedHash then hash + 2 else hash, s)

/-- The `for (;;)` loop of `lookup`, amtl/am-hashtable.h:302-310. -/
def lookupLoopC (pol : PolicyC L P S) (t : Table P) (key : L) (hash cur : BitVec 32) (s : S) : Nat → Exec (Nat × S)
  | 0 => .error .diverge
  | fuel + 1 => do
    let i := probeEntry cur t.capacity
    let e ← t.load i
    if e.isFree then .ok (i, s)
    else if e.isLive && e.sameHash hash then do
      let p ← e.payload
      let (b, s) ← pol.isMatch key p s
      if b then .ok (i, s)
      else lookupLoopC pol t key hash (cur + 1) s fuel
    else lookupLoopC pol t key hash (cur + 1) s fuel

/-- `lookup` / `find`, amtl/am-hashtable.h:298-313, 431-433. -/
def findC (pol : PolicyC L P S) (t : Table P) (key : L) (s : S) : Exec (Nat × S) := do
  let (hash, s) ← computeHashC pol key s
  probulatorCheck t.capacity
  lookupLoopC pol t key hash hash s t.capacity

/-- The `for (;;)` loop of `lookupForAdd`, amtl/am-hashtable.h:320-331. -/
def lookupForAddLoopC (pol : PolicyC L P S) (t : Table P) (key : L) (hash cur : BitVec 32) (firstRemoved : Option Nat) (s : S) :
    Nat → Exec (Nat × Option Nat × S)
  | 0 => .error .diverge
  | fuel + 1 => do
    let i := probeEntry cur t.capacity
    let e ← t.load i
    if e.isFree then .ok (i, firstRemoved, s)
    else if e.removed then
      lookupForAddLoopC pol t key hash (cur + 1) (match firstRemoved with | none => some i | some f => some f) s fuel
    else if e.sameHash hash then do
      let p ← e.payload
      let (b, s) ← pol.isMatch key p s
      if b then .ok (i, firstRemoved, s)
      else lookupForAddLoopC pol t key hash (cur + 1) firstRemoved s fuel
    else lookupForAddLoopC pol t key hash (cur + 1) firstRemoved s fuel

/-- `lookupForAdd` / `findForAdd`, amtl/am-hashtable.h:316-337, 437-439. -/
def findForAddC (pol : PolicyC L P S) (t : Table P) (key : L) (s : S) : Exec (Insert × S) := do
  let (hash, s) ← computeHashC pol key s
  probulatorCheck t.capacity
  let (i, firstRemoved, s) ← lookupForAddLoopC pol t key hash hash none s t.capacity
  let e ← t.load i
  match e.isLive, firstRemoved with
  | false, some f => .ok ({ entry := f, hash := hash }, s)
  | _, _ => .ok ({ entry := i, hash := hash }, s)

/-- `removeIfExists`, amtl/am-hashtable.h:441-447. -/
def removeIfExistsC (pol : PolicyC L P S) (t : Table P) (key : L) (s : S) : Exec (Table P × S) := do
  let (r, s) ← findC pol t key s
  let f ← t.found r
  if f then do
    let t ← remove t r
    .ok (t, s)
  else .ok (t, s)

/-- The client code of `exec` (Spec.lean), over the functions above. Client code over amtl/am-hashtable.h:431-541. -/
def execC (c : Config) (pol : PolicyC L P S) (t : Table P) (s : S) : Op L P → Exec (Table P × Out P × S)
  | .find l => do
    let (r, s) ← findC pol t l s
    let f ← t.found r
    if f then do
      let p ← deref t r
      .ok (t, .found (some p), s)
    else .ok (t, .found none, s)
  | .add l p memOk => do
    let (i, s) ← findForAddC pol t l s
    let f ← t.found i.entry
    if f then do
      let q ← deref t i.entry
      .ok (t, .present q, s)
    else do
      let (ok, t, i) ← add c t i p memOk
      if ok then do
        let q ← deref t i.entry
        .ok (t, .added q, s)
      else .ok (t, .failed, s)
  | .assign l p => do
    let (r, s) ← findC pol t l s
    let f ← t.found r
    if f then do
      let q ← deref t r
      let t ← assign t r p
      .ok (t, .found (some q), s)
    else .ok (t, .found none, s)
  | .removeIfExists l => do
    let (t, s) ← removeIfExistsC pol t l s
    .ok (t, .done, s)
  | .clear => do
    let t ← clear t
    .ok (t, .done, s)
  | .checkDensity memOk => do
    let (ok, t) ← checkDensity c t memOk
    .ok (t, .density ok, s)
  | .sweep pick => do
    let (t, vs) ← sweep pick t
    .ok (t, .visited vs, s)
  | .elements => .ok (t, .count (elements t), s)
  | .move => do
    let (t', old) := moveFrom t
    let _ ← destroy old
    .ok (t', .done, s)

end Verif.HashTable
