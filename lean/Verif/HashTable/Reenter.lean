import Verif.HashTable.Spec
/-!
# Model: payload destructors that use the table (amtl/am-hashtable.h)

`Model.lean` treats the destruction of a payload as one atomic step. Here it is a call of user code: between its
beginning and its end the destructor may itself call `find`, `add`, `removeIfExists`, `clear`, … on the same table.

* A `Frame` is a payload destructor that is running, with the library function that called it. The stack holds them all,
  innermost first; with an empty stack the program itself is running.
* `HashTableEntry::setRemoved`, `setFree` and `destruct` (amtl/am-hashtable.h:69-83) run `t_.~T()` BEFORE they change
  `hash_`, so an entry whose destructor is running still looks live. Its payload can be read (the members the policy looks
  at are alive until the destructor's body has ended; for `HashMap` the key member is destroyed after the value).
* To start a second destructor of the same payload is a `doubleFree` fault.
* Simplification: the destructor of a payload that has been moved away by a resize does nothing; `hash` and `matches` do not
  call the table.
-/
namespace Verif.HashTable
open Verif

variable {L P : Type}

/-- A running payload destructor, as called from amtl/am-hashtable.h:371-376 (`removeEntry`), 478-484 (`clear`) or 403-407
(`~HashTable`); the index is that of the entry. -/
inductive Frame where
  | removing (i : Nat)
  | clearing (i : Nat)
  | destroying (i : Nat)
deriving DecidableEq, Repr

/-- The entry whose payload is being destroyed. Cites as for `Frame`, amtl/am-hashtable.h:80-83. -/
def Frame.slot : Frame → Nat
  | .removing i | .clearing i | .destroying i => i

/-- The table and the running payload destructors (innermost first). Members: amtl/am-hashtable.h:548-552. -/
structure Mach (P : Type) where
  t : Table P
  stack : List Frame

/-- Is the payload of entry `i` being destroyed? Ghost, about `t_.~T()` at amtl/am-hashtable.h:82. -/
def Mach.busy (m : Mach P) (i : Nat) : Bool := m.stack.any (fun f => f.slot == i)

/-- What the program, or the destructor on top of the stack, does next. Public functions of amtl/am-hashtable.h:403-499. -/
inductive Act (L P : Type) where
  | find (l : L)
  /-- `i = findForAdd(l); if (!i.found()) add(i, p);` -/
  | add (l : L) (p : P) (memOk : Bool)
  | elements
  | removeIfExists (l : L)
  | clear
  /-- `~HashTable` -/
  | destroy
  /-- the innermost payload destructor ends -/
  | ret

/-- The loop of `clear` (amtl/am-hashtable.h:479-481) from entry `i` up to the next payload destructor call, or to the end
and the two assignments at 482-483. Result: the entry whose destructor is now running. -/
def clearScan (busy : Nat → Bool) (i : Nat) : Nat → Table P → Exec (Table P × Option Nat)
  | 0, t => .ok ({ t with ndeleted := 0, nelements := 0 }, none)
  | rem + 1, t => do
    let e ← t.load i
    if e.isLive then
      if busy i then .error .doubleFree else .ok (t, some i)
    else do
      let (e, _) ← e.setFree
      let t ← t.store i e
      clearScan busy (i + 1) rem t

/-- The loop of `~HashTable` (amtl/am-hashtable.h:404-405) from entry `i` up to the next payload destructor call, or to the
end and the `free` at 406. -/
def destroyScan (busy : Nat → Bool) (i : Nat) : Nat → Table P → Exec (Table P × Option Nat)
  | 0, t =>
    match t.table with
    | none => .ok (t, none)
    | some _ => .ok ({ t with table := none, frees := t.frees + 1 }, none)
  | rem + 1, t => do
    let e ← t.load i
    if e.isLive then
      if busy i then .error .doubleFree else .ok (t, some i)
    else destroyScan busy (i + 1) rem t

/-- Continue with the destructor call that `clear` or `~HashTable` makes, or return from it. amtl/am-hashtable.h:403-407,
478-484. -/
def enter (fr : Nat → Frame) (stack : List Frame) : Table P × Option Nat → Mach P × Out P
  | (t, some i) => (⟨t, fr i :: stack⟩, .done)
  | (t, none) => (⟨t, stack⟩, .done)

/-- The end of a payload destructor, and what the library does then: `removeEntry` writes the removed mark and the counters
(amtl/am-hashtable.h:71, 374-375), `clear` marks the entry free and goes on (75, 479-483), `~HashTable` goes on
(404-406) and leaves `hash_` as it was. -/
def endDtor (m : Mach P) : Exec (Mach P × Out P) :=
  match m.stack with
  | [] => .ok (m, .done)
  | .removing i :: st => do
    let t ← removeEntry m.t i
    .ok (⟨t, st⟩, .done)
  | .clearing i :: st => do
    let e ← m.t.load i
    let (e, k) ← e.setFree
    let t ← m.t.store i e
    let r ← clearScan (Mach.busy ⟨t, st⟩) (i + 1) (t.capacity - (i + 1)) { t with dtors := t.dtors + k }
    .ok (enter .clearing st r)
  | .destroying i :: st => do
    let e ← m.t.load i
    let (e, k) ← e.destruct
    let t ← m.t.store i e
    let r ← destroyScan (Mach.busy ⟨t, st⟩) (i + 1) (t.capacity - (i + 1)) { t with dtors := t.dtors + k }
    .ok (enter .destroying st r)

/-- `removeIfExists`, amtl/am-hashtable.h:441-452 and 371-373, up to the call of the payload's destructor. -/
def startRemove (pol : Policy L P) (m : Mach P) (l : L) : Exec (Mach P × Out P) := do
  let r ← find pol m.t l
  let f ← m.t.found r
  if f then
    if m.busy r then .error .doubleFree
    else .ok (⟨m.t, .removing r :: m.stack⟩, .done)
  else .ok (m, .done)

/-- One action. A resize (amtl/am-hashtable.h:269-277) moves every payload that looks live and destroys the old one: with
a running destructor that is a second destructor call on the same payload. -/
def step (c : Config) (pol : Policy L P) (m : Mach P) : Act L P → Exec (Mach P × Out P)
  | .find l => do
    let (t, o) ← exec c pol m.t (.find l)
    .ok (⟨t, m.stack⟩, o)
  | .add l p memOk => do
    let (t, o) ← exec c pol m.t (.add l p memOk)
    if t.mallocs ≠ m.t.mallocs ∧ m.stack ≠ [] then .error .doubleFree
    else .ok (⟨t, m.stack⟩, o)
  | .elements => .ok (m, .count (elements m.t))
  | .removeIfExists l => startRemove pol m l
  | .clear => do
    let r ← clearScan m.busy 0 m.t.capacity m.t
    .ok (enter .clearing m.stack r)
  | .destroy => do
    let r ← destroyScan m.busy 0 m.t.capacity m.t
    .ok (enter .destroying m.stack r)
  | .ret => endDtor m

/-- A history of the program and of the destructors it runs; stops at the first fault. Client code over
amtl/am-hashtable.h:403-499. -/
def runR (c : Config) (pol : Policy L P) (m : Mach P) : List (Act L P) → Exec (Mach P × List (Out P))
  | [] => .ok (m, [])
  | a :: as => do
    let (m, o) ← step c pol m a
    let (m, os) ← runR c pol m as
    .ok (m, o :: os)

end Verif.HashTable
