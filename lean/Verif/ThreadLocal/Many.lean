import Verif.Common
/-!
# Many `ThreadLocal` objects in one process (amtl/am-threadlocal.h)

Any number of `ThreadLocal` objects are constructed, used by any threads and destroyed, and other code of the process uses the system's slots directly.
Calls do not overlap in time (overlapping first uses are the subject of `Verif.ThreadLocal.Model`). The system is taken at its contract
(`pthread_key_create` and so on; `TlsAlloc` and so on behave alike): it has `limit` slots, hands out any key that is not in use (`pick`), possibly one that
was in use before, and a new key is null in every thread. `pthread_setspecific` running out of memory is modelled in `Verif.ThreadLocal.Lossy`, not here.
-/
namespace Verif.ThreadLocal.Many
open Verif

variable {V H T A : Type} [DecidableEq V] [DecidableEq H] [DecidableEq T]

/-- A `ThreadLocal` object: `allocated_` and `key_`, am-threadlocal.h:95, 158 (`none`: not initialised). -/
structure Obj where
  allocated : Bool
  key : Option Nat
deriving DecidableEq

/-- The objects by name, the keys that other code holds, and the system's tables behind am-threadlocal.h:141, 147, 152, 155: the keys in use and their values in
every thread. -/
structure World (V H T A : Type) where
  objs : V → Option Obj
  lib : H → Option Nat
  live : List Nat
  val : Nat → T → A

/-- Nothing exists yet (am-threadlocal.h has no global state). -/
def World.start (dflt : A) : World V H T A := { objs := fun _ => none, lib := fun _ => none, live := [], val := fun _ _ => dflt }

/-- `pthread_key_create`, as called at am-threadlocal.h:147. -/
def create (limit : Nat) (pick : List Nat → Nat) (dflt : A) (s : World V H T A) : Option (Nat × World V H T A) :=
  if s.live.length < limit then
    let k := pick s.live
    some (k, { s with live := k :: s.live, val := fun j => if j = k then fun _ => dflt else s.val j })
  else none

/-- `pthread_key_delete`, as called at am-threadlocal.h:141. -/
def delete (s : World V H T A) (k : Nat) : Exec (World V H T A) :=
  if k ∈ s.live then .ok { s with live := s.live.erase k } else .error .useAfterFree

/-- `pthread_getspecific`, as called at am-threadlocal.h:152. -/
def getspecific (s : World V H T A) (k : Nat) (t : T) : Exec A := if k ∈ s.live then .ok (s.val k t) else .error .useAfterFree

/-- `pthread_setspecific`, as called at am-threadlocal.h:155. -/
def setspecific (s : World V H T A) (k : Nat) (t : T) (a : A) : Exec (World V H T A) :=
  if k ∈ s.live then .ok { s with val := fun j u => if j = k ∧ u = t then a else s.val j u } else .error .useAfterFree

/-- What is called: members of `ThreadLocal` (am-threadlocal.h:69-156), and the system's functions by other code. -/
inductive Op (V H T A : Type) where
  | ctor (v : V)
  | dtor (v : V)
  | get (t : T) (v : V)
  | set (t : T) (v : V) (a : A)
  | allocate (v : V)
  | libCreate (h : H)
  | libDelete (h : H)
  | libGet (t : T) (h : H)
  | libSet (t : T) (h : H) (a : A)

/-- What a call returns: nothing, a value (am-threadlocal.h:102), or whether a slot was obtained (144). -/
inductive Out (A : Type) where
  | unit
  | got (a : A)
  | ok (b : Bool)
deriving DecidableEq

/-- Use of `key_`, which must have been initialised: am-threadlocal.h:141, 152, 155. -/
def keyOf (o : Obj) : Exec Nat :=
  match o.key with
  | some k => .ok k
  | none => .error .uninitialised

/-- The object a call names; calling on one that does not exist is a fault. The members of am-threadlocal.h:69-156 are called on it. -/
def World.obj (s : World V H T A) (v : V) : Exec Obj :=
  match s.objs v with
  | some o => .ok o
  | none => .error .useAfterFree

/-- The key other code holds (client state, not in am-threadlocal.h:1-185). -/
def World.handle (s : World V H T A) (h : H) : Exec Nat :=
  match s.lib h with
  | some k => .ok k
  | none => .error .useAfterFree

/-- Bookkeeping: an object changes (am-threadlocal.h:99, 145, 147). -/
def World.setObj (s : World V H T A) (v : V) (o : Option Obj) : World V H T A := { s with objs := fun u => if u = v then o else s.objs u }

/-- Bookkeeping for the handles of other code (client state, not in am-threadlocal.h:1-185). -/
def World.setLib (s : World V H T A) (h : H) (k : Option Nat) : World V H T A := { s with lib := fun u => if u = h then k else s.lib u }

/-- `allocate()`, am-threadlocal.h:144-148. -/
def allocate (limit : Nat) (pick : List Nat → Nat) (dflt : A) (s : World V H T A) (v : V) (o : Obj) : Bool × World V H T A :=
  if o.allocated then (true, s)
  else match create limit pick dflt s with
    | some (k, s) => (true, s.setObj v (some { allocated := true, key := some k }))
    | none => (false, s.setObj v (some { o with allocated := true }))

/-- One call. The members of am-threadlocal.h:98-100 (constructor), 139-142 (destructor), 102-106 (`get`), 107-113 (`set`) and 144-148 (`allocate`). -/
def step (limit : Nat) (pick : List Nat → Nat) (dflt : A) (s : World V H T A) : Op V H T A → Exec (World V H T A × Out A)
  | .ctor v => .ok (s.setObj v (some { allocated := false, key := none }), .unit)
  | .dtor v => do
    let o ← s.obj v
    if o.allocated then do
      let k ← keyOf o
      let s ← delete s k
      .ok (s.setObj v none, .unit)
    else .ok (s.setObj v none, .unit)
  | .get t v => do
    let o ← s.obj v
    if !o.allocated then .ok (s, .got dflt)
    else do
      let k ← keyOf o
      let a ← getspecific s k t
      .ok (s, .got a)
  | .set t v a => do
    let o ← s.obj v
    if !o.allocated then
      match allocate limit pick dflt s v o with
      | (false, _) => .error .abort
      | (true, s) => do
        let o ← s.obj v
        let k ← keyOf o
        let s ← setspecific s k t a
        .ok (s, .unit)
    else do
      let k ← keyOf o
      let s ← setspecific s k t a
      .ok (s, .unit)
  | .allocate v => do
    let o ← s.obj v
    let r := allocate limit pick dflt s v o
    .ok (r.2, .ok r.1)
  | .libCreate h =>
    match create limit pick dflt s with
    | some (k, s) => .ok (s.setLib h (some k), .ok true)
    | none => .ok (s, .ok false)
  | .libDelete h => do
    let k ← s.handle h
    let s ← delete s k
    .ok (s.setLib h none, .unit)
  | .libGet t h => do
    let k ← s.handle h
    let a ← getspecific s k t
    .ok (s, .got a)
  | .libSet t h a => do
    let k ← s.handle h
    let s ← setspecific s k t a
    .ok (s, .unit)

/-- Calls one after the other, by any threads: am-threadlocal.h:65-181. -/
def run (limit : Nat) (pick : List Nat → Nat) (dflt : A) : List (Op V H T A) → World V H T A → Exec (World V H T A × List (Out A))
  | [], s => .ok (s, [])
  | o :: os, s => do
    let (s, r) ← step limit pick dflt s o
    let (s, rs) ← run limit pick dflt os s
    .ok (s, r :: rs)

end Verif.ThreadLocal.Many
