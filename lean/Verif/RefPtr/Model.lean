import Verif.Common
/-!
# Model of `amtl/am-refcounting.h` (single-threaded)

Objects are numbered in order of creation; an address is never used again (so a stale pointer is always
noticed). An object `o` has `arity o` members of type `RefPtr`, which its destructor destroys. A *slot* is
the storage of a handle (`RefPtr` or `AlreadyRefed`: both hold one pointer): a variable of the program
(`root`) or a member of an object. `refcount_` is a natural number: exceeding `uintptr_t` would take 2^64
pointer-sized handles at the same time.
-/
namespace Verif.RefPtr
open Verif

/-- An object derived from `Refcounted`, am-refcounting.h:114-136. -/
abbrev Obj := Nat

/-- Where a handle (am-refcounting.h:54-100, 191-319) is stored. -/
inductive Slot (H : Type) where
  | root (h : H)
  | field (o : Obj) (i : Nat)
deriving DecidableEq

/-- The objects (am-refcounting.h:114-136) and the handles (99, 318) of a program. -/
structure State (H : Type) where
  /-- objects whose destructor has not begun -/
  live : List Obj
  /-- `refcount_`, am-refcounting.h:135 -/
  cnt : Obj → Nat
  /-- handles that are constructed and not destroyed -/
  hs : List (Slot H)
  /-- `thing_` of every handle, am-refcounting.h:99, 318 -/
  val : Slot H → Option Obj
  /-- number of objects created -/
  fresh : Nat
  /-- log of the destructions -/
  freed : List Obj

/-- No objects, no handles (client state). -/
def State.new {H : Type} : State H :=
  { live := [], cnt := fun _ => 0, hs := [], val := fun _ => none, fresh := 0, freed := [] }

variable {H : Type} [DecidableEq H]

/-- `refcount_++` of a live object: `Refcounted::AddRef`, am-refcounting.h:122-124. -/
def addRef (s : State H) (o : Obj) : Exec (State H) :=
  if o ∉ s.live then .error .useAfterFree
  else .ok { s with cnt := fun p => if p = o then s.cnt o + 1 else s.cnt p }

/-- `if (thing_) thing_->AddRef();` (`RefPtr::AddRef`, am-refcounting.h:308-311). -/
def addRefOpt (s : State H) : Option Obj → Exec (State H)
  | none => .ok s
  | some o => addRef s o

/-- Read `thing_` of a handle. am-refcounting.h:99, 318. -/
def read (s : State H) (d : Slot H) : Exec (Option Obj) :=
  if d ∉ s.hs then .error .useAfterFree else .ok (s.val d)

/-- Write `thing_` of a handle. am-refcounting.h:73, 95, 213, 259-262, 268, 276, 282, 289-290. -/
def write (s : State H) (d : Slot H) (v : Option Obj) : Exec (State H) :=
  if d ∉ s.hs then .error .useAfterFree
  else .ok { s with val := fun e => if e = d then v else s.val e }

/-- `~RefPtr` / `~AlreadyRefed` (am-refcounting.h:75-78, 232-234): release, then the handle is gone. `rel`
is `Release` of the object. -/
def destroySlot (rel : State H → Obj → Exec (State H)) (s : State H) (d : Slot H) : Exec (State H) := do
  let v ← read s d
  let s ← match v with
    | none => .ok s
    | some o => rel s o
  .ok { s with hs := s.hs.filter (fun e => decide (e ≠ d)) }

/-- Destruction of the first `n` handle members of `o`, last one first. The implicit part of the destructor that `delete` (am-refcounting.h:128) runs. -/
def members (rel : State H → Obj → Exec (State H)) (o : Obj) : Nat → State H → Exec (State H)
  | 0, s => .ok s
  | n + 1, s => do
    let s ← destroySlot rel s (.field o n)
    members rel o n s

/-- `Refcounted::Release`, am-refcounting.h:125-129, with `delete` and the cascade it starts. `fuel`
bounds the depth of the cascade (the theorems show that it never runs out). -/
def release (arity : Obj → Nat) : Nat → State H → Obj → Exec (State H)
  | 0, _, _ => .error .diverge
  | fuel + 1, s, o =>
    if o ∉ s.live then .error .useAfterFree
    else if s.cnt o = 0 then .error .assertFail
    else
      let s := { s with cnt := fun p => if p = o then s.cnt o - 1 else s.cnt p }
      if s.cnt o = 0 then
        members (release arity fuel) o (arity o) { s with live := s.live.filter (fun p => decide (p ≠ o)), freed := o :: s.freed }
      else .ok s

/-- `Release` with enough depth. am-refcounting.h:125-129. -/
def releaseObj (arity : Obj → Nat) (s : State H) (o : Obj) : Exec (State H) :=
  release arity (s.live.length + 1) s o

/-- `RefPtr::Release`: `if (thing_) thing_->Release();`, am-refcounting.h:312-315. -/
def releaseOpt (arity : Obj → Nat) (s : State H) : Option Obj → Exec (State H)
  | none => .ok s
  | some o => releaseObj arity s o

/-- Begin the lifetime of a handle. The member initialisers of am-refcounting.h:58-71, 195-230. -/
def construct (s : State H) (d : Slot H) (v : Option Obj) : Exec (State H) :=
  if d ∈ s.hs then .error .overwriteLive
  else .ok { s with hs := d :: s.hs, val := fun e => if e = d then v else s.val e }

/-- `new T`: count 0 (am-refcounting.h:118-120), members default-constructed (am-refcounting.h:201-203). -/
def newObj (arity : Obj → Nat) (s : State H) : State H × Obj :=
  let o := s.fresh
  let fs : List (Slot H) := (List.range (arity o)).map (Slot.field o)
  ({ s with
      live := o :: s.live, fresh := o + 1, hs := fs ++ s.hs
      cnt := fun p => if p = o then 0 else s.cnt p
      val := fun e => if e ∈ fs then none else s.val e }, o)

/-- `RefPtr(T*)`, am-refcounting.h:195-199. -/
def ctorRaw (s : State H) (d : Slot H) (v : Option Obj) : Exec (State H) := do
  let s ← construct s d v
  addRefOpt s v

/-- Copy constructors, am-refcounting.h:64-69, 205-209, 215-220. -/
def ctorCopy (s : State H) (d e : Slot H) : Exec (State H) := do
  let v ← read s e
  let s ← construct s d v
  addRefOpt s v

/-- Move constructors and adoption, am-refcounting.h:70-74, 210-214, 221-231, `take`/`forget` 94-96, 258-263
(`ReturnAndVoid`): the source is left null. -/
def ctorMove (s : State H) (d e : Slot H) : Exec (State H) := do
  let v ← read s e
  let s ← construct s d v
  write s e none

/-- `operator=(S*)`, am-refcounting.h:265-271. -/
def assignRaw (arity : Obj → Nat) (s : State H) (d : Slot H) (v : Option Obj) : Exec (State H) := do
  let old ← read s d
  let s ← releaseOpt arity s old
  let s ← write s d v
  addRefOpt s v

/-- `operator=(const RefPtr&)`, am-refcounting.h:280-285. -/
def assignCopy (arity : Obj → Nat) (s : State H) (d e : Slot H) : Exec (State H) := do
  let old ← read s d
  let s ← releaseOpt arity s old
  let v ← read s e
  let s ← write s d v
  addRefOpt s v

/-- `operator=(RefPtr&&)`, am-refcounting.h:287-292, and `operator=(const AlreadyRefed&)`, 273-278. -/
def assignMove (arity : Obj → Nat) (s : State H) (d e : Slot H) : Exec (State H) := do
  let old ← read s d
  let s ← releaseOpt arity s old
  let v ← read s e
  let s ← write s d v
  write s e none

end Verif.RefPtr
