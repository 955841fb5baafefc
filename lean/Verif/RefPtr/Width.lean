import Verif.RefPtr.Spec
/-!
# `refcount_` as the machine word it is (am-refcounting.h:118-135, 153-187)

`refcount_` is a `uintptr_t` of `w` bits: `refcount_++` wraps around at `2 ^ w`. (`Release` never decrements 0: assertion at :126.)
-/
namespace Verif.RefPtr
open Verif

variable {H : Type} [DecidableEq H]

/-- `refcount_++`: am-refcounting.h:122-124. -/
def addRefW (w : Nat) (s : State H) (o : Obj) : Exec (State H) :=
  if o ∉ s.live then .error .useAfterFree
  else .ok { s with cnt := fun p => if p = o then (s.cnt o + 1) % 2 ^ w else s.cnt p }

/-- `RefPtr::AddRef`: am-refcounting.h:308-311. -/
def addRefOptW (w : Nat) (s : State H) : Option Obj → Exec (State H)
  | none => .ok s
  | some o => addRefW w s o

/-- `RefPtr(T*)`: am-refcounting.h:195-199. -/
def ctorRawW (w : Nat) (s : State H) (d : Slot H) (v : Option Obj) : Exec (State H) := do
  let s ← construct s d v
  addRefOptW w s v

/-- Copy constructors: am-refcounting.h:64-69, 205-209, 215-220. -/
def ctorCopyW (w : Nat) (s : State H) (d e : Slot H) : Exec (State H) := do
  let v ← read s e
  let s ← construct s d v
  addRefOptW w s v

/-- `operator=(S*)`: am-refcounting.h:265-271. -/
def assignRawW (w : Nat) (arity : Obj → Nat) (s : State H) (d : Slot H) (v : Option Obj) : Exec (State H) := do
  let old ← read s d
  let s ← releaseOpt arity s old
  let s ← write s d v
  addRefOptW w s v

/-- `operator=(const RefPtr&)`: am-refcounting.h:280-285. -/
def assignCopyW (w : Nat) (arity : Obj → Nat) (s : State H) (d e : Slot H) : Exec (State H) := do
  let old ← read s d
  let s ← releaseOpt arity s old
  let v ← read s e
  let s ← write s d v
  addRefOptW w s v

/-- One operation with a `w`-bit counter: as `exec`. am-refcounting.h:191-319. -/
def execW (w : Nat) (arity : Obj → Nat) (s : State H) : Op H → Exec (State H)
  | .ctorNull h => construct s (.root h) none
  | .ctorNew h =>
    let (s, o) := newObj arity s
    ctorRawW w s (.root h) (some o)
  | .ctorGet h e => do
    let v ← read s e
    ctorRawW w s (.root h) v
  | .ctorCopy h e => ctorCopyW w s (.root h) e
  | .ctorMove h e => ctorMove s (.root h) e
  | .assignNull d => assignRawW w arity s d none
  | .assignNew d =>
    let (s, o) := newObj arity s
    assignRawW w arity s d (some o)
  | .assignGet d e => do
    let v ← read s e
    assignRawW w arity s d v
  | .assignCopy d e => assignCopyW w arity s d e
  | .assignMove d e => assignMove arity s d e
  | .destroy h => destroySlot (releaseObj arity) s (.root h)

/-- A history with a `w`-bit counter: am-refcounting.h:191-319. -/
def runW (w : Nat) (arity : Obj → Nat) (s : State H) : List (Op H) → Exec (State H)
  | [] => .ok s
  | op :: ops => do
    let s ← execW w arity s op
    runW w arity s ops

end Verif.RefPtr
