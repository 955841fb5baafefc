import Verif.RefPtr.Spec
/-!
# Model: handles together with `AddRef()` and `Release()` called by hand

`AddRef` and `Release` are public members of `Refcounted` (am-refcounting.h:122-129): a program may keep a raw pointer alive with
them, hand the reference to a handle with `AdoptRef` (102-107), or take it out of one with `take()` (94-96, 258-263).
A raw pointer is the number of its object. Simplified: `new T` is followed by `AddRef()` at once (a newborn object without
references may only be given to a handle, as in `Op`, or be deleted: comment at 109-113).
-/
namespace Verif.RefPtr
open Verif

variable {H : Type} [DecidableEq H]

/-- Statements of a program that uses handles and raw pointers `p`. am-refcounting.h:54-136, 191-319. -/
inductive MOp (H : Type) where
  /-- a statement that only uses handles -/
  | plain (op : Op H)
  /-- `p = new T; p->AddRef();` -/
  | newRef
  /-- `p->AddRef();` -/
  | addRef (p : Obj)
  /-- `p->Release();` -/
  | release (p : Obj)
  /-- `RefPtr<T> h(p);` -/
  | ctorPtr (h : H) (p : Obj)
  /-- `d = p;` -/
  | assignPtr (d : Slot H) (p : Obj)
  /-- `AlreadyRefed<T> h(p);` or `RefPtr<T> h(AdoptRef(p));` -/
  | adopt (h : H) (p : Obj)
  /-- `d = AdoptRef(p);` -/
  | assignAdopt (d : Slot H) (p : Obj)
  /-- `p = e.take();` (`AlreadyRefed`), `p = e.forget().take();` (`RefPtr`) -/
  | take (e : Slot H)

/-- `p = new T; p->AddRef();` am-refcounting.h:118-124. -/
def newRef (arity : Obj → Nat) (s : State H) : Exec (State H) :=
  let (s, o) := newObj arity s
  addRef s o

/-- `operator=(const AlreadyRefed&)` from a temporary `AlreadyRefed<T>(p)`: am-refcounting.h:273-278, 102-107. The temporary is null
when it is destroyed (`take` voided it, 94-96), so its destructor (75-78) does nothing. -/
def assignAdopt (arity : Obj → Nat) (s : State H) (d : Slot H) (p : Obj) : Exec (State H) := do
  let old ← read s d
  let s ← releaseOpt arity s old
  write s d (some p)

/-- `take()`: `ReturnAndVoid(thing_)`, am-refcounting.h:94-96; for a `RefPtr` through a temporary `AlreadyRefed`, 258-263. -/
def takeRef (s : State H) (e : Slot H) : Exec (State H) := do
  let _ ← read s e
  write s e none

/-- One statement. am-refcounting.h:54-136, 191-319. -/
def mexec (arity : Obj → Nat) (s : State H) : MOp H → Exec (State H)
  | .plain op => exec arity s op
  | .newRef => newRef arity s
  | .addRef p => addRef s p
  | .release p => releaseObj arity s p
  | .ctorPtr h p => ctorRaw s (.root h) (some p)
  | .assignPtr d p => assignRaw arity s d (some p)
  | .adopt h p => construct s (.root h) (some p)
  | .assignAdopt d p => assignAdopt arity s d p
  | .take e => takeRef s e

/-- A program. am-refcounting.h:54-136, 191-319. -/
def mrun (arity : Obj → Nat) (s : State H) : List (MOp H) → Exec (State H)
  | [] => .ok s
  | op :: ops => do
    let s ← mexec arity s op
    mrun arity s ops

end Verif.RefPtr
