import Verif.RefPtr.Spec
/-!
# Model: copies of reference-counted objects

`Refcounted` and `VirtualRefcounted` (am-refcounting.h:114-136, 158-186) declare neither copy constructor nor copy
assignment, so the compiler provides both for them and for classes derived from them. They copy `refcount_`
(am-refcounting.h:135, 182) like any other member.
-/
namespace Verif.RefPtr
open Verif

variable {H : Type} [DecidableEq H]

/-- The handle members `0, 1, ...` of the new object `o` are copy-constructed from those of `src` (am-refcounting.h:205-209).
Simplified: the members exist, as null handles, before their turn. `i` members are left. -/
def copyMembers (src o : Obj) (n : Nat) : Nat → State H → Exec (State H)
  | 0, s => .ok s
  | i + 1, s => do
    let v ← read s (.field src (n - (i + 1)))
    let s ← write s (.field o (n - (i + 1))) v
    let s ← addRefOpt s v
    copyMembers src o n i s

/-- The state after storage and the (null) members of a new object exist and its `refcount_` is `k`. The count is the only
difference to `newObj`. am-refcounting.h:114-136. -/
def newCounted (arity : Obj → Nat) (s : State H) (k : Nat) : State H × Obj :=
  let (s1, o) := newObj arity s
  ({ s1 with cnt := fun p => if p = o then k else s1.cnt p }, o)

/-- `new T(*src)` with the implicit copy constructor: base class first (`refcount_` is copied), then the members.
am-refcounting.h:114-136. -/
def copyObj (arity : Obj → Nat) (s : State H) (src : Obj) : Exec (State H × Obj) :=
  if src ∉ s.live then .error .useAfterFree
  else do
    let (s, o) := newCounted arity s (s.cnt src)
    let s ← copyMembers src o (arity o) (arity o) s
    .ok (s, o)

/-- `RefPtr<T> h(new T(*e));`, am-refcounting.h:114-136, 195-199. A null `e` is dereferenced. -/
def ctorCopyOf (arity : Obj → Nat) (s : State H) (h : H) (e : Slot H) : Exec (State H) := do
  match ← read s e with
  | none => .error .nullDeref
  | some src => do
    let (s, o) ← copyObj arity s src
    ctorRaw s (.root h) (some o)

/-- `*d = *e;` with the implicit copy assignment, for classes without handle members: `refcount_` is assigned.
am-refcounting.h:114-136. -/
def assignObj (s : State H) (d e : Slot H) : Exec (State H) := do
  match ← read s d, ← read s e with
  | some p, some q =>
    if p ∉ s.live ∨ q ∉ s.live then .error .useAfterFree
    else .ok { s with cnt := fun x => if x = p then s.cnt q else s.cnt x }
  | _, _ => .error .nullDeref

/-- Programs that also copy objects: the operations of am-refcounting.h:54-100, 191-319 and `RefPtr<T> h(new T(*e))`. -/
inductive XOp (H : Type) where
  | plain (op : Op H)
  | copyOf (h : H) (e : Slot H)

/-- One statement. am-refcounting.h:54-319. -/
def xexec (arity : Obj → Nat) (s : State H) : XOp H → Exec (State H)
  | .plain op => exec arity s op
  | .copyOf h e => ctorCopyOf arity s h e

/-- A program. am-refcounting.h:54-319. -/
def xrun (arity : Obj → Nat) (s : State H) : List (XOp H) → Exec (State H)
  | [] => .ok s
  | op :: ops => do
    let s ← xexec arity s op
    xrun arity s ops

end Verif.RefPtr
