import Verif.RefPtr.Model
/-!
# Specification: handles and the objects they keep alive
-/
namespace Verif.RefPtr
open Verif

variable {H : Type} [DecidableEq H]

/-- What a program can do with handles. Variables are constructed and destroyed by the program, member
handles by the constructor and destructor of their object. -/
inductive Op (H : Type) where
  /-- `RefPtr<T> h;` -/
  | ctorNull (h : H)
  /-- `RefPtr<T> h(new T);` -/
  | ctorNew (h : H)
  /-- `RefPtr<T> h(e.get());` -/
  | ctorGet (h : H) (e : Slot H)
  /-- `RefPtr<T> h(e);` or the `AlreadyRefed` copy -/
  | ctorCopy (h : H) (e : Slot H)
  /-- `RefPtr<T> h(std::move(e));`, `h(e.take())`, `AlreadyRefed<T> h = e.take();`, ... -/
  | ctorMove (h : H) (e : Slot H)
  /-- `d = nullptr;` -/
  | assignNull (d : Slot H)
  /-- `d = new T;` -/
  | assignNew (d : Slot H)
  /-- `d = e.get();` -/
  | assignGet (d e : Slot H)
  /-- `d = e;` -/
  | assignCopy (d e : Slot H)
  /-- `d = std::move(e);`, or `d = e;` for an `AlreadyRefed` variable `e` -/
  | assignMove (d e : Slot H)
  /-- end of the lifetime of `h` -/
  | destroy (h : H)

def exec (arity : Obj → Nat) (s : State H) : Op H → Exec (State H)
  | .ctorNull h => construct s (.root h) none
  | .ctorNew h =>
    let (s, o) := newObj arity s
    ctorRaw s (.root h) (some o)
  | .ctorGet h e => do
    let v ← read s e
    ctorRaw s (.root h) v
  | .ctorCopy h e => ctorCopy s (.root h) e
  | .ctorMove h e => ctorMove s (.root h) e
  | .assignNull d => assignRaw arity s d none
  | .assignNew d =>
    let (s, o) := newObj arity s
    assignRaw arity s d (some o)
  | .assignGet d e => do
    let v ← read s e
    assignRaw arity s d v
  | .assignCopy d e => assignCopy arity s d e
  | .assignMove d e => assignMove arity s d e
  | .destroy h => destroySlot (releaseObj arity) s (.root h)

def run (arity : Obj → Nat) (s : State H) : List (Op H) → Exec (State H)
  | [] => .ok s
  | op :: ops => do
    let s ← exec arity s op
    run arity s ops

/-- Number of handles on `o`. -/
def handlesOn (s : State H) (o : Obj) : Nat := (s.hs.filter (fun e => decide (s.val e = some o))).length

/-- `o` can be reached from a variable by following handles other than those in `ex`. -/
inductive Reach (s : State H) (ex : List (Slot H)) : Obj → Prop where
  | root {h o} : .root h ∈ s.hs → .root h ∉ ex → s.val (.root h) = some o → Reach s ex o
  | step {p i o} : Reach s ex p → .field p i ∈ s.hs → .field p i ∉ ex → s.val (.field p i) = some o → Reach s ex o

/-- The handle `e` is a variable, or a member of an object that is kept alive without the help of `d`. -/
def Stays (s : State H) (d : Slot H) : Slot H → Prop
  | .root _ => True
  | .field o _ => Reach s [d] o

/-- `d` is null or is not the only handle on its object. -/
def Shared (s : State H) (d : Slot H) : Prop :=
  s.val d = none ∨ ∃ e ∈ s.hs, e ≠ d ∧ s.val e = s.val d

/-- The client's obligations: handles exist when used; and an assignment to the only handle on an object
is not a self-copy, nor does destroying the old object take the operands with it. -/
def Legal (s : State H) : Op H → Prop
  | .ctorNull h => .root h ∉ s.hs
  | .ctorNew h => .root h ∉ s.hs
  | .ctorGet h e => .root h ∉ s.hs ∧ e ∈ s.hs
  | .ctorCopy h e => .root h ∉ s.hs ∧ e ∈ s.hs
  | .ctorMove h e => .root h ∉ s.hs ∧ e ∈ s.hs
  | .assignNull d => d ∈ s.hs ∧ (Shared s d ∨ Stays s d d)
  | .assignNew d => d ∈ s.hs ∧ (Shared s d ∨ Stays s d d)
  | .assignGet d e => d ∈ s.hs ∧ e ∈ s.hs ∧
      (Shared s d ∨ (Stays s d d ∧ ∀ o, s.val e = some o → Reach s [d] o))
  | .assignCopy d e => d ∈ s.hs ∧ e ∈ s.hs ∧ (Shared s d ∨ (e ≠ d ∧ Stays s d d ∧ Stays s d e))
  | .assignMove d e => d ∈ s.hs ∧ e ∈ s.hs ∧ (Shared s d ∨ (Stays s d d ∧ Stays s d e))
  | .destroy h => .root h ∈ s.hs

/-- A legal history: each operation is legal in the state in which it is executed. -/
def LegalRun (arity : Obj → Nat) (s : State H) : List (Op H) → Prop
  | [] => True
  | op :: ops => Legal s op ∧ ∀ s', exec arity s op = .ok s' → LegalRun arity s' ops

/-- The claim: every live object has exactly as many references as handles and at least one; no handle
refers to a destroyed object; an object's member handles exist exactly as long as the object; no object
is destroyed twice, and exactly the objects without a handle have been destroyed. -/
structure Balanced (arity : Obj → Nat) (s : State H) : Prop where
  counted : ∀ o ∈ s.live, s.cnt o = handlesOn s o
  held : ∀ o, o ∈ s.live ↔ ∃ e ∈ s.hs, s.val e = some o
  members : ∀ o i, .field o i ∈ s.hs ↔ o ∈ s.live ∧ i < arity o
  once : s.freed.Nodup
  freedIff : ∀ o, o ∈ s.freed ↔ o < s.fresh ∧ o ∉ s.live

/-- The handle is a member of `o`. -/
def Slot.ownedBy : Slot H → Obj → Bool
  | .root _, _ => false
  | .field p _, o => decide (p = o)

/-- The pointer each handle has after an operation (for the handles that still exist). -/
def valAfter (s : State H) : Op H → Slot H → Option Obj
  | .ctorNull h, x => if x = .root h then none else s.val x
  | .ctorNew h, x => if x = .root h then some s.fresh else if x.ownedBy s.fresh then none else s.val x
  | .ctorGet h e, x => if x = .root h then s.val e else s.val x
  | .ctorCopy h e, x => if x = .root h then s.val e else s.val x
  | .ctorMove h e, x => if x = e then none else if x = .root h then s.val e else s.val x
  | .assignNull d, x => if x = d then none else s.val x
  | .assignNew d, x => if x = d then some s.fresh else if x.ownedBy s.fresh then none else s.val x
  | .assignGet d e, x => if x = d then s.val e else s.val x
  | .assignCopy d e, x => if x = d then s.val e else s.val x
  | .assignMove d e, x => if x = e then none else if x = d then s.val e else s.val x
  | .destroy _, x => s.val x

/-- The variables that exist after an operation. -/
def varAfter (s : State H) : Op H → H → Prop
  | .ctorNull h, k | .ctorNew h, k | .ctorGet h _, k | .ctorCopy h _, k | .ctorMove h _, k => k = h ∨ .root k ∈ s.hs
  | .destroy h, k => k ≠ h ∧ .root k ∈ s.hs
  | _, k => .root k ∈ s.hs

end Verif.RefPtr
