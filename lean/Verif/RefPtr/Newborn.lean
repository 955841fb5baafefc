import Verif.RefPtr.Manual
/-!
# Model: constructors that take references on the object they construct

`Refcounted()` sets the count to 0 (am-refcounting.h:118-120), so while the rest of a class's constructor runs nobody owns the object.
The body of the constructor is a program as in Manual.lean that knows the new object (`this`); its member handles exist already.
Objects that the body itself creates have constructors that do not touch references.
-/
namespace Verif.RefPtr
open Verif

variable {H : Type} [DecidableEq H]

/-- `new T`: the `Refcounted` base and the members, am-refcounting.h:118-120, 201-203, and then the body of `T`'s constructor. -/
def newWith (arity : Obj → Nat) (s : State H) (body : List (MOp H)) : Exec (State H) :=
  mrun arity (newObj arity s).1 body

/-- `RefPtr<T> h(new T);` for such a class, am-refcounting.h:195-199. -/
def ctorNewWith (arity : Obj → Nat) (s : State H) (h : H) (body : List (MOp H)) : Exec (State H) := do
  let o := (newObj arity s).2
  let s ← newWith arity s body
  ctorRaw s (.root h) (some o)

end Verif.RefPtr
