import Verif.ThreadLocal.Spec
/-!
# More of amtl/am-threadlocal.h: the destructor, the values' way through a `void*`, and KE_SINGLE_THREADED
-/
namespace Verif.ThreadLocal
open Verif

variable {T A : Type}

/-- `~ThreadLocal()`, am-threadlocal.h:139-142: the key that is passed to `pthread_key_delete`, if it is called.
Simplified: only the call is modelled, not the system's bookkeeping behind it. -/
def State.destroy (s : State T A) : Exec (Option Nat) :=
  if s.allocated then
    match s.key with
    | none => .error .uninitialised
    | some k => .ok (some k)
  else .ok none

/-- `reinterpret_cast<void*>(t)` (am-threadlocal.h:155) or `(uintptr_t)t` (am-utility.h:66-68) for a `t` of an integer type
of `w` bits, pointers having `p` bits: signed values are sign-extended, unsigned ones zero-extended, wide ones cut off. -/
def castIn (p : Nat) {w : Nat} (signed : Bool) (t : BitVec w) : BitVec p := if signed then t.signExtend p else t.setWidth p

/-- `(T) reinterpret_cast<uintptr_t>(v)`, am-threadlocal.h:124, 152. -/
def castOut {p : Nat} (w : Nat) (v : BitVec p) : BitVec w := v.setWidth w

/-- The object in single-threaded builds, am-threadlocal.h:177-178. -/
structure Single (A : Type) where
  t_ : A

/-- `ThreadLocal()`, am-threadlocal.h:161-164. -/
def Single.start (dflt : A) : Single A := ⟨dflt⟩

/-- One call, with its event as in the threaded model: `allocate`, `get`, `set` of am-threadlocal.h:166-175. -/
def Single.call (s : Single A) (t : T) : Op A → Single A × Event T A
  | .allocate => (s, .allocated t true)
  | .get => (s, .got t s.t_)
  | .set a => (⟨a⟩, .didSet t a)

/-- Calls one after the other; the events, latest first. am-threadlocal.h:160-178. -/
def Single.calls (t : T) : List (Op A) → Single A × List (Event T A) → Single A × List (Event T A)
  | [], r => r
  | o :: os, r => Single.calls t os ((r.1.call t o).1, (r.1.call t o).2 :: r.2)

end Verif.ThreadLocal
