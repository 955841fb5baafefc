import Verif.AtomicRef.Model
import Verif.RefTS.Spec
/-!
# Specification: happens-before between the operations on the objects an `AtomicRef` holds

The history of an execution, reduced to what is done to counted objects. `Before` is the happens-before relation of the C++ memory model (C++17
[intro.races]) as far as it comes from: the order of a thread's own steps; hand-overs of references by the client, which must synchronise; release and
acquire operations on the reference count of the object (all writes to it between construction and destruction are read-modify-write operations, so each
heads a release sequence); and the allocator, which orders the release of memory before its reuse. No ordering is assumed of the operations on the
`AtomicRef`'s own word.
-/
namespace Verif.AtomicRef
open Verif
open Verif.RefTS (Orders)

variable {T : Type}

/-- What a thread does to the object at an address, or to another thread. -/
inductive Deed (T : Type) where
  /-- construct it -/
  | born (t : T) (a : Word)
  /-- access it -/
  | use (t : T) (a : Word)
  /-- `refcount_ += 1` -/
  | inc (t : T) (a : Word)
  /-- `refcount_.fetch_sub(1)` -/
  | dec (t : T) (a : Word)
  /-- `refcount_.load()` -/
  | check (t : T) (a : Word)
  /-- destroy it -/
  | died (t : T) (a : Word)
  /-- hand a reference to another thread -/
  | gave (t u : T)
deriving DecidableEq

/-- Who does it. -/
def Deed.thread : Deed T → T
  | .born t _ | .use t _ | .inc t _ | .dec t _ | .check t _ | .died t _ | .gave t _ => t

/-- Which object it is done to. -/
def Deed.object : Deed T → Option Word
  | .born _ a | .use _ a | .inc _ a | .dec _ a | .check _ a | .died _ a => some a
  | .gave _ _ => none

/-- Construction or destruction: must not run concurrently with any other operation on the object. -/
def Deed.exclusive : Deed T → Bool
  | .born _ _ | .died _ _ => true
  | _ => false

/-- A release operation on the count of the object at `a`. -/
def Deed.releases (o : Orders) (a : Word) : Deed T → Bool
  | .inc _ b => o.incRelease && decide (b = a)
  | .dec _ b => o.decRelease && decide (b = a)
  | _ => false

/-- An acquire operation on the count of the object at `a`. -/
def Deed.acquires (o : Orders) (a : Word) : Deed T → Bool
  | .inc _ b => o.incAcquire && decide (b = a)
  | .dec _ b => o.decAcquire && decide (b = a)
  | _ => false

/-- Deed number `i` of the history happens before deed number `j`. -/
inductive Before (o : Orders) (tr : List (Deed T)) : Nat → Nat → Prop
  | sequenced {i j : Nat} {a b : Deed T} : tr[i]? = some a → tr[j]? = some b → i < j → a.thread = b.thread → Before o tr i j
  | handed {i j : Nat} {t u : T} {b : Deed T} : tr[i]? = some (.gave t u) → tr[j]? = some b → i < j → b.thread = u → Before o tr i j
  | counted {i j : Nat} {p : Word} {a b : Deed T} : tr[i]? = some a → tr[j]? = some b → i < j → a.releases o p = true → b.acquires o p = true →
      (∀ (k : Nat) (t : T), i < k → k < j → tr[k]? ≠ some (.born t p)) → Before o tr i j
  | reused {i j : Nat} {t u : T} {p : Word} : tr[i]? = some (.died t p) → tr[j]? = some (.born u p) → i < j → Before o tr i j
  | trans {i j k : Nat} : Before o tr i j → Before o tr j k → Before o tr i k

/-- Construction and destruction of an object race with nothing: each is ordered by happens-before with every other operation on the same address. -/
def RaceFree (o : Orders) (tr : List (Deed T)) : Prop :=
  ∀ (i j : Nat) (a b : Deed T) (p : Word), i < j → tr[i]? = some a → tr[j]? = some b → a.object = some p → b.object = some p →
    (a.exclusive = true ∨ b.exclusive = true) → Before o tr i j

end Verif.AtomicRef
