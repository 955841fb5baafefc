import Verif.RefTS.Model
/-!
# Specification: happens-before between the operations on one counted object

An execution is the sequence of its atomic steps. `Before` is the happens-before relation of the C++ memory model (C++17 [intro.races], [atomics.order])
for the operations that occur here:

* sequenced-before: an earlier step of the same thread;
* a reference is handed over (`send`) by means that synchronise (a mutex, a queue, thread creation...): the client's obligation;
* synchronizes-with through `refcount_`: all writes to it are read-modify-write operations, so that each heads a release sequence with all later ones; a
  release operation therefore synchronizes with every later acquire operation on it.
-/
namespace Verif.RefTS

variable {T : Type}

/-- The thread that takes the step. -/
def Act.thread : Act T → T
  | .addRef t => t
  | .release t => t
  | .cont t => t
  | .send t _ => t
  | .use t => t

/-- The memory orders of the operations on `refcount_`. -/
structure Orders where
  incAcquire : Bool
  incRelease : Bool
  decAcquire : Bool
  decRelease : Bool

/-- The step is a release operation on `refcount_`. -/
def Act.isRelease (o : Orders) : Act T → Bool
  | .addRef _ => o.incRelease
  | .release _ => o.decRelease
  | _ => false

/-- The step is an acquire operation on `refcount_`. -/
def Act.isAcquire (o : Orders) : Act T → Bool
  | .addRef _ => o.incAcquire
  | .release _ => o.decAcquire
  | _ => false

/-- Step number `i` of the execution happens before step number `j`. -/
inductive Before (o : Orders) (tr : List (Act T)) : Nat → Nat → Prop
  | sequenced {i j : Nat} {a b : Act T} : tr[i]? = some a → tr[j]? = some b → i < j → a.thread = b.thread → Before o tr i j
  | handed {i j : Nat} {t u : T} {b : Act T} : tr[i]? = some (.send t u) → tr[j]? = some b → i < j → b.thread = u → Before o tr i j
  | counted {i j : Nat} {a b : Act T} : tr[i]? = some a → tr[j]? = some b → i < j → a.isRelease o = true → b.isAcquire o = true → Before o tr i j
  | trans {i j k : Nat} : Before o tr i j → Before o tr j k → Before o tr i k

end Verif.RefTS
