import Verif.AtomicRef.Model
/-!
# Specification: an atomic register of references
-/
namespace Verif.AtomicRef
open Verif

variable {T : Type} [DecidableEq T]

/-- The register's value after a history of events (latest first). -/
def current : List (Event T) → Word
  | [] => 0
  | .put _ v :: _ => v
  | .got _ _ :: l => current l

/-- Every `get` returned the value that was current. -/
def Register : List (Event T) → Prop
  | [] => True
  | .put _ _ :: l => Register l
  | .got _ v :: l => v = current l ∧ Register l

/-- What thread `t` has gained less what it has lost of references to the object at `a`, by the client's own acts:
creating the object, `AddRef`, receiving from another thread; handing over, `Release`. Constructing, assigning and
destroying the `AtomicRef` are not in these books: they leave a client's references as they are. -/
def booked (t : T) (a : Word) : List (Act T) → Int
  | [] => 0
  | .create u b :: as => (if (u, b) = (t, a) then 1 else 0) + booked t a as
  | .addRef u b :: as => (if (u, b) = (t, a) then 1 else 0) + booked t a as
  | .send u w b :: as => (if (w, b) = (t, a) then 1 else 0) - (if (u, b) = (t, a) then 1 else 0) + booked t a as
  | .release u b :: as => - (if (u, b) = (t, a) then 1 else 0) + booked t a as
  | _ :: as => booked t a as

/-- How often `get` has returned `a` to thread `t`. -/
def gotten (t : T) (a : Word) : List (Event T) → Int
  | [] => 0
  | .got u v :: l => (if (u, v) = (t, a) then 1 else 0) + gotten t a l
  | .put _ _ :: l => gotten t a l

/-- References to the object at `a`: those owned by threads, and the `AtomicRef`'s. -/
def refs (s : State T) (a : Word) : Nat :=
  s.tok.countP (fun p => decide (p.2 = a)) + if untagged s.word = a then 1 else 0

end Verif.AtomicRef
