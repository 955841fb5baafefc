import Verif.AtomicRef.GraphModel
/-!
# Specification: many atomic registers of references
-/
namespace Verif.AtomicRef.Graph
open Verif

variable {T F : Type} [DecidableEq T] [DecidableEq F]

/-- The value of register `k` after a history of events (latest first). -/
def current (k : Key F) : List (Key F × Event T) → Word
  | [] => 0
  | (k', .put _ v) :: l => if k' = k then v else current k l
  | (_, .got _ _) :: l => current k l

/-- Every `get` returned the value that was current in its register. -/
def Register : List (Key F × Event T) → Prop
  | [] => True
  | (_, .put _ _) :: l => Register l
  | (k, .got _ v) :: l => v = current k l ∧ Register l

/-- References to the object at `a`: those owned by threads and those of `AtomicRef`s. -/
def refs (s : State T F) (a : Word) : Nat := s.tok.countP (fun p => decide (p.2 = a))

/-- The reference of thread `t` less those it gave away, by the client's own acts: creating the object, `AddRef`,
receiving from another thread; handing over, `Release`. -/
def booked (t : T) (a : Word) : List (Act T F) → Int
  | [] => 0
  | .create u b _ :: as => (if (u, b) = (t, a) then 1 else 0) + booked t a as
  | .addRef u b :: as => (if (u, b) = (t, a) then 1 else 0) + booked t a as
  | .send u w b :: as => (if (w, b) = (t, a) then 1 else 0) - (if (u, b) = (t, a) then 1 else 0) + booked t a as
  | .release u b :: as => - (if (u, b) = (t, a) then 1 else 0) + booked t a as
  | _ :: as => booked t a as

/-- How often `get` (on whatever `AtomicRef`) has returned `a` to thread `t`. -/
def gotten (t : T) (a : Word) : List (Key F × Event T) → Int
  | [] => 0
  | (_, .got u v) :: l => (if (u, v) = (t, a) then 1 else 0) + gotten t a l
  | (_, .put _ _) :: l => gotten t a l

end Verif.AtomicRef.Graph
