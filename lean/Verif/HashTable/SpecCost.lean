import Verif.HashTable.Spec
/-!
# Specification of C119 and C120: the cost of resizing, and which references stay valid
-/
namespace Verif.HashTable
open Verif

variable {L P K : Type}

/-- Was a payload added? -/
def Out.isAdded : Out P → Bool
  | .added _ => true
  | _ => false

/-- The entries read or written by resizing in a history: an operation after which the table has another capacity has written all entries of a new array and read all
of the old one. -/
def resizeWork (c : Config) (pol : Policy L P) (t : Table P) : List (Op L P) → Nat
  | [] => 0
  | op :: ops =>
    match exec c pol t op with
    | .ok (t', _) => (if t'.capacity = t.capacity then 0 else t.capacity + t'.capacity) + resizeWork c pol t' ops
    | .error _ => 0

/-- The payload `p` lies in entry `i` of the array. As long as the table allocates no other array, this is its address. -/
def At (t : Table P) (i : Nat) (p : P) : Prop := ∃ s e, t.table = some s ∧ s[i]? = some e ∧ e.obj = some p

/-- The operation may remove the payload stored under `k`. -/
def Op.drops (canon : L → K) (keyOf : P → K) (k : K) : Op L P → Prop
  | .removeIfExists l => canon l = k
  | .clear => True
  | .sweep pick => ∃ p, keyOf p = k ∧ pick p = true
  | _ => False

/-- The operation may change the payload stored under `k`. -/
def Op.sets (canon : L → K) (k : K) : Op L P → Prop
  | .assign l _ => canon l = k
  | _ => False

end Verif.HashTable
