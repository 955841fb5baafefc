import Verif.PQueue.Model
/-!
# Specification of the priority queue: a multiset of items
-/
namespace Verif.PQueue
open Verif

variable {T : Type}

inductive Op (T : Type) where
  | add (x : T)
  | pop
  | peek
  | empty

inductive Out (T : Type) where
  | done
  | item (x : T)
  | flag (b : Bool)

/-- The client code. -/
def exec (hp : T → T → Bool) (v : Vec T) : Op T → Exec (Vec T × Out T)
  | .add x => do
    let v ← add hp v x
    .ok (v, .done)
  | .pop => do
    let (x, v) ← pop hp v
    .ok (v, .item x)
  | .peek => do
    let x ← peek v
    .ok (v, .item x)
  | .empty => .ok (v, .flag (empty v))

def run (hp : T → T → Bool) (v : Vec T) : List (Op T) → Exec (Vec T × List (Out T))
  | [] => .ok (v, [])
  | op :: ops => do
    let (v, o) ← exec hp v op
    let (v, os) ← run hp v ops
    .ok (v, o :: os)

/-- A history is legal from a queue of `n` items if it never pops or peeks an empty queue. -/
def legal : Nat → List (Op T) → Bool
  | _, [] => true
  | n, .add _ :: ops => legal (n + 1) ops
  | 0, .pop :: _ => false
  | 0, .peek :: _ => false
  | n + 1, .pop :: ops => legal n ops
  | n + 1, .peek :: ops => legal (n + 1) ops
  | n, .empty :: ops => legal n ops

/-- One operation on the multiset `S` of queued items. `mayPop S x`: the queue may choose `x` from
`S`. -/
inductive Step (mayPop : List T → T → Prop) : List T → Op T → Out T → List T → Prop
  | add S x : Step mayPop S (.add x) .done (x :: S)
  | pop {S S' x} : S.Perm (x :: S') → mayPop S x → Step mayPop S .pop (.item x) S'
  | peek {S x} : x ∈ S → mayPop S x → Step mayPop S .peek (.item x) S
  | empty S : Step mayPop S .empty (.flag S.isEmpty) S

inductive Steps (mayPop : List T → T → Prop) : List T → List (Op T) → List (Out T) → List T → Prop
  | nil S : Steps mayPop S [] [] S
  | cons {S S' S'' op o ops os} : Step mayPop S op o S' → Steps mayPop S' ops os S'' →
      Steps mayPop S (op :: ops) (o :: os) S''

/-- The comparison is a strict weak order, as for `std::less`. -/
structure StrictWeak (hp : T → T → Bool) : Prop where
  irrefl : ∀ a, hp a a = false
  trans : ∀ a b c, hp a b = true → hp b c = true → hp a c = true
  negTrans : ∀ a b c, hp a b = false → hp b c = false → hp a c = false

/-- Nothing in `S` outranks `x`. -/
def Best (hp : T → T → Bool) (S : List T) (x : T) : Prop := ∀ y ∈ S, hp y x = false

end Verif.PQueue
