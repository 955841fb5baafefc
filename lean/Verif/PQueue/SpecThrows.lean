import Verif.PQueue.Throws
import Verif.PQueue.Spec
/-!
# Specification: a comparator that throws
-/
namespace Verif.PQueue
open Verif

variable {T S : Type}

/-- The client code, which catches what a call throws (`none`). -/
def execT (cmp : TCmp T S) (moved : T → T) (v : Vec T) (s : S) : Op T → Exec (Vec T × S × Option (Out T))
  | .add x => do
    let (v, s, threw) ← addT cmp moved v x s
    .ok (v, s, if threw then none else some .done)
  | .pop => do
    let (x, v, s) ← popT cmp v s
    .ok (v, s, x.map .item)
  | .peek => do
    let x ← peek v
    .ok (v, s, some (.item x))
  | .empty => .ok (v, s, some (.flag (empty v)))

def runT (cmp : TCmp T S) (moved : T → T) (v : Vec T) (s : S) : List (Op T) → Exec (Vec T × S × List (Option (Out T)))
  | [] => .ok (v, s, [])
  | op :: ops => do
    let (v, s, o) ← execT cmp moved v s op
    let (v, s, os) ← runT cmp moved v s ops
    .ok (v, s, o :: os)

/-- One call on the multiset of queued items. A throwing `add` leaves, instead of the new item, what a move left of the new item or of another one; a throwing `pop` has
removed an item. -/
inductive TStep (moved : T → T) : List T → Op T → Option (Out T) → List T → Prop
  | add B x : TStep moved B (.add x) (some .done) (x :: B)
  | addThrows {B x y} : y ∈ x :: B → TStep moved B (.add x) none (moved y :: B)
  | pop {B B' x} : B.Perm (x :: B') → TStep moved B .pop (some (.item x)) B'
  | popThrows {B B' x} : B.Perm (x :: B') → TStep moved B .pop none B'
  | peek {B x} : x ∈ B → TStep moved B .peek (some (.item x)) B
  | empty B : TStep moved B .empty (some (.flag B.isEmpty)) B

inductive TSteps (moved : T → T) : List T → List (Op T) → List (Option (Out T)) → List T → Prop
  | nil B : TSteps moved B [] [] B
  | cons {B B' B'' op o ops os} : TStep moved B op o B' → TSteps moved B' ops os B'' → TSteps moved B (op :: ops) (o :: os) B''

/-- The claim in full, for items that a move leaves as they are: when the comparator throws in `add`, the queue holds what it held, with or without the new item. -/
def AddThrowSafe : Prop :=
  ∀ (S : Type) (cmp : TCmp Nat S) (s s' : S) (v v' : List Nat) (x : Nat), addT cmp id (v.map some) x s = .ok (v'.map some, s', true) →
    v'.Perm v ∨ v'.Perm (x :: v)

/-- The claim about order: a comparator is consistent with a strict weak order whenever it returns; then `pop` gives a best item, whatever was thrown before. -/
def PopThrowOrdered : Prop :=
  ∀ (S : Type) (cmp : TCmp Nat S) (hp : Nat → Nat → Bool), StrictWeak hp → (∀ a b s r s', cmp a b s = (some r, s') → r = hp a b) →
    ∀ (ops : List (Op Nat)) (s s' : S) (v : List Nat) (os : List (Option (Out Nat))), runT cmp id [] s ops = .ok (v.map some, s', os) →
      ∀ x v' s'', popT cmp (v.map some) s' = .ok (some x, v', s'') → Best hp v x

end Verif.PQueue
