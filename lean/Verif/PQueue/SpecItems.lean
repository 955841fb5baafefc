import Verif.PQueue.Items
/-!
# What a throwing move does to a priority queue (C151)
-/
namespace Verif.PQueue
open Verif

variable {T : Type}

/-- What an `add` of `x` that threw may leave in place of the queued items `v`: nothing happened; what is left of `x`; what is left of `x` in what a move left of an item; or
one queued item is destroyed with `x`: what is left of it in both its places. Compared as multisets. -/
inductive AddDamage (p : Items T) (v : List T) (x : T) : List T → Prop
  | none : AddDamage p v x v
  | key {u} : u.Perm (p.torn x :: v) → AddDamage p v x u
  | store {u y} : y ∈ x :: v → u.Perm (p.spoilt (p.moved y) x :: v) → AddDamage p v x u
  | step {u y q K} : y ∈ x :: v → v.Perm (q :: K) → u.Perm (p.spoilt (p.moved y) q :: p.torn q :: K) → AddDamage p v x u

/-- What a `pop` that threw may leave of a queue with the top item `top` and the others `rest`: the top item only is damaged; or it is lost and nothing else (the returned object could
not be made); or it is lost and one other item or two are damaged. -/
inductive PopDamage (p : Items T) (top : T) (rest : List T) : List T → Prop
  | top {u} : u.Perm (p.torn top :: rest) → PopDamage p top rest u
  | back {u b K} : rest.Perm (b :: K) → u.Perm (p.spoilt (p.moved top) b :: p.torn b :: K) → PopDamage p top rest u
  | first {u a K} : rest.Perm (a :: K) → u.Perm (p.torn a :: K) → PopDamage p top rest u
  | second {u a b K} : rest.Perm (a :: b :: K) → u.Perm (p.spoilt (p.moved a) b :: p.torn b :: K) → PopDamage p top rest u
  | third {u a b K} : rest.Perm (a :: b :: K) → u.Perm (b :: p.spoilt (p.moved b) a :: K) → PopDamage p top rest u
  | result {u} : u.Perm rest → PopDamage p top rest u

/-- Items whose throwing moves and assignments change nothing (the strong guarantee for each). -/
def Items.Strong (p : Items T) : Prop := (∀ x, p.torn x = x) ∧ ∀ old new, p.spoilt old new = old

/-- The claim as a user would like it, for such items: if `add` or `pop` throws, the queue holds what it held. -/
def ThrowSafe : Prop :=
  ∀ (hp : Nat → Nat → Bool) (p : Items Nat) (v v' : List Nat) (n n' : Nat), p.Strong →
    (∀ x, addI hp p v x n = .ok (v', n', true) → v'.Perm v) ∧
    (∀ elided, popI hp p elided v n = .ok (none, v', n') → v'.Perm v)

end Verif.PQueue
