import Verif.HashTable.Throws
/-!
# Specification: client code that throws
-/
namespace Verif.HashTable
open Verif

variable {L P S : Type}

/-- The policy `polX` answers like `pol` whenever it answers. -/
def Agrees (polX : PolicyX L P S) (pol : Policy L P) : Prop :=
  (∀ l s h s', polX.hash l s = (some h, s') → h = pol.hash l) ∧ ∀ l p s b s', polX.isMatch l p s = (some b, s') → b = pol.isMatch l p

/-- The calls of a history that returned. -/
def returned : List (Op L P × Plan) → List (Option (Out P)) → List (Op L P)
  | (op, _) :: ops, some _ :: os => op :: returned ops os
  | _ :: ops, none :: os => returned ops os
  | _, _ => []

/-- The answers of the calls that returned. -/
def answers (os : List (Option (Out P))) : List (Out P) := os.filterMap id

/-- The claim in full, for payloads that are numbers under an identity hash: after a call that threw, the table can be destroyed, and its contents are what they were. -/
def ThrowSafe : Prop :=
  ∀ (S : Type) (c : Config) (polX : PolicyX Nat Nat S) (pol : Policy Nat Nat), Agrees polX pol →
    ∀ (t0 : Table Nat) (cap : Nat), init c (Table.new : Table Nat) cap true = .ok (true, t0) →
    ∀ (ops : List (Op Nat Nat × Plan)) (s s' : S) (t : Table Nat) (os : List (Option (Out Nat))), runX c polX t0 s ops = .ok (t, os, s') →
      ∃ t', destroy t = .ok t'

end Verif.HashTable
