import Verif.IList.Spec
/-!
# Specification: what `length` and (in release builds) `isInList` really answer

Both differ from what C42 and C44 ask for. Here the exact answers, for every legal history.
-/
namespace Verif.IList
open Verif

variable {L N : Type} [DecidableEq L] [DecidableEq N]

/-- Per list: how many of its nodes have left it through `removeFromParentList` since the list was
constructed. -/
def missedAfter (S : Seqs L N) (d : L → Nat) : Op L N → L → Nat
  | .removeFromParentList n, k => if n ∈ S k then d k + 1 else d k
  | .recreate l, k => if k = l then 0 else d k
  | _, k => d k

/-- Every `length()` of the history is the number of nodes plus the removals it has missed (as a 64-bit
number). -/
def ExactLengths : Seqs L N → (L → Nat) → List (Op L N) → List (Out N) → Prop
  | _, _, [], os => os = []
  | _, _, _ :: _, [] => False
  | S, d, op :: ops, o :: os =>
    (∀ l, op = .length l → o = .count (BitVec.ofNat 64 ((S l).length + d l))) ∧
      ExactLengths (after S op) (missedAfter S d op) ops os

/-- The nodes on which an `append` was the last of all calls of `append` and `removeFromParentList`. -/
def everAfter (T : N → Bool) : Op L N → N → Bool
  | .append _ n, m => if m = n then true else T m
  | .removeFromParentList n, m => if m = n then false else T m
  | _, m => T m

/-- Every `isInList()` of the history tells just that. -/
def ExactMembers : (N → Bool) → List (Op L N) → List (Out N) → Prop
  | _, [], os => os = []
  | _, _ :: _, [] => False
  | T, op :: ops, o :: os =>
    (∀ n, op = .isInList n → o = .flag (T n)) ∧ ExactMembers (everAfter T op) ops os

end Verif.IList
