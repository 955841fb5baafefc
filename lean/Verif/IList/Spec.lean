import Verif.IList.Model
/-!
# Specification: every list is a sequence of nodes
-/
namespace Verif.IList
open Verif

variable {L N : Type} [DecidableEq L] [DecidableEq N]

inductive Op (L N : Type) where
  | append (l : L) (n : N)
  | remove (l : L) (n : N)
  | removeFromParentList (n : N)
  /-- traverse in either direction, erasing the selected nodes -/
  | sweep (rev : Bool) (l : L) (pick : N → Bool)
  | empty (l : L)
  | length (l : L)
  | isInList (n : N)
  /-- destroy the list and construct a fresh one in its place -/
  | recreate (l : L)

inductive Out (N : Type) where
  | done
  | visited (ns : List N)
  | flag (b : Bool)
  | count (c : BitVec 64)
deriving DecidableEq

/-- The client code. `fuel` bounds the client's loops; see the theorems for what suffices. -/
def exec (debug : Bool) (fuel : Nat) (s : State L N) : Op L N → Exec (State L N × Out N)
  | .append l n => do
    let s ← append debug s l n
    .ok (s, .done)
  | .remove l n => do
    let s ← remove debug s l (.node n)
    .ok (s, .done)
  | .removeFromParentList n => do
    let s ← removeFromParentList s n
    .ok (s, .done)
  | .sweep rev l pick => do
    let (s, ns) ← sweepLoop debug rev pick l s (beginIt rev s l) fuel
    .ok (s, .visited ns)
  | .empty l => .ok (s, .flag (empty s l))
  | .length l => .ok (s, .count (length s l))
  | .isInList n => do
    let b ← isInList debug s n
    .ok (s, .flag b)
  | .recreate l => do
    let s ← recreate debug s l fuel
    .ok (s, .done)

def run (debug : Bool) (fuel : Nat) (s : State L N) : List (Op L N) → Exec (State L N × List (Out N))
  | [] => .ok (s, [])
  | op :: ops => do
    let (s, o) ← exec debug fuel s op
    let (s, os) ← run debug fuel s ops
    .ok (s, o :: os)

/-- Abstract state: the sequence held by each list. -/
abbrev Seqs (L N : Type) := L → List N

def Seqs.set (S : Seqs L N) (l : L) (ns : List N) : Seqs L N := fun k => if k = l then ns else S k

/-- Effect on the sequences. -/
def after (S : Seqs L N) : Op L N → Seqs L N
  | .append l n => S.set l (S l ++ [n])
  | .remove l n => S.set l ((S l).filter (fun m => decide (m ≠ n)))
  | .removeFromParentList n => fun l => (S l).filter (fun m => decide (m ≠ n))
  | .sweep _ l pick => S.set l ((S l).filter (fun m => !pick m))
  | .recreate l => S.set l []
  | _ => S

/-- The client's obligations: append only a node that is in no list, remove only from the list that has
the node. -/
def Legal (S : Seqs L N) : Op L N → Prop
  | .append _ n => ∀ l, n ∉ S l
  | .remove l n => n ∈ S l
  | .removeFromParentList n => ∃ l, n ∈ S l
  | _ => True

/-- A legal history. -/
def LegalAll : Seqs L N → List (Op L N) → Prop
  | _, [] => True
  | S, op :: ops => Legal S op ∧ LegalAll (after S op) ops

/-- The sequences after a history. -/
def afterAll (S : Seqs L N) (ops : List (Op L N)) : Seqs L N := ops.foldl after S

/-- Every answer of a history satisfies `good` at the moment it is given. -/
inductive Answers (good : Seqs L N → Op L N → Out N → Prop) : Seqs L N → List (Op L N) → List (Out N) → Prop where
  | nil (S) : Answers good S [] []
  | cons {S op ops o os} : good S op o → Answers good (after S op) ops os → Answers good S (op :: ops) (o :: os)

/-- Traversal yields the sequence (or its reverse), whatever is erased on the way; `empty` tells whether
it is empty. -/
def SeqAnswer (S : Seqs L N) : Op L N → Out N → Prop
  | .sweep rev l _, o => o = .visited (if rev then (S l).reverse else S l)
  | .empty l, o => ∃ b, o = .flag b ∧ (b = true ↔ S l = [])
  | _, _ => True

/-- `length` is the number of nodes. -/
def LenAnswer (S : Seqs L N) : Op L N → Out N → Prop
  | .length l, o => o = .count (BitVec.ofNat 64 (S l).length)
  | _, _ => True

/-- `isInList` is membership in some list. -/
def MemberAnswer (S : Seqs L N) : Op L N → Out N → Prop
  | .isInList n, o => ∃ b, o = .flag b ∧ (b = true ↔ ∃ l, n ∈ S l)
  | _, _ => True

/-- The history calls `removeFromParentList`. -/
def usesParentRemoval (ops : List (Op L N)) : Bool :=
  ops.any fun | .removeFromParentList _ => true | _ => false

end Verif.IList
