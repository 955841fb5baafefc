import Verif.HashTable.Calls
/-!
# Specification of C121: which questions a table asks its policy
-/
namespace Verif.HashTable
open Verif

variable {L P K S : Type}

/-- A call of the policy. -/
inductive Call (L P : Type) where
  | hash (l : L)
  | isMatch (l : L) (p : P)

/-- A policy with a state that always gives the answers of `pol`; `next` is what a call does to its state. -/
structure Answers (cp : PolicyC L P S) (pol : Policy L P) (next : S → Call L P → S) : Prop where
  hash : ∀ l s, cp.hash l s = .ok (pol.hash l, next s (.hash l))
  isMatch : ∀ l p s, cp.isMatch l p s = .ok (pol.isMatch l p, next s (.isMatch l p))

/-- Hashes the table does not tell apart: equal ones, and two pairs, because 0 and 1 mark free and removed entries and are replaced. -/
def Alike (a b : BitVec 32) : Prop :=
  a = b ∨ (a = 0 ∧ b = 0x28997912#32) ∨ (b = 0 ∧ a = 0x28997912#32) ∨ (a = 0x144CBC89#32 ∧ b = 0x3CE6359B#32) ∨ (b = 0x144CBC89#32 ∧ a = 0x3CE6359B#32)

/-- The calls for a lookup of `l` when the table holds the map `m`: the hash is computed once; then `matches` is asked about stored payloads only, about those whose key has the
hash of `l` only, about each at most once, and not any more after it has said yes. It is asked about the payload of the key itself if there is one. -/
def AskedFor (canon : L → K) (keyOf : P → K) (h : K → BitVec 32) (m : K → Option P) (l : L) (calls : List (Call L P)) : Prop :=
  ∃ ps : List P, calls = .hash l :: ps.map (.isMatch l) ∧
    (∀ p ∈ ps, m (keyOf p) = some p ∧ Alike (h (keyOf p)) (h (canon l))) ∧
    (ps.map keyOf).Nodup ∧
    (∀ p ∈ ps.dropLast, keyOf p ≠ canon l) ∧
    (m (canon l) ≠ none → ∃ p ∈ ps, keyOf p = canon l)

/-- The calls for an operation: operations that do not look a key up make none. -/
def Asked (canon : L → K) (keyOf : P → K) (h : K → BitVec 32) (m : K → Option P) : Op L P → List (Call L P) → Prop
  | .find l, calls => AskedFor canon keyOf h m l calls
  | .add l _ _, calls => AskedFor canon keyOf h m l calls
  | .assign l _, calls => AskedFor canon keyOf h m l calls
  | .removeIfExists l, calls => AskedFor canon keyOf h m l calls
  | _, calls => calls = []

/-- An operation's result with the policy's state after it. -/
def withState (s : S) : Exec (Table P × Out P) → Exec (Table P × Out P × S)
  | .ok (t, o) => .ok (t, o, s)
  | .error f => .error f

/-- Is it a call of `matches`? -/
def Call.isQuestion : Call L P → Bool
  | .isMatch _ _ => true
  | .hash _ => false

end Verif.HashTable
