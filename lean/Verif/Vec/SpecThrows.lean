import Verif.Vec.Throws
/-!
# What C149 is stated with
-/
namespace Verif.Vec
open Verif
variable {A : Type}

/-- The elements a predicate keeps (answers `false`), the first one being the `i`-th it is asked about. -/
def survivors (pred : Nat → A → Option Bool) : Nat → List A → List A
  | _, [] => []
  | i, a :: l => if pred i a = some false then a :: survivors pred (i + 1) l else survivors pred (i + 1) l

/-- What may lie between the survivors and the untested elements: an element the predicate wanted removed, or the moved-from shell of a survivor. -/
def Leftover (p : Plan A) (pred : Nat → A → Option Bool) (seen : List A) (x : A) : Prop :=
  (∃ j, seen[j]? = some x ∧ pred j x = some true) ∨ ∃ y ∈ survivors pred 0 seen, x = p.moved y

/-- How `EraseIf` leaves the vector when it throws. -/
def Stopped (p : Plan A) (pred : Nat → A → Option Bool) (v v' : List A) : Prop :=
  ∃ seen a rest mid, v = seen ++ a :: rest ∧ (∀ j x, seen[j]? = some x → pred j x ≠ none) ∧ (∀ x ∈ mid, Leftover p pred seen x) ∧
    ((pred seen.length a = none ∧ (survivors pred 0 seen).length + mid.length = seen.length ∧ v' = survivors pred 0 seen ++ mid ++ a :: rest) ∨
     (pred seen.length a = some false ∧ (survivors pred 0 seen).length + mid.length + 1 = seen.length ∧
       ∃ old, Leftover p pred seen old ∧ v' = survivors pred 0 seen ++ p.spoilt old a :: mid ++ p.torn a :: rest))

/-- `PopBack` and `PopFront` change nothing if they throw, for elements whose moves change nothing if they throw. -/
def PopStrong : Prop :=
  ∀ (p : Plan Nat) (elide : Bool) (n n' : Nat) (v v' : List Nat), (∀ a, p.torn a = a) →
    (popBackT p elide n v = .ok (none, v', n') → v' = v) ∧ (popFrontT p elide n v = .ok (none, v', n') → v' = v)

/-- `MoveExtend` changes nothing if it throws, for elements whose moves change nothing if they throw. -/
def ExtendStrong : Prop :=
  ∀ (p : Plan Nat) (n n' : Nat) (dest src dest' src' : List Nat), (∀ a, p.torn a = a) →
    moveExtendT p n dest src = .ok (dest', src', n', true) → dest' = dest ∧ src' = src

/-- Or at least it can be called again to finish the work. -/
def ExtendRetry : Prop :=
  ∀ (p : Plan Nat) (n n' m : Nat) (dest src dest' src' d s : List Nat), (∀ a, p.torn a = a) →
    moveExtendT p n dest src = .ok (dest', src', n', true) → moveExtendT p n' dest' src' = .ok (d, s, m, false) → d = dest ++ src

/-- When the predicate of `EraseIf` throws, the call can be made again to finish the work. -/
def EraseRetry : Prop :=
  ∀ (p : Plan Nat) (q : Nat → Bool) (pred : Nat → Nat → Option Bool) (n n' : Nat) (v v' : List Nat), (∀ k, p.throws k = false) →
    (∀ i a b, pred i a = some b → b = q a) → eraseIfT p pred n v = .ok (v', n', true) →
    ∃ m, eraseIfT p (fun _ a => some (q a)) n' v' = .ok (v.filter (fun a => !q a), m, false)

end Verif.Vec
