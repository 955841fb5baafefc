import Verif.Thread.Life
/-!
# What C147 is stated with
-/
namespace Verif.Thread.Life
open Verif

variable {α : Type}

/-- Object numbers are not used twice. -/
structure WF (s : St α) : Prop where
  nodup : s.live.Nodup
  lt : ∀ i ∈ s.live, i < s.next

/-- The sources may repeat an object only if it is copied each time. -/
def Apart : List (Nat × Src) → Prop := List.Pairwise fun x y => x.2.id = y.2.id → x.2.move = false ∧ y.2.move = false

/-- `i` is moved from. -/
def IsMoved (srcs : List (Nat × Src)) (i : Nat) : Prop := ∃ x ∈ srcs, x.2.id = i ∧ x.2.move = true

/-- Nothing is given as an rvalue. -/
def AllCopied (srcs : List (Nat × Src)) : Prop := ∀ x ∈ srcs, x.2.move = false

/-- The strong exception guarantee: if `NewThread` throws, nothing of the caller's has changed. -/
def StrongGuarantee : Prop :=
  ∀ (α : Type) (p : Plan α) (s s' : St α) (name : α) (srcs : List (Nat × Src)), (∀ l, (p.order l).Perm l) → WF s →
    (∀ x ∈ srcs, x.2.id ∈ s.live) → Apart srcs → newThread p s name srcs = .ok (s', none) →
    s'.live.Perm s.live ∧ ∀ i ∈ s.live, s'.val i = s.val i

end Verif.Thread.Life
