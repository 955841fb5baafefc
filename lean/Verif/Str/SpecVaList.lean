import Verif.Str.VaList
/-!
# What is expected of the argument lists and of the memory (C150)
-/
namespace Verif.Str.Va
open Verif

/-- Every list and every block has a number given out before, and no two have the same. -/
def WF (s : St) : Prop :=
  (∀ x ∈ s.lists, x.1 < s.next) ∧ (s.lists.map (·.1)).Nodup ∧ (∀ b ∈ s.blocks, b < s.next) ∧ s.blocks.Nodup

/-- The lists after the list `ap` was read through. -/
def readThrough (lists : List (Nat × Bool)) (ap : Nat) : List (Nat × Bool) := lists.map fun x => if x.1 = ap then (ap, true) else x

/-- The first formatting says there is text and the second one fails. am-string.h:101, 122. -/
def SecondFails (f1 f2 : Fmt) : Prop :=
  (∃ t, f1 = .text t ∧ t ≠ [] ∧ t.length + 1 < 2 ^ 31) ∧ ((∃ c g, f2 = .fail c g) ∨ ∃ t, f2 = .text t ∧ 2 ^ 31 ≤ t.length)

/-- C11 7.16.1: every list begun is ended before the function that began it returns; `none`: it returned by an exception. -/
def ListsBalanced : Prop :=
  ∀ (throws : Nat → Bool) (s s' : St) (f1 f2 : Fmt),
    WF s →
    (∀ r, sprintf throws s f1 f2 = .ok (s', r) → s'.lists = s.lists) ∧
    (∀ r, stringPrintf throws s f1 f2 = .ok (s', r) → s'.lists = s.lists) ∧
    (∀ args r, parsev s args = (s', r) → s'.lists = s.lists)

end Verif.Str.Va
