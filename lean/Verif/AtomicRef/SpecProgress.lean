import Verif.AtomicRef.Lemmas
/-!
# Specification: infinite executions, fairness and progress
-/
namespace Verif.AtomicRef
open Verif

variable {T : Type} [DecidableEq T]

/-- Thread `t` takes the next step of its call. -/
def Act.moves (t : T) : Act T → Prop
  | .cont u => u = t
  | .stale u _ => u = t
  | _ => False

/-- An infinite execution: the state at every moment and what happens then. It need not start at the beginning. -/
structure Infinite (s : Nat → State T) (a : Nat → Act T) : Prop where
  start : Reachable (s 0)
  next : ∀ i, Allowed (s i) (a i) ∧ step (s i) (a i) = some (.ok (s (i + 1)))

/-- The scheduler does not forget a thread that is inside a call. -/
def Fair (s : Nat → State T) (a : Nat → Act T) : Prop :=
  ∀ i t, (s i).pc t ≠ .idle → ∃ j, i ≤ j ∧ (a j).moves t

/-- From some moment on loads and CASes read the latest value, as they do if only finitely many of them are overtaken. -/
def EventuallyFresh (a : Nat → Act T) : Prop := ∃ n, ∀ j, n ≤ j → ∀ t w, a j ≠ .stale t w

/-- Moment `j` is one at which a `get` or `operator=` takes effect. -/
def TakesEffect (s : Nat → State T) (a : Nat → Act T) (j : Nat) : Prop :=
  ∃ u e, a j = .cont u ∧ (s (j + 1)).log = e :: (s j).log

/-- How many steps thread `t` itself takes in the moments from `i` up to `i + n`. -/
def ownSteps (t : T) (a : Nat → Act T) (i : Nat) : Nat → Nat
  | 0 => 0
  | n + 1 => ownSteps t a i n + (match a (i + n) with
    | .cont u => if u = t then 1 else 0
    | .stale u _ => if u = t then 1 else 0
    | _ => 0)

end Verif.AtomicRef
