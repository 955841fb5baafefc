import Verif.Alloc.Model
/-!
# Specification: the policy a container is meant to use
-/
namespace Verif.Alloc
open Verif

variable {V A : Type} [DecidableEq V]

/-- Of every container variable: the policy given to it (by its constructor, through `allocPolicy()`, or by moving from a
container that had it), whether it holds memory, and whether it is a `HashMap` or `HashSet`. -/
structure Want (V A : Type) where
  pol : V → Option A
  holds : V → Bool
  wrapper : V → Bool

def Want.new : Want V A := { pol := fun _ => none, holds := fun _ => false, wrapper := fun _ => false }

def put {B : Type} (f : V → B) (v : V) (b : B) : V → B := fun k => if k = v then b else f k

def after (w : Want V A) : Op V A → Want V A
  | .newTable v ap => { pol := put w.pol v (some ap), holds := put w.holds v false, wrapper := put w.wrapper v false }
  | .newWrapper v ap => { pol := put w.pol v (some ap), holds := put w.holds v false, wrapper := put w.wrapper v true }
  | .obtain v => { w with holds := put w.holds v true }
  | .move v u => { pol := put w.pol v (w.pol u), holds := put (put w.holds u false) v (w.holds u), wrapper := put w.wrapper v (w.wrapper u) }
  | .setPolicy v a => { w with pol := put w.pol v (some a) }
  | .destroy v => { w with pol := put w.pol v none }

/-- The client's obligations: names are those of existing (or, for constructors, not existing) containers; a policy is not replaced while
memory obtained from it is held. -/
def Legal (w : Want V A) : Op V A → Prop
  | .newTable v _ | .newWrapper v _ => w.pol v = none
  | .obtain v | .destroy v => w.pol v ≠ none
  | .move v u => w.pol v = none ∧ w.pol u ≠ none
  | .setPolicy v _ => w.pol v ≠ none ∧ w.holds v = false

def afterAll (w : Want V A) : List (Op V A) → Want V A
  | [] => w
  | o :: os => afterAll (after w o) os

def LegalAll (w : Want V A) : List (Op V A) → Prop
  | [] => True
  | o :: os => Legal w o ∧ LegalAll (after w o) os

/-- No policy of a `HashMap` or `HashSet` is replaced. -/
def WrappersKept (w : Want V A) : List (Op V A) → Prop
  | [] => True
  | o :: os => (∀ v a, o = .setPolicy v a → w.wrapper v = false) ∧ WrappersKept (after w o) os

/-- The calls of a history that an observer of the policies expects, latest first: memory is asked for from the policy the container
was given, and given back to the one it came from. -/
def expected (w : Want V A) : Op V A → List (Event V A)
  | .obtain v => match w.pol v with
    | none => []
    | some a => (if w.holds v then [.free v a a] else []) ++ [.alloc v a]
  | .destroy v => match w.pol v with
    | none => []
    | some a => if w.holds v then [.free v a a] else []
  | _ => []

def expectedAll (w : Want V A) : List (Op V A) → List (Event V A)
  | [] => []
  | o :: os => expectedAll (after w o) os ++ expected w o

/-- The same for arrays: the policy given to the constructor, if it takes one; a moved array brings its policy along. -/
def fafter (dflt : A) (w : V → Option A) : FOp V A → V → Option A
  | .ctor v => put w v (some dflt)
  | .ctorSize v ap => put w v (some ap)
  | .ctorMove v u => put w v (w u)
  | .assignCopy _ => w
  | .assignMove v u => put w v (w u)
  | .dtor v => put w v none

def FLegal (w : V → Bool) : FOp V A → Prop
  | .ctor v | .ctorSize v _ => w v = false
  | .ctorMove v u => w v = false ∧ w u = true
  | .assignCopy v | .dtor v => w v = true
  | .assignMove v u => w v = true ∧ w u = true

/-- The variables that exist. -/
def fexists (w : V → Bool) : FOp V A → V → Bool
  | .ctor v | .ctorSize v _ => put w v true
  | .ctorMove v _ => put w v true
  | .dtor v => put w v false
  | _ => w

def FLegalAll (w : V → Bool) : List (FOp V A) → Prop
  | [] => True
  | o :: os => FLegal w o ∧ FLegalAll (fexists w o) os

/-- Memory is given back to the policy it came from. -/
def Returned (log : List (Event V A)) : Prop := ∀ v a b, Event.free v a b ∈ log → a = b

/-- The arenas asked for memory, by array. -/
def asked (log : List (Event V A)) : List (V × A) := log.filterMap fun
  | .alloc v a => some (v, a)
  | .free .. => none

/-- The request expected of one operation of an array. -/
def fasks (w : V → Option A) : FOp V A → List (V × A)
  | .ctorSize v ap => [(v, ap)]
  | .assignCopy v => match w v with
    | some a => [(v, a)]
    | none => []
  | _ => []

/-- The expected requests of a history of arrays, latest first. -/
def fexpected (dflt : A) (w : V → Option A) : List (FOp V A) → List (V × A)
  | [] => []
  | o :: os => fexpected dflt (fafter dflt w o) os ++ fasks w o

end Verif.Alloc
