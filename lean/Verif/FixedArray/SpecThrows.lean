import Verif.FixedArray.Throws
import Verif.FixedArray.Spec
/-!
# Specification: what an exception in an element's constructor does
-/
namespace Verif.FixedArray

variable {V A : Type} [DecidableEq V]

/-- How many elements a call constructs. -/
def builds (e : Env V A) : Op V A → Nat
  | .ctorSize _ n _ => n
  | .ctorCopy _ w | .assignCopy _ w => (elems (e w)).length
  | .ctorVector _ l => l.length
  | _ => 0

/-- Does the call throw? -/
def throws (e : Env V A) (o : Op V A × Option Nat) : Bool :=
  match o.2 with
  | none => false
  | some k => decide (k < builds e o.1)

/-- A constructor that throws has no effect on the variables. -/
def specT (e : Env V A) (o : Op V A × Option Nat) : Env V A := if throws e o then e else specStep e o.1

def specRunT : List (Op V A × Option Nat) → Env V A → Env V A
  | [], e => e
  | o :: os, e => specRunT os (specT e o)

def throwsRun : List (Op V A × Option Nat) → Env V A → List Bool
  | [], _ => []
  | o :: os, e => throws e o :: throwsRun os (specT e o)

/-- For each call that throws, the number of elements constructed before. -/
def lostRun : List (Op V A × Option Nat) → Env V A → List Nat
  | [], _ => []
  | o :: os, e => (if throws e o then [o.2.getD 0] else []) ++ lostRun os (specT e o)

def LegalRunT (y : Layout) : List (Op V A × Option Nat) → Env V A → Prop
  | [], _ => True
  | o :: os, e => Legal y e o.1 ∧ LegalRunT y os (specT e o)

/-- No copy assignment throws. -/
def NoAssignThrows : List (Op V A × Option Nat) → Env V A → Prop
  | [], _ => True
  | o :: os, e => (∀ v w, o.1 = .assignCopy v w → throws e o = false) ∧ NoAssignThrows os (specT e o)

end Verif.FixedArray
