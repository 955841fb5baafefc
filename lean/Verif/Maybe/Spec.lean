import Verif.Maybe.Model
/-!
# Specification of `ke::Maybe`: a variable that holds a value or `Nothing`
-/
namespace Verif.Maybe

variable {V A : Type} [DecidableEq V]

/-- `none`: no such object; `some none`: `Nothing`; `some (some a)`: the value `a`. -/
abbrev Env (V A : Type) := V → Option (Option A)

def Env.set (e : Env V A) (v : V) (x : Option (Option A)) : Env V A := fun u => if u = v then x else e u

def specStep (e : Env V A) : Op V A → Env V A
  | .ctorNothing v => e.set v (some none)
  | .ctorCopy v w => e.set v (e w)
  | .ctorMove v w => (e.set v (e w)).set w (some none)
  | .dtor v => e.set v none
  | .init v a => e.set v (some (some a))
  | .initFrom v w => e.set v (e w)
  | .assignCopy v w => e.set v (e w)
  | .assignMove v w => (e.set v (e w)).set w (some none)

def specRun : List (Op V A) → Env V A → Env V A
  | [], e => e
  | o :: os, e => specRun os (specStep e o)

/-- Objects are constructed once and used only while they exist; no self-assignment (C57) and `init` is not given a
reference to the value it replaces (C84). -/
def Legal (e : Env V A) : Op V A → Prop
  | .ctorNothing v => e v = none
  | .ctorCopy v w => e v = none ∧ e w ≠ none
  | .ctorMove v w => e v = none ∧ e w ≠ none
  | .dtor v => e v ≠ none
  | .init v _ => e v ≠ none
  | .initFrom v w => e v ≠ none ∧ (∃ a, e w = some (some a)) ∧ v ≠ w
  | .assignCopy v w => e v ≠ none ∧ e w ≠ none ∧ v ≠ w
  | .assignMove v w => e v ≠ none ∧ e w ≠ none ∧ v ≠ w

def LegalRun : List (Op V A) → Env V A → Prop
  | [], _ => True
  | o :: os, e => Legal e o ∧ LegalRun os (specStep e o)

/-- Does the variable hold a value? -/
def holds (e : Env V A) (v : V) : Nat :=
  match e v with
  | some (some _) => 1
  | _ => 0

/-- The values an operation drops without destroying them: the one the left side of an assignment held, and the
moved-from one. -/
def dropped (e : Env V A) : Op V A → Nat
  | .ctorMove _ w => holds e w
  | .assignCopy v _ => holds e v
  | .assignMove v w => holds e v + holds e w
  | _ => 0

def droppedRun : List (Op V A) → Env V A → Nat
  | [], _ => 0
  | o :: os, e => dropped e o + droppedRun os (specStep e o)

end Verif.Maybe
