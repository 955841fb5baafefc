import Verif.Maybe.Throws
import Verif.Maybe.Spec
/-!
# Specification: what an exception does to a `Maybe`
-/
namespace Verif.Maybe

variable {V A : Type} [DecidableEq V]

/-- What a `Maybe` is: `broken` says that it claims to hold a value which no longer exists. -/
inductive Val (A : Type) where
  | nothing
  | value (a : A)
  | broken

abbrev EnvT (V A : Type) := V → Option (Val A)

def EnvT.set (e : EnvT V A) (v : V) (x : Option (Val A)) : EnvT V A := fun u => if u = v then x else e u

/-- `isValid()` -/
def Val.valid : Val A → Bool
  | .nothing => false
  | _ => true

/-- Is a `T` constructed from the value of `w`? -/
def builds (e : EnvT V A) : Op V A → Bool
  | .ctorNothing _ | .dtor _ => false
  | .init _ _ | .initFrom _ _ => true
  | .ctorCopy _ w | .ctorMove _ w | .assignCopy _ w | .assignMove _ w => (e w).any Val.valid

/-- A call, `t` saying whether `T`'s constructor throws; `none` is undefined behaviour. -/
def specT (torn : A → A) (e : EnvT V A) (t : Bool) : Op V A → Option (EnvT V A)
  | .ctorNothing v => some (e.set v (some .nothing))
  | .ctorCopy v w =>
    match e w with
    | some (.value a) => if t then some e else some (e.set v (some (.value a)))
    | some .nothing => some (e.set v (some .nothing))
    | _ => none
  | .ctorMove v w =>
    match e w with
    | some (.value a) => if t then some (e.set w (some (.value (torn a)))) else some ((e.set v (some (.value a))).set w (some .nothing))
    | some .nothing => some (e.set v (some .nothing))
    | _ => none
  | .dtor v =>
    match e v with
    | some .broken => none
    | _ => some (e.set v none)
  | .init v a =>
    match e v with
    | some .broken => none
    | some (.value _) => some (e.set v (some (if t then .broken else .value a)))
    | _ => some (e.set v (some (if t then .nothing else .value a)))
  | .initFrom v w =>
    match e w, e v with
    | some (.value a), some (.value _) => some (e.set v (some (if t then .broken else .value a)))
    | some (.value a), some .nothing => some (e.set v (some (if t then .nothing else .value a)))
    | _, _ => none
  | .assignCopy v w =>
    match e w with
    | some (.value a) => some (e.set v (some (if t then .nothing else .value a)))
    | some .nothing => some (e.set v (some .nothing))
    | _ => none
  | .assignMove v w =>
    match e w with
    | some (.value a) => if t then some ((e.set v (some .nothing)).set w (some (.value (torn a)))) else some ((e.set v (some (.value a))).set w (some .nothing))
    | some .nothing => some (e.set v (some .nothing))
    | _ => none

def specRunT (torn : A → A) : List (Op V A × Bool) → EnvT V A → Option (EnvT V A)
  | [], e => some e
  | o :: os, e =>
    match specT torn e o.2 o.1 with
    | some e' => specRunT torn os e'
    | none => none

/-- The calls that throw. -/
def threwRun (torn : A → A) : List (Op V A × Bool) → EnvT V A → List Bool
  | [], _ => []
  | o :: os, e =>
    match specT torn e o.2 o.1 with
    | some e' => (o.2 && builds e o.1) :: threwRun torn os e'
    | none => []

/-- The rules of C55: variables are used while they exist, `initFrom` is given a `Maybe` that says it is valid, no self-assignment. -/
def LegalT (e : EnvT V A) : Op V A → Prop
  | .ctorNothing v => e v = none
  | .ctorCopy v w => e v = none ∧ e w ≠ none
  | .ctorMove v w => e v = none ∧ e w ≠ none
  | .dtor v => e v ≠ none
  | .init v _ => e v ≠ none
  | .initFrom v w => e v ≠ none ∧ (e w).any Val.valid = true ∧ v ≠ w
  | .assignCopy v w => e v ≠ none ∧ e w ≠ none ∧ v ≠ w
  | .assignMove v w => e v ≠ none ∧ e w ≠ none ∧ v ≠ w

def LegalRunT (torn : A → A) : List (Op V A × Bool) → EnvT V A → Prop
  | [], _ => True
  | o :: os, e => LegalT e o.1 ∧
    match specT torn e o.2 o.1 with
    | some e' => LegalRunT torn os e'
    | none => True

/-- `init` throws on a `Maybe` that holds a value. -/
def initThrows (e : EnvT V A) : Op V A × Bool → Bool
  | (.init v _, t) | (.initFrom v _, t) => t && (e v).any Val.valid
  | _ => false

def NoInitThrows (torn : A → A) : List (Op V A × Bool) → EnvT V A → Prop
  | [], _ => True
  | o :: os, e => initThrows e o = false ∧
    match specT torn e o.2 o.1 with
    | some e' => NoInitThrows torn os e'
    | none => True

end Verif.Maybe
