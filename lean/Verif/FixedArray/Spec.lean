import Verif.FixedArray.Model
/-!
# Specification of `ke::FixedArray`: a variable that holds a sequence
-/
namespace Verif.FixedArray

variable {V A : Type} [DecidableEq V]

/-- `none`: no such object; `some none`: default constructed or moved from, without a buffer; `some (some l)`: the
elements `l`. -/
abbrev Env (V A : Type) := V → Option (Option (List A))

def Env.set (e : Env V A) (v : V) (x : Option (Option (List A))) : Env V A := fun u => if u = v then x else e u

/-- The elements. -/
def elems : Option (Option (List A)) → List A
  | some (some l) => l
  | _ => []

def specStep (e : Env V A) : Op V A → Env V A
  | .ctor v => e.set v (some none)
  | .ctorSize v n a => e.set v (some (some (List.replicate n a)))
  | .ctorCopy v w => e.set v (some (some (elems (e w))))
  | .ctorMove v w => (e.set v (e w)).set w (some none)
  | .ctorVector v l => e.set v (some (some l))
  | .dtor v => e.set v none
  | .write v i a => e.set v ((e v).map (fun x => x.map (fun l => l.set i a)))
  | .assignCopy v w => e.set v (match e v, elems (e w) with
      | some none, [] => some none
      | _, l => some (some l))
  | .assignMove v w => (e.set v (e w)).set w (some none)

def specRun : List (Op V A) → Env V A → Env V A
  | [], e => e
  | o :: os, e => specRun os (specStep e o)

/-- Objects are constructed once and used while they exist, indices are in range, sizes are such that the byte count
fits `size_t`; no self-assignment (C85), and a move assignment's left side has no buffer (see C58). -/
def Legal (y : Layout) (e : Env V A) : Op V A → Prop
  | .ctor v => e v = none
  | .ctorSize v n _ => e v = none ∧ y.sizeof * n < 2 ^ y.word
  | .ctorCopy v w => e v = none ∧ e w ≠ none
  | .ctorMove v w => e v = none ∧ e w ≠ none
  | .ctorVector v l => e v = none ∧ y.sizeof * l.length < 2 ^ y.word
  | .dtor v => e v ≠ none
  | .write v i _ => e v ≠ none ∧ i < (elems (e v)).length
  | .assignCopy v w => e v ≠ none ∧ e w ≠ none ∧ v ≠ w
  | .assignMove v w => e v = some none ∧ e w ≠ none ∧ v ≠ w

def LegalRun (y : Layout) : List (Op V A) → Env V A → Prop
  | [], _ => True
  | o :: os, e => Legal y e o ∧ LegalRun y os (specStep e o)

end Verif.FixedArray
