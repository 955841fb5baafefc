import Verif.Function.Model
/-!
# Specification of `ke::Function`: a variable holds nothing or a callable
-/
namespace Verif.Function

variable {V C : Type} [DecidableEq V]

/-- What a `Function` is to a client. `hollow`: tests true, but calling it fails. -/
inductive Val (C : Type) where
  | empty
  | fn (c : C)
  | hollow
deriving DecidableEq

/-- What copying from a non-const lvalue gives. -/
def Val.copied : Val C → Val C
  | .fn c => .fn c
  | _ => .hollow

/-- The variables (`none`: no such object). -/
abbrev Env (V C : Type) := V → Option (Val C)

def Env.set (e : Env V C) (v : V) (x : Option (Val C)) : Env V C := fun u => if u = v then x else e u

def specStep (e : Env V C) : Op V C → Env V C
  | .ctorNull v => e.set v (some .empty)
  | .ctorCallable v c => e.set v (some (.fn c))
  | .ctorCopyConst v w => e.set v (e w)
  | .ctorCopy v w => e.set v ((e w).map .copied)
  | .ctorMove v w => (e.set v (e w)).set w (some .empty)
  | .dtor v => e.set v none
  | .assignNull v => e.set v (some .empty)
  | .assignCallable v c => e.set v (some (.fn c))
  | .assignCopyConst v w => e.set v (e w)
  | .assignCopy v w => e.set v ((e w).map .copied)
  | .assignMove v w => (e.set v (e w)).set w (some .empty)

def specRun : List (Op V C) → Env V C → Env V C
  | [], e => e
  | o :: os, e => specRun os (specStep e o)

/-- What C++ itself asks of the client: construct only objects that do not exist, use only objects that do.
Self-assignment is left to C54. -/
def Legal (e : Env V C) : Op V C → Prop
  | .ctorNull v => e v = none
  | .ctorCallable v _ => e v = none
  | .ctorCopyConst v w => e v = none ∧ e w ≠ none
  | .ctorCopy v w => e v = none ∧ e w ≠ none
  | .ctorMove v w => e v = none ∧ e w ≠ none
  | .dtor v => e v ≠ none
  | .assignNull v => e v ≠ none
  | .assignCallable v _ => e v ≠ none
  | .assignCopyConst v w => e v ≠ none ∧ e w ≠ none ∧ v ≠ w
  | .assignCopy v w => e v ≠ none ∧ e w ≠ none ∧ v ≠ w
  | .assignMove v w => e v ≠ none ∧ e w ≠ none ∧ v ≠ w

def LegalRun : List (Op V C) → Env V C → Prop
  | [], _ => True
  | o :: os, e => Legal e o ∧ LegalRun os (specStep e o)

/-- No `Function` is copied from a non-const lvalue that is empty (C53). -/
def NoEmptyCopy : List (Op V C) → Env V C → Prop
  | [], _ => True
  | o :: os, e => (match o with
      | .ctorCopy _ w => e w ≠ some .empty
      | .assignCopy _ w => e w ≠ some .empty
      | _ => True) ∧ NoEmptyCopy os (specStep e o)

/-- The identities of the holders a `Function` owns. -/
def Fn.ids : Fn C → List Nat
  | .empty => []
  | .call _ id _ => [id]
  | .wrap _ id f => id :: f.ids

end Verif.Function
