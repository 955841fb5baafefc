import Verif.RefPtr.Props
/-!
# Specification: exactly which assignments are safe

What giving up a handle destroys, in terms of who refers to whom: an object dies if every handle on it is the one
given up or a member of an object that dies. (The least such set: objects in a cycle keep each other alive.)
-/
namespace Verif.RefPtr
open Verif

variable {H : Type} [DecidableEq H]

/-- `o` is destroyed when the reference of `d` is given up: it has handles, and each is `d` or a member of an object that is
destroyed. -/
inductive Dies (s : State H) (d : Slot H) : Obj → Prop where
  | mk {o : Obj} : (∃ e ∈ s.hs, s.val e = some o) → (∀ h, .root h ∈ s.hs → s.val (.root h) = some o → .root h = d) →
      (∀ p i, .field p i ∈ s.hs → s.val (.field p i) = some o → .field p i ≠ d → Dies s d p) → Dies s d o

/-- The handle `e` is a variable, or a member of an object that does not die. -/
def Survives (s : State H) (d : Slot H) : Slot H → Prop
  | .root _ => True
  | .field p _ => ¬ Dies s d p

/-- An assignment gives up the reference of its left-hand side first: both operands have to survive that, and so has the object
that is to be referred to. -/
def Sound (s : State H) : Op H → Prop
  | .assignNull d | .assignNew d => Survives s d d
  | .assignGet d e => Survives s d d ∧ ∀ o, s.val e = some o → ¬ Dies s d o
  | .assignCopy d e => Survives s d d ∧ Survives s d e ∧ ∀ o, s.val e = some o → ¬ Dies s d o
  | .assignMove d e => Survives s d d ∧ Survives s d e
  | _ => True

/-- Every operation of the history is sound in the state in which it is executed. -/
def SoundRun (arity : Obj → Nat) (s : State H) : List (Op H) → Prop
  | [] => True
  | op :: ops => Sound s op ∧ ∀ s', exec arity s op = .ok s' → SoundRun arity s' ops

/-- The objects that an operation destroys: those that die with the reference it gives up. -/
def Destroys (s : State H) : Op H → Obj → Prop
  | .assignNull d | .assignNew d | .assignGet d _ | .assignCopy d _ | .assignMove d _ => Dies s d
  | .destroy h => Dies s (.root h)
  | _ => fun _ => False

/-- The objects that an operation creates. -/
def Creates (s : State H) : Op H → Obj → Prop
  | .ctorNew _ | .assignNew _ => (· = s.fresh)
  | _ => fun _ => False

end Verif.RefPtr
