import Verif.Function.Throws
import Verif.Function.Spec
/-!
# Specification: what an exception does to a `Function`
-/
namespace Verif.Function

variable {V C : Type} [DecidableEq V]

/-- What a `Function` is to a client, with the answer of `usingInlineStorage()`. `hollow`: tests true, but calling it fails (C53). `broken`: tests true, but its callable
does not exist. -/
inductive ValT (C : Type) where
  | empty
  | fn (c : C) (inl : Bool)
  | hollow
  | broken (inl : Bool)
deriving DecidableEq

abbrev EnvT (V C : Type) := V → Option (ValT C)

def EnvT.set (e : EnvT V C) (v : V) (x : Option (ValT C)) : EnvT V C := fun u => if u = v then x else e u

def ValT.isBroken : ValT C → Bool
  | .broken _ => true
  | _ => false

/-- A copy made through a non-const lvalue. -/
def ValT.copied : ValT C → ValT C
  | .fn c _ => .fn c false
  | _ => .hollow

/-- What is left of the left side of an assignment that threw: it still seems to hold what it held. -/
def ValT.stale : ValT C → ValT C
  | .empty => .empty
  | .fn _ inl => .broken inl
  | .hollow => .broken false
  | .broken inl => .broken inl

/-- Is a callable small enough to be stored inline? -/
def fits (size : C → Nat) (c : C) : Bool := decide (size c ≤ 24)

/-- Is `x` thrown if `f` is copied as a constant? -/
def throwsCopy (x : Exc) : Option (ValT C) → Bool
  | some (.fn _ inl) => x = .callable || !inl
  | some .hollow => x = .alloc
  | _ => false

/-- Is `x` thrown if `f` is copied through a non-const lvalue? -/
def throwsCopyNC (x : Exc) : Option (ValT C) → Bool
  | some (.fn _ _) => true
  | some .empty | some .hollow => x = .alloc
  | _ => false

/-- A call; `none` is undefined behaviour. -/
def specT (size : C → Nat) (torn : C → C) (e : EnvT V C) (x : Option Exc) : Op V C → Option (EnvT V C × Bool)
  | .ctorNull v => some (e.set v (some .empty), false)
  | .ctorCallable v c =>
    if x = some .callable ∨ (x = some .alloc ∧ fits size c = false) then some (e, true) else some (e.set v (some (.fn c (fits size c))), false)
  | .ctorCopyConst v w =>
    if (e w).any ValT.isBroken then none
    else if x.any (throwsCopy · (e w)) then some (e, true) else some (e.set v (e w), false)
  | .ctorCopy v w =>
    if (e w).any ValT.isBroken then none
    else if x.any (throwsCopyNC · (e w)) then some (e, true) else some (e.set v ((e w).map .copied), false)
  | .ctorMove v w =>
    match e w, x with
    | some (.broken true), _ => none
    | some (.fn c true), some .callable => some (e.set w (some (.fn (torn c) true)), true)
    | f, _ => some ((e.set v f).set w (some .empty), false)
  | .dtor v => if (e v).any ValT.isBroken then none else some (e.set v none, false)
  | .assignNull v => if (e v).any ValT.isBroken then none else some (e.set v (some .empty), false)
  | .assignCallable v c =>
    if (e v).any ValT.isBroken then none
    else if fits size c = true then
      if x = some .callable then some (e.set v (some (.broken true)), true) else some (e.set v (some (.fn c true)), false)
    else
      if x ≠ none then some (e.set v ((e v).map .stale), true) else some (e.set v (some (.fn c false)), false)
  | .assignCopyConst v w =>
    if (e v).any ValT.isBroken || (e w).any ValT.isBroken then none
    else if x.any (throwsCopy · (e w)) then some (e.set v ((e v).map .stale), true) else some (e.set v (e w), false)
  | .assignCopy v w =>
    if (e v).any ValT.isBroken || (e w).any ValT.isBroken then none
    else if x.any (throwsCopyNC · (e w)) then some (e.set v ((e v).map .stale), true) else some (e.set v ((e w).map .copied), false)
  | .assignMove v w =>
    if (e v).any ValT.isBroken then none
    else match e w, x with
    | some (.broken true), _ => none
    | some (.fn c true), some .callable => some ((e.set v ((e v).map .stale)).set w (some (.fn (torn c) true)), true)
    | f, _ => some ((e.set v f).set w (some .empty), false)

/-- A history: the variables at the end, and which calls threw. -/
def specRunT (size : C → Nat) (torn : C → C) : List (Op V C × Option Exc) → EnvT V C → Option (EnvT V C × List Bool)
  | [], e => some (e, [])
  | o :: os, e =>
    match specT size torn e o.2 o.1 with
    | some (e', b) => (specRunT size torn os e').map fun r => (r.1, b :: r.2)
    | none => none

/-- What C++ itself asks of the client: construct only objects that do not exist, use only objects that do; no self-assignment (C54). -/
def LegalT (e : EnvT V C) : Op V C → Prop
  | .ctorNull v | .ctorCallable v _ => e v = none
  | .ctorCopyConst v w | .ctorCopy v w | .ctorMove v w => e v = none ∧ e w ≠ none
  | .dtor v | .assignNull v | .assignCallable v _ => e v ≠ none
  | .assignCopyConst v w | .assignCopy v w | .assignMove v w => e v ≠ none ∧ e w ≠ none ∧ v ≠ w

def LegalRunT (size : C → Nat) (torn : C → C) : List (Op V C × Option Exc) → EnvT V C → Prop
  | [], _ => True
  | o :: os, e => LegalT e o.1 ∧
    match specT size torn e o.2 o.1 with
    | some (e', _) => LegalRunT size torn os e'
    | none => True

/-- An assignment throws only if the left side is empty, and not if it is given a callable that fits. -/
def Harmless (size : C → Nat) (e : EnvT V C) (x : Option Exc) : Op V C → Prop
  | .assignCallable v c => if fits size c then x ≠ some .callable else x = none ∨ e v = some .empty
  | .assignCopyConst v w => x.any (throwsCopy · (e w)) = false ∨ e v = some .empty
  | .assignCopy v w => x.any (throwsCopyNC · (e w)) = false ∨ e v = some .empty
  | .assignMove v w => (∀ c, e w = some (.fn c true) → x ≠ some .callable) ∨ e v = some .empty
  | _ => True

def HarmlessRun (size : C → Nat) (torn : C → C) : List (Op V C × Option Exc) → EnvT V C → Prop
  | [], _ => True
  | o :: os, e => Harmless size e o.2 o.1 ∧
    match specT size torn e o.2 o.1 with
    | some (e', _) => HarmlessRun size torn os e'
    | none => True

end Verif.Function
