import Verif.Function.Reenter
import Verif.Function.Spec
/-!
# Specification: callables and destructors that use `Function`s

A variable holds nothing, a callable or a hollow copy (C53). The abstract state has no holders: for a running callable it records which
variable holds it now, if any does.
-/
namespace Verif.Function
open Verif

variable {V C : Type}

/-- What a `Function` is to a client, with the kind of storage (`usingInlineStorage`). -/
inductive Held (C : Type) where
  | empty
  | fn (inl : Bool) (c : C)
  | hollow
deriving DecidableEq

def Held.val : Held C → Val C
  | .empty => .empty
  | .fn _ c => .fn c
  | .hollow => .hollow

/-- What copying from a non-const lvalue gives: a wrapper, which is never inline. -/
def Held.copied : Held C → Held C
  | .fn _ c => .fn false c
  | _ => .hollow

def Held.isSet : Held C → Bool
  | .empty => false
  | _ => true

def Held.inline : Held C → Bool
  | .fn inl _ => inl
  | _ => false

/-- Client code in progress. -/
inductive Pend (V C : Type) where
  /-- a callable, and the variable that holds it, or `none` if it has been destroyed -/
  | running (home : Option V)
  /-- the destructor of the callable that operation `o` replaces; `o` takes effect when it returns -/
  | waiting (o : Op V C)
  /-- the destructor of the callable that was moved out of `w`; `w` becomes empty when it returns -/
  | emptying (w : V)

/-- The variable whose callable is being destroyed. -/
def Pend.dying : Pend V C → Option V
  | .running _ => none
  | .waiting o => some o.target
  | .emptying w => some w

abbrev HEnv (V C : Type) := V → Option (Held C)

structure AState (V C : Type) where
  env : HEnv V C
  pend : List (Pend V C)

/-- The variables whose callables are being destroyed. -/
def busy (p : List (Pend V C)) : List V := p.filterMap Pend.dying

variable [DecidableEq V]

def HEnv.set (e : HEnv V C) (v : V) (x : Option (Held C)) : HEnv V C := fun u => if u = v then x else e u

/-- The callable held by `v` is destroyed (`w = none`), or is now held by `w`. -/
def Pend.rehome (v : V) (w : Option V) : Pend V C → Pend V C
  | .running (some u) => .running (if u = v then w else some u)
  | p => p

/-- The effect of an operation on the variables. A source is read now, that is after the destructor of the replaced callable. Moving an
inline callable makes a new one and destroys the old one; moving any other hands it over. -/
def AState.finish (small : C → Bool) (a : AState V C) : Op V C → AState V C
  | .dtor v => ⟨a.env.set v none, a.pend⟩
  | .ctorNull v | .assignNull v => ⟨a.env.set v (some .empty), a.pend⟩
  | .ctorCallable v c | .assignCallable v c => ⟨a.env.set v (some (.fn (small c) c)), a.pend⟩
  | .ctorCopyConst v w | .assignCopyConst v w => ⟨a.env.set v (a.env w), a.pend⟩
  | .ctorCopy v w | .assignCopy v w => ⟨a.env.set v ((a.env w).map .copied), a.pend⟩
  | .ctorMove v w | .assignMove v w =>
    match a.env w with
    | some (.fn true c) => ⟨a.env.set v (some (.fn true c)), .emptying w :: a.pend.map (Pend.rehome w none)⟩
    | x => ⟨(a.env.set v x).set w (some .empty), a.pend.map (Pend.rehome w (some v))⟩

/-- An operation that replaces a callable waits for the destructor of that callable. -/
def AState.begin (small : C → Bool) (a : AState V C) (o : Op V C) : AState V C :=
  if o.replaces then
    match a.env o.target with
    | some (.fn _ _) => ⟨a.env, .waiting o :: a.pend.map (Pend.rehome o.target none)⟩
    | _ => a.finish small o
  else a.finish small o

def AState.step (small : C → Bool) (a : AState V C) : Act V C → AState V C × Out C
  | .op o => (a.begin small o, .done)
  | .look v => match a.env v with
    | some h => (a, .seen h.isSet h.inline)
    | none => (a, .done)
  | .call v => match a.env v with
    | some (.fn _ c) => (⟨a.env, .running (some v) :: a.pend⟩, .called c)
    | _ => (a, .done)
  | .use => (a, .done)
  | .ret => match a.pend with
    | [] => (a, .done)
    | .running _ :: p => (⟨a.env, p⟩, .done)
    | .waiting o :: p => (AState.finish small ⟨a.env, p⟩ o, .done)
    | .emptying w :: p => (⟨a.env.set w (some .empty), p⟩, .done)

def AState.run (small : C → Bool) : List (Act V C) → AState V C → AState V C × List (Out C)
  | [], a => (a, [])
  | x :: xs, a =>
    let r := a.step small x
    let r' := AState.run small xs r.1
    (r'.1, r.2 :: r'.2)

def AState.start : AState V C := ⟨fun _ => none, []⟩

/-- The variable an operation reads. -/
def Op.source : Op V C → Option V
  | .ctorCopyConst _ w | .ctorCopy _ w | .ctorMove _ w | .assignCopyConst _ w | .assignCopy _ w | .assignMove _ w => some w
  | _ => none

/-- Which of the rules for client code are in force. While the callable of `v` is being destroyed by an operation on `v`: -/
structure Rules where
  /-- `v` is not assigned to and not destroyed -/
  noReplace : Bool
  /-- `v` is not copied or moved from -/
  noRead : Bool
  /-- `v` is not called -/
  noCall : Bool
  /-- and if that operation is `v = w`, then `w` still exists at the end of the destructor -/
  keepSource : Bool
  /-- a running callable does not read its captures after it has been replaced, destroyed or moved out of inline storage -/
  noUse : Bool

def Rules.all : Rules := ⟨true, true, true, true, true⟩

/-- What is asked of client code: what C++ asks (`Legal`; empty and hollow `Function`s are not called; only existing ones are looked at), and
the rules `R`. -/
def Polite (R : Rules) (a : AState V C) : Act V C → Prop
  | .op o => Legal (fun v => (a.env v).map Held.val) o ∧
      (R.noReplace = true → o.replaces = true → o.target ∉ busy a.pend) ∧
      (R.noRead = true → ∀ w, o.source = some w → w ∉ busy a.pend)
  | .look v => a.env v ≠ none
  | .call v => (∃ inl c, a.env v = some (.fn inl c)) ∧ (R.noCall = true → v ∉ busy a.pend)
  | .use => R.noUse = true → a.pend.head? ≠ some (.running none)
  | .ret => R.keepSource = true → ∀ o, a.pend.head? = some (.waiting o) → ∀ w, o.source = some w → a.env w ≠ none

/-- Every step of the history is polite. -/
def PoliteRun (R : Rules) (small : C → Bool) (a : AState V C) : List (Act V C) → Prop
  | [] => True
  | x :: xs => Polite R a x ∧ PoliteRun R small (a.step small x).1 xs

end Verif.Function
