import Verif.RefPtr.Manual
import Verif.RefPtr.SpecExact
/-!
# Specification: references held by handles and references held by hand

The program owes `due o` calls of `Release` on the object `o`: it took that many references by hand (with `AddRef`, or out of a
handle) and has not given them back (with `Release`, or to a handle).
-/
namespace Verif.RefPtr
open Verif

variable {H : Type} [DecidableEq H]

/-- References on `o` that a statement takes by hand (positive) or gives back (negative). -/
def taken (s : State H) : MOp H → Obj → Int
  | .plain _, _ => 0
  | .newRef, o => if o = s.fresh then 1 else 0
  | .addRef p, o => if o = p then 1 else 0
  | .release p, o => if o = p then -1 else 0
  | .ctorPtr _ _, _ => 0
  | .assignPtr _ _, _ => 0
  | .adopt _ p, o => if o = p then -1 else 0
  | .assignAdopt _ p, o => if o = p then -1 else 0
  | .take e, o => if s.val e = some o then 1 else 0

/-- The same for a whole history. -/
def ledger (arity : Obj → Nat) (s : State H) : List (MOp H) → Obj → Int
  | [], _ => 0
  | op :: ops, o => taken s op o + (match mexec arity s op with | .ok s' => ledger arity s' ops o | .error _ => 0)

/-- Handles exist when they are used; only references that were taken by hand are given back by hand. -/
def MPlain (s : State H) (due : Obj → Int) : MOp H → Prop
  | .plain op => match op with
    | .ctorNull h | .ctorNew h => .root h ∉ s.hs
    | .ctorGet h e | .ctorCopy h e | .ctorMove h e => .root h ∉ s.hs ∧ e ∈ s.hs
    | .assignNull d | .assignNew d => d ∈ s.hs
    | .assignGet d e | .assignCopy d e | .assignMove d e => d ∈ s.hs ∧ e ∈ s.hs
    | .destroy h => .root h ∈ s.hs
  | .newRef | .addRef _ => True
  | .release p => 0 < due p
  | .ctorPtr h _ => .root h ∉ s.hs
  | .assignPtr d _ => d ∈ s.hs
  | .adopt h p => .root h ∉ s.hs ∧ 0 < due p
  | .assignAdopt d p => d ∈ s.hs ∧ 0 < due p
  | .take e => e ∈ s.hs

/-- Every statement of the history is so, `due` being what is owed so far. -/
def MPlainRun (arity : Obj → Nat) (s : State H) (due : Obj → Int) : List (MOp H) → Prop
  | [] => True
  | op :: ops => MPlain s due op ∧ ∀ s', mexec arity s op = .ok s' → MPlainRun arity s' (fun o => due o + taken s op o) ops

/-- `o` is destroyed when the reference of the handle `x` is given up (or, if `x` is `none`, some reference by hand): nothing is owed
on it (in `due`, what is owed afterwards), and each of its handles is `x` or a member of an object that is destroyed. -/
inductive Falls (s : State H) (due : Obj → Int) (x : Option (Slot H)) : Obj → Prop where
  | mk {o : Obj} : o ∈ s.live → due o = 0 → (∀ h, .root h ∈ s.hs → s.val (.root h) = some o → some (.root h) = x) →
      (∀ p i, .field p i ∈ s.hs → s.val (.field p i) = some o → some (.field p i) ≠ x → Falls s due x p) → Falls s due x o

/-- The handle `e` is a variable, or a member of an object that is not destroyed. -/
def Stands (s : State H) (due : Obj → Int) (d : Slot H) : Slot H → Prop
  | .root _ => True
  | .field p _ => ¬ Falls s due (some d) p

/-- When a statement has no undefined behaviour: raw pointers are not dangling, and the operands of an assignment outlive the
release of the old object. -/
def MSound (s : State H) (due : Obj → Int) : MOp H → Prop
  | .plain op => match op with
    | .assignNull d | .assignNew d => Stands s due d d
    | .assignGet d e => Stands s due d d ∧ ∀ o, s.val e = some o → ¬ Falls s due (some d) o
    | .assignCopy d e => Stands s due d d ∧ Stands s due d e ∧ ∀ o, s.val e = some o → ¬ Falls s due (some d) o
    | .assignMove d e => Stands s due d d ∧ Stands s due d e
    | _ => True
  | .addRef p | .ctorPtr _ p => p ∈ s.live
  | .assignPtr d p => p ∈ s.live ∧ Stands s due d d ∧ ¬ Falls s due (some d) p
  | .assignAdopt d _ => Stands s due d d
  | .newRef | .release _ | .adopt _ _ | .take _ => True

/-- Every statement of the history has none. -/
def MSoundRun (arity : Obj → Nat) (s : State H) (due : Obj → Int) : List (MOp H) → Prop
  | [] => True
  | op :: ops => MSound s due op ∧ ∀ s', mexec arity s op = .ok s' → MSoundRun arity s' (fun o => due o + taken s op o) ops

/-- The objects that a statement destroys. -/
def MDestroys (s : State H) (due : Obj → Int) : MOp H → Obj → Prop
  | .plain op => match op with
    | .assignNull d | .assignNew d | .assignGet d _ | .assignCopy d _ | .assignMove d _ => Falls s due (some d)
    | .destroy h => Falls s due (some (.root h))
    | _ => fun _ => False
  | .release p => Falls s (fun q => if q = p then due p - 1 else due q) none
  | .assignPtr d _ | .assignAdopt d _ => Falls s due (some d)
  | _ => fun _ => False

/-- The objects that a statement creates. -/
def MCreates (s : State H) : MOp H → Obj → Prop
  | .plain (.ctorNew _) | .plain (.assignNew _) | .newRef => (· = s.fresh)
  | _ => fun _ => False

/-- The pointer each handle has after a statement. -/
def mvalAfter (s : State H) : MOp H → Slot H → Option Obj
  | .plain op, x => valAfter s op x
  | .newRef, x => if x.ownedBy s.fresh then none else s.val x
  | .addRef _, x | .release _, x => s.val x
  | .ctorPtr h p, x | .adopt h p, x => if x = .root h then some p else s.val x
  | .assignPtr d p, x | .assignAdopt d p, x => if x = d then some p else s.val x
  | .take e, x => if x = e then none else s.val x

/-- The variables that exist after a statement. -/
def mvarAfter (s : State H) : MOp H → H → Prop
  | .plain op, k => varAfter s op k
  | .ctorPtr h _, k | .adopt h _, k => k = h ∨ .root k ∈ s.hs
  | _, k => .root k ∈ s.hs

/-- The claim: the count of a live object is the number of handles on it plus what is owed on it by hand, and not 0; no handle refers
to a destroyed object, and nothing is owed on one; an object's member handles exist exactly as long as the object; no object is
destroyed twice. -/
structure MBalanced (arity : Obj → Nat) (due : Obj → Int) (s : State H) : Prop where
  counted : ∀ o ∈ s.live, (s.cnt o : Int) = handlesOn s o + due o
  held : ∀ o, o ∈ s.live ↔ (∃ e ∈ s.hs, s.val e = some o) ∨ 0 < due o
  nonneg : ∀ o, 0 ≤ due o
  members : ∀ o i, .field o i ∈ s.hs ↔ o ∈ s.live ∧ i < arity o
  once : s.freed.Nodup
  freedIff : ∀ o, o ∈ s.freed ↔ o < s.fresh ∧ o ∉ s.live

end Verif.RefPtr
