import Verif.RefPtr.Reenter
/-!
# Specification: destructors that use handles
-/
namespace Verif.RefPtr.Reenter
open Verif Verif.RefPtr

variable {H : Type} [DecidableEq H]

/-- The handles in the middle of an assignment or of their destruction: their reference has been given up, and they
still hold the old pointer. -/
def inflight : List (Frame H) → List (Slot H)
  | [] => []
  | .store d _ :: k | .copy d _ :: k | .move d _ :: k | .gone d :: k => d :: inflight k
  | .body _ :: k | .members _ _ :: k => inflight k

/-- It is the turn of the program or of a destructor. -/
def clientTurn : List (Frame H) → Bool
  | [] => true
  | .body _ :: _ => true
  | _ => false

/-- The handles a statement creates, and those it uses. -/
def creates : Op H → List H
  | .ctorNull h | .ctorNew h | .ctorGet h _ | .ctorCopy h _ | .ctorMove h _ => [h]
  | _ => []

def uses : Op H → List (Slot H)
  | .ctorNull _ | .ctorNew _ => []
  | .ctorGet _ e | .ctorCopy _ e | .ctorMove _ e => [e]
  | .assignNull d | .assignNew d => [d]
  | .assignGet d e | .assignCopy d e | .assignMove d e => [d, e]
  | .destroy h => [.root h]

/-- Handles exist when they are used and no variable is constructed twice. -/
def Exists (s : State H) (op : Op H) : Prop := (∀ h ∈ creates op, .root h ∉ s.hs) ∧ ∀ e ∈ uses op, e ∈ s.hs

/-- When the library goes on with an operation, its operands still exist: the source handle of an assignment (with a
live object, if it is the target itself), or the object whose pointer is assigned. No member handle is destroyed with its object
while an operation on it is in progress. -/
def Kept (m : Machine H) : Prop :=
  match m.stack with
  | .members o (n + 1) :: k => .field o n ∉ inflight k
  | .store _ v :: _ => ∀ o, v = some o → o ∈ m.s.live
  | .copy d e :: _ => e ∈ m.s.hs ∧ (e = d → ∀ o, m.s.val e = some o → o ∈ m.s.live)
  | .move _ e :: _ => e ∈ m.s.hs
  | _ => True

/-- The obligations of the program and of the destructors. Handles exist when used, operands outlive the operation, and
(if `strict`) no handle is used while an operation on it is in progress and no destructor makes a handle on its own object. -/
def Obey (strict : Bool) (m : Machine H) : Act H → Prop
  | .op op => clientTurn m.stack = true → Exists m.s op ∧ (strict = true → ∀ e ∈ uses op, e ∉ inflight m.stack)
  | .self h => clientTurn m.stack = true → .root h ∉ m.s.hs ∧ (strict = true → m.stack = [])
  | .ret => True
  | .go => Kept m

/-- Each action meets its obligations in the state in which it is executed. -/
def ObeyRun (arity : Obj → Nat) (virt : Obj → Bool) (strict : Bool) (m : Machine H) : List (Act H) → Prop
  | [] => True
  | a :: as => Obey strict m a ∧ ∀ m', step arity virt m a = .ok m' → ObeyRun arity virt strict m' as

/-- Counts, handles and objects agree, also in the middle of destructors: every live object is counted once for every
handle on it that is not in flight; such handles only hold live objects; a live object has a reference, unless its pointer is
about to be stored; no object is destroyed twice, and the objects whose destruction began are those created and not live. -/
structure Consistent (m : Machine H) : Prop where
  counted : ∀ o ∈ m.s.live, m.s.cnt o = (m.s.hs.filter (fun e => decide (e ∉ inflight m.stack ∧ m.s.val e = some o))).length
  target : ∀ e ∈ m.s.hs, e ∉ inflight m.stack → ∀ o, m.s.val e = some o → o ∈ m.s.live
  held : ∀ o ∈ m.s.live, (∃ e ∈ m.s.hs, e ∉ inflight m.stack ∧ m.s.val e = some o) ∨ ∃ d, .store d (some o) ∈ m.stack
  once : m.s.freed.Nodup
  freedIff : ∀ o, o ∈ m.s.freed ↔ o < m.s.fresh ∧ o ∉ m.s.live
  dyingFreed : ∀ o ∈ dying m.stack, o ∈ m.s.freed
  dyingOnce : (dying m.stack).Nodup

end Verif.RefPtr.Reenter
