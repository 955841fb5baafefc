import Verif.ThreadLocal.Many
/-!
# Specification: independent per-thread variables
-/
namespace Verif.ThreadLocal.Many

variable {V H T A : Type} [DecidableEq V] [DecidableEq H] [DecidableEq T]

/-- A `ThreadLocal` is a variable that every thread has for itself; `slot` says whether it has been given storage yet. -/
structure Var (T A : Type) where
  slot : Bool
  vals : T → A

/-- What exists: variables, slots of other code, and how many slots are in use. -/
structure Env (V H T A : Type) where
  vars : V → Option (Var T A)
  lib : H → Option (T → A)
  used : Nat

def Env.start : Env V H T A := { vars := fun _ => none, lib := fun _ => none, used := 0 }

def upd {K X : Type} [DecidableEq K] (f : K → X) (k : K) (x : X) : K → X := fun j => if j = k then x else f j

/-- Storage is obtained at the first `set` or `allocate` and given back by the destructor. -/
def specStep (dflt : A) (e : Env V H T A) : Op V H T A → Env V H T A × Out A
  | .ctor v => ({ e with vars := upd e.vars v (some ⟨false, fun _ => dflt⟩) }, .unit)
  | .dtor v => match e.vars v with
    | some x => ({ e with vars := upd e.vars v none, used := if x.slot then e.used - 1 else e.used }, .unit)
    | none => (e, .unit)
  | .get t v => match e.vars v with
    | some x => (e, .got (x.vals t))
    | none => (e, .unit)
  | .set t v a => match e.vars v with
    | some x => ({ e with vars := upd e.vars v (some ⟨true, upd x.vals t a⟩), used := if x.slot then e.used else e.used + 1 }, .unit)
    | none => (e, .unit)
  | .allocate v => match e.vars v with
    | some x => ({ e with vars := upd e.vars v (some ⟨true, x.vals⟩), used := if x.slot then e.used else e.used + 1 }, .ok true)
    | none => (e, .unit)
  | .libCreate h => ({ e with lib := upd e.lib h (some fun _ => dflt), used := e.used + 1 }, .ok true)
  | .libDelete h => ({ e with lib := upd e.lib h none, used := e.used - 1 }, .unit)
  | .libGet t h => match e.lib h with
    | some f => (e, .got (f t))
    | none => (e, .unit)
  | .libSet t h a => match e.lib h with
    | some f => ({ e with lib := upd e.lib h (some (upd f t a)) }, .unit)
    | none => (e, .unit)

def specRun (dflt : A) : List (Op V H T A) → Env V H T A → Env V H T A × List (Out A)
  | [], e => (e, [])
  | o :: os, e =>
    let r := specStep dflt e o
    let rs := specRun dflt os r.1
    (rs.1, r.2 :: rs.2)

/-- Objects are constructed once and used while they exist; other code uses only slots it holds. -/
def Legal (e : Env V H T A) : Op V H T A → Prop
  | .ctor v => e.vars v = none
  | .dtor v | .get _ v | .set _ v _ | .allocate v => e.vars v ≠ none
  | .libCreate h => e.lib h = none
  | .libDelete h | .libGet _ h | .libSet _ h _ => e.lib h ≠ none

/-- Legal calls, and never more than `limit` slots in use. -/
def Fits (limit : Nat) (dflt : A) : List (Op V H T A) → Env V H T A → Prop
  | [], _ => True
  | o :: os, e => Legal e o ∧ (specStep dflt e o).1.used ≤ limit ∧ Fits limit dflt os (specStep dflt e o).1

end Verif.ThreadLocal.Many
