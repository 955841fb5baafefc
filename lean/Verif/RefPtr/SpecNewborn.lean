import Verif.RefPtr.Newborn
import Verif.RefPtr.SpecManual
/-!
# Specification: when a constructor destroys the object it constructs

`before` are the references held by hand when the constructor's body begins.
-/
namespace Verif.RefPtr
open Verif

variable {H : Type} [DecidableEq H]

/-- References on `o` when `ops` have run from `s` and led to `t`: the handles on it and the references held by hand. -/
def refsAfter (arity : Obj → Nat) (before : Int) (s : State H) (ops : List (MOp H)) (t : State H) (o : Obj) : Int :=
  handlesOn t o + before + ledger arity s ops o

/-- Some statement of the body gives up the last reference on `o`: there is one before it and none after it. -/
def GivesUp (arity : Obj → Nat) (before : Int) (s : State H) (body : List (MOp H)) (o : Obj) : Prop :=
  ∃ (done : List (MOp H)) (op : MOp H) (rest : List (MOp H)) (t t' : State H), body = done ++ op :: rest ∧
    mrun arity s done = .ok t ∧ mexec arity t op = .ok t' ∧
    0 < refsAfter arity before s done t o ∧ refsAfter arity before s (done ++ [op]) t' o = 0

end Verif.RefPtr
