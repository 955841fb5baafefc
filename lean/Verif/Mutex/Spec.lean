import Verif.Mutex.Model
/-!
# Specification of `ke::Mutex`
-/
namespace Verif.Mutex
variable {T : Type} [DecidableEq T]

/-- Whether thread `t` holds the mutex according to the calls completed (latest first): its last `lock` or successful `try_lock` is
later than its last `unlock`. -/
def Holds (t : T) : List (Event T) → Bool
  | [] => false
  | .locked u :: es => if u = t then true else Holds t es
  | .tried u ok :: es => if u = t ∧ ok = true then true else Holds t es
  | .unlocked u :: es => if u = t then false else Holds t es
  | .asserted _ _ :: es => Holds t es

/-- As `Holds`, but acquired with `lock()`. -/
def HoldsByLock (t : T) : List (Event T) → Bool
  | [] => false
  | .locked u :: es => if u = t then true else HoldsByLock t es
  | .tried u ok :: es => if u = t ∧ ok = true then false else HoldsByLock t es
  | .unlocked u :: es => if u = t then false else HoldsByLock t es
  | .asserted _ _ :: es => HoldsByLock t es

/-- Every completed assertion agreed with the predicate. -/
def Exact (holds : T → List (Event T) → Bool) : List (Event T) → Prop
  | [] => True
  | .asserted t ok :: es => ok = holds t es ∧ Exact holds es
  | _ :: es => Exact holds es

/-- Clients unlock only what they hold. -/
def Legal (s : State T) : Act T → Prop
  | .unlock t => Holds t s.log = true
  | _ => True

def LegalRun : List (Act T) → State T → Prop
  | [], _ => True
  | a :: as, s => Legal s a ∧ ∀ s', step s a = some s' → LegalRun as s'

end Verif.Mutex
