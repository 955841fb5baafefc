import Verif.ThreadLocal.Weak
import Verif.ThreadLocal.Spec
/-!
# What C148 is stated with
-/
namespace Verif.ThreadLocal
open Verif
variable {T A : Type} [DecidableEq T]

/-- Every thread makes its first call only after the client has ordered it, directly or through others, after one of the threads in `after`. -/
def Ordered : List T → List (WAct T A) → Prop
  | _, [] => True
  | after, .begin t _ _ :: as => t ∈ after ∧ Ordered after as
  | after, .cont _ _ :: as => Ordered after as
  | after, .sync t u :: as => Ordered (if t ∈ after then u :: after else after) as

/-- The same steps, sequentially consistent. -/
def WAct.sc : WAct T A → List (Act T A)
  | .begin t o _ => [.begin t o]
  | .cont t _ => [.cont t]
  | .sync _ _ => []

/-- Thread `t` makes the object usable, alone: by `allocate()` or by a first `set`. -/
def opening (t : T) (stale : Bool) : Option A → List (WAct T A)
  | none => [.begin t .allocate stale, .cont t stale]
  | some a => [.begin t (.set a) stale, .cont t stale, .cont t stale, .cont t stale]

/-- C148 in full: once `allocate()` has returned in one thread, any thread may use the object. -/
def PublishedByReturn : Prop :=
  ∀ as : List (WAct Nat Nat), ∃ w, wrun (fun _ => true) 0 (opening 0 false none ++ as) (WState.start 0) = .ok w ∧ Isolated 0 w.base.log

end Verif.ThreadLocal
