import Verif.ThreadLocal.Lossy
/-!
# Specification: what `get` may return when values are lost
-/
namespace Verif.ThreadLocal
variable {T A : Type} [DecidableEq T]

/-- The value thread `t` last set and the system kept, according to the calls completed so far (latest first). -/
def lastKept (dflt : A) (t : T) : List (Event T A × Bool) → A
  | [] => dflt
  | (.didSet u a, lost) :: es => if u = t ∧ lost = false then a else lastKept dflt t es
  | _ :: es => lastKept dflt t es

/-- Every `get` returned what its own thread had last set and the system had kept. -/
def IsolatedKept (dflt : A) : List (Event T A × Bool) → Prop
  | [] => True
  | (.got t a, _) :: es => a = lastKept dflt t es ∧ IsolatedKept dflt es
  | _ :: es => IsolatedKept dflt es

end Verif.ThreadLocal
