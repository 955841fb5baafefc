import Verif.ThreadLocal.Model
/-!
# Specification of `ke::ThreadLocal`
-/
namespace Verif.ThreadLocal
variable {T A : Type} [DecidableEq T]

/-- The value thread `t` last set, according to the calls completed so far (latest first). -/
def lastSet (dflt : A) (t : T) : List (Event T A) → A
  | [] => dflt
  | .didSet u a :: es => if u = t then a else lastSet dflt t es
  | _ :: es => lastSet dflt t es

/-- Every `get` returned what its own thread had last set. -/
def Isolated (dflt : A) : List (Event T A) → Prop
  | [] => True
  | .got t a :: es => a = lastSet dflt t es ∧ Isolated dflt es
  | _ :: es => Isolated dflt es

end Verif.ThreadLocal
