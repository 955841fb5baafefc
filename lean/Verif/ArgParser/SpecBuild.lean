import Verif.ArgParser.BuildModel
import Verif.ArgParser.Spec
/-!
# Specification: what a declaration says
-/
namespace Verif.ArgParser

/-- The form `f` is what the programmer wrote, `s`, without the leading dashes, which he may leave out; it is not empty and has no further dash in front. -/
def Bare (dashes s f : Str) : Prop := (s = f ∨ s = dashes ++ f) ∧ f ≠ [] ∧ f.head? ≠ some 45

/-- The same for a form that may be absent (a null pointer). -/
inductive BareOpt (dashes : Str) : Option Str → Option Str → Prop
  | none : BareOpt dashes none none
  | some {s f : Str} : Bare dashes s f → BareOpt dashes (some s) (some f)

/-- The kind of option and the default value the programmer asked for; toggles start false if no default is given. -/
inductive Meant : Cls → Kind → Prop
  | bool (d : Option Bool) : Meant (.bool d) (.boolean d)
  | string (d : Option Str) : Meant (.string d) (.string d)
  | int (d : Option Int) : Meant (.int d) (.int d)
  | enable (d : Bool) : Meant (.enable d) (.enable d)
  | toggle (b : Bool) : Meant (.toggle (some b)) (.toggle b)
  | toggleFalse : Meant (.toggle none) (.toggle false)
  | stop (b : Bool) : Meant (.stop (some b)) (.stop b)
  | stopFalse : Meant (.stop none) (.stop false)
  | repBool : Meant .repBool .repBool
  | repString : Meant .repString .repString
  | repInt : Meant .repInt .repInt

/-- Positionals have no default. -/
inductive MeantPos : ValType → Kind → Prop
  | bool : MeantPos .bool (.boolean none)
  | string : MeantPos .string (.string none)
  | int : MeantPos .int (.int none)

/-- The declaration `d` is well formed and declares `o`. -/
inductive Declares : Decl → Opt → Prop
  | forms {c : Cls} {s l s' l' : Option Str} {h : Str} {k : Kind} : (s ≠ none ∨ l ≠ none) → BareOpt [45] s s' → BareOpt [45, 45] l l' → Meant c k →
      Declares (.forms c s l h) ⟨s', l', none, h, k⟩
  | named {t : ValType} {n h : Str} {k : Kind} : MeantPos t k → Declares (.named t (some n) h) ⟨none, none, some n, h, k⟩

/-- An option with a form; the others are positionals. -/
def Decl.isOption : Decl → Bool
  | .forms .. => true
  | .named .. => false

/-- The declaration in a set-up call. -/
def Act.decl : Act → Option Decl
  | .declare d => some d
  | _ => none

/-- A list of options declared one after the other. -/
inductive DeclaresAll : List Decl → List Opt → Prop
  | nil : DeclaresAll [] []
  | cons {d : Decl} {ds : List Decl} {o : Opt} {os : List Opt} : Declares d o → DeclaresAll ds os → DeclaresAll (d :: ds) (o :: os)

/-- The default value an option reports as long as it is not given. -/
def Kind.default : Kind → Option Val
  | .boolean d => d.map .bool
  | .string d => d.map .str
  | .int d => d.map .int
  | .enable d => some (.bool d)
  | .toggle d => some (.bool d)
  | .stop d => some (.bool d)
  | .repBool => none
  | .repString => none
  | .repInt => none

/-- The option object reports the value `v` (`none`: no value, and then `value()` must not be called). -/
def Reports (o : Opt) (c : Cell) (v : Option Val) : Prop :=
  hasValue o c = v.isSome ∧ maybeValue o c = v ∧ (∀ x, v = some x → valueOf o c = .ok x) ∧ (v = none → valueOf o c = .error .assertFail)

end Verif.ArgParser
