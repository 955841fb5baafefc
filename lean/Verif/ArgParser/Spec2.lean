import Verif.ArgParser.Spec
/-! # Specification of command lines: integers, results -/
namespace Verif.ArgParser

/-- The range of `int`. -/
def IsInt (n : Int) : Prop := -2147483648 ≤ n ∧ n < 2147483648

/-- What the stored integer must at least have to do with the numeral: it is an `int`, and the same number if the numeral is one. -/
def IntNum (n m : Int) : Prop := IsInt m ∧ (IsInt n → m = n)

/-- Every argument has an effect: no option was recognised and then ignored. -/
def Strict (items : List Item) : Prop := ∀ it ∈ items, it.void = false

/-- Option number `i` is `o`, the text `l` is its long form and no other option's, and contains no separator. -/
structure Named (cfg : Config) (i : Nat) (o : Opt) (l : Str) : Prop where
  opt : cfg.options[i]? = some o
  long : o.long = some l
  unique : ∀ (j : Nat) (q : Opt), cfg.options[j]? = some q → q.long = some l → j = i
  noEquals : 61 ∉ l
  noColon : cfg.inlineValues = true → 58 ∉ l

/-- The same for the short form. -/
structure NamedShort (cfg : Config) (i : Nat) (o : Opt) (f : Str) : Prop where
  opt : cfg.options[i]? = some o
  short : o.short = some f
  unique : ∀ (j : Nat) (q : Opt), cfg.options[j]? = some q → q.short = some f → j = i
  noEquals : 61 ∉ f
  noColon : cfg.inlineValues = true → 58 ∉ f

/-- The character that starts a short option: a dash, or a slash where those are allowed. -/
def Starts (cfg : Config) (p : UInt8) : Prop := p = 45 ∨ (cfg.slashes = true ∧ p = 47)

/-- The next argument after `pre` cannot be the value of an option in `pre`, and is not part of a passthrough tail: the last argument of `pre`, if there
is one, does not look like an option, and where passthrough is enabled there is no `--`. -/
def Complete (cfg : Config) (pre : List Str) : Prop :=
  (∀ a, pre.getLast? = some a → ¬ OptionLike cfg a) ∧ (cfg.passthrough = true → [45, 45] ∉ pre)

/-- The help option is the only one that ends the parse. -/
def OnlyHelpStops (cfg : Config) : Prop := ∀ (i : Nat) (o : Opt) (d : Bool), cfg.options[i]? = some o → o.kind = .stop d → cfg.help = true ∧ i = 0

end Verif.ArgParser
