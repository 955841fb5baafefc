import Verif.ArgParser.Spec
import Verif.Str.Spec
/-!
# Specification of the help text

What a reader of the help text sees, in terms of the options, not of the functions that print it.
-/
namespace Verif.ArgParser

/-- A text cut into lines: put together with blanks the lines are the text; a line of more than 50 characters is a single word; and a line is ended only
when the next word would not have fitted. -/
structure Wrapped (text : Str) (lines : List Str) : Prop where
  joined : Str.concatWith [32] lines = text
  fits : ∀ l ∈ lines, l.length ≤ 50 ∨ 32 ∉ l
  greedy : ∀ (k : Nat) (a b : Str), lines[k]? = some a → lines[k + 1]? = some b → 50 < a.length + 1 + (b.takeWhile (· ≠ 32)).length

/-- Two columns: line `k` has the `k`-th left-hand text and the `k`-th right-hand text, which starts in column 28; missing ones are blank. -/
def TwoColumns (left right out : List Str) : Prop :=
  out.length = max left.length right.length ∧
  ∀ (k : Nat) (l : Str), out[k]? = some l →
    l.drop 28 = (right[k]?).getD [] ∧ l.take 28 = ((left[k]?).getD []) ++ List.replicate (28 - ((left[k]?).getD []).length) 32

/-- The lines about one thing, named by the cells `left` and explained by `help`. -/
def Shows (left : List Str) (help : Str) (out : List Str) : Prop :=
  ∃ lines, Wrapped help lines ∧
    ((∀ l ∈ left, l.length < 28) → TwoColumns left lines out) ∧
    ((∃ l ∈ left, 28 ≤ l.length) → out = left ++ lines.map (List.replicate 28 32 ++ ·))

/-- The option cannot be given without a value. -/
def Kind.needsValue : Kind → Bool
  | .string _ | .int _ | .repBool | .repString | .repInt => true
  | .boolean _ | .enable _ | .toggle _ | .stop _ => false

/-- `=NAME` for options that need a value: the long form, or the short one if there is none, in capitals and with underscores for dashes. -/
def Opt.metavar (o : Opt) : Str :=
  if o.kind.needsValue then 61 :: ((o.long.getD (o.short.getD [])).map fun c => Str.asciiUpper (if c = 45 then 95 else c)) else []

/-- The cells that name an option: `  -s, --long=LONG ` if that fits, else the forms it has on lines of their own. -/
def Opt.cells (o : Opt) : List Str :=
  match o.short, o.long with
  | none, none => []
  | some s, none => [[32, 32, 45] ++ s ++ [32]]
  | none, some l => [[32, 32, 45, 45] ++ l ++ o.metavar ++ [32]]
  | some s, some l =>
    if 8 + s.length + l.length + o.metavar.length ≤ 28 then [[32, 32, 45] ++ s ++ [44, 32, 45, 45] ++ l ++ o.metavar ++ [32]]
    else [[32, 32, 45] ++ s ++ [32], [32, 32, 45, 45] ++ l ++ o.metavar ++ [32]]

/-- A C string that can be shown: not absurdly long, and ASCII (`Uppercase` has undefined behaviour on other bytes, C36). -/
def Showable (s : Str) : Prop := s.length < 2 ^ 32 ∧ ∀ b ∈ s, b.toNat < 128

end Verif.ArgParser
