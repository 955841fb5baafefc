import Verif.ArgParser.Model
/-!
# Specification of command lines

What it means that a command line is made up of accepted arguments: the line is cut into items, each item is an option in one of its documented
spellings (am-argparser.h:69-72, 642-651), a positional, an extra argument or part of the passthrough tail. Only `Config`, `Opt`, `Kind` and `Val` (the
vocabulary of the API) are used from the model, not the parsing functions.
-/
namespace Verif.ArgParser

/-- The option sets that can be built with the classes the header provides: an option has a short or a long form and no name, a positional is a single value
with a name, forms are not empty and do not start with a dash, and the help option comes first if there is one. -/
structure Config.Valid (cfg : Config) : Prop where
  options : ∀ o ∈ cfg.options, o.name = none
  short : ∀ o ∈ cfg.options, ∀ f, o.short = some f → f ≠ [] ∧ f[0]? ≠ some 45
  long : ∀ o ∈ cfg.options, ∀ f, o.long = some f → f ≠ [] ∧ f[0]? ≠ some 45
  positionals : ∀ o ∈ cfg.positionals, o.name ≠ none ∧ ((∃ d, o.kind = .boolean d) ∨ (∃ d, o.kind = .string d) ∨ ∃ d, o.kind = .int d)
  help : cfg.help = true → cfg.options[0]? = some helpOpt

/-- An argument that is read as an option: it starts with a dash, or a slash where those are allowed. -/
def OptionLike (cfg : Config) (a : Str) : Prop := a[0]? = some 45 ∨ (cfg.slashes = true ∧ a[0]? = some 47)

/-- `Spells cfg a i v neg`: the argument `a` is a spelling of option number `i`, with the value `v` attached (`none`: without a value); `neg`: in the
`--no-` form. -/
inductive Spells (cfg : Config) : Str → Nat → Option Str → Bool → Prop
  | long {l : Str} {i : Nat} {o : Opt} : cfg.options[i]? = some o → o.long = some l → Spells cfg (45 :: 45 :: l) i none false
  | longValue {l v : Str} {c : UInt8} {i : Nat} {o : Opt} : cfg.options[i]? = some o → o.long = some l →
      (c = 61 ∨ (cfg.inlineValues = true ∧ c = 58)) → Spells cfg (45 :: 45 :: (l ++ c :: v)) i (some v) false
  | short {p : UInt8} {f : Str} {i : Nat} {o : Opt} : (p = 45 ∨ (cfg.slashes = true ∧ p = 47)) → cfg.options[i]? = some o → o.short = some f →
      Spells cfg (p :: f) i none false
  | shortValue {p : UInt8} {f v : Str} {c : UInt8} {i : Nat} {o : Opt} : (p = 45 ∨ (cfg.slashes = true ∧ p = 47)) → cfg.options[i]? = some o →
      o.short = some f → (c = 61 ∨ (cfg.inlineValues = true ∧ c = 58)) → Spells cfg (p :: (f ++ c :: v)) i (some v) false
  | inlineValue {p ch : UInt8} {v : Str} {i : Nat} {o : Opt} : (p = 45 ∨ (cfg.slashes = true ∧ p = 47)) → cfg.inlineValues = true → v ≠ [] →
      cfg.options[i]? = some o → o.short = some [ch] → Spells cfg (p :: ch :: v) i (some v) false
  | no {l : Str} {i : Nat} {o : Opt} {d : Bool} : cfg.options[i]? = some o → o.long = some l → o.kind = .enable d →
      Spells cfg ([45, 45, 110, 111, 45] ++ l) i none true

/-- The part of an option argument that names the option: what stands before the first `=`, or where inline values are enabled and there is no `=`, before
the first `:`; but with inline values a separator that nothing follows is not counted as one (am-argparser.h:653-657). -/
inductive Head (cfg : Config) : Str → Str → Prop
  | whole {a : Str} : 61 ∉ a → (cfg.inlineValues = true → 58 ∉ a) → Head cfg a a
  | equals {n v : Str} : 61 ∉ n → (cfg.inlineValues = true → v ≠ []) → Head cfg (n ++ 61 :: v) n
  | equalsEnd {n : Str} : 61 ∉ n → cfg.inlineValues = true → Head cfg (n ++ [61]) (n ++ [61])
  | colon {n v : Str} : 61 ∉ n → 61 ∉ v → 58 ∉ n → cfg.inlineValues = true → v ≠ [] → Head cfg (n ++ 58 :: v) n
  | colonEnd {n : Str} : 61 ∉ n → 58 ∉ n → cfg.inlineValues = true → Head cfg (n ++ [58]) (n ++ [58])

/-- An argument of the form `--no-...` of which neither the part after `--` nor the part after `--no-` names an option. -/
def NoUnknown (cfg : Config) (a : Str) : Prop :=
  [45, 45, 110, 111, 45] <+: a ∧ ∃ h, Head cfg a h ∧ ∀ o ∈ cfg.options, o.long ≠ some (h.drop 2) ∧ o.long ≠ some (h.drop 5)

/-- The decimal value of a digit. -/
def Digit (c : UInt8) (n : Nat) : Prop := n < 10 ∧ c.toNat = 48 + n

/-- A string of decimal digits and the number it denotes, built from the left. -/
inductive Digits : Str → Nat → Prop
  | one {c : UInt8} {n : Nat} : Digit c n → Digits [c] n
  | more {ds : Str} {c : UInt8} {m n : Nat} : Digits ds m → Digit c n → Digits (ds ++ [c]) (10 * m + n)

/-- Decimal notation of an integer: white space, an optional sign, digits. -/
inductive Numeral : Str → Int → Prop
  | plain {ds : Str} {n : Nat} : Digits ds n → Numeral ds n
  | plus {ds : Str} {n : Nat} : Digits ds n → Numeral (43 :: ds) n
  | minus {ds : Str} {n : Nat} : Digits ds n → Numeral (45 :: ds) (-(n : Int))
  | space {c : UInt8} {t : Str} {n : Int} : (c = 32 ∨ (9 ≤ c.toNat ∧ c.toNat ≤ 13)) → Numeral t n → Numeral (c :: t) n

/-- ASCII lower case. -/
def lowered (s : Str) : Str := s.map fun x => if 65 ≤ x.toNat ∧ x.toNat ≤ 90 then UInt8.ofNat (x.toNat + 32) else x

/-- The text `v` is read as the value `x` by options of kind `k`. For integers the value is only related to the numeral by `num`; which relation the code
meets is the subject of C78. -/
def Reads (num : Int → Int → Prop) (k : Kind) (v : Str) (x : Val) : Prop :=
  match k with
  | .boolean _ | .repBool => (lowered v = [116, 114, 117, 101] ∧ x = .bool true) ∨ (lowered v = [102, 97, 108, 115, 101] ∧ x = .bool false)
  | .string _ | .repString => v ≠ [] ∧ x = .str v
  | .int _ | .repInt => ∃ n m, Numeral v n ∧ num n m ∧ x = .int m
  | .enable _ | .toggle _ | .stop _ => False

/-- The parts a command line is made of. `x` is the value given. -/
inductive Item where
  /-- an option without a value text -/
  | flag (a : Str) (i : Nat) (x : Val)
  /-- an option with its value attached -/
  | attached (a : Str) (i : Nat) (v : Str) (x : Val)
  /-- an option with its value in the next argument -/
  | separate (a : Str) (i : Nat) (v : Str) (x : Val)
  /-- a boolean option that was recognised but given no value -/
  | ignored (a : Str) (i : Nat)
  /-- a boolean option with an attached text that is no boolean -/
  | junk (a : Str) (i : Nat) (v : Str)
  | positional (a : Str) (x : Val)
  | extra (a : Str)
  /-- the `--` that starts (or occurs in) the passthrough tail -/
  | dashes
  | pass (a : Str)
deriving DecidableEq

/-- The arguments of an item. -/
def Item.args : Item → List Str
  | .flag a _ _ | .attached a _ _ _ | .ignored a _ | .junk a _ _ | .positional a _ | .extra a | .pass a => [a]
  | .separate a _ v _ => [a, v]
  | .dashes => [[45, 45]]

/-- The value the item gives, with the number of the option it is given to. -/
def Item.gives : Item → Option (Nat × Val)
  | .flag _ i x | .attached _ i _ x | .separate _ i _ x => some (i, x)
  | _ => none

/-- A plain argument (neither option nor option value): positional or extra. -/
def Item.plain : Item → Option Str
  | .positional a _ | .extra a => some a
  | _ => none

/-- A positional argument and its value. -/
def Item.positionalPair : Item → Option (Str × Val)
  | .positional a x => some (a, x)
  | _ => none

def Item.extraArg : Item → Option Str
  | .extra a => some a
  | _ => none

def Item.passed : Item → Option Str
  | .pass a => some a
  | _ => none

/-- Part of the passthrough tail. -/
def Item.inTail : Item → Bool
  | .dashes | .pass _ => true
  | _ => false

/-- Recognised, but without effect. -/
def Item.void : Item → Bool
  | .ignored _ _ | .junk _ _ _ => true
  | _ => false

/-- What a flag without a value text means. -/
def FlagValue (k : Kind) (neg : Bool) (x : Val) : Prop :=
  match k with
  | .enable _ => x = .bool (!neg)
  | .toggle d | .stop d => neg = false ∧ x = .bool (!d)
  | .boolean _ => neg = false ∧ x = .bool true
  | _ => False

/-- The item is properly spelled and its value is what its text denotes. -/
def Item.Ok (num : Int → Int → Prop) (cfg : Config) : Item → Prop
  | .flag a i x => OptionLike cfg a ∧ ∃ o neg, cfg.options[i]? = some o ∧ Spells cfg a i none neg ∧ FlagValue o.kind neg x
  | .attached a i v x => OptionLike cfg a ∧ ∃ o, cfg.options[i]? = some o ∧ Spells cfg a i (some v) false ∧ Reads num o.kind v x
  | .separate a i v x => OptionLike cfg a ∧ ∃ o, cfg.options[i]? = some o ∧ Spells cfg a i none false ∧ Reads num o.kind v x
  | .ignored a i => OptionLike cfg a ∧ ∃ o d, cfg.options[i]? = some o ∧ Spells cfg a i none false ∧ o.kind = .boolean d
  | .junk a i v => OptionLike cfg a ∧ ∃ o d, cfg.options[i]? = some o ∧ Spells cfg a i (some v) false ∧ o.kind = .boolean d ∧ ∀ x, ¬ Reads num o.kind v x
  | .positional a _ => ¬ OptionLike cfg a
  | .extra a => ¬ OptionLike cfg a ∧ cfg.collectExtra = true
  | .dashes => cfg.passthrough = true
  | .pass a => cfg.passthrough = true ∧ a ≠ [45, 45]

/-- Options that may be given any number of times. -/
def Kind.repeats : Kind → Bool
  | .repBool | .repString | .repInt => true
  | _ => false

/-- The number of a single-valued option that the item gives a value to. -/
def Item.single (cfg : Config) (it : Item) : Option Nat :=
  match it.gives with
  | some (i, _) => cfg.options[i]?.bind fun (o : Opt) => if o.kind.repeats then none else some i
  | none => none

/-- The values given to option `i`, in order. -/
def givenTo (items : List Item) (i : Nat) : List Val :=
  items.filterMap fun it => match it.gives with
    | some (j, x) => if j = i then some x else none
    | none => none

/-- The item is a stop option. -/
def Item.stops (cfg : Config) (it : Item) : Prop :=
  ∃ (i : Nat) (x : Val) (o : Opt) (d : Bool), it.gives = some (i, x) ∧ cfg.options[i]? = some o ∧ o.kind = .stop d

/-- A command line, up to the argument that ends the parse, cut into items: every argument belongs to one, no single-valued option is given two values, the
plain arguments are the positionals' values in order and then extras, and nothing but passthrough arguments follows the first `--`. -/
structure Explains (num : Int → Int → Prop) (cfg : Config) (args : List Str) (items : List Item) : Prop where
  covers : items.flatMap Item.args = args ∨
    ((items.flatMap Item.args) <+: args ∧ ∃ it, items.getLast? = some it ∧ it.stops cfg)
  each : ∀ it ∈ items, it.Ok num cfg
  once : (items.filterMap (Item.single cfg)).Nodup
  tail : items.Pairwise fun a b => a.inTail = true → b.inTail = true
  tailStart : ∀ a l r, items = l ++ .pass a :: r → .dashes ∈ l
  plain : items.filterMap Item.plain = (items.filterMap Item.positionalPair).map Prod.fst ++ items.filterMap Item.extraArg
  positionals : ∀ (k : Nat) (a : Str) (x : Val), (items.filterMap Item.positionalPair)[k]? = some (a, x) →
    ∃ o : Opt, cfg.positionals[k]? = some o ∧ Reads num o.kind a x
  extras : items.filterMap Item.extraArg ≠ [] → (items.filterMap Item.positionalPair).length = cfg.positionals.length
  complete : items.flatMap Item.args = args → (∀ it, items.getLast? = some it → ¬ it.stops cfg) →
    (items.filterMap Item.positionalPair).length = cfg.positionals.length

/-- What the options hold after the items: a single-valued option the one value given (or nothing), a repeated one all of them in order; the n-th positional
the n-th value; extras and passthrough arguments in order. -/
structure Effect (cfg : Config) (items : List Item) (cells : Ref → Cell) (extra pass : List Str) : Prop where
  single : ∀ (i : Nat) (o : Opt), cfg.options[i]? = some o → o.kind.repeats = false → (cells (.opt i)).value = (givenTo items i)[0]? ∧ (givenTo items i).length ≤ 1
  repeated : ∀ (i : Nat) (o : Opt), cfg.options[i]? = some o → o.kind.repeats = true → (cells (.opt i)).values = givenTo items i
  positional : ∀ (k : Nat) (o : Opt), cfg.positionals[k]? = some o → (cells (.pos k)).value = (items.filterMap Item.positionalPair)[k]?.map Prod.snd
  extra : extra = items.filterMap Item.extraArg
  pass : pass = items.filterMap Item.passed

end Verif.ArgParser
