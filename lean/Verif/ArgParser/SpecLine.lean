import Verif.ArgParser.Spec2
/-!
# Specification: command lines every user may write

A grammar of command lines that leave nothing to guess: options are spelled by a form that no other option has, values are attached with `=` or follow in
the next argument, a boolean option without a value stands last, positionals come in order, extras after them, and the passthrough tail at the end.
-/
namespace Verif.ArgParser

/-- The stored integer is the number written, and that is an `int`. -/
def ExactInt (n m : Int) : Prop := IsInt n ∧ m = n

/-- The argument `a` is a form of option number `i`, which is `o`, and of no other. -/
inductive Says (cfg : Config) : Str → Nat → Opt → Prop
  | long {l : Str} {i : Nat} {o : Opt} : Named cfg i o l → Says cfg (45 :: 45 :: l) i o
  | short {p : UInt8} {f : Str} {i : Nat} {o : Opt} : Starts cfg p → NamedShort cfg i o f → Says cfg (p :: f) i o

/-- The item asks that option number `i`, which is `o`, be given the value `x`. -/
inductive Asks (cfg : Config) : Item → Nat → Opt → Val → Prop
  | flag {a : Str} {i : Nat} {o : Opt} {x : Val} : Says cfg a i o → (∀ d, o.kind ≠ .boolean d) → FlagValue o.kind false x → Asks cfg (.flag a i x) i o x
  | no {l : Str} {i : Nat} {o : Opt} {d : Bool} : Named cfg i o l → o.kind = .enable d → (∀ q ∈ cfg.options, q.long ≠ some ([110, 111, 45] ++ l)) →
      Asks cfg (.flag ([45, 45, 110, 111, 45] ++ l) i (.bool false)) i o (.bool false)
  | attached {a v : Str} {i : Nat} {o : Opt} {x : Val} : Says cfg a i o → v ≠ [] → Reads ExactInt o.kind v x → Asks cfg (.attached (a ++ 61 :: v) i v x) i o x
  | separate {a v : Str} {i : Nat} {o : Opt} {x : Val} : Says cfg a i o → Reads ExactInt o.kind v x → Asks cfg (.separate a i v x) i o x

/-- Command lines from the point where `pos` positionals have been given, and the options `used`. `all`: the line is the whole rest, so that every
positional must be given; otherwise it is only the part before a stop option. -/
inductive Line (cfg : Config) (all : Bool) : Nat → List Nat → List Item → Prop
  | done {pos : Nat} {used : List Nat} : (all = true → pos = cfg.positionals.length) → Line cfg all pos used []
  | option {pos : Nat} {used : List Nat} {it : Item} {i : Nat} {o : Opt} {x : Val} {rest : List Item} : Asks cfg it i o x → (∀ d, o.kind ≠ .stop d) →
      (o.kind.repeats = false → i ∉ used) → Line cfg all pos (i :: used) rest → Line cfg all pos used (it :: rest)
  | boolLast {pos : Nat} {used : List Nat} {a : Str} {i : Nat} {o : Opt} {d : Option Bool} : Says cfg a i o → o.kind = .boolean d → i ∉ used →
      all = true → pos = cfg.positionals.length → Line cfg all pos used [.flag a i (.bool true)]
  | positional {pos : Nat} {used : List Nat} {a : Str} {x : Val} {o : Opt} {rest : List Item} : ¬ OptionLike cfg a → cfg.positionals[pos]? = some o →
      Reads ExactInt o.kind a x → Line cfg all (pos + 1) used rest → Line cfg all pos used (.positional a x :: rest)
  | extra {pos : Nat} {used : List Nat} {a : Str} {rest : List Item} : ¬ OptionLike cfg a → cfg.collectExtra = true → pos = cfg.positionals.length →
      Line cfg all pos used rest → Line cfg all pos used (.extra a :: rest)
  | tail {pos : Nat} {used : List Nat} {ts : List Item} : all = true → pos = cfg.positionals.length → cfg.passthrough = true →
      (∀ t ∈ ts, t = .dashes ∨ ∃ a, t = .pass a ∧ a ≠ [45, 45]) → Line cfg all pos used (.dashes :: ts)

end Verif.ArgParser
