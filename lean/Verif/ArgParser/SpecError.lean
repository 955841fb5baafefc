import Verif.ArgParser.Spec2
/-!
# Specification: why a command line is refused

Which option an argument is about, and what can be wrong with it. Only the vocabulary of the API (`Config`, `Opt`, `Kind`) and the specification of
command lines are used, not the parsing functions and not their messages.
-/
namespace Verif.ArgParser

/-- The bytes of an ASCII text. -/
def ascii (s : String) : Str := s.toUTF8.toList

/-- Option number `i` is `o`, and the first one that has the given form. -/
def Owns (form : Opt → Option Str) (cfg : Config) (i : Nat) (o : Opt) (f : Str) : Prop :=
  cfg.options[i]? = some o ∧ form o = some f ∧ ∀ (j : Nat) (q : Opt), j < i → cfg.options[j]? = some q → form q ≠ some f

/-- The argument `a` is about option number `i`, which is `o`: by its long form, by `--no-` and its long form, by its short form, or (where inline values are
enabled) by a short form of one character with the value right behind it. -/
inductive About (cfg : Config) (a : Str) : Nat → Opt → Prop
  | long {l : Str} {i : Nat} {o : Opt} : Head cfg a (45 :: 45 :: l) → Owns Opt.long cfg i o l → About cfg a i o
  | no {l : Str} {i : Nat} {o : Opt} {d : Bool} : Head cfg a (45 :: 45 :: 110 :: 111 :: 45 :: l) → Owns Opt.long cfg i o l → o.kind = .enable d → About cfg a i o
  | short {p : UInt8} {f : Str} {i : Nat} {o : Opt} : ¬ [45, 45] <+: a → Head cfg a (p :: f) → Owns Opt.short cfg i o f → About cfg a i o
  | inlined {p c : UInt8} {v : Str} {i : Nat} {o : Opt} : ¬ [45, 45] <+: a → cfg.inlineValues = true → a = p :: c :: v → Owns Opt.short cfg i o [c] → About cfg a i o

/-- The text `v` is attached to the argument `a` as a value: behind the separator, or right behind a short form of one character. -/
inductive Attached (cfg : Config) (a : Str) : Str → Prop
  | behind {h v : Str} {c : UInt8} : Head cfg a h → a = h ++ c :: v → (c = 61 ∨ (cfg.inlineValues = true ∧ c = 58)) → Attached cfg a v
  | inlined {p c : UInt8} {v : Str} {i : Nat} {o : Opt} : ¬ [45, 45] <+: a → cfg.inlineValues = true → a = p :: c :: v → v ≠ [] →
      Owns Opt.short cfg i o [c] → Attached cfg a v

/-- What users call an option: a positional by its name, others by their long form if they have one, else by the short form. -/
inductive Called (o : Opt) : Str → Prop
  | name {n : Str} : o.name = some n → Called o n
  | long {l : Str} : o.name = none → o.long = some l → Called o l
  | short {f : Str} : o.name = none → o.long = none → o.short = some f → Called o f

/-- Options that stand for themselves: no value can be given to them. -/
def Kind.bare : Kind → Bool
  | .enable _ | .toggle _ | .stop _ => true
  | _ => false

/-- Options that can do with or without a value. -/
def Kind.boolean? : Kind → Bool
  | .boolean _ => true
  | _ => false

/-- The text is no value for options of this kind. -/
def NoValue (k : Kind) (v : Str) : Prop := ∀ x, ¬ Reads (fun _ _ => True) k v x

/-- What is wrong with a command line whose items `before` are all right and whose remaining arguments are as given, and what the user is told. -/
inductive Complaint (cfg : Config) (before : List Item) : List Str → Str → Prop
  /-- an option that nobody declared -/
  | unknown {a : Str} {rest : List Str} : OptionLike cfg a → (∀ i o, ¬ About cfg a i o) → Complaint cfg before (a :: rest) (ascii "Unrecognized option: " ++ a)
  /-- an argument when all positionals have been given and no extra ones are wanted -/
  | surplus {a : Str} {rest : List Str} : ¬ OptionLike cfg a → (before.filterMap Item.positionalPair).length = cfg.positionals.length → cfg.collectExtra = false →
      Complaint cfg before (a :: rest) (ascii "Unrecognized extra arguments at end of command.")
  /-- a second value for a single-valued option -/
  | twice {a n : Str} {rest : List Str} {i : Nat} {o : Opt} : OptionLike cfg a → About cfg a i o → o.kind.repeats = false → givenTo before i ≠ [] → Called o n →
      Complaint cfg before (a :: rest) (ascii "Option '" ++ n ++ ascii "' was specified more than once.")
  /-- an option that has to have a value at the end of the line, without one -/
  | needsValue {a n : Str} {i : Nat} {o : Opt} : OptionLike cfg a → About cfg a i o → Head cfg a a → o.kind.bare = false → o.kind.boolean? = false → Called o n →
      Complaint cfg before [a] (ascii "Option '" ++ n ++ ascii "' needs a value.")
  /-- a value for an option that takes none -/
  | noArgument {a n v : Str} {rest : List Str} {i : Nat} {o : Opt} : OptionLike cfg a → About cfg a i o → Attached cfg a v → o.kind.bare = true → Called o n →
      Complaint cfg before (a :: rest) (ascii "Argument '" ++ n ++ ascii "' did not recognize value: " ++ v)
  /-- an attached text that is no value for the option -/
  | badAttached {a n v : Str} {rest : List Str} {i : Nat} {o : Opt} : OptionLike cfg a → About cfg a i o → Attached cfg a v → NoValue o.kind v → Called o n →
      Complaint cfg before (a :: rest) (ascii "Argument '" ++ n ++ ascii "' did not recognize value: " ++ v)
  /-- a following argument that is no value for the option -/
  | badNext {a n v : Str} {rest : List Str} {i : Nat} {o : Opt} : OptionLike cfg a → About cfg a i o → Head cfg a a → o.kind.bare = false → NoValue o.kind v → Called o n →
      Complaint cfg before (a :: v :: rest) (ascii "Argument '" ++ n ++ ascii "' did not recognize value: " ++ v)
  /-- an argument that is no value for the positional whose turn it is -/
  | badPositional {a n : Str} {rest : List Str} {o : Opt} : ¬ OptionLike cfg a → cfg.positionals[(before.filterMap Item.positionalPair).length]? = some o →
      NoValue o.kind a → Called o n → Complaint cfg before (a :: rest) (ascii "Argument '" ++ n ++ ascii "' did not recognize value: " ++ a)
  /-- too few arguments: the first positional without a value -/
  | missing {n : Str} {o : Opt} : cfg.positionals[(before.filterMap Item.positionalPair).length]? = some o → Called o n →
      Complaint cfg before [] (ascii "Missing value for '" ++ n ++ ascii "'.")

/-- The items are all right as the beginning of a command line. -/
structure SoFar (num : Int → Int → Prop) (cfg : Config) (items : List Item) : Prop where
  each : ∀ it ∈ items, it.Ok num cfg
  once : (items.filterMap (Item.single cfg)).Nodup
  plain : items.filterMap Item.plain = (items.filterMap Item.positionalPair).map Prod.fst ++ items.filterMap Item.extraArg
  positionals : ∀ (k : Nat) (a : Str) (x : Val), (items.filterMap Item.positionalPair)[k]? = some (a, x) →
    ∃ o : Opt, cfg.positionals[k]? = some o ∧ Reads num o.kind a x
  noStop : ∀ it ∈ items, ¬ it.stops cfg
  tail : items.Pairwise fun a b => a.inTail = true → b.inTail = true
  tailStart : ∀ a l r, items = l ++ .pass a :: r → .dashes ∈ l

end Verif.ArgParser
