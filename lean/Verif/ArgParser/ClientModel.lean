import Verif.ArgParser.Model
/-!
# `Parser` over option classes that a user derives from `IOption`

`Model.lean` has the option classes of the header as cases of `Kind`. Here an option is any object (`α` names the objects) with any virtual functions: a
call may answer anything, may change the world `σ` that all client code shares, and may be undefined behaviour. One object may be registered more than once.
Client code that calls back into the parser is not modelled.
-/
namespace Verif.ArgParser.Client
open Verif Verif.ArgParser

/-- The calls that `Parser` makes on an option: the virtual functions of am-argparser.h:152-170, and `help_option_->value()` (734). -/
inductive Query where
  | mustOmit
  | canOmit
  | halts
  | takesNo
  | willRepeat
  | consume (arg : Option Str)
  | reset
  | value
deriving DecidableEq, Repr

/-- A run of parser code over client code with state `σ`: undefined behaviour or a result, and the world it leaves. Bookkeeping for the calls of am-argparser.h:621-739. -/
def Run (σ β : Type) : Type := σ → Except Fault β × σ

/-- Sequencing of statements (am-argparser.h:621-739); undefined behaviour ends the run. -/
def Run.bind {σ β γ : Type} (x : Run σ β) (f : β → Run σ γ) : Run σ γ := fun s =>
  match x s with
  | (.ok b, s') => f b s'
  | (.error e, s') => (.error e, s')

/-- The sequencing notation (am-argparser.h:621-739). -/
instance {σ : Type} : Monad (Run σ) where
  pure b := fun s => (.ok b, s)
  bind := Run.bind

/-- Undefined behaviour, reached at am-argparser.h:674 and 720. -/
def Run.fault {σ β : Type} (e : Fault) : Run σ β := fun s => (.error e, s)

/-- The virtual functions of all the objects (am-argparser.h:152-170): what a call on an object answers and does. `reset` returns nothing; its answer is not used. -/
abbrev Virt (α σ : Type) : Type := α → Query → Run σ Bool

/-- The data members of an `IOption`, am-argparser.h:216-220. -/
structure Form where
  short : Option Str
  long : Option Str
  name : Option Str
deriving DecidableEq, Repr

/-- `pretty_name`, am-argparser.h:208-214. -/
def Form.pretty (o : Form) : Str :=
  match o.name with
  | some n => n
  | none => match o.long with
    | some l => l
    | none => o.short.getD []

/-- The parts of `Parser` that parsing does not change, am-argparser.h:132-145; `form` is the data members of each object, `help` is `help_option_`. -/
structure Config (α : Type) where
  options : List α
  positionals : List α
  form : α → Form
  inlineValues : Bool := false
  slashes : Bool := false
  collectExtra : Bool := false
  passthrough : Bool := false
  help : Option α := none

/-- The parts that parsing changes, am-argparser.h:135 and 141-144. -/
structure PState where
  error : Str := []
  extra : List Str := []
  pass : List Str := []
  hasPass : Bool := false
deriving DecidableEq, Repr

variable {α σ : Type}

/-- `Parser::add`, am-argparser.h:572-579. -/
def Config.add (cfg : Config α) (o : α) : Config α :=
  if (cfg.form o).short.isSome || (cfg.form o).long.isSome then { cfg with options := cfg.options ++ [o] }
  else { cfg with positionals := cfg.positionals ++ [o] }

/-- `find_short`, am-argparser.h:741-753. -/
def findShort (cfg : Config α) (text : Str) (len : Nat) : Option α :=
  cfg.options.find? fun o => formIs (cfg.form o).short text len

/-- `find_long`, am-argparser.h:767-779. -/
def findLong (cfg : Config α) (text : Str) (len : Nat) : Option α :=
  cfg.options.find? fun o => formIs (cfg.form o).long text len

/-- `find_inline_short`, am-argparser.h:755-765; `c` is `none` when the character is the terminator, which no short form starts with. -/
def findInline (cfg : Config α) (c : Option UInt8) : Option α :=
  cfg.options.find? fun o => match (cfg.form o).short with
    | none => false
    | some f => f.length == 1 && (c.isSome && f[0]? == c)

/-- The separator, am-argparser.h:653-657. -/
def sepOf (cfg : Config α) (arg : Str) : Option Nat :=
  let sep := strchr arg 61
  let sep := if sep.isNone && cfg.inlineValues then strchr arg 58 else sep
  match sep with
  | some k => if cfg.inlineValues && (arg.drop (k + 1)).length == 0 then none else some k
  | none => none

/-- The option that an argument names, before "--no-" is considered, and `sep`: am-argparser.h:652-670. -/
def resolve (cfg : Config α) (arg : Str) : Option α × Option Nat :=
  let sep := sepOf cfg arg
  let len := sep.getD arg.length
  if arg[0]? = some 45 ∧ arg[1]? = some 45 then (findLong cfg (arg.drop 2) (len - 2), sep)
  else match findShort cfg (arg.drop 1) (len - 1) with
    | some r => (some r, sep)
    | none =>
      if cfg.inlineValues then
        match findInline cfg arg[1]? with
        | some r => (some r, if len > 2 then some 1 else sep)
        | none => (none, sep)
      else (none, sep)

/-- What an argument that starts with a dash or slash resolves to, am-argparser.h:652-680: the option, `value_ptr` as set at 675 or 679, and `sep`. -/
def lookup (V : Virt α σ) (cfg : Config α) (arg : Str) : Run σ (Option (α × Option Str × Option Nat)) :=
  match resolve cfg arg with
  | (none, sep) =>
    if sNo.isPrefixOf arg then
      match findLong cfg (arg.drop 5) ((sepOf cfg arg).getD arg.length - 5) with
      | none => Run.fault .nullDeref
      | some o => do
        let b ← V o .takesNo
        if b then pure (some (o, some sFalse, sep)) else pure none
    else pure none
  | (some o, sep) => do
    let b ← V o .takesNo
    pure (some (o, if b then some sTrue else none, sep))

/-- What one round of the loop does next (am-argparser.h:627-729). -/
inductive Next where
  | fail (p : PState)
  | halt (p : PState) (pos : Nat)
  | next (p : PState) (pos : Nat) (took : Bool)

/-- `option_invalid_value` (am-argparser.h:802-807). -/
def msgInvalid (o : Form) (v : Str) : Str := lit "Argument '" ++ o.pretty ++ lit "' did not recognize value: " ++ v
/-- `option_needs_value` (am-argparser.h:795-800). -/
def msgNeedsValue (o : Form) : Str := lit "Option '" ++ o.pretty ++ lit "' needs a value."
/-- `missing_positional` (am-argparser.h:809-814). -/
def msgMissing (o : Form) : Str := lit "Missing value for '" ++ o.pretty ++ lit "'."
/-- `option_already_specified` (am-argparser.h:816-821). -/
def msgTwice (o : Form) : Str := lit "Option '" ++ o.pretty ++ lit "' was specified more than once."

/-- `haltOnValue`, am-argparser.h:725-728. -/
def stop (V : Virt α σ) (p : PState) (o : α) (pos : Nat) (took : Bool) : Run σ Next := do
  let h ← V o .halts
  if h then pure (.halt p pos) else pure (.next p pos took)

/-- `consumeValue` and what follows, am-argparser.h:718-728; `took`: the value is the following argument. `%s` of a null value (720) is a fault. -/
def give (V : Virt α σ) (cfg : Config α) (p : PState) (o : α) (pos : Nat) (v : Option Str) (took : Bool) : Run σ Next := do
  let ok ← V o (.consume v)
  if ok then stop V p o pos took
  else do
    let c ← V o .canOmit
    if c then stop V p o pos false
    else match v with
      | none => Run.fault .nullDeref
      | some v => pure (.fail { p with error := msgInvalid (cfg.form o) v })

/-- The end of a round, am-argparser.h:707-728. -/
def finish (V : Virt α σ) (cfg : Config α) (p : PState) (o : α) (pos : Nat) (value : Option Str) (next : Option Str) : Run σ Next :=
  match value with
  | some v => give V cfg p o pos (some v) false
  | none =>
    match next with
    | none => do
      let c ← V o .canOmit
      if c then give V cfg p o pos none false else pure (.fail { p with error := msgNeedsValue (cfg.form o) })
    | some n => do
      let m ← V o .mustOmit
      if m then give V cfg p o pos none false else give V cfg p o pos (some n) true

/-- One round of the loop, am-argparser.h:628-728. -/
def stepArg (V : Virt α σ) (cfg : Config α) (p : PState) (pos : Nat) (arg : Str) (next : Option Str) : Run σ Next :=
  if cfg.passthrough ∧ arg = [45, 45] then pure (.next { p with hasPass := true } pos false)
  else if p.hasPass then pure (.next { p with pass := p.pass ++ [arg] } pos false)
  else if arg[0]? = some 45 ∨ (cfg.slashes ∧ arg[0]? = some 47) then do
    let f ← lookup V cfg arg
    match f with
    | none => pure (.fail { p with error := msgUnrecognized arg })
    | some (o, value, sep) => do
      let again ← V o .willRepeat
      if again then
        match sep with
        | some k => do
          let m ← V o .mustOmit
          if m then pure (.fail { p with error := msgInvalid (cfg.form o) (arg.drop (k + 1)) })
          else finish V cfg p o pos (some (arg.drop (k + 1))) next
        | none => finish V cfg p o pos value next
      else pure (.fail { p with error := msgTwice (cfg.form o) })
  else
    match cfg.positionals[pos]? with
    | none =>
      if !cfg.collectExtra then pure (.fail { p with error := msgExtra })
      else pure (.next { p with extra := p.extra ++ [arg] } pos false)
    | some o => finish V cfg p o (pos + 1) (some arg) next

/-- The loop, am-argparser.h:624-729; `skip`: `++i` (713) has already passed the first of the arguments. -/
def loop (V : Virt α σ) (cfg : Config α) : List Str → Bool → PState → Nat → Run σ (Option (Bool × Nat) × PState)
  | [], _, p, pos => pure (some (false, pos), p)
  | _ :: rest, true, p, pos => loop V cfg rest false p pos
  | arg :: rest, false, p, pos => do
    let s ← stepArg V cfg p pos arg rest.head?
    match s with
    | .fail p => pure (none, p)
    | .halt p pos => pure (some (true, pos), p)
    | .next p pos took => loop V cfg rest took p pos

/-- `help_option_ && help_option_->value()`, am-argparser.h:734-735. -/
def ending (V : Virt α σ) (cfg : Config α) (p : PState) : Run σ (Bool × PState) :=
  match cfg.help with
  | none => pure (true, p)
  | some h => do
    let b ← V h .value
    pure (!b, p)

/-- `Parser::parse_impl`, am-argparser.h:621-739. -/
def parse (V : Virt α σ) (cfg : Config α) (p : PState) (args : List Str) : Run σ (Bool × PState) := do
  let r ← loop V cfg args false p 0
  match r with
  | (none, p) => pure (false, p)
  | (some (true, _), p) => ending V cfg p
  | (some (false, pos), p) =>
    match cfg.positionals[pos]? with
    | some o => pure (false, { p with error := msgMissing (cfg.form o) })
    | none => ending V cfg p

/-- The loops of `Parser::reset`, am-argparser.h:1035-1038. -/
def resetAll (V : Virt α σ) : List α → Run σ Unit
  | [] => pure ()
  | o :: rest => do
    let _ ← V o .reset
    resetAll V rest

/-- `Parser::reset`, am-argparser.h:1033-1042. -/
def reset (V : Virt α σ) (cfg : Config α) : Run σ Unit :=
  resetAll V (cfg.options ++ cfg.positionals ++ cfg.help.toList)

end Verif.ArgParser.Client
