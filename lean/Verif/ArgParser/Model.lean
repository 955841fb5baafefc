import Verif.Common
import Verif.Str.Model
/-!
# Model of `amtl/experimental/am-argparser.h`

A C string is the list of its bytes before the terminator. The option classes that the header provides are the cases of `Kind`; classes a user
derives from `IOption` himself are not modelled. An option object is named by a `Ref`: its place in `options_` or in `positionals_` (each object is
registered once, with one parser). `std::vector` growth never fails.
-/
namespace Verif.ArgParser
open Verif

/-- A `const char*` argument or form of am-argparser.h:57-145 by its bytes before the terminator. -/
abbrev Str := List UInt8

/-- The bytes of a string literal (ASCII). Notation for the literals of am-argparser.h:564 and 781-1030. -/
def lit (x : String) : Str := x.toList.map (fun c => c.toNat.toUInt8)

/-- The value types with a `ValuePolicy`, am-argparser.h:504-547. -/
inductive Val where
  | bool (b : Bool)
  | str (s : Str)
  | int (n : Int)
deriving DecidableEq, Repr

/-- The option classes: `Option<bool>`, `Option<std::string>`, `Option<int>` with their `default_value_` (am-argparser.h:238-308), `EnableOption` (312-356),
`ToggleOption` (360-410), `StopOption` (416-433), and `RepeatOption` of the three value types (438-494). -/
inductive Kind where
  | boolean (dflt : Option Bool)
  | string (dflt : Option Str)
  | int (dflt : Option Int)
  | enable (dflt : Bool)
  | toggle (dflt : Bool)
  | stop (dflt : Bool)
  | repBool
  | repString
  | repInt
deriving DecidableEq, Repr

/-- `IOption`, am-argparser.h:148-221, after its constructor has stripped the dashes. -/
structure Opt where
  short : Option Str
  long : Option Str
  name : Option Str
  help : Str
  kind : Kind
deriving DecidableEq, Repr

/-- `IOption::IOption`, am-argparser.h:175-193. -/
def mkOpt (short long name : Option Str) (help : Str) (kind : Kind) : Exec Opt := do
  if ((short.isSome || long.isSome) && name.isNone) || (short.isNone && long.isNone && name.isSome) then
    let short := short.map fun s => if s[0]? = some 45 then s.drop 1 else s
    let long := long.map fun l => if l[0]? = some 45 ∧ l[1]? = some 45 then l.drop 2 else l
    let bad : Option Str → Bool := fun f => match f with
      | some s => s[0]?.isNone || s[0]? = some 45
      | none => false
    if bad short || bad long then .error .assertFail
    else .ok { short, long, name, help, kind }
  else .error .assertFail

/-- `pretty_name`, am-argparser.h:208-214. -/
def Opt.pretty (o : Opt) : Str :=
  match o.name with
  | some n => n
  | none => match o.long with
    | some l => l
    | none => o.short.getD []

/-- `mustOmitValue`: am-argparser.h:152-154, overridden at 346-348 and 394-396. -/
def Opt.mustOmit (o : Opt) : Bool :=
  match o.kind with
  | .enable _ | .toggle _ | .stop _ => true
  | _ => false

/-- `canOmitValue`: am-argparser.h:155-157, overridden at 291-293 (with `ValuePolicy<T>::canOmitValue`, 497-508) and 391-393. `EnableOption` does not
override it. -/
def Opt.canOmit (o : Opt) : Bool :=
  match o.kind with
  | .boolean _ => o.name.isNone
  | .toggle _ | .stop _ => true
  | _ => false

/-- `haltOnValue`: am-argparser.h:158-160, overridden at 430-432. -/
def Opt.halts (o : Opt) : Bool :=
  match o.kind with
  | .stop _ => true
  | _ => false

/-- `canPrefixWithNo`: am-argparser.h:161-163, overridden at 349-351. -/
def Opt.takesNo (o : Opt) : Bool :=
  match o.kind with
  | .enable _ => true
  | _ => false

/-- What an option object holds: `value_` (single options) and `values_` (`VectorOption`); each class has one of the two, the other stays empty here. am-argparser.h:307, 355, 409 and 479. -/
structure Cell where
  value : Option Val := none
  values : List Val := []
deriving DecidableEq, Repr

/-- `willRepeat`: am-argparser.h:286-288, 341-343, 386-388 for the single options, 474-476 for `VectorOption`. -/
def willRepeat (o : Opt) (c : Cell) : Bool :=
  match o.kind with
  | .repBool | .repString | .repInt => true
  | _ => c.value.isNone

/-- `StrCaseCmp(a, b) == 0` (library `strcasecmp`/`_stricmp`, am-string.h:245-253), C locale. -/
def caseEq (a b : Str) : Bool :=
  let low : UInt8 → UInt8 := fun x => if 65 ≤ x.toNat ∧ x.toNat ≤ 90 then UInt8.ofNat (x.toNat + 32) else x
  a.map low == b.map low

/-- "true": Literal of am-argparser.h:335, 515 and 679. -/
def sTrue : Str := [116, 114, 117, 101]
/-- "false": Literal of am-argparser.h:519 and 675. -/
def sFalse : Str := [102, 97, 108, 115, 101]

/-- `ValuePolicy<bool>::consumeValue`, am-argparser.h:510-524. -/
def policyBool (arg : Option Str) : Option Bool :=
  match arg with
  | none => some true
  | some a => if caseEq a sTrue then some true else if caseEq a sFalse then some false else none

/-- `ValuePolicy<std::string>::consumeValue`, am-argparser.h:529-534; `strlen` of a null pointer is a fault. -/
def policyString (arg : Option Str) : Exec (Option Str) :=
  match arg with
  | none => .error .nullDeref
  | some a => .ok (if a.length = 0 then none else some a)

/-- `isspace` in the C locale. Inside the `strtol` of am-argparser.h:541. -/
def isSpace (c : UInt8) : Bool := c = 32 || (9 ≤ c.toNat && c.toNat ≤ 13)

/-- `isdigit`, inside the `strtol` of am-argparser.h:541. -/
def isDigit (c : UInt8) : Bool := 48 ≤ c.toNat && c.toNat ≤ 57

/-- The unbounded value of a digit string. Inside the `strtol` of am-argparser.h:541. -/
def digitsVal (ds : Str) : Nat := ds.foldl (fun n d => 10 * n + (d.toNat - 48)) 0

/-- The optional sign. Inside the `strtol` of am-argparser.h:541. -/
def signOf : Str → Bool × Str
  | [] => (false, [])
  | c :: r => if c = 45 then (true, r) else if c = 43 then (false, r) else (false, c :: r)

/-- Clamping to a two's complement type of `w` bits. Inside the `strtol` of am-argparser.h:541. -/
def clampLong (w : Nat) (n : Int) : Int :=
  if n < -(2 ^ (w - 1) : Int) then -(2 ^ (w - 1) : Int) else if (2 ^ (w - 1) : Int) ≤ n then 2 ^ (w - 1) - 1 else n

/-- `strtol(a, &end, 10)` (library function, C11 7.22.1.4) for a `long` of `w` bits: the value, whether a conversion took place (`end != a`), and the text
from `end` on. Called at am-argparser.h:541. -/
def strtol (w : Nat) (a : Str) : Int × Bool × Str :=
  let b := a.dropWhile isSpace
  let (neg, d) := signOf b
  let ds := d.takeWhile isDigit
  if ds.isEmpty then (0, false, a)
  else
    let n : Int := digitsVal ds
    (clampLong w (if neg then -n else n), true, d.dropWhile isDigit)

/-- Conversion of a `long` to `int`: the low 32 bits. At am-argparser.h:541. -/
def toInt32 (n : Int) : Int := (n + 2 ^ 31) % 2 ^ 32 - 2 ^ 31

/-- `ValuePolicy<int>::consumeValue`, am-argparser.h:539-545; `w` is the width of `long`. -/
def policyInt (w : Nat) (arg : Option Str) : Exec (Option Int) :=
  match arg with
  | none => .error .nullDeref
  | some a =>
    let (v, conv, rest) := strtol w a
    let out := toInt32 v
    if conv = false ∨ rest ≠ [] then .ok none else .ok (some out)

/-- `value_ = Some(...)`: am-argparser.h:296-299, 335 and 400. -/
def setOne (c : Cell) (v : Option Val) : Bool × Cell :=
  match v with
  | none => (false, c)
  | some v => (true, { c with value := some v })

/-- `values_.emplace_back(...)`: am-argparser.h:466-469. -/
def pushOne (c : Cell) (v : Option Val) : Bool × Cell :=
  match v with
  | none => (false, c)
  | some v => (true, { c with values := c.values ++ [v] })

/-- `consumeValue`: `Option` (am-argparser.h:294-300), `EnableOption` (334-337), `ToggleOption`/`StopOption` (397-402), `VectorOption` (464-470). -/
def consume (w : Nat) (o : Opt) (arg : Option Str) (c : Cell) : Exec (Bool × Cell) :=
  match o.kind with
  | .boolean _ => .ok (setOne c ((policyBool arg).map .bool))
  | .string _ => do
    let v ← policyString arg
    .ok (setOne c (v.map .str))
  | .int _ => do
    let v ← policyInt w arg
    .ok (setOne c (v.map .int))
  | .enable _ =>
    match arg with
    | none => .error .nullDeref
    | some a => .ok (setOne c (some (.bool (a == sTrue))))
  | .toggle d | .stop d =>
    match arg with
    | some _ => .ok (false, c)
    | none => .ok (setOne c (some (.bool (!d))))
  | .repBool => .ok (pushOne c ((policyBool arg).map .bool))
  | .repString => do
    let v ← policyString arg
    .ok (pushOne c (v.map .str))
  | .repInt => do
    let v ← policyInt w arg
    .ok (pushOne c (v.map .int))

/-- An option object: its place in `options_` or in `positionals_`. am-argparser.h:132-133. -/
inductive Ref where
  | opt (i : Nat)
  | pos (i : Nat)
deriving DecidableEq, Repr

/-- The parts of `Parser` (am-argparser.h:129-145) that parsing does not change. `help`: there is a `help_option_`, which then is `options_[0]`
(am-argparser.h:558-569: it registers itself before anything else). -/
structure Config where
  options : List Opt
  positionals : List Opt
  inlineValues : Bool := false
  slashes : Bool := false
  collectExtra : Bool := false
  passthrough : Bool := false
  help : Bool := false
deriving DecidableEq, Repr

/-- The parts that parsing changes, and the option objects. am-argparser.h:135 and 141-144. -/
structure State where
  cells : Ref → Cell
  error : Str
  extra : List Str
  pass : List Str
  hasPass : Bool

/-- A parser as constructed (am-argparser.h:129-145, 550-569), options unset. -/
def fresh : State := { cells := fun _ => {}, error := [], extra := [], pass := [], hasPass := false }

/-- Bookkeeping: one option object changes (am-argparser.h:718). -/
def State.setCell (st : State) (r : Ref) (c : Cell) : State :=
  { st with cells := fun r' => if r' = r then c else st.cells r' }

/-- The helper option built by `Parser(const char* help)`, am-argparser.h:564: "h", "help", `Some(false)`. -/
def helpOpt : Opt :=
  { short := some [104], long := some [104, 101, 108, 112], name := none, help := lit "Display this help menu.", kind := .stop false }

/-- `Parser::add`, am-argparser.h:572-579. -/
def Config.add (cfg : Config) (o : Opt) : Config :=
  if o.short.isSome || o.long.isSome then { cfg with options := cfg.options ++ [o] } else { cfg with positionals := cfg.positionals ++ [o] }

/-- `Parser::Parser`, am-argparser.h:550-570; `statics` is `*sStaticOptions`. -/
def mkConfig (help : Bool) (statics : List Opt) : Config :=
  statics.foldl Config.add (if help then { options := [helpOpt], positionals := [], help := true } else { options := [], positionals := [] })

/-- The loops of `find_short`, `find_inline_short` and `find_long`: the first option that satisfies `p`, and its place. am-argparser.h:744-752, 758-764 and 770-778. -/
def findFrom (p : Opt → Bool) : List Opt → Nat → Option (Nat × Opt)
  | [], _ => none
  | o :: r, i => if p o then some (i, o) else findFrom p r (i + 1)

/-- `strlen(form) == len && strncmp(form, text, len) == 0` with a null check first. am-argparser.h:745-748 and 771-774. -/
def formIs (form : Option Str) (text : Str) (len : Nat) : Bool :=
  match form with
  | none => false
  | some f => f.length == len && f.take len == text.take len

/-- `find_short`, am-argparser.h:741-753. -/
def findShort (cfg : Config) (text : Str) (len : Nat) : Option (Nat × Opt) :=
  findFrom (fun o => formIs o.short text len) cfg.options 0

/-- `find_long`, am-argparser.h:767-779. -/
def findLong (cfg : Config) (text : Str) (len : Nat) : Option (Nat × Opt) :=
  findFrom (fun o => formIs o.long text len) cfg.options 0

/-- `find_inline_short`, am-argparser.h:755-765; `c` is `none` when the character is the terminator, which no short form starts with. -/
def findInline (cfg : Config) (c : Option UInt8) : Option (Nat × Opt) :=
  findFrom (fun o => match o.short with
    | none => false
    | some f => f.length == 1 && (c.isSome && f[0]? == c)) cfg.options 0

/-- `strchr`: the offset of the first occurrence. Called at am-argparser.h:653 and 655. -/
def strchr (a : Str) (c : UInt8) : Option Nat := a.findIdx? (· == c)

/-- The separator, am-argparser.h:653-657. -/
def sepOf (cfg : Config) (arg : Str) : Option Nat :=
  let sep := strchr arg 61
  let sep := if sep.isNone && cfg.inlineValues then strchr arg 58 else sep
  match sep with
  | some k => if cfg.inlineValues && (arg.drop (k + 1)).length == 0 then none else some k
  | none => none

/-- "--no-": Literal of am-argparser.h:672. -/
def sNo : Str := [45, 45, 110, 111, 45]

/-- What an argument that starts with a dash or slash resolves to, am-argparser.h:652-680: the option, `value_ptr` as set at 675 or 679, and `sep`. The
subtractions `len - 2` and so on do not wrap: the separator is not one of the leading dashes. `option->canPrefixWithNo()` at 674 is reached with a null
`option` when `find_long` found nothing. -/
def lookup (cfg : Config) (arg : Str) : Exec (Option (Nat × Opt × Option Str × Option Nat)) :=
  let sep := sepOf cfg arg
  let len := sep.getD arg.length
  let found : Option (Nat × Opt) × Option Nat :=
    if arg[0]? = some 45 ∧ arg[1]? = some 45 then (findLong cfg (arg.drop 2) (len - 2), sep)
    else match findShort cfg (arg.drop 1) (len - 1) with
      | some r => (some r, sep)
      | none =>
        if cfg.inlineValues then
          match findInline cfg arg[1]? with
          | some r => (some r, if len > 2 then some 1 else sep)
          | none => (none, sep)
        else (none, sep)
  match found with
  | (none, sep) =>
    if sNo.isPrefixOf arg then
      match findLong cfg (arg.drop 5) (len - 5) with
      | none => .error .nullDeref
      | some (i, o) => if o.takesNo then .ok (some (i, o, some sFalse, sep)) else .ok none
    else .ok none
  | (some (i, o), sep) => .ok (some (i, o, if o.takesNo then some sTrue else none, sep))

/-! Error messages, am-argparser.h:781-821. -/

/-- `unrecognized_option`, am-argparser.h:781-786. -/
def msgUnrecognized (arg : Str) : Str := lit "Unrecognized option: " ++ arg
/-- `unrecognized_extra`, am-argparser.h:788-793. -/
def msgExtra : Str := lit "Unrecognized extra arguments at end of command."
/-- `option_needs_value`, am-argparser.h:795-800. -/
def msgNeedsValue (o : Opt) : Str := lit "Option '" ++ o.pretty ++ lit "' needs a value."
/-- `option_invalid_value`, am-argparser.h:802-807. -/
def msgInvalid (o : Opt) (v : Str) : Str := lit "Argument '" ++ o.pretty ++ lit "' did not recognize value: " ++ v
/-- `missing_positional`, am-argparser.h:809-814. -/
def msgMissing (o : Opt) : Str := lit "Missing value for '" ++ o.pretty ++ lit "'."
/-- `option_already_specified`, am-argparser.h:816-821. -/
def msgTwice (o : Opt) : Str := lit "Option '" ++ o.pretty ++ lit "' was specified more than once."

/-- What one round of the loop of `parse_impl` does next: give up, stop, or go on (`took`: the next argument has been used too). Bookkeeping for the exits of the loop at am-argparser.h:627-729. -/
inductive Step where
  | fail (st : State)
  | halt (st : State) (pos : Nat)
  | next (st : State) (pos : Nat) (took : Bool)

/-- The end of a round, am-argparser.h:707-728: value, `consumeValue`, stop. `next` is the following argument, if there is one. `%s` of a null value (720)
is a fault. -/
def finish (w : Nat) (st : State) (r : Ref) (o : Opt) (pos : Nat) (value : Option Str) (next : Option Str) : Exec Step := do
  let attached := value.isSome
  if !attached && next.isNone && !o.canOmit then .ok (.fail { st with error := msgNeedsValue o })
  else do
    let takes := !attached && next.isSome && !o.mustOmit
    let v := if takes then next else value
    let (ok, c) ← consume w o v (st.cells r)
    let st' := st.setCell r c
    if !ok && !o.canOmit then
      match v with
      | none => .error .nullDeref
      | some v => .ok (.fail { st' with error := msgInvalid o v })
    else if o.halts then .ok (.halt st' pos)
    else .ok (.next st' pos (takes && ok))

/-- One round of the loop of `parse_impl`, am-argparser.h:628-728. -/
def stepArg (w : Nat) (cfg : Config) (st : State) (pos : Nat) (arg : Str) (next : Option Str) : Exec Step :=
  if cfg.passthrough ∧ arg = [45, 45] then .ok (.next { st with hasPass := true } pos false)
  else if st.hasPass then .ok (.next { st with pass := st.pass ++ [arg] } pos false)
  else if arg[0]? = some 45 ∨ (cfg.slashes ∧ arg[0]? = some 47) then do
    let f ← lookup cfg arg
    match f with
    | none => .ok (.fail { st with error := msgUnrecognized arg })
    | some (i, o, value, sep) =>
      if !willRepeat o (st.cells (.opt i)) then .ok (.fail { st with error := msgTwice o })
      else match sep with
        | some k =>
          if o.mustOmit then .ok (.fail { st with error := msgInvalid o (arg.drop (k + 1)) })
          else finish w st (.opt i) o pos (some (arg.drop (k + 1))) next
        | none => finish w st (.opt i) o pos value next
  else
    match cfg.positionals[pos]? with
    | none =>
      if !cfg.collectExtra then .ok (.fail { st with error := msgExtra })
      else .ok (.next { st with extra := st.extra ++ [arg] } pos false)
    | some o => finish w st (.pos pos) o (pos + 1) (some arg) next

/-- The loop of `parse_impl`, am-argparser.h:624-729, from the argument list's remainder; `skip` means that `++i` (line 713) has already passed the
first of them. The result is `none` for a failure, else whether a stop option ended the loop, and how many positionals were given. -/
def loop (w : Nat) (cfg : Config) : List Str → Bool → State → Nat → Exec (Option (Bool × Nat) × State)
  | [], _, st, pos => .ok (some (false, pos), st)
  | _ :: rest, true, st, pos => loop w cfg rest false st pos
  | arg :: rest, false, st, pos => do
    let s ← stepArg w cfg st pos arg rest.head?
    match s with
    | .fail st => .ok (none, st)
    | .halt st pos => .ok (some (true, pos), st)
    | .next st pos took => loop w cfg rest took st pos

/-- `ToggleOption::value()`, am-argparser.h:383-385, and `EnableOption::value()`, 331-333. -/
def flagValue (o : Opt) (c : Cell) : Bool :=
  match c.value with
  | some (.bool b) => b
  | _ => match o.kind with
    | .toggle d | .stop d | .enable d => d
    | _ => false

/-- `Parser::parse_impl`, am-argparser.h:621-739; all the `parse` functions (581-619) end here. -/
def parse (w : Nat) (cfg : Config) (st : State) (args : List Str) : Exec (Bool × State) := do
  let (r, st) ← loop w cfg args false st 0
  match r with
  | none => .ok (false, st)
  | some (halted, pos) =>
    match (if halted then none else cfg.positionals[pos]?) with
    | some o => .ok (false, { st with error := msgMissing o })
    | none =>
      if cfg.help ∧ flagValue helpOpt (st.cells (.opt 0)) = true then .ok (false, st)
      else .ok (true, st)

/-- `Parser::reset`, am-argparser.h:1033-1042: every registered option is reset (`value_ = {}`, `values_.clear()`); the help option is one of them. -/
def reset (cfg : Config) (st : State) : State :=
  { st with cells := fun r => match r with
      | .opt i => if i < cfg.options.length then {} else st.cells r
      | .pos i => if i < cfg.positionals.length then {} else st.cells r }

end Verif.ArgParser
