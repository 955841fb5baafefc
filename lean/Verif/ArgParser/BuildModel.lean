import Verif.ArgParser.Model
/-!
# Model of how parsers and options are declared and read, `amtl/experimental/am-argparser.h`
-/
namespace Verif.ArgParser
open Verif

/-- The classes whose constructors take a short and a long form, with the default value argument they take: `Option<T>` (am-argparser.h:244-250, 258-264),
`EnableOption` (315-329), `ToggleOption` (365-381), `StopOption` (419-427), `RepeatOption<T>` (484-494). -/
inductive Cls where
  | bool (dflt : Option Bool)
  | string (dflt : Option Str)
  | int (dflt : Option Int)
  | enable (dflt : Bool)
  | toggle (dflt : Option Bool)
  | stop (dflt : Option Bool)
  | repBool
  | repString
  | repInt
deriving DecidableEq, Repr

/-- The value types of positionals (am-argparser.h:252-256, 266-270 with the policies of 504-547). -/
inductive ValType where
  | bool
  | string
  | int
deriving DecidableEq, Repr

/-- One constructor call of am-argparser.h:244-494: with forms, or `Option<T>(parser, name, help)`. -/
inductive Decl where
  | forms (c : Cls) (short long : Option Str) (help : Str)
  | named (t : ValType) (name : Option Str) (help : Str)
deriving DecidableEq, Repr

/-- The members the constructors of am-argparser.h:244-494 leave behind: `default_value_` of `ToggleOption` is false (408) unless the argument holds a value
(369-370, 378-379). -/
def Cls.kind : Cls → Kind
  | .bool d => .boolean d
  | .string d => .string d
  | .int d => .int d
  | .enable d => .enable d
  | .toggle d => .toggle (match d with | some b => b | none => false)
  | .stop d => .stop (match d with | some b => b | none => false)
  | .repBool => .repBool
  | .repString => .repString
  | .repInt => .repInt

/-- The members the constructors of am-argparser.h:252-256 and 266-270 leave behind: `default_value_` is empty. -/
def ValType.kind : ValType → Kind
  | .bool => .boolean none
  | .string => .string none
  | .int => .int none

/-- The constructors, up to the registration. am-argparser.h:244-494. -/
def construct : Decl → Exec Opt
  | .forms c s l h => mkOpt s l none h c.kind
  | .named t n h => mkOpt none none n h t.kind

/-- What a program does to set a parser up: declare an option with it, or call one of the four switches (am-argparser.h:76-97). -/
inductive Act where
  | declare (d : Decl)
  | inlineValues
  | slashes
  | collectExtra
  | passthrough
deriving DecidableEq, Repr

/-- am-argparser.h:76-97 and, for `declare`, the `parser.add(this)` of the constructors (249, 255, 320, 371, 447). -/
def act (cfg : Config) : Act → Exec Config
  | .declare d => do
    let o ← construct d
    .ok (cfg.add o)
  | .inlineValues => .ok { cfg with inlineValues := true }
  | .slashes => .ok { cfg with slashes := true }
  | .collectExtra => .ok { cfg with collectExtra := true }
  | .passthrough => .ok { cfg with passthrough := true }

/-- The set-up calls, one after the other. am-argparser.h:76-97, 572-579. -/
def acts : Config → List Act → Exec Config
  | cfg, [] => .ok cfg
  | cfg, a :: r => do
    let cfg ← act cfg a
    acts cfg r

/-- The static options (am-argparser.h:109-113), which are constructed before the parser. -/
def statics : List Decl → Exec (List Opt)
  | [] => .ok []
  | d :: r => do
    let o ← construct d
    let os ← statics r
    .ok (o :: os)

/-- A program that declares the static options `ss`, then makes a parser (with `Parser(help)` if `help`, am-argparser.h:550-570), then sets it up with `as`. -/
def build (ss : List Decl) (help : Bool) (as : List Act) : Exec Config := do
  let os ← statics ss
  acts (mkConfig help os) as

/-- `default_value_`, am-argparser.h:307, 354 and 408. -/
def dfltOf (k : Kind) : Option Val :=
  match k with
  | .boolean d => d.map .bool
  | .string d => d.map .str
  | .int d => d.map .int
  | .enable d | .toggle d | .stop d => some (.bool d)
  | _ => none

/-- `Option<T>::hasValue`, am-argparser.h:275-277. -/
def hasValue (o : Opt) (c : Cell) : Bool := c.value.isSome || (dfltOf o.kind).isSome

/-- `Option<T>::value`, am-argparser.h:278-280, and `value()` of `EnableOption` (331-333) and `ToggleOption` (383-385); `Maybe::get` of an empty `Maybe`
asserts. -/
def valueOf (o : Opt) (c : Cell) : Exec Val :=
  match c.value with
  | some v => .ok v
  | none => match dfltOf o.kind with
    | some v => .ok v
    | none => .error .assertFail

/-- `Option<T>::maybeValue`, am-argparser.h:281-285. -/
def maybeValue (o : Opt) (c : Cell) : Option Val :=
  match c.value with
  | some v => some v
  | none => dfltOf o.kind

end Verif.ArgParser
