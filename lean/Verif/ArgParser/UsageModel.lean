import Verif.ArgParser.Model
/-!
# Model of `Parser::usage`, am-argparser.h:823-1031

What is printed is modelled as the list of lines: every `fprintf` of these functions prints one line and its newline. `StringPrintf` is taken to return the
formatted text (C31). `help` strings are not null.
-/
namespace Verif.ArgParser
open Verif

/-- `kMaxLeftColLength`, am-argparser.h:894. -/
def leftCol : Nat := 28

/-- `kMaxRightColLength`, am-argparser.h:893-895. -/
def rightCol : Nat := 80 - 28

/-- The blank that separates words, am-argparser.h:953, 959, 967. -/
def blank : Str := [32]

/-- The loop that fits words on lines, am-argparser.h:955-967, from the remaining words, `line` and `line_size`. -/
def wrapLoop : List Str → List Str → Nat → Exec (List Str)
  | [], line, _ => if line.isEmpty then .ok [] else do
      let s ← Str.join line blank
      .ok [s]
  | word :: rest, line, size =>
    if size + word.length + 1 ≥ rightCol ∧ line.isEmpty = false then do
      let s ← Str.join line blank
      let r ← wrapLoop rest [word] (word.length + 1)
      .ok (s :: r)
    else wrapLoop rest (line ++ [word]) (size + word.length + 1)

/-- `entry.help_lines`, am-argparser.h:951-967. -/
def helpLines (help : Str) : Exec (List Str) := do
  let words ← Str.split true help blank
  wrapLoop words [] 0

/-- `indent`, am-argparser.h:877-881. -/
def indent : Str := [32, 32]

/-- `value_suffix`, am-argparser.h:901-906. -/
def valueSuffix (o : Opt) : Exec Str :=
  if !o.mustOmit && !o.canOmit then do
    let name := match o.long with
      | some l => l
      | none => o.short.getD []
    let parts ← Str.split true name [45]
    let joined ← Str.join parts [95]
    let upper ← Str.uppercase joined
    .ok (61 :: upper)
  else .ok []

/-- The left-hand lines of an option, am-argparser.h:898-930. -/
def optLines (o : Opt) : Exec (List Str) := do
  let suffix ← valueSuffix o
  let separate : List Str :=
    (match o.short with
      | some s => [indent ++ [45] ++ s ++ [32]]
      | none => []) ++
    (match o.long with
      | some l => [indent ++ [45, 45] ++ l ++ suffix ++ [32]]
      | none => [])
  match o.short, o.long with
  | some s, some l =>
    let joined := indent ++ [45] ++ s ++ [44, 32, 45, 45] ++ l ++ suffix ++ [32]
    if joined.length ≤ leftCol then .ok [joined] else .ok separate
  | _, _ => .ok separate

/-- `struct Entry`, am-argparser.h:853-875, with what is precomputed at 945-968; `named`: `option->name()` is not null. -/
structure Entry where
  optLines : List Str
  helpLines : List Str
  named : Bool
deriving DecidableEq, Repr

/-- An entry for something with a name, am-argparser.h:885-891 and 933-939. -/
def namedEntry (name help : Str) : Exec Entry := do
  let h ← helpLines help
  .ok { optLines := [indent ++ name], helpLines := h, named := true }

/-- An entry for an option, am-argparser.h:898-930. -/
def optEntry (o : Opt) : Exec Entry := do
  let l ← optLines o
  let h ← helpLines o.help
  .ok { optLines := l, helpLines := h, named := o.name.isSome }

/-- `f` on each element in turn. The loops of am-argparser.h:883-970 over `positionals_`, `options_` and `extra_usage_`. -/
def mapExec {α β : Type} (f : α → Exec β) : List α → Exec (List β)
  | [] => .ok []
  | x :: r => do
    let y ← f x
    let ys ← mapExec f r
    .ok (y :: ys)

/-- `entry.col_width`, am-argparser.h:947-949. -/
def Entry.colWidth (e : Entry) : Nat := e.optLines.foldl (fun n l => max n l.length) 0

/-- `%-28s`: am-argparser.h:999. -/
def padded (l : Str) : Str := l ++ List.replicate (28 - l.length) 32

/-- The loop over `entry.opt_lines` when the cell is narrow, am-argparser.h:995-1000: the lines printed, and the help lines that remain. -/
def narrowLoop : List Str → List Str → List Str × List Str
  | [], hs => ([], hs)
  | l :: ls, [] => let (out, r) := narrowLoop ls []; (padded l :: out, r)
  | l :: ls, h :: hs => let (out, r) := narrowLoop ls hs; ((padded l ++ h) :: out, r)

/-- What is printed for one entry, am-argparser.h:990-1004. -/
def printEntry (e : Entry) : List Str :=
  let (out, rest) := if e.colWidth ≥ leftCol then (e.optLines, e.helpLines) else narrowLoop e.optLines e.helpLines
  out ++ rest.map (List.replicate 28 32 ++ ·)

/-- The loop over the entries, am-argparser.h:982-1005. -/
def printEntries : List Entry → Bool → List Str
  | [], _ => []
  | e :: rest, started =>
    if e.named = false ∧ started = false then [[], lit "optional arguments:"] ++ printEntry e ++ printEntries rest true
    else printEntry e ++ printEntries rest started

/-- The parts of `Parser` that only `usage` needs, am-argparser.h:134-145: `help_`, `usage_line_`, `extra_usage_`. -/
structure UsageInfo where
  help : Str := []
  usageLine : Str := []
  extra : List (Str × Str) := []

/-- `Parser::usage_line`, am-argparser.h:1008-1025; `argv0` is `none` for a null `argv`. -/
def usageLine (cfg : Config) (u : UsageInfo) (argv0 : Option Str) : Exec Str :=
  Str.join ([lit "Usage:", argv0.getD [32]] ++
    (if u.usageLine.isEmpty then lit "[-h]" :: cfg.positionals.map (fun o => o.name.getD []) else [u.usageLine])) blank

/-- `Parser::usage`, am-argparser.h:823-1006; `args` are the arguments after the program's name. -/
def usage (cfg : Config) (u : UsageInfo) (error : Str) (argv0 : Option Str) (args : List Str) : Exec (List Str) := do
  let full := args.any (fun a => a == [45, 104] || a == [45, 45, 104, 101, 108, 112])
  let line ← usageLine cfg u argv0
  if !error.isEmpty && (!cfg.help || !full) then .ok [line, lit "error: " ++ error]
  else do
    let pos ← mapExec (fun o => namedEntry (o.name.getD []) o.help) cfg.positionals
    let opts ← mapExec optEntry cfg.options
    let extra ← mapExec (fun (p : Str × Str) => namedEntry p.1 p.2) u.extra
    let entries := pos ++ opts ++ extra
    let header := (if u.help.isEmpty then [] else [u.help, []]) ++ [line]
    if entries.isEmpty then .ok header
    else .ok (header ++ (if cfg.positionals.isEmpty then [] else [[], lit "positional arguments:"]) ++ printEntries entries false)

end Verif.ArgParser
