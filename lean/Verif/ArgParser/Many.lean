import Verif.ArgParser.Model
/-!
# Several parsers and option objects in one program, `amtl/experimental/am-argparser.h`

In `Verif.ArgParser.Model` each option object is registered once, with the only parser. Here option objects (`V`) and parsers (`P`) have names, a parser holds pointers to
option objects, static options are registered with every parser constructed after them, and objects end their lives in any order. Calling a member of a dead object
is a fault. The functions are those of `Verif.ArgParser.Model` with pointers in place of positions; option objects appear as their constructor leaves them
(`construct` in BuildModel.lean).
-/
namespace Verif.ArgParser.Many
open Verif Verif.ArgParser

variable {V P : Type} [DecidableEq V] [DecidableEq P]

/-- An option object: one the program declares, or the `help_option_` of a parser (am-argparser.h:141, 564). -/
inductive Obj (V P : Type) where
  | user (v : V)
  | help (p : P)
deriving DecidableEq

/-- The members of `Parser` that parsing does not change, am-argparser.h:132-140: pointers to option objects, and the switches. `help`: there is a
`help_option_`. -/
structure Inst (V P : Type) where
  options : List (Obj V P)
  positionals : List (Obj V P)
  inlineValues : Bool := false
  slashes : Bool := false
  collectExtra : Bool := false
  passthrough : Bool := false
  help : Option (Obj V P) := none

/-- What parsing changes: the option objects (dead or not yet constructed ones are `none`), and am-argparser.h:135, 140, 142-143. -/
structure MState (V P : Type) where
  objs : Obj V P → Option (Opt × Cell)
  error : Str
  extra : List Str
  pass : List Str
  hasPass : Bool

/-- A member function is called through a pointer to an option object, as at am-argparser.h:574, 674-685, 709-724, 744-774. -/
def deref (objs : Obj V P → Option (Opt × Cell)) (o : Obj V P) : Exec (Opt × Cell) :=
  match objs o with
  | some x => .ok x
  | none => .error .useAfterFree

/-- Bookkeeping: one option object changes (am-argparser.h:718). -/
def MState.setCell (st : MState V P) (o : Obj V P) (op : Opt) (c : Cell) : MState V P :=
  { st with objs := fun o' => if o' = o then some (op, c) else st.objs o' }

/-- The loops of `find_short`, `find_inline_short` and `find_long`, am-argparser.h:744-752, 758-764 and 770-778. -/
def findFrom (objs : Obj V P → Option (Opt × Cell)) (p : Opt → Bool) : List (Obj V P) → Exec (Option (Obj V P × Opt))
  | [] => .ok none
  | o :: r => do
    let (op, _) ← deref objs o
    if p op then .ok (some (o, op)) else findFrom objs p r

/-- `find_short`, am-argparser.h:741-753. -/
def findShort (q : Inst V P) (objs : Obj V P → Option (Opt × Cell)) (text : Str) (len : Nat) : Exec (Option (Obj V P × Opt)) :=
  findFrom objs (fun o => formIs o.short text len) q.options

/-- `find_long`, am-argparser.h:767-779. -/
def findLong (q : Inst V P) (objs : Obj V P → Option (Opt × Cell)) (text : Str) (len : Nat) : Exec (Option (Obj V P × Opt)) :=
  findFrom objs (fun o => formIs o.long text len) q.options

/-- `find_inline_short`, am-argparser.h:755-765. -/
def findInline (q : Inst V P) (objs : Obj V P → Option (Opt × Cell)) (c : Option UInt8) : Exec (Option (Obj V P × Opt)) :=
  findFrom objs (fun o => match o.short with
    | none => false
    | some f => f.length == 1 && (c.isSome && f[0]? == c)) q.options

/-- The separator, am-argparser.h:653-657. -/
def sepOf (q : Inst V P) (arg : Str) : Option Nat :=
  let sep := strchr arg 61
  let sep := if sep.isNone && q.inlineValues then strchr arg 58 else sep
  match sep with
  | some k => if q.inlineValues && (arg.drop (k + 1)).length == 0 then none else some k
  | none => none

/-- am-argparser.h:661-670. -/
def findOption (q : Inst V P) (objs : Obj V P → Option (Opt × Cell)) (arg : Str) (sep : Option Nat) (len : Nat) :
    Exec (Option (Obj V P × Opt) × Option Nat) :=
  if arg[0]? = some 45 ∧ arg[1]? = some 45 then do
    let r ← findLong q objs (arg.drop 2) (len - 2)
    .ok (r, sep)
  else do
    let r ← findShort q objs (arg.drop 1) (len - 1)
    match r with
    | some r => .ok (some r, sep)
    | none =>
      if q.inlineValues then do
        let r ← findInline q objs arg[1]?
        match r with
        | some r => .ok (some r, if len > 2 then some 1 else sep)
        | none => .ok (none, sep)
      else .ok (none, sep)

/-- am-argparser.h:652-680, see `ArgParser.lookup`. -/
def lookup (q : Inst V P) (objs : Obj V P → Option (Opt × Cell)) (arg : Str) : Exec (Option (Obj V P × Opt × Option Str × Option Nat)) := do
  let sep := sepOf q arg
  let len := sep.getD arg.length
  let (found, sep) ← findOption q objs arg sep len
  match found with
  | none =>
    if sNo.isPrefixOf arg then do
      let r ← findLong q objs (arg.drop 5) (len - 5)
      match r with
      | none => .error .nullDeref
      | some (o, op) => if op.takesNo then .ok (some (o, op, some sFalse, sep)) else .ok none
    else .ok none
  | some (o, op) => .ok (some (o, op, if op.takesNo then some sTrue else none, sep))

/-- What one round of the loop of `parse_impl` does next, see `ArgParser.Step`: the exits at am-argparser.h:627-729. -/
inductive Step (V P : Type) where
  | fail (st : MState V P)
  | halt (st : MState V P) (pos : Nat)
  | next (st : MState V P) (pos : Nat) (took : Bool)

/-- The end of a round, am-argparser.h:707-728. -/
def finish (w : Nat) (st : MState V P) (o : Obj V P) (pos : Nat) (value : Option Str) (next : Option Str) : Exec (Step V P) := do
  let (op, c) ← deref st.objs o
  let attached := value.isSome
  if !attached && next.isNone && !op.canOmit then .ok (.fail { st with error := msgNeedsValue op })
  else do
    let takes := !attached && next.isSome && !op.mustOmit
    let v := if takes then next else value
    let (ok, c) ← consume w op v c
    let st' := st.setCell o op c
    if !ok && !op.canOmit then
      match v with
      | none => .error .nullDeref
      | some v => .ok (.fail { st' with error := msgInvalid op v })
    else if op.halts then .ok (.halt st' pos)
    else .ok (.next st' pos (takes && ok))

/-- One round of the loop of `parse_impl`, am-argparser.h:628-728. -/
def stepArg (w : Nat) (q : Inst V P) (st : MState V P) (pos : Nat) (arg : Str) (next : Option Str) : Exec (Step V P) :=
  if q.passthrough ∧ arg = [45, 45] then .ok (.next { st with hasPass := true } pos false)
  else if st.hasPass then .ok (.next { st with pass := st.pass ++ [arg] } pos false)
  else if arg[0]? = some 45 ∨ (q.slashes ∧ arg[0]? = some 47) then do
    let f ← lookup q st.objs arg
    match f with
    | none => .ok (.fail { st with error := msgUnrecognized arg })
    | some (o, op, value, sep) => do
      let (_, c) ← deref st.objs o
      if !willRepeat op c then .ok (.fail { st with error := msgTwice op })
      else match sep with
        | some k =>
          if op.mustOmit then .ok (.fail { st with error := msgInvalid op (arg.drop (k + 1)) })
          else finish w st o pos (some (arg.drop (k + 1))) next
        | none => finish w st o pos value next
  else
    match q.positionals[pos]? with
    | none =>
      if !q.collectExtra then .ok (.fail { st with error := msgExtra })
      else .ok (.next { st with extra := st.extra ++ [arg] } pos false)
    | some o => finish w st o (pos + 1) (some arg) next

/-- The loop of `parse_impl`, am-argparser.h:624-729. -/
def loop (w : Nat) (q : Inst V P) : List Str → Bool → MState V P → Nat → Exec (Option (Bool × Nat) × MState V P)
  | [], _, st, pos => .ok (some (false, pos), st)
  | _ :: rest, true, st, pos => loop w q rest false st pos
  | arg :: rest, false, st, pos => do
    let s ← stepArg w q st pos arg rest.head?
    match s with
    | .fail st => .ok (none, st)
    | .halt st pos => .ok (some (true, pos), st)
    | .next st pos took => loop w q rest took st pos

/-- `Parser::parse_impl`, am-argparser.h:621-739. -/
def parse (w : Nat) (q : Inst V P) (st : MState V P) (args : List Str) : Exec (Bool × MState V P) := do
  let (r, st) ← loop w q args false st 0
  match r with
  | none => .ok (false, st)
  | some (halted, pos) =>
    match (if halted then none else q.positionals[pos]?) with
    | some o => do
      let (op, _) ← deref st.objs o
      .ok (false, { st with error := msgMissing op })
    | none =>
      match q.help with
      | none => .ok (true, st)
      | some o => do
        let (op, c) ← deref st.objs o
        if flagValue op c = true then .ok (false, st) else .ok (true, st)

/-- The loops of `Parser::reset`, am-argparser.h:1036-1039. -/
def resetAll : List (Obj V P) → (Obj V P → Option (Opt × Cell)) → Exec (Obj V P → Option (Opt × Cell))
  | [], objs => .ok objs
  | o :: r, objs => do
    let (op, _) ← deref objs o
    resetAll r (fun o' => if o' = o then some (op, {}) else objs o')

/-- The program: option objects, `sStaticOptions` (am-argparser.h:129), and the parsers with what they keep. -/
structure World (V P : Type) where
  objs : Obj V P → Option (Opt × Cell)
  statics : List (Obj V P)
  parsers : P → Option (Inst V P × Str × List Str × List Str × Bool)

/-- Before `main`: am-argparser.cpp:35. -/
def World.start : World V P := { objs := fun _ => none, statics := [], parsers := fun _ => none }

/-- `Parser::add`, am-argparser.h:572-579. -/
def addTo (objs : Obj V P → Option (Opt × Cell)) (q : Inst V P) (o : Obj V P) : Exec (Inst V P) := do
  let (op, _) ← deref objs o
  .ok (if op.short.isSome || op.long.isSome then { q with options := q.options ++ [o] } else { q with positionals := q.positionals ++ [o] })

/-- The loop over the static options in the constructors, am-argparser.h:552-555, 566-569. -/
def addAll (objs : Obj V P → Option (Opt × Cell)) : Inst V P → List (Obj V P) → Exec (Inst V P)
  | q, [] => .ok q
  | q, o :: r => do
    let q ← addTo objs q o
    addAll objs q r

/-- What a program does: am-argparser.h:57-113, 148-494. -/
inductive Op (V P : Type) where
  /-- a constructor without a parser: `Parser::add_static_option(this)` (:109-113, 263, 269, 328, 380, 453) -/
  | static (v : V) (o : Opt)
  /-- `Parser()` or `Parser(help)`, :550-570 -/
  | parser (p : P) (help : Bool)
  /-- a constructor with a parser: `parser.add(this)` (:249, 255, 320, 371, 447) -/
  | declare (p : P) (v : V) (o : Opt)
  /-- `enable_inline_values` and so on, :76-97 -/
  | switches (p : P) (inlineValues slashes collectExtra passthrough : Bool)
  | parse (p : P) (args : List Str)
  | reset (p : P)
  /-- reading an option object, :275-285, 331, 383, 456 -/
  | read (v : V)
  /-- an option object ends its life, :170-171 -/
  | endOption (v : V)
  /-- a parser ends its life, and its `help_option_` with it, :141 -/
  | endParser (p : P)

/-- What the program sees: the result of `parse` with the error text, extra and pass-through arguments kept in the parser, or what an option object holds
(am-argparser.h:99-104, 135, 307, 479). -/
inductive Out where
  | unit
  | parsed (ok : Bool) (error : Str) (extra pass : List Str)
  | holds (c : Cell)
deriving DecidableEq

/-- The parser a call names (the members of am-argparser.h:57-145 are called on it). -/
def World.get (s : World V P) (p : P) : Exec (Inst V P × Str × List Str × List Str × Bool) :=
  match s.parsers p with
  | some x => .ok x
  | none => .error .useAfterFree

/-- Bookkeeping: a parser changes (am-argparser.h:132-144). -/
def World.set (s : World V P) (p : P) (x : Option (Inst V P × Str × List Str × List Str × Bool)) : World V P :=
  { s with parsers := fun p' => if p' = p then x else s.parsers p' }

/-- Bookkeeping: an option object is constructed or destroyed (am-argparser.h:170-193). -/
def World.setObj (s : World V P) (o : Obj V P) (x : Option (Opt × Cell)) : World V P :=
  { s with objs := fun o' => if o' = o then x else s.objs o' }

/-- One call; lines at the cases of `Op` (am-argparser.h:57-113, 148-494, 550-739, 1033-1042). -/
def step (w : Nat) (s : World V P) : Op V P → Exec (World V P × Out)
  | .static v o => .ok ({ s.setObj (.user v) (some (o, {})) with statics := s.statics ++ [.user v] }, .unit)
  | .parser p help => do
    let s := if help then s.setObj (.help p) (some (helpOpt, {})) else s
    let q : Inst V P := if help then { options := [.help p], positionals := [], help := some (.help p) } else { options := [], positionals := [] }
    let q ← addAll s.objs q s.statics
    .ok (s.set p (some (q, [], [], [], false)), .unit)
  | .declare p v o => do
    let (q, r) ← s.get p
    let s := s.setObj (.user v) (some (o, {}))
    let q ← addTo s.objs q (.user v)
    .ok (s.set p (some (q, r)), .unit)
  | .switches p a b c d => do
    let (q, r) ← s.get p
    .ok (s.set p (some ({ q with inlineValues := q.inlineValues || a, slashes := q.slashes || b, collectExtra := q.collectExtra || c,
                                 passthrough := q.passthrough || d }, r)), .unit)
  | .parse p args => do
    let (q, e, x, y, b) ← s.get p
    let (ok, st) ← parse w q { objs := s.objs, error := e, extra := x, pass := y, hasPass := b } args
    .ok ({ s.set p (some (q, st.error, st.extra, st.pass, st.hasPass)) with objs := st.objs }, .parsed ok st.error st.extra st.pass)
  | .reset p => do
    let (q, _) ← s.get p
    let objs ← resetAll q.options s.objs
    let objs ← resetAll q.positionals objs
    let objs ← resetAll q.help.toList objs
    .ok ({ s with objs := objs }, .unit)
  | .read v => do
    let (_, c) ← deref s.objs (.user v)
    .ok (s, .holds c)
  | .endOption v => do
    let _ ← deref s.objs (.user v)
    .ok (s.setObj (.user v) none, .unit)
  | .endParser p => do
    let _ ← s.get p
    .ok ((s.set p none).setObj (.help p) none, .unit)

/-- A program: calls of am-argparser.h:57-494. -/
def run (w : Nat) : List (Op V P) → World V P → Exec (World V P × List Out)
  | [], s => .ok (s, [])
  | o :: os, s => do
    let (s, r) ← step w s o
    let (s, rs) ← run w os s
    .ok (s, r :: rs)

end Verif.ArgParser.Many
