import Verif.ArgParser.Many
/-!
# Specification of C122: every parser as if it were alone

Each parser is a parser of `Verif.ArgParser.Model`, with option objects of its own; an option object belongs to the parser that registered it.
-/
namespace Verif.ArgParser.Many
open Verif Verif.ArgParser

variable {V P : Type} [DecidableEq V] [DecidableEq P]

/-- Parsers side by side, where each option object is, and the static options that exist. -/
structure Apart (V P : Type) where
  parsers : P → Option (Config × State)
  place : V → Option (P × Ref)
  statics : List (V × Opt)

/-- Nothing yet. -/
def Apart.start : Apart V P := { parsers := fun _ => none, place := fun _ => none, statics := [] }

/-- Where the next option object of a parser will be. -/
def placeOf (cfg : Config) (o : Opt) : Ref := if o.short.isSome || o.long.isSome then .opt cfg.options.length else .pos cfg.positionals.length

/-- An option object joins a parser. -/
def Apart.join (a : Apart V P) (p : P) (cfg : Config) (st : State) (v : V) (o : Opt) : Apart V P :=
  { a with parsers := fun p' => if p' = p then some (cfg.add o, st) else a.parsers p'
           place := fun u => if u = v then some (p, placeOf cfg o) else a.place u }

/-- All static options join a new parser. -/
def Apart.joinAll (p : P) : Apart V P → Config → List (V × Opt) → Apart V P
  | a, _, [] => a
  | a, cfg, (v, o) :: r => Apart.joinAll p (a.join p cfg fresh v o) (cfg.add o) r

/-- One call. -/
def Apart.step (w : Nat) (a : Apart V P) : Op V P → Exec (Apart V P × Out)
  | .static v o => .ok ({ a with statics := a.statics ++ [(v, o)] }, .unit)
  | .parser p help =>
    let cfg := mkConfig help []
    .ok (Apart.joinAll p { a with parsers := fun p' => if p' = p then some (cfg, fresh) else a.parsers p' } cfg a.statics, .unit)
  | .declare p v o =>
    match a.parsers p with
    | some (cfg, st) => .ok (a.join p cfg st v o, .unit)
    | none => .error .useAfterFree
  | .switches p i s c t =>
    match a.parsers p with
    | some (cfg, st) => .ok ({ a with parsers := fun p' => if p' = p then some ({ cfg with inlineValues := cfg.inlineValues || i, slashes := cfg.slashes || s, collectExtra := cfg.collectExtra || c, passthrough := cfg.passthrough || t }, st) else a.parsers p' }, .unit)
    | none => .error .useAfterFree
  | .parse p args =>
    match a.parsers p with
    | some (cfg, st) => do
      let (ok, st) ← ArgParser.parse w cfg st args
      .ok ({ a with parsers := fun p' => if p' = p then some (cfg, st) else a.parsers p' }, .parsed ok st.error st.extra st.pass)
    | none => .error .useAfterFree
  | .reset p =>
    match a.parsers p with
    | some (cfg, st) => .ok ({ a with parsers := fun p' => if p' = p then some (cfg, ArgParser.reset cfg st) else a.parsers p' }, .unit)
    | none => .error .useAfterFree
  | .read v =>
    match a.place v with
    | none => .ok (a, .holds {})
    | some (p, r) =>
      match a.parsers p with
      | some (_, st) => .ok (a, .holds (st.cells r))
      | none => .error .useAfterFree
  | .endOption _ => .ok (a, .unit)
  | .endParser _ => .ok (a, .unit)

/-- A program, by its answers. -/
def Apart.run (w : Nat) : List (Op V P) → Apart V P → Exec (List Out)
  | [], _ => .ok []
  | o :: os, a => do
    let (a, r) ← a.step w o
    let rs ← Apart.run w os a
    .ok (r :: rs)

/-- What a program has done so far, as far as the rules of C++ and of sharing need it. -/
structure Track (V P : Type) where
  /-- all option objects ever constructed; those that have ended -/
  made : List V
  ended : List V
  /-- all parsers ever constructed; those that have ended -/
  parsers : List P
  endedP : List P
  /-- the static options -/
  statics : List V
  /-- which option object is registered with which parser -/
  regs : List (P × V)

/-- Nothing yet. -/
def Track.start : Track V P := ⟨[], [], [], [], [], []⟩

/-- The bookkeeping. -/
def Track.step (t : Track V P) : Op V P → Track V P
  | .static v _ => { t with made := v :: t.made, statics := t.statics ++ [v] }
  | .parser p _ => { t with parsers := p :: t.parsers, regs := t.statics.map (fun v => (p, v)) ++ t.regs }
  | .declare p v _ => { t with made := v :: t.made, regs := (p, v) :: t.regs }
  | .endOption v => { t with ended := v :: t.ended }
  | .endParser p => { t with endedP := p :: t.endedP }
  | _ => t

/-- The parser exists. -/
def Track.has (t : Track V P) (p : P) : Prop := p ∈ t.parsers ∧ p ∉ t.endedP

/-- The rules of C++: names are new objects, calls are made on objects that exist, and a parser parses or resets only while the options registered with it exist. -/
def Track.lives (t : Track V P) : Op V P → Prop
  | .static v _ => v ∉ t.made
  | .parser p _ => p ∉ t.parsers
  | .declare p v _ => v ∉ t.made ∧ t.has p
  | .switches p _ _ _ _ => t.has p
  | .parse p _ => t.has p ∧ ∀ v, (p, v) ∈ t.regs → v ∉ t.ended
  | .reset p => t.has p ∧ ∀ v, (p, v) ∈ t.regs → v ∉ t.ended
  | .read v => v ∈ t.made ∧ v ∉ t.ended
  | .endOption v => v ∈ t.made ∧ v ∉ t.ended
  | .endParser p => t.has p

/-- No static option that has ended is registered with a new parser. -/
def Track.kept (t : Track V P) : Op V P → Prop
  | .parser _ _ => ∀ v ∈ t.statics, v ∉ t.ended
  | _ => True

/-- No static option is registered with a second parser. -/
def Track.unshared (t : Track V P) : Op V P → Prop
  | .parser _ _ => ∀ v ∈ t.statics, ∀ p, (p, v) ∉ t.regs
  | _ => True

/-- Every call of the program satisfies the rule. -/
def Obeys (rule : Track V P → Op V P → Prop) : List (Op V P) → Track V P → Prop
  | [], _ => True
  | o :: os, t => rule t o ∧ Obeys rule os (t.step o)

/-- The answers of a run. -/
def answers : Exec (World V P × List Out) → Exec (List Out)
  | .ok (_, rs) => .ok rs
  | .error f => .error f

/-- What a program has done. -/
def Track.run (t : Track V P) (ops : List (Op V P)) : Track V P := ops.foldl Track.step t

/-- The rules of C++, with static options that have not ended. -/
def Track.careful (t : Track V P) (o : Op V P) : Prop := t.lives o ∧ t.kept o

/-- The rules of C++, with static options that have not ended and that only one parser has. -/
def Track.apart (t : Track V P) (o : Op V P) : Prop := t.lives o ∧ t.kept o ∧ t.unshared o

/-- The program declares `v` as the option `o`. -/
def Declares (ops : List (Op V P)) (v : V) (o : Opt) : Prop := .static v o ∈ ops ∨ ∃ p, .declare p v o ∈ ops

/-- A call of `parse` or `reset` on `p`. -/
inductive Acts (p : P) : Op V P → Prop
  | parse (args : List Str) : Acts p (.parse p args)
  | reset : Acts p (.reset p)

end Verif.ArgParser.Many
