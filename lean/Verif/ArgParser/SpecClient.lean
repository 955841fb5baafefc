import Verif.ArgParser.ClientModel
/-!
# What an option class may rely on when a `Parser` calls it

Everything is said about the sequence of calls that one `parse` makes: which object, which virtual function, what it answered (`none`: the function itself was
undefined behaviour and did not answer).
-/
namespace Verif.ArgParser.Client
open Verif Verif.ArgParser

variable {α σ : Type}

/-- One call of a virtual function. -/
structure Event (α : Type) where
  obj : α
  query : Query
  answer : Option Bool
deriving DecidableEq, Repr

/-- What a call answered, if it did. -/
def answered : Except Fault Bool → Option Bool
  | .ok b => some b
  | .error _ => none

/-- The same client code, with a record of the calls kept beside its own state. -/
def recorded (V : Virt α σ) : Virt α (List (Event α) × σ) := fun o q s =>
  ((V o q s.2).1, (s.1 ++ [⟨o, q, answered (V o q s.2).1⟩], (V o q s.2).2))

/-- The calls of one `parse`, in order. -/
def calls (V : Virt α σ) (cfg : Config α) (p : PState) (args : List Str) (s : σ) : List (Event α) :=
  (parse (recorded V) cfg p args ([], s)).2.1

/-- The result of one `parse`: undefined behaviour, or what it returns and the parser it leaves. -/
def outcome (V : Virt α σ) (cfg : Config α) (p : PState) (args : List Str) (s : σ) : Except Fault (Bool × PState) :=
  (parse V cfg p args s).1

/-- The event is a `consumeValue` call. -/
def Event.gives (e : Event α) : Bool :=
  match e.query with
  | .consume _ => true
  | _ => false

/-- A null value is offered only to an object that has just said that it must not or need not have one. -/
def NullOnlyIfOmissible (tr : List (Event α)) : Prop :=
  ∀ a o r b, tr = a ++ ⟨o, .consume none, r⟩ :: b →
    ∃ a', a = a' ++ [⟨o, .mustOmit, some true⟩] ∨ a = a' ++ [⟨o, .canOmit, some true⟩]

/-- A value is offered to a positional, or to an object that said it will repeat, with nothing asked of anyone in between except whether that object can or must
omit a value. -/
def OnlyAfterWillRepeat (positionals : List α) (tr : List (Event α)) : Prop :=
  ∀ a o v r b, tr = a ++ ⟨o, .consume v, r⟩ :: b →
    o ∈ positionals ∨
    ∃ a' m, a = a' ++ ⟨o, .willRepeat, some true⟩ :: m ∧ ∀ e ∈ m, e.obj = o ∧ (e.query = .mustOmit ∨ e.query = .canOmit)

/-- Every text offered is one of the arguments, or what is left of one behind its beginning, or "true" or "false". -/
def TextsFromLine (args : List Str) (tr : List (Event α)) : Prop :=
  ∀ e ∈ tr, ∀ v, e.query = .consume (some v) → v = sTrue ∨ v = sFalse ∨ ∃ arg ∈ args, v <:+ arg

/-- The objects that were offered a value, in order. -/
def offered (tr : List (Event α)) : List α := (tr.filter Event.gives).map Event.obj

/-- The client code never is undefined behaviour itself. -/
def Sound (V : Virt α σ) : Prop := ∀ o q s, ∃ b, (V o q s).1 = .ok b

/-- The command-line spelling `--f` or `--f=v` (the form `f` has no separator in it; with inline values, `--f=` is not the second of these). -/
inductive LongSpelling (cfg : Config α) (f : Str) : Str → Option Str → Prop where
  | plain : 61 ∉ f → (cfg.inlineValues = true → 58 ∉ f) → LongSpelling cfg f ([45, 45] ++ f) none
  | value (v : Str) : 61 ∉ f → (cfg.inlineValues = true → v ≠ []) → LongSpelling cfg f ([45, 45] ++ f ++ 61 :: v) (some v)

/-- Whatever classes a user derives, with virtual functions that are well-behaved themselves, `parse` is free of undefined behaviour. -/
def ParseSafe : Prop :=
  ∀ (α σ : Type) (V : Virt α σ) (cfg : Config α) (p : PState) (args : List Str) (s : σ), Sound V →
    (∀ arg ∈ args, ¬ sNo <+: arg) → ∃ r, outcome V cfg p args s = .ok r

end Verif.ArgParser.Client
