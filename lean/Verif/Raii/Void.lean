import Verif.Raii.Ref
/-!
# `ReturnAndVoid` for types whose operations throw (amtl/am-raii.h:118-126)

`T saved = t; t = T(); return saved;` uses up to four operations of `T`: a copy, the default constructor, an assignment and, unless
the compiler builds `saved` in the place of the result (which it may and need not do), a move. Each may throw.
-/
namespace Verif.Raii
open Verif

/-- The client's type `T` of am-raii.h:118-126. -/
structure Ty (A E : Type) where
  /-- the value of `T()` -/
  dflt : A
  /-- whether the `n`-th operation on the type, among those that may throw, does -/
  throws : Nat → Option E
  /-- what an assignment that throws leaves in its target, from the target's and the source's value -/
  torn : A → A → A

/-- Memory, the number of operations so far, and how many objects of type `T` were made and destroyed besides those in memory. -/
structure VState (L A : Type) where
  mem : L → A
  clock : Nat
  made : Nat
  gone : Nat

section
variable {L A E : Type} [DecidableEq L]

/-- A constructor of the type, am-raii.h:122-124: a new object, or none if it throws. -/
def VState.make (ty : Ty A E) (s : VState L A) (a : A) : Except E A × VState L A :=
  match ty.throws s.clock with
  | some e => (.error e, { s with clock := s.clock + 1 })
  | none => (.ok a, { s with clock := s.clock + 1, made := s.made + 1 })

/-- Destruction of the temporary or of `saved`, am-raii.h:123, 125. -/
def VState.destroy (s : VState L A) : VState L A := { s with gone := s.gone + 1 }

/-- `t = T()`, the assignment itself, am-raii.h:123. -/
def VState.assign (ty : Ty A E) (s : VState L A) (t : L) (a : A) : Option E × VState L A :=
  match ty.throws s.clock with
  | some e => (some e, { s with mem := store s.mem t (ty.torn (s.mem t) a), clock := s.clock + 1 })
  | none => (none, { s with mem := store s.mem t a, clock := s.clock + 1 })

/-- `ReturnAndVoid(t)`, am-raii.h:118-126. `elide`: whether `saved` is built in the place of the result, so that line 124 runs no
operation. When an operation throws, the objects made so far are destroyed. -/
def VState.returnAndVoid (ty : Ty A E) (elide : Bool) (s : VState L A) (t : L) : Except E A × VState L A :=
  match s.make ty (s.mem t) with
  | (.error e, s) => (.error e, s)
  | (.ok saved, s) =>
    match s.make ty ty.dflt with
    | (.error e, s) => (.error e, s.destroy)
    | (.ok tmp, s) =>
      match s.assign ty t tmp with
      | (some e, s) => (.error e, s.destroy.destroy)
      | (none, s) =>
        let s := s.destroy
        if elide then (.ok saved, s)
        else
          match s.make ty saved with
          | (.error e, s) => (.error e, s.destroy)
          | (.ok r, s) => (.ok r, s.destroy)

end
end Verif.Raii
