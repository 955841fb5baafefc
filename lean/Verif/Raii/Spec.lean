import Verif.Raii.Model
/-!
# Specification of the helpers of am-raii.h
-/
namespace Verif.Raii

section save
variable {L A : Type} [DecidableEq L]

/-- Programs as their nested scopes: writes, and scopes guarding a location, one after another. -/
inductive Prog (L A : Type) where
  | done
  | write (l : L) (a : A) (rest : Prog L A)
  | scope (l : L) (a : A) (body rest : Prog L A)

/-- What such a program does, in order. -/
def Prog.trace : Prog L A → List (SOp L A)
  | .done => []
  | .write l a r => .write l a :: r.trace
  | .scope l a b r => .enter l a :: (b.trace ++ .leave :: r.trace)

/-- The value a program is meant to leave in a location: that of its last write to it outside of the scopes guarding it, if any. -/
def Prog.leaves : Prog L A → L → Option A
  | .done, _ => none
  | .write l a r, k => (r.leaves k).or (if k = l then some a else none)
  | .scope l _ b r, k => (r.leaves k).or (if k = l then none else b.leaves k)

end save

section stack
variable {P N : Type} [DecidableEq P] [DecidableEq N]

/-- For each head pointer, the live objects linked on it, innermost first. -/
abbrev Stacks (P N : Type) := P → List N

def lspecStep (e : Stacks P N) : LOp P N → Stacks P N
  | .ctor n p => fun q => if q = p then n :: e q else e q
  | .dtor n => fun q => if (e q).head? = some n then (e q).tail else e q

def lspecRun : List (LOp P N) → Stacks P N → Stacks P N
  | [], e => e
  | o :: os, e => lspecRun os (lspecStep e o)

/-- Objects are constructed once, and destroyed while they are the innermost of their list. -/
def LLegal (e : Stacks P N) : LOp P N → Prop
  | .ctor n _ => ∀ q, n ∉ e q
  | .dtor n => ∃ q, (e q).head? = some n

def LLegalRun : List (LOp P N) → Stacks P N → Prop
  | [], _ => True
  | o :: os, e => LLegal e o ∧ LLegalRun os (lspecStep e o)

end stack

section guard
variable {G C : Type} [DecidableEq G]

/-- Of each guard object: whether it exists, and the callback it is responsible for, if any; and the callbacks that are due
to have been run, latest first. -/
structure GSpec (G C : Type) where
  owns : G → Option (Option C)
  ran : List C

def gset (f : G → Option (Option C)) (g : G) (x : Option (Option C)) : G → Option (Option C) := fun k => if k = g then x else f k

def gspecStep (e : GSpec G C) : GOp G C → GSpec G C
  | .create g c => { e with owns := gset e.owns g (some (some c)) }
  | .move g h => { e with owns := gset (gset e.owns g (e.owns h)) h (some none) }
  | .cancel g => { e with owns := gset e.owns g (some none) }
  | .destroy g => { owns := gset e.owns g none, ran := match e.owns g with
      | some (some c) => c :: e.ran
      | _ => e.ran }

def gspecRun : List (GOp G C) → GSpec G C → GSpec G C
  | [], e => e
  | o :: os, e => gspecRun os (gspecStep e o)

def GSpec.start : GSpec G C := { owns := fun _ => none, ran := [] }

def GLegal (e : GSpec G C) : GOp G C → Prop
  | .create g _ => e.owns g = none
  | .move g h => e.owns g = none ∧ e.owns h ≠ none
  | .cancel g => e.owns g ≠ none
  | .destroy g => e.owns g ≠ none

def GLegalRun : List (GOp G C) → GSpec G C → Prop
  | [], _ => True
  | o :: os, e => GLegal e o ∧ GLegalRun os (gspecStep e o)

/-- The callbacks given to guards, in order. -/
def created : List (GOp G C) → List C
  | [] => []
  | .create _ c :: os => c :: created os
  | _ :: os => created os

end guard
end Verif.Raii
