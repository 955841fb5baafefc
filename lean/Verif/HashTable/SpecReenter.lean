import Verif.HashTable.Reenter
/-!
# Specification: payload destructors that use the table

The abstract state is the finite map of `Spec.lean` and the keys whose payload is being destroyed, innermost first. A removal
takes effect when the destructor of the payload ends. Until then the key is still there.
-/
namespace Verif.HashTable
open Verif

variable {L P K : Type}

/-- A key whose payload is being destroyed, with the operation that does it. -/
inductive Pend (K : Type) where
  | removing (k : K)
  | clearing (k : K)
  | destroying (k : K)
deriving DecidableEq, Repr

def Pend.key : Pend K → K
  | .removing k | .clearing k | .destroying k => k

def Pend.isClearing : Pend K → Bool
  | .clearing _ => true
  | _ => false

def Pend.isDestroying : Pend K → Bool
  | .destroying _ => true
  | _ => false

/-- The map, the running destructors, and whether `~HashTable` has finished. -/
structure AState (K P : Type) where
  m : K → Option P
  pend : List (Pend K)
  gone : Bool

/-- What `clear` (`fr = .clearing`) or `~HashTable` (`fr = .destroying`) does next in map `m`: destroy any payload
that is left, or end when none is. -/
inductive Next (fr : K → Pend K) (over : Bool) (m : K → Option P) : AState K P → Prop
  | more (k : K) : m k ≠ none → Next fr over m ⟨m, [fr k], false⟩
  | done : (∀ k, m k = none) → Next fr over m ⟨m, [], over⟩

/-- The allowed answers and effects. -/
inductive RStep [DecidableEq K] (canon : L → K) : AState K P → Act L P → Out P → AState K P → Prop
  | find m st l : st.any Pend.isClearing = false → RStep canon ⟨m, st, false⟩ (.find l) (.found (m (canon l))) ⟨m, st, false⟩
  /-- while a `clear` is in progress a key that is still there may be missed -/
  | findMissed m st l : st.any Pend.isClearing = true → RStep canon ⟨m, st, false⟩ (.find l) (.found none) ⟨m, st, false⟩
  | findClearing m st l : st.any Pend.isClearing = true →
      RStep canon ⟨m, st, false⟩ (.find l) (.found (m (canon l))) ⟨m, st, false⟩
  | addNew m st l p b : m (canon l) = none → st.any Pend.isClearing = false →
      RStep canon ⟨m, st, false⟩ (.add l p b) (.added p) ⟨upd m (canon l) (some p), st, false⟩
  | addPresent m st l p b q : m (canon l) = some q → st.any Pend.isClearing = false →
      RStep canon ⟨m, st, false⟩ (.add l p b) (.present q) ⟨m, st, false⟩
  | addFailed m st l p b : m (canon l) = none → st.any Pend.isClearing = false →
      RStep canon ⟨m, st, false⟩ (.add l p b) .failed ⟨m, st, false⟩
  /-- the number of keys; while a `clear` is in progress those it has cleared are still counted -/
  | elements m st (ks : List K) n : ks.Nodup → (∀ k, k ∈ ks ↔ m k ≠ none) → ks.length ≤ n →
      (st.any Pend.isClearing = false → n = ks.length) →
      RStep canon ⟨m, st, false⟩ .elements (.count n) ⟨m, st, false⟩
  | removeAbsent m st l : m (canon l) = none →
      RStep canon ⟨m, st, false⟩ (.removeIfExists l) .done ⟨m, st, false⟩
  | removeStart m st l : m (canon l) ≠ none → canon l ∉ st.map Pend.key →
      RStep canon ⟨m, st, false⟩ (.removeIfExists l) .done ⟨m, .removing (canon l) :: st, false⟩
  | removeMissed m st l : st.any Pend.isClearing = true →
      RStep canon ⟨m, st, false⟩ (.removeIfExists l) .done ⟨m, st, false⟩
  | clear m s' : Next .clearing false m s' → RStep canon ⟨m, [], false⟩ .clear .done s'
  | destroy m s' : Next .destroying true m s' → RStep canon ⟨m, [], false⟩ .destroy .done s'
  | retIdle m g : RStep canon ⟨m, [], g⟩ .ret .done ⟨m, [], g⟩
  | retRemoving m k st :
      RStep canon ⟨m, .removing k :: st, false⟩ .ret .done ⟨upd m k none, st, false⟩
  | retClearing m k s' : Next .clearing false (upd m k none) s' →
      RStep canon ⟨m, [.clearing k], false⟩ .ret .done s'
  | retDestroying m k s' : Next .destroying true (upd m k none) s' →
      RStep canon ⟨m, [.destroying k], false⟩ .ret .done s'

/-- A whole history. -/
inductive RSteps [DecidableEq K] (canon : L → K) : AState K P → List (Act L P) → List (Out P) → AState K P → Prop
  | nil s : RSteps canon s [] [] s
  | cons {s s' s'' a o as os} : RStep canon s a o s' → RSteps canon s' as os s'' →
      RSteps canon s (a :: as) (o :: os) s''

def Frame.notClearing : Frame → Bool
  | .clearing _ => false
  | _ => true

def Frame.notDestroying : Frame → Bool
  | .destroying _ => false
  | _ => true

/-- Which of the rules for destructors are in force. -/
structure Rules where
  /-- nobody removes a key whose payload is being destroyed -/
  ownKey : Bool
  /-- an add made by a destructor does not resize the table (`estimateMemoryUse()` stays) -/
  noResize : Bool
  /-- a destructor run by `clear` does not add -/
  noAddInClear : Bool
  /-- `clear` and `~HashTable` are not called from a destructor -/
  noNesting : Bool
  /-- a destructor run by `~HashTable` does not use the table -/
  notInDtor : Bool

/-- All of them. -/
def Rules.all : Rules := ⟨true, true, true, true, true⟩

/-- What is asked of the program and of the destructors, in state `m`: what is stored under a key has that key, the table is
not used after `~HashTable`, and the rules `R`. -/
def Polite (R : Rules) (c : Config) (pol : Policy L P) (canon : L → K) (keyOf : P → K) (m : Mach P) (a : Act L P) : Prop :=
  (a = .ret ∨ (m.t.table ≠ none ∧
    (R.notInDtor = true → m.stack.all Frame.notDestroying = true))) ∧
  match a with
  | .add l p memOk => keyOf p = canon l ∧
      (R.noAddInClear = true → m.stack.all Frame.notClearing = true) ∧
      (R.noResize = true → m.stack = [] ∨ ∀ t o, exec c pol m.t (.add l p memOk) = .ok (t, o) → t.capacity = m.t.capacity)
  | .removeIfExists l => R.ownKey = true → ∀ f ∈ m.stack, ∀ p, deref m.t f.slot = .ok p → keyOf p ≠ canon l
  | .clear => R.noNesting = true → m.stack = []
  | .destroy => R.noNesting = true → m.stack = []
  | _ => True

/-- Every action of the history is polite in the state in which it is executed. -/
def PoliteRun (R : Rules) (c : Config) (pol : Policy L P) (canon : L → K) (keyOf : P → K) (m : Mach P) : List (Act L P) → Prop
  | [] => True
  | a :: as => Polite R c pol canon keyOf m a ∧
      ∀ m' o, step c pol m a = .ok (m', o) → PoliteRun R c pol canon keyOf m' as

def Act.isAdd : Act L P → Bool
  | .add _ _ _ => true
  | _ => false

def Act.memOk : Act L P → Bool
  | .add _ _ b => b
  | _ => true

end Verif.HashTable
