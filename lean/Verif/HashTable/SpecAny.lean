import Verif.HashTable.SpecCalls
/-!
# Specification of C135: a table whose policy gives any answers at all is a bag of payloads

`HashPolicy::hash` and `HashPolicy::matches` come from the client (amtl/am-hashtable.h:111-128). Here nothing is asked of them: two calls may give different answers, `matches` need not be
an equivalence, equal keys may have different hashes. The abstract state is the bag of the payloads stored, a list up to the order. `BagStep` says what each operation may do to it.
-/
namespace Verif.HashTable
open Verif

variable {L P S : Type}

/-- Some call `matches(l, p)` can answer "yes". -/
def Said (pol : PolicyC L P S) (l : L) (p : P) : Prop := ∃ s s', pol.isMatch l p s = .ok (true, s')

/-- The policy's own code can fail with `f`. -/
def PolicyFails (pol : PolicyC L P S) (f : Fault) : Prop :=
  (∃ l s, pol.hash l s = .error f) ∨ ∃ l p s, pol.isMatch l p s = .error f

/-- The allowed answers and effects; `said l p`: the policy can say that `l` matches `p`. A lookup reports only a payload that is stored and that the policy said matches; adding
adds exactly the new payload, or nothing; removing removes exactly one payload the policy said matches, or nothing; assigning replaces exactly one such payload, or nothing. -/
inductive BagStep (said : L → P → Prop) : List P → Op L P → Out P → List P → Prop
  | findHit {b l p} : p ∈ b → said l p → BagStep said b (.find l) (.found (some p)) b
  | findMiss {b l} : BagStep said b (.find l) (.found none) b
  | added {b b' l p m} : b'.Perm (p :: b) → BagStep said b (.add l p m) (.added p) b'
  | present {b l p m q} : q ∈ b → said l q → BagStep said b (.add l p m) (.present q) b
  | failed {b l p m} : BagStep said b (.add l p m) .failed b
  | assignHit {b b' rest l p q} : said l q → b.Perm (q :: rest) → b'.Perm (p :: rest) → BagStep said b (.assign l p) (.found (some q)) b'
  | assignMiss {b l p} : BagStep said b (.assign l p) (.found none) b
  | removeHit {b b' l q} : said l q → b.Perm (q :: b') → BagStep said b (.removeIfExists l) .done b'
  | removeMiss {b l} : BagStep said b (.removeIfExists l) .done b
  | clear {b} : BagStep said b .clear .done []
  | checkDensity {b b' m ok} : b'.Perm b → BagStep said b (.checkDensity m) (.density ok) b'
  | sweep {b b' pick vs} : vs.Perm b → b'.Perm (b.filter (fun p => !pick p)) → BagStep said b (.sweep pick) (.visited vs) b'
  | elements {b} : BagStep said b .elements (.count b.length) b
  | move {b} : BagStep said b .move .done b

/-- A whole history. -/
inductive BagSteps (said : L → P → Prop) : List P → List (Op L P) → List (Out P) → List P → Prop
  | nil {b} : BagSteps said b [] [] b
  | cons {b b' b'' op o ops os} : BagStep said b op o b' → BagSteps said b' ops os b'' → BagSteps said b (op :: ops) (o :: os) b''

/-- A client history with the policy's state; stops at the first fault. Client code over amtl/am-hashtable.h:431-541. -/
def runC (c : Config) (pol : PolicyC L P S) (t : Table P) (s : S) : List (Op L P) → Exec (Table P × List (Out P) × S)
  | [] => .ok (t, [], s)
  | op :: ops => do
    let (t, o, s) ← execC c pol t s op
    let (t, os, s) ← runC c pol t s ops
    .ok (t, o :: os, s)

/-- The policy `pol`, writing down the calls made of it. -/
def traced (pol : PolicyC L P S) : PolicyC L P (S × List (Call L P)) where
  hash l s := match pol.hash l s.1 with
    | .ok (h, s') => .ok (h, s', s.2 ++ [.hash l])
    | .error f => .error f
  isMatch l p s := match pol.isMatch l p s.1 with
    | .ok (b, s') => .ok (b, s', s.2 ++ [.isMatch l p])
    | .error f => .error f

/-- The calls for a lookup of `l` in a table that holds the bag `b`: one for the hash, then at most one for each payload stored. -/
def BagAskedFor (b : List P) (l : L) (calls : List (Call L P)) : Prop :=
  ∃ ps rest : List P, calls = .hash l :: ps.map (.isMatch l) ∧ (ps ++ rest).Perm b

/-- The calls for an operation: operations that do not look a key up make none. -/
def BagAsked (b : List P) : Op L P → List (Call L P) → Prop
  | .find l, calls => BagAskedFor b l calls
  | .add l _ _, calls => BagAskedFor b l calls
  | .assign l _, calls => BagAskedFor b l calls
  | .removeIfExists l, calls => BagAskedFor b l calls
  | _, calls => calls = []

end Verif.HashTable
