import Verif.HashTable.Model
/-!
# Specification of the hash table: a finite map

Independent of the table's representation: an abstract state is a function from keys to the payload
stored under that key. `Step` says which answers are allowed for each client operation and how they
change the map.
-/
namespace Verif.HashTable
open Verif

variable {L P K : Type}

/-- What a client can do with an initialised table. -/
inductive Op (L P : Type) where
  /-- `r = find(l)`, and `*r` if found -/
  | find (l : L)
  /-- `i = findForAdd(l); if (!i.found()) add(i, p);` -/
  | add (l : L) (p : P) (memOk : Bool)
  /-- `r = find(l); if (r.found()) *r = p;` -/
  | assign (l : L) (p : P)
  | removeIfExists (l : L)
  | clear
  | checkDensity (memOk : Bool)
  /-- walk all entries, erasing those that `pick` selects -/
  | sweep (pick : P → Bool)
  | elements
  /-- continue with `HashTable(std::move(t))`; the old object is destroyed -/
  | move

/-- What the client observes. -/
inductive Out (P : Type) where
  | found (r : Option P)
  /-- the payload read back through the `Insert` after a successful `add` -/
  | added (p : P)
  /-- `findForAdd` found the key, with this payload -/
  | present (p : P)
  /-- `add` returned false -/
  | failed
  | done
  | density (ok : Bool)
  /-- the payloads a walk visited, in order -/
  | visited (ps : List P)
  | count (n : Nat)

/-- The client code for each operation, in terms of the modelled API. -/
def exec (c : Config) (pol : Policy L P) (t : Table P) : Op L P → Exec (Table P × Out P)
  | .find l => do
    let r ← find pol t l
    let f ← t.found r
    if f then do
      let p ← deref t r
      .ok (t, .found (some p))
    else .ok (t, .found none)
  | .add l p memOk => do
    let i ← findForAdd pol t l
    let f ← t.found i.entry
    if f then do
      let q ← deref t i.entry
      .ok (t, .present q)
    else do
      let (ok, t, i) ← add c t i p memOk
      if ok then do
        let q ← deref t i.entry
        .ok (t, .added q)
      else .ok (t, .failed)
  | .assign l p => do
    let r ← find pol t l
    let f ← t.found r
    if f then do
      let q ← deref t r
      let t ← assign t r p
      .ok (t, .found (some q))
    else .ok (t, .found none)
  | .removeIfExists l => do
    let t ← removeIfExists pol t l
    .ok (t, .done)
  | .clear => do
    let t ← clear t
    .ok (t, .done)
  | .checkDensity memOk => do
    let (ok, t) ← checkDensity c t memOk
    .ok (t, .density ok)
  | .sweep pick => do
    let (t, vs) ← sweep pick t
    .ok (t, .visited vs)
  | .elements => .ok (t, .count (elements t))
  | .move => do
    let (t', old) := moveFrom t
    let _ ← destroy old
    .ok (t', .done)

/-- A client history; stops at the first fault. -/
def run (c : Config) (pol : Policy L P) (t : Table P) : List (Op L P) → Exec (Table P × List (Out P))
  | [] => .ok (t, [])
  | op :: ops => do
    let (t, o) ← exec c pol t op
    let (t, os) ← run c pol t ops
    .ok (t, o :: os)

/-- The map `m` with the payload of key `k` replaced. -/
def upd [DecidableEq K] (m : K → Option P) (k : K) (v : Option P) : K → Option P :=
  fun k' => if k' = k then v else m k'

/-- The allowed answers and effects. `canon l` is the key the lookup value `l` stands for, `keyOf p` the
key of payload `p`. -/
inductive Step [DecidableEq K] (canon : L → K) (keyOf : P → K) :
    (K → Option P) → Op L P → Out P → (K → Option P) → Prop
  | find m l : Step canon keyOf m (.find l) (.found (m (canon l))) m
  | addNew m l p b : m (canon l) = none →
      Step canon keyOf m (.add l p b) (.added p) (upd m (canon l) (some p))
  | addPresent m l p b q : m (canon l) = some q → Step canon keyOf m (.add l p b) (.present q) m
  | addFailed m l p b : m (canon l) = none → Step canon keyOf m (.add l p b) .failed m
  | assignPresent m l p q : m (canon l) = some q →
      Step canon keyOf m (.assign l p) (.found (some q)) (upd m (canon l) (some p))
  | assignAbsent m l p : m (canon l) = none → Step canon keyOf m (.assign l p) (.found none) m
  | remove m l : Step canon keyOf m (.removeIfExists l) .done (upd m (canon l) none)
  | clear m : Step canon keyOf m .clear .done (fun _ => none)
  | checkDensity m b ok : Step canon keyOf m (.checkDensity b) (.density ok) m
  | sweep m pick vs : (∀ p, p ∈ vs ↔ m (keyOf p) = some p) → (vs.map keyOf).Nodup →
      Step canon keyOf m (.sweep pick) (.visited vs) (fun k => (m k).filter (fun p => !pick p))
  | elements m (ks : List K) : ks.Nodup → (∀ k, k ∈ ks ↔ m k ≠ none) →
      Step canon keyOf m .elements (.count ks.length) m
  | move m : Step canon keyOf m .move .done m

/-- A whole history. -/
inductive Steps [DecidableEq K] (canon : L → K) (keyOf : P → K) :
    (K → Option P) → List (Op L P) → List (Out P) → (K → Option P) → Prop
  | nil m : Steps canon keyOf m [] [] m
  | cons {m m' m'' op o ops os} : Step canon keyOf m op o m' → Steps canon keyOf m' ops os m'' →
      Steps canon keyOf m (op :: ops) (o :: os) m''

/-- The client's obligation: what is stored under a key has that key. -/
def Op.Ok (canon : L → K) (keyOf : P → K) : Op L P → Prop
  | .add l p _ => keyOf p = canon l
  | .assign l p => keyOf p = canon l
  | _ => True

/-- Does the operation find memory, if it asks for it? -/
def Op.memOk : Op L P → Bool
  | .add _ _ b => b
  | .checkDensity b => b
  | _ => true

/-- `add` operations are the ones that can use up a slot. -/
def Op.isAdd : Op L P → Bool
  | .add _ _ _ => true
  | _ => false

end Verif.HashTable
