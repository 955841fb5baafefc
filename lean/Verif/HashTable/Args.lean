import Verif.HashTable.Spec
/-!
# How the arguments of `add` are used

`Verif.HashTable.Model.add` takes its payload by value. Here: `add(i)` with the payload set afterwards, arguments that are references to
(parts of) stored payloads, and arguments that are moved from.
-/
namespace Verif.HashTable
open Verif

variable {L P : Type}

/-- `if (t.add(i)) *i = p;`, where `d` is the default-constructed payload: amtl/am-hashtable.h:463-468 (`HashMap::add(i)`, `HashSet::add(i)`:
am-hashmap.h:145-147, am-hashset.h:113-115) and `Insert::operator*`/`operator->` (am-hashtable.h:182-187). -/
def addThenSet (c : Config) (t : Table P) (i : Insert) (d p : P) (memOk : Bool) : Exec (Bool × Table P × Insert) := do
  let (ok, t, i) ← add c t i d memOk
  if ok then do
    let t ← assign t i.entry p
    .ok (true, t, i)
  else .ok (false, t, i)

/-- `t.add(i, f(*r))`, where the payload is constructed from a reference to (a part of) the payload in entry `j`: amtl/am-hashtable.h:456-462 (and
`HashSet::add`, am-hashset.h:105-108). The reference is followed when the new payload is constructed. Every `am_malloc` of a table makes a new array and
is followed by the release of the old one (am-hashtable.h:278), so the array of before the call is still there if and only if there was
none. -/
def addRef (c : Config) (t : Table P) (i : Insert) (j : Nat) (f : P → P) (memOk : Bool) : Exec (Bool × Table P × Insert) := do
  let (ok, t', i) ← internalAdd c t i memOk
  if ok then do
    if t'.mallocs ≠ t.mallocs then .error .useAfterFree
    else do
      let q ← deref t' j
      let e ← t'.load i.entry
      let e ← e.construct (f q)
      let t' ← t'.store i.entry e
      .ok (true, { t' with ctors := t'.ctors + 1 }, i)
  else .ok (false, t', i)

/-- `HashMap::add(i, key, value)` with such references, amtl/am-hashmap.h:131-140: the entry is made first. -/
def mapAddRef (c : Config) (t : Table P) (i : Insert) (j : Nat) (f : P → P) (memOk : Bool) : Exec (Bool × Table P × Insert) := do
  let q ← deref t j
  add c t i (f q) memOk

/-- `t.add(i, std::move(x))`, amtl/am-hashtable.h:456-462; the last component is `x` afterwards, `gone` being what a move leaves behind. -/
def addMove (gone : P → P) (c : Config) (t : Table P) (i : Insert) (x : P) (memOk : Bool) : Exec (Bool × Table P × Insert × P) := do
  let (ok, t, i) ← internalAdd c t i memOk
  if ok then do
    let e ← t.load i.entry
    let e ← e.construct x
    let t ← t.store i.entry e
    .ok (true, { t with ctors := t.ctors + 1 }, i, gone x)
  else .ok (false, t, i, x)

/-- `m.add(i, std::move(key), std::move(value))`, amtl/am-hashmap.h:131-135, `x` being the pair. -/
def mapAddMove (gone : P → P) (c : Config) (t : Table P) (i : Insert) (x : P) (memOk : Bool) : Exec (Bool × Table P × Insert × P) := do
  let entry := x
  let x := gone x
  let (ok, t, i, _) ← addMove gone c t i entry memOk
  .ok (ok, t, i, x)

end Verif.HashTable
