import Verif.Common
/-!
# Model of the vector and deque helpers (amtl/am-vector.h, amtl/am-deque.h)

A `std::vector` or `std::deque` is the list of its elements. `moved a` is what moving out of `a` leaves behind. The operations of the
standard library used (`back`, `pop_back`, `front`, `pop_front`, `at`, `emplace_back`, `clear`, move assignment, `insert`, `erase`,
`remove_if`) are written here from their specification; using them out of range is a fault.
-/
namespace Verif.Vec
open Verif

variable {A : Type} (moved : A → A)

/-! ## The standard library -/

/-- `v.erase(v.begin() + at)`; dereferenceable position required. Library operation used at am-vector.h:59. -/
def vErase (v : List A) (at' : Nat) : Exec (List A) :=
  if at' < v.length then .ok (v.eraseIdx at') else .error .outOfBounds

/-- `v.insert(v.begin() + at, item)`; also `emplace`. Library operation used at am-vector.h:64, 69 and 74. -/
def vInsert (v : List A) (at' : Nat) (item : A) : Exec (List A) :=
  if at' ≤ v.length then .ok (v.take at' ++ item :: v.drop at') else .error .outOfBounds

/-- `v.erase(v.begin() + from, v.end())`. Library operation used at am-vector.h:80. -/
def vTruncate (v : List A) (n : Nat) : Exec (List A) :=
  if n ≤ v.length then .ok (v.take n) else .error .outOfBounds

/-- `*it` where `it = v.begin() + i`. Library operation, inside the `std::remove_if` of am-vector.h:79. -/
def vGet (v : List A) (i : Nat) : Exec A :=
  match v[i]? with
  | some a => .ok a
  | none => .error .outOfBounds

/-- `std::remove_if(v.begin(), v.end(), pred)`, as libstdc++ has it: skip to the first element to remove; then for each later element that
stays, move it to `result` and advance `result`. `res = none` while skipping. `k` elements, from `i` on, are left. Returns the vector, the position and
the arguments `pred` was called with, latest first. Library operation used at am-vector.h:79. -/
def removeIf (pred : A → Bool) : Nat → Nat → Option Nat → List A → List A → Exec (List A × Nat × List A)
  | 0, i, res, v, log => .ok (v, res.getD i, log)
  | k + 1, i, res, v, log => do
    let a ← vGet v i
    if pred a then removeIf pred k (i + 1) (some (res.getD i)) v (a :: log)
    else match res with
      | none => removeIf pred k (i + 1) none v (a :: log)
      | some r => removeIf pred k (i + 1) (some (r + 1)) ((v.set r a).set i (moved a)) (a :: log)

/-! ## The helpers -/

/-- `PopBack`, am-vector.h:50-55 and am-deque.h:35-40: the returned element and the rest. -/
def popBack (v : List A) : Exec (A × List A) :=
  match v.getLast? with
  | none => .error .outOfBounds
  | some t =>
    -- the element is moved from, then removed
    .ok (t, (v.set (v.length - 1) (moved t)).dropLast)

/-- `PopFront`, am-deque.h:42-47. -/
def popFront (v : List A) : Exec (A × List A) :=
  match v with
  | [] => .error .outOfBounds
  | t :: rest => .ok (t, (moved t :: rest).tail)

/-- `RemoveAt`, am-vector.h:57-60. -/
def removeAt (v : List A) (at' : Nat) : Exec (List A) := vErase v at'

/-- `InsertAt` (both overloads) and `EmplaceAt`, am-vector.h:62-75. -/
def insertAt (v : List A) (at' : Nat) (item : A) : Exec (List A) := vInsert v at' item

/-- `EraseIf`, am-vector.h:77-81: the vector and the calls of `pred`, latest first. -/
def eraseIf (pred : A → Bool) (v : List A) : Exec (List A × List A) := do
  let (v, it, log) ← removeIf moved pred v.length 0 none v []
  .ok (← vTruncate v it, log)

section
variable {V : Type} [DecidableEq V]

/-- Bookkeeping for am-vector.h:39-48: the vector variables of the caller with the contents of one of them replaced. -/
def vset (env : V → List A) (x : V) (l : List A) : V → List A := fun v => if v = x then l else env v

/-- The loop of `MoveExtend`, am-vector.h:44-45, run for at most `fuel` tests of its condition; `none`: still running. -/
def extendLoop (dest src : V) : Nat → Nat → (V → List A) → Option (Exec (V → List A))
  | 0, _, _ => none
  | fuel + 1, i, env =>
    if i < (env src).length then
      match (env src)[i]? with
      | none => some (.error .outOfBounds)
      | some a =>
        -- emplace_back(std::move(src->at(i)))
        let env := vset env src ((env src).set i (moved a))
        extendLoop dest src fuel (i + 1) (vset env dest (env dest ++ [a]))
    else some (.ok env)

/-- `MoveExtend(&dest, &src)`, am-vector.h:39-48. -/
def moveExtend (dest src : V) (fuel : Nat) (env : V → List A) : Option (Exec (V → List A)) :=
  if (env dest).isEmpty then
    -- *dest = std::move(*src)
    let l := env src
    some (.ok (vset (vset env src []) dest (if dest = src then [] else l)))
  else
    match extendLoop moved dest src fuel 0 env with
    | none => none
    | some (.error f) => some (.error f)
    | some (.ok env) => some (.ok (vset env src []))
end

end Verif.Vec
