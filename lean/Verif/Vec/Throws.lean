import Verif.Vec.Model
/-!
# The vector and deque helpers when elements throw (amtl/am-vector.h, amtl/am-deque.h)

Moving an element may throw, so may allocating and the predicate of `EraseIf`. Simplified: `emplace_back` has no effect when it throws, but for what the element's
constructor did (so the library guarantees, unless moving elements to new storage can throw and they cannot be copied); `RemoveAt`, `InsertAt` and `EmplaceAt` are a
single library call each, and are not treated. `MoveExtend` is given two different vectors (C65 has the other case), with an allocator that lets storage be taken over.
-/
namespace Verif.Vec
open Verif

variable {A : Type}

/-- The element class and the allocator: which operation (counted) throws; what a move leaves in its source, and one that throws; what an assignment that throws leaves
in its target (formerly `old`). am-vector.h:45, 52, 79, am-deque.h:37, 44. -/
structure Plan (A : Type) where
  throws : Nat → Bool
  moved : A → A
  torn : A → A
  spoilt : (old new : A) → A

/-- What a call leaves: `none` if it threw, and the number of operations that might have thrown. am-vector.h:50-55, am-deque.h:35-47. -/
abbrev Popped (A : Type) := Option A × List A × Nat

/-- The end of `PopBack` and `PopFront`, `return t;`: the compiler may elide the move. If it throws, `t` is destroyed. am-vector.h:54, am-deque.h:39, 46. -/
def returnT (p : Plan A) (elide : Bool) (n : Nat) (t : A) (v : List A) : Popped A :=
  if elide then (some t, v, n)
  else if p.throws n then (none, v, n + 1)
  else (some t, v, n + 1)

/-- `PopBack`, am-vector.h:50-55, am-deque.h:35-40. -/
def popBackT (p : Plan A) (elide : Bool) (n : Nat) (v : List A) : Exec (Popped A) :=
  match v.getLast? with
  | none => .error .outOfBounds
  | some t =>
    if p.throws n then .ok (none, v.set (v.length - 1) (p.torn t), n + 1)
    else .ok (returnT p elide (n + 1) t (v.set (v.length - 1) (p.moved t)).dropLast)

/-- `PopFront`, am-deque.h:42-47. -/
def popFrontT (p : Plan A) (elide : Bool) (n : Nat) (v : List A) : Exec (Popped A) :=
  match v with
  | [] => .error .outOfBounds
  | t :: rest =>
    if p.throws n then .ok (none, p.torn t :: rest, n + 1)
    else .ok (returnT p elide (n + 1) t (p.moved t :: rest).tail)

/-- `emplace_back(std::move(src->at(i)))`: allocation, then the element's constructor. The flag says that it threw. am-vector.h:45. -/
def emplaceT (p : Plan A) (n i : Nat) (dest src : List A) : Exec (List A × List A × Nat × Bool) :=
  match src[i]? with
  | none => .error .outOfBounds
  | some a =>
    if p.throws n then .ok (dest, src, n + 1, true)
    else if p.throws (n + 1) then .ok (dest, src.set i (p.torn a), n + 2, true)
    else .ok (dest ++ [a], src.set i (p.moved a), n + 2, false)

/-- The loop of `MoveExtend`, am-vector.h:44-45; `k` rounds are left. -/
def extendLoopT (p : Plan A) : Nat → Nat → Nat → List A → List A → Exec (List A × List A × Nat × Bool)
  | 0, _, n, dest, src => .ok (dest, src, n, false)
  | k + 1, i, n, dest, src => do
    let (dest, src, n, threw) ← emplaceT p n i dest src
    if threw then .ok (dest, src, n, true)
    else extendLoopT p k (i + 1) n dest src

/-- `MoveExtend(&dest, &src)`, am-vector.h:39-48: the vectors afterwards and whether it threw. -/
def moveExtendT (p : Plan A) (n : Nat) (dest src : List A) : Exec (List A × List A × Nat × Bool) :=
  if dest.isEmpty then .ok (src, [], n, false)
  else do
    let (dest, src, n, threw) ← extendLoopT p src.length 0 n dest src
    if threw then .ok (dest, src, n, true)
    else .ok (dest, [], n, false)

/-- `std::remove_if` as `removeIf`, with a predicate that may throw (`none`) or answer differently at each call (its first argument counts them) and assignments that may.
Returns the vector and, if nothing threw, the position. Library operation used at am-vector.h:79. -/
def removeIfT (p : Plan A) (pred : Nat → A → Option Bool) : Nat → Nat → Nat → Option Nat → List A → Exec (List A × Nat × Option Nat)
  | 0, i, n, res, v => .ok (v, n, some (res.getD i))
  | k + 1, i, n, res, v => do
    let a ← vGet v i
    match pred i a with
    | none => .ok (v, n, none)
    | some true => removeIfT p pred k (i + 1) n (some (res.getD i)) v
    | some false => match res with
      | none => removeIfT p pred k (i + 1) n none v
      | some r => do
        let old ← vGet v r
        if p.throws n then .ok ((v.set r (p.spoilt old a)).set i (p.torn a), n + 1, none)
        else removeIfT p pred k (i + 1) (n + 1) (some (r + 1)) ((v.set r a).set i (p.moved a))

/-- `EraseIf`, am-vector.h:77-81: the vector afterwards and whether it threw. -/
def eraseIfT (p : Plan A) (pred : Nat → A → Option Bool) (n : Nat) (v : List A) : Exec (List A × Nat × Bool) := do
  let (v, n, it) ← removeIfT p pred v.length 0 n none v
  match it with
  | none => .ok (v, n, true)
  | some it => do .ok (← vTruncate v it, n, false)

end Verif.Vec
