import Verif.PQueue.Model
/-!
# `amtl/am-priority-queue.h` with items whose moves throw

As `Verif.PQueue.Model`, but every move construction and move assignment of an item, and `push_back`, may throw, and what a move leaves in its source is an item again.
Simplified: `push_back` and `emplace_back` have the standard's strong guarantee; the comparator does not throw (that is C142); destructors do not throw.
-/
namespace Verif.PQueue
open Verif

variable {T : Type}

/-- The items' class and the plan of exceptions: `throws n`: operation `n` throws; what a move leaves in its source, what a throwing move leaves in its source, and what a
throwing assignment leaves in its target, which was the first and was to be the second. am-priority-queue.h:63, 70, 88, 92, 97, 102, 108, 112, 132. -/
structure Items (T : Type) where
  throws : Nat → Bool
  moved : T → T
  torn : T → T
  spoilt : T → T → T

/-- Read of `impl_[i]`. am-priority-queue.h:105, 122, 128. -/
def look (v : List T) (i : Nat) : Exec T :=
  match v[i]? with
  | some x => .ok x
  | none => .error .outOfBounds

/-- `T local(std::move(impl_[i]))`: `none` if it throws. am-priority-queue.h:88, 102, 132. -/
def moveOut (p : Items T) (v : List T) (i n : Nat) : Exec (Option T × List T × Nat) := do
  let x ← look v i
  if p.throws n then .ok (none, v.set i (p.torn x), n + 1) else .ok (some x, v.set i (p.moved x), n + 1)

/-- `impl_[i] = std::move(local)`; the flag: it threw. am-priority-queue.h:112, 132. -/
def moveIn (p : Items T) (v : List T) (i : Nat) (x : T) (n : Nat) : Exec (List T × Nat × Bool) := do
  let old ← look v i
  if p.throws n then .ok (v.set i (p.spoilt old x), n + 1, true) else .ok (v.set i x, n + 1, false)

/-- `impl_[i] = std::move(impl_[j])`. am-priority-queue.h:92, 108, 132. -/
def moveTo (p : Items T) (v : List T) (i j n : Nat) : Exec (List T × Nat × Bool) := do
  let old ← look v i
  let x ← look v j
  if p.throws n then .ok ((v.set i (p.spoilt old x)).set j (p.torn x), n + 1, true) else .ok ((v.set i x).set j (p.moved x), n + 1, false)

/-- The loop of `propagateUp` and the final store, am-priority-queue.h:103-112. -/
def upLoopI (hp : T → T → Bool) (p : Items T) (key : T) (v : List T) (cursor n : Nat) : Nat → Exec (List T × Nat × Bool)
  | 0 => .error .diverge
  | fuel + 1 =>
    if cursor = 0 then moveIn p v cursor key n
    else do
      let parent := parentOf cursor
      let q ← look v parent
      if !hp key q then moveIn p v cursor key n
      else do
        let (v, n, threw) ← moveTo p v cursor parent n
        if threw then .ok (v, n, true) else upLoopI hp p key v parent n fuel

/-- `propagateUp`, am-priority-queue.h:100-113. -/
def propagateUpI (hp : T → T → Bool) (p : Items T) (v : List T) (at_ n : Nat) : Exec (List T × Nat × Bool) := do
  match ← moveOut p v at_ n with
  | (none, v, n) => .ok (v, n, true)
  | (some key, v, n) => upLoopI hp p key v at_ n (v.length + 1)

/-- `add` / `emplace`, am-priority-queue.h:62-74. -/
def addI (hp : T → T → Bool) (p : Items T) (v : List T) (item : T) (n : Nat) : Exec (List T × Nat × Bool) :=
  if p.throws n then .ok (v, n + 1, true)
  else
    let v := v ++ [item]
    if v.length > 1 then propagateUpI hp p v (v.length - 1) (n + 1) else .ok (v, n + 1, false)

/-- `std::swap(impl_[i], impl_[j])` (library function): a temporary from the first, the first from the second, the second from the temporary. am-priority-queue.h:132. -/
def swapI (p : Items T) (v : List T) (i j n : Nat) : Exec (List T × Nat × Bool) := do
  match ← moveOut p v i n with
  | (none, v, n) => .ok (v, n, true)
  | (some tmp, v, n) => do
    let (v, n, threw) ← moveTo p v i j n
    if threw then .ok (v, n, true) else moveIn p v j tmp n

/-- The choice of `bestChild`, am-priority-queue.h:119-124. -/
def bestChildI (hp : T → T → Bool) (v : List T) (cursor : Nat) : Exec Nat :=
  if rightChildOf cursor < v.length then do
    let r ← look v (rightChildOf cursor)
    let l ← look v (leftChildOf cursor)
    .ok (if hp r l then rightChildOf cursor else leftChildOf cursor)
  else .ok (leftChildOf cursor)

/-- `propagateDown`, am-priority-queue.h:115-135. -/
def propagateDownI (hp : T → T → Bool) (p : Items T) (v : List T) (cursor n : Nat) : Nat → Exec (List T × Nat × Bool)
  | 0 => .error .diverge
  | fuel + 1 =>
    if leftChildOf cursor < v.length then do
      let best ← bestChildI hp v cursor
      let b ← look v best
      let c ← look v cursor
      if !hp b c then .ok (v, n, false)
      else do
        let (v, n, threw) ← swapI p v best cursor n
        if threw then .ok (v, n, true) else propagateDownI hp p v best n fuel
    else .ok (v, n, false)

/-- `pop`, am-priority-queue.h:85-98; `elided`: `top` is the returned object itself and not moved there (`return top`, 97). `none`: it threw, and `top`, if it was made, was
destroyed. -/
def popI (hp : T → T → Bool) (p : Items T) (elided : Bool) (v : List T) (n : Nat) : Exec (Option T × List T × Nat) :=
  if v.isEmpty then .error .assertFail
  else do
    match ← moveOut p v 0 n with
    | (none, v, n) => .ok (none, v, n)
    | (some top, v, n) => do
      let (v, n, threw) ←
        (if v.length = 1 then .ok (v.dropLast, n, false)
        else do
          let (v, n, threw) ← moveTo p v 0 (v.length - 1) n
          if threw then .ok (v, n, true) else propagateDownI hp p v.dropLast 0 n (v.dropLast.length + 1) : Exec (List T × Nat × Bool))
      if threw then .ok (none, v, n)
      else if elided then .ok (some top, v, n)
      else if p.throws n then .ok (none, v, n + 1)
      else .ok (some top, v, n + 1)

end Verif.PQueue
