import Verif.Common
/-!
# Model of `amtl/am-priority-queue.h`

The backing `std::vector<T>` is a list of slots; a slot whose value was moved out is `none` until it is
assigned again. Comparing, returning or moving a moved-out value is `Fault.uninitialised`, indexing
outside the vector is `Fault.outOfBounds`.
-/
namespace Verif.PQueue
open Verif

variable {T : Type}

/-- `impl_` (am-priority-queue.h:161). -/
abbrev Vec (T : Type) := List (Option T)

/-- Read of `impl_[i]`. am-priority-queue.h:82, 105, 122, 128. -/
def get (v : Vec T) (i : Nat) : Exec T :=
  match v[i]? with
  | some (some x) => .ok x
  | some none => .error .uninitialised
  | none => .error .outOfBounds

/-- `std::move(impl_[i])` into something else: the value and the vector with the slot moved out. am-priority-queue.h:88, 92, 102, 108. -/
def take (v : Vec T) (i : Nat) : Exec (T × Vec T) := do
  let x ← get v i
  .ok (x, v.set i none)

/-- `impl_[i] = x`. am-priority-queue.h:92, 108, 112, 132. -/
def put (v : Vec T) (i : Nat) (x : T) : Exec (Vec T) :=
  if i < v.length then .ok (v.set i (some x)) else .error .outOfBounds

/-- `parentOf`, am-priority-queue.h:137-142. -/
def parentOf (i : Nat) : Nat := (i - 1) / 2
/-- `leftChildOf`, am-priority-queue.h:143-145. -/
def leftChildOf (i : Nat) : Nat := i * 2 + 1
/-- `rightChildOf`, am-priority-queue.h:146-148. -/
def rightChildOf (i : Nat) : Nat := i * 2 + 2
/-- `hasLeftChild`, am-priority-queue.h:150-152. -/
def hasLeftChild (v : Vec T) (i : Nat) : Bool := leftChildOf i < v.length
/-- `hasRightChild`, am-priority-queue.h:153-155. -/
def hasRightChild (v : Vec T) (i : Nat) : Bool := rightChildOf i < v.length

/-- The loop of `propagateUp` and the final store, am-priority-queue.h:103-112; `fuel` bounds the rounds,
running out is `Fault.diverge`. -/
def upLoop (hp : T → T → Bool) (key : T) (v : Vec T) (cursor : Nat) : Nat → Exec (Vec T)
  | 0 => .error .diverge
  | fuel + 1 =>
    if cursor = 0 then put v cursor key
    else do
      let parent := parentOf cursor
      let p ← get v parent
      if !hp key p then put v cursor key
      else do
        let (p, v) ← take v parent
        let v ← put v cursor p
        upLoop hp key v parent fuel

/-- `propagateUp`, am-priority-queue.h:100-113. -/
def propagateUp (hp : T → T → Bool) (v : Vec T) (at_ : Nat) : Exec (Vec T) := do
  let (key, v) ← take v at_
  upLoop hp key v at_ (v.length + 1)

/-- The choice of `bestChild`, am-priority-queue.h:119-124. -/
def bestChild (hp : T → T → Bool) (v : Vec T) (cursor : Nat) : Exec Nat :=
  if hasRightChild v cursor then do
    let r ← get v (rightChildOf cursor)
    let l ← get v (leftChildOf cursor)
    .ok (if hp r l then rightChildOf cursor else leftChildOf cursor)
  else .ok (leftChildOf cursor)

/-- `propagateDown`, am-priority-queue.h:115-135. -/
def propagateDown (hp : T → T → Bool) (v : Vec T) (cursor : Nat) : Nat → Exec (Vec T)
  | 0 => .error .diverge
  | fuel + 1 =>
    if hasLeftChild v cursor then do
      let best ← bestChild hp v cursor
      let b ← get v best
      let c ← get v cursor
      if !hp b c then .ok v
      else do
        let v ← put v best c
        let v ← put v cursor b
        propagateDown hp v best fuel
    else .ok v

/-- `add` / `emplace`, am-priority-queue.h:62-74. -/
def add (hp : T → T → Bool) (v : Vec T) (item : T) : Exec (Vec T) :=
  let v := v ++ [some item]
  if v.length > 1 then propagateUp hp v (v.length - 1) else .ok v

/-- `empty`, am-priority-queue.h:76-78. -/
def empty (v : Vec T) : Bool := v.isEmpty

/-- `peek`, am-priority-queue.h:80-83. -/
def peek (v : Vec T) : Exec T := if empty v then .error .assertFail else get v 0

/-- `pop`, am-priority-queue.h:85-97. -/
def pop (hp : T → T → Bool) (v : Vec T) : Exec (T × Vec T) :=
  if empty v then .error .assertFail
  else do
    let (top, v) ← take v 0
    if v.length = 1 then .ok (top, v.dropLast)
    else do
      let (back, v) ← take v (v.length - 1)
      let v ← put v 0 back
      let v := v.dropLast
      let v ← propagateDown hp v 0 (v.length + 1)
      .ok (top, v)

end Verif.PQueue
