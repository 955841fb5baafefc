import Verif.PQueue.Cmp
/-!
# `amtl/am-priority-queue.h` with a comparator that throws

The loops are those of `Verif.PQueue.Cmp`; a call of the comparator may also throw. Then the local variables of the call are destroyed and the vector stays as it is at that
moment. `moved` says what a move leaves in its source. Simplified: moves and assignments of items do not throw, and `push_back` does not run out of memory.
-/
namespace Verif.PQueue
open Verif

variable {T S : Type}

/-- `is_higher_priority_(a, b)`, am-priority-queue.h:105, 122, 128: the answer (`none`: it throws) and the comparator's state afterwards. -/
abbrev TCmp (T S : Type) := T → T → S → Option Bool × S

/-- The loop of `propagateUp` and the final store, am-priority-queue.h:103-112, with `last` the item last moved out of `impl_[cursor]`; the flag says that the comparator threw
(:105). Then `key` is destroyed, and `impl_[cursor]` is what the move left there. -/
def upLoopT (cmp : TCmp T S) (moved : T → T) (key : T) (last : T) (v : Vec T) (cursor : Nat) (s : S) : Nat → Exec (Vec T × S × Bool)
  | 0 => .error .diverge
  | fuel + 1 =>
    if cursor = 0 then do
      let v ← put v cursor key
      .ok (v, s, false)
    else do
      let parent := parentOf cursor
      let p ← get v parent
      match cmp key p s with
      | (none, s) => do
        let v ← put v cursor (moved last)
        .ok (v, s, true)
      | (some false, s) => do
        let v ← put v cursor key
        .ok (v, s, false)
      | (some true, s) => do
        let (p, v) ← take v parent
        let v ← put v cursor p
        upLoopT cmp moved key p v parent s fuel

/-- `propagateUp`, am-priority-queue.h:100-113. -/
def propagateUpT (cmp : TCmp T S) (moved : T → T) (v : Vec T) (at_ : Nat) (s : S) : Exec (Vec T × S × Bool) := do
  let (key, v) ← take v at_
  upLoopT cmp moved key key v at_ s (v.length + 1)

/-- The choice of `bestChild`, am-priority-queue.h:119-124; `none`: the comparator threw. -/
def bestChildT (cmp : TCmp T S) (v : Vec T) (cursor : Nat) (s : S) : Exec (Option Nat × S) :=
  if hasRightChild v cursor then do
    let r ← get v (rightChildOf cursor)
    let l ← get v (leftChildOf cursor)
    match cmp r l s with
    | (none, s) => .ok (none, s)
    | (some b, s) => .ok (some (if b then rightChildOf cursor else leftChildOf cursor), s)
  else .ok (some (leftChildOf cursor), s)

/-- `propagateDown`, am-priority-queue.h:115-135; the flag says that the comparator threw. -/
def propagateDownT (cmp : TCmp T S) (v : Vec T) (cursor : Nat) (s : S) : Nat → Exec (Vec T × S × Bool)
  | 0 => .error .diverge
  | fuel + 1 =>
    if hasLeftChild v cursor then do
      match ← bestChildT cmp v cursor s with
      | (none, s) => .ok (v, s, true)
      | (some best, s) => do
        let b ← get v best
        let c ← get v cursor
        match cmp b c s with
        | (none, s) => .ok (v, s, true)
        | (some false, s) => .ok (v, s, false)
        | (some true, s) => do
          let v ← put v best c
          let v ← put v cursor b
          propagateDownT cmp v best s fuel
    else .ok (v, s, false)

/-- `add` / `emplace`, am-priority-queue.h:62-74. -/
def addT (cmp : TCmp T S) (moved : T → T) (v : Vec T) (item : T) (s : S) : Exec (Vec T × S × Bool) :=
  let v := v ++ [some item]
  if v.length > 1 then propagateUpT cmp moved v (v.length - 1) s else .ok (v, s, false)

/-- `pop`, am-priority-queue.h:85-97; `none`: the comparator threw, and `top` was destroyed. -/
def popT (cmp : TCmp T S) (v : Vec T) (s : S) : Exec (Option T × Vec T × S) :=
  if empty v then .error .assertFail
  else do
    let (top, v) ← take v 0
    if v.length = 1 then .ok (some top, v.dropLast, s)
    else do
      let (back, v) ← take v (v.length - 1)
      let v ← put v 0 back
      let v := v.dropLast
      let (v, s, threw) ← propagateDownT cmp v 0 s (v.length + 1)
      .ok (if threw then none else some top, v, s)

end Verif.PQueue
