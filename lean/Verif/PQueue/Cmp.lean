import Verif.PQueue.Model
/-!
# `amtl/am-priority-queue.h` with the comparator as an object

`Verif.PQueue.Model` takes the comparison as a function. Here the comparator is an object with a state `S`: calling it may change the state, answer differently each
time, or fail. The loops are those of `Verif.PQueue.Model`, with the calls in the order in which the code makes them.
-/
namespace Verif.PQueue
open Verif

variable {T S : Type}

/-- `is_higher_priority_(a, b)`, am-priority-queue.h:105, 122, 128: the answer and the comparator's state afterwards. -/
abbrev Cmp (T S : Type) := T → T → S → Exec (Bool × S)

/-- The loop of `propagateUp` and the final store, am-priority-queue.h:103-112. -/
def upLoopC (cmp : Cmp T S) (key : T) (v : Vec T) (cursor : Nat) (s : S) : Nat → Exec (Vec T × S)
  | 0 => .error .diverge
  | fuel + 1 =>
    if cursor = 0 then do
      let v ← put v cursor key
      .ok (v, s)
    else do
      let parent := parentOf cursor
      let p ← get v parent
      let (b, s) ← cmp key p s
      if !b then do
        let v ← put v cursor key
        .ok (v, s)
      else do
        let (p, v) ← take v parent
        let v ← put v cursor p
        upLoopC cmp key v parent s fuel

/-- `propagateUp`, am-priority-queue.h:100-113. -/
def propagateUpC (cmp : Cmp T S) (v : Vec T) (at_ : Nat) (s : S) : Exec (Vec T × S) := do
  let (key, v) ← take v at_
  upLoopC cmp key v at_ s (v.length + 1)

/-- The choice of `bestChild`, am-priority-queue.h:119-124. -/
def bestChildC (cmp : Cmp T S) (v : Vec T) (cursor : Nat) (s : S) : Exec (Nat × S) :=
  if hasRightChild v cursor then do
    let r ← get v (rightChildOf cursor)
    let l ← get v (leftChildOf cursor)
    let (b, s) ← cmp r l s
    .ok (if b then rightChildOf cursor else leftChildOf cursor, s)
  else .ok (leftChildOf cursor, s)

/-- `propagateDown`, am-priority-queue.h:115-135. -/
def propagateDownC (cmp : Cmp T S) (v : Vec T) (cursor : Nat) (s : S) : Nat → Exec (Vec T × S)
  | 0 => .error .diverge
  | fuel + 1 =>
    if hasLeftChild v cursor then do
      let (best, s) ← bestChildC cmp v cursor s
      let b ← get v best
      let c ← get v cursor
      let (r, s) ← cmp b c s
      if !r then .ok (v, s)
      else do
        let v ← put v best c
        let v ← put v cursor b
        propagateDownC cmp v best s fuel
    else .ok (v, s)

/-- `add` / `emplace`, am-priority-queue.h:62-74. -/
def addC (cmp : Cmp T S) (v : Vec T) (item : T) (s : S) : Exec (Vec T × S) :=
  let v := v ++ [some item]
  if v.length > 1 then propagateUpC cmp v (v.length - 1) s else .ok (v, s)

/-- `pop`, am-priority-queue.h:85-97. -/
def popC (cmp : Cmp T S) (v : Vec T) (s : S) : Exec (T × Vec T × S) :=
  if empty v then .error .assertFail
  else do
    let (top, v) ← take v 0
    if v.length = 1 then .ok (top, v.dropLast, s)
    else do
      let (back, v) ← take v (v.length - 1)
      let v ← put v 0 back
      let v := v.dropLast
      let (v, s) ← propagateDownC cmp v 0 s (v.length + 1)
      .ok (top, v, s)

/-! ## Several queues, moved -/

/-- A queue object: `impl_` and `is_higher_priority_`, am-priority-queue.h:161-162. -/
structure Queue (T S : Type) where
  impl : Vec T
  cmp : S

/-- What is called on named queues: am-priority-queue.h:53-97, and the implicit destructor. -/
inductive QOp (V T S : Type) where
  /-- `PriorityQueue(hp)`, :53-55 -/
  | ctor (v : V) (c : S)
  /-- `PriorityQueue(PriorityQueue&&)`, :57-60 -/
  | ctorMove (v w : V)
  | dtor (v : V)
  | add (v : V) (x : T)
  | pop (v : V)
  | peek (v : V)
  | empty (v : V)

/-- What a call returns: am-priority-queue.h:76-97. -/
inductive QOut (T : Type) where
  | done
  | item (x : T)
  | flag (b : Bool)
deriving DecidableEq

variable {V : Type} [DecidableEq V]

/-- Bookkeeping: a queue changes (am-priority-queue.h:161-162). -/
def qset (env : V → Option (Queue T S)) (v : V) (q : Option (Queue T S)) : V → Option (Queue T S) := fun u => if u = v then q else env u

/-- The queue a call names; calling on one that does not exist is a fault. The members of am-priority-queue.h:62-97 are called on it. -/
def qget (env : V → Option (Queue T S)) (v : V) : Exec (Queue T S) :=
  match env v with
  | some q => .ok q
  | none => .error .useAfterFree

/-- One call. `call` is the comparator's call operator, `mv` its move constructor: the new object and what is left of the old one. A moved-from `std::vector` is
empty. am-priority-queue.h:53-97, by cases of `QOp`. -/
def qstep (call : Cmp T S) (mv : S → S × S) (env : V → Option (Queue T S)) : QOp V T S → Exec ((V → Option (Queue T S)) × QOut T)
  | .ctor v c => .ok (qset env v (some { impl := [], cmp := c }), .done)
  | .ctorMove v w => do
    let q ← qget env w
    .ok (qset (qset env v (some { impl := q.impl, cmp := (mv q.cmp).1 })) w (some { impl := [], cmp := (mv q.cmp).2 }), .done)
  | .dtor v => do
    let _ ← qget env v
    .ok (qset env v none, .done)
  | .add v x => do
    let q ← qget env v
    let (impl, c) ← addC call q.impl x q.cmp
    .ok (qset env v (some { impl, cmp := c }), .done)
  | .pop v => do
    let q ← qget env v
    let (x, impl, c) ← popC call q.impl q.cmp
    .ok (qset env v (some { impl, cmp := c }), .item x)
  | .peek v => do
    let q ← qget env v
    let x ← peek q.impl
    .ok (env, .item x)
  | .empty v => do
    let q ← qget env v
    .ok (env, .flag (empty q.impl))

/-- A client program: calls of am-priority-queue.h:53-97. -/
def qrun (call : Cmp T S) (mv : S → S × S) : List (QOp V T S) → (V → Option (Queue T S)) → Exec ((V → Option (Queue T S)) × List (QOut T))
  | [], env => .ok (env, [])
  | o :: os, env => do
    let (env, r) ← qstep call mv env o
    let (env, rs) ← qrun call mv os env
    .ok (env, r :: rs)

end Verif.PQueue
