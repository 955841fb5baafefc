import Verif.Function.Model
/-!
# `amtl/am-function.h` when a callable's constructor throws or memory runs out

Each call comes with an optional exception: either every copy or move constructor of a client callable that the call reaches throws, or `operator new` throws when the
call reaches it. The client catches the exception and goes on. An object whose own constructor throws does not exist afterwards; a new-expression whose constructor
throws frees its memory.
-/
namespace Verif.Function
open Verif

variable {V C : Type} [DecidableEq V]

/-- What goes wrong: the constructor of a client callable (called at am-function.h:57-65) or `operator new` (am-function.h:76, 208). -/
inductive Exc where
  | callable
  | alloc
deriving DecidableEq

/-- Does `assign(const Function&)` throw? am-function.h:178-185 with 57-59, 74-79. Nothing that was constructed before is left: a holder is constructed only after its
`obj_`. -/
def copyThrow (x : Exc) : Fn C → Mem → Exec Bool
  | .empty, _ => .ok false
  | .call inl id _, m => if id ∈ m.dead then .error .useAfterFree else
      match x with
      | .callable => .ok true
      | .alloc => .ok (!inl)
  | .wrap inl id f, m => if id ∈ m.dead then .error .useAfterFree else
      match x with
      | .callable => copyThrow .callable f m
      | .alloc => if inl then copyThrow .alloc f m else .ok true

/-- Does `move(Function&&)` throw, and if so what is left of the source? am-function.h:187-197 with 60-62, 80-83: the exception leaves before `impl_` and `other` are
changed (:191), so the source keeps its holder, with the callable as its move constructor left it (`torn`). -/
def moveThrow (torn : C → C) (x : Exc) : Fn C → Mem → Exec (Option (Fn C))
  | .call true id c, m => if id ∈ m.dead then .error .useAfterFree else
      match x with
      | .callable => .ok (some (.call true id (torn c)))
      | .alloc => .ok none
  | .wrap true id f, m => if id ∈ m.dead then .error .useAfterFree else
      match moveThrow torn x f m with
      | .ok (some g) => .ok (some (.wrap true id g))
      | .ok none => .ok none
      | .error e => .error e
  | _, _ => .ok none

/-- `impl_` points to `buffer_`, but the holder that was to be constructed there was not: am-function.h:205-206. The holder that never came to exist gets an identity which
is recorded as destroyed. -/
def noHolder (s : State V C) (m : Mem) (v : V) (f : Nat → Fn C) : State V C :=
  ({ s with mem := { next := m.next + 1, dead := m.next :: m.dead } } : State V C).set v (some (f m.next))

/-- One call in which an exception is thrown if its cause is reached, and whether it was. am-function.h:101-144, by cases of `Op`. In the assignments `destroy()` is done
and `impl_` is as before, except where :205 has set it. Simplified: what a throwing move constructor does to the callable passed to `Function(T&&)` is the client's own
matter. -/
def stepThrow (size : C → Nat) (torn : C → C) (x : Exc) (s : State V C) : Op V C → Exec (State V C × Bool)
  | .ctorNull v => do .ok (← step size s (.ctorNull v), false)
  | .ctorCallable v c =>
    if x = .alloc ∧ size c ≤ bufferSize then do .ok (← step size s (.ctorCallable v c), false) else .ok (s, true)
  | .ctorCopyConst v w => do
    if ← copyThrow x (← s.get w) s.mem then .ok (s, true) else do .ok (← step size s (.ctorCopyConst v w), false)
  | .ctorCopy v w => do
    let t ← copyThrow x (← s.get w) s.mem
    if t || (decide (x = .alloc) && !decide (wrapperSize ≤ bufferSize)) then .ok (s, true) else do .ok (← step size s (.ctorCopy v w), false)
  | .ctorMove v w => do
    match ← moveThrow torn x (← s.get w) s.mem with
    | some g => .ok (s.set w (some g), true)
    | none => do .ok (← step size s (.ctorMove v w), false)
  | .dtor v => do .ok (← step size s (.dtor v), false)
  | .assignNull v => do .ok (← step size s (.assignNull v), false)
  | .assignCallable v c => do
    let m ← destroy (← s.get v) s.mem
    if size c ≤ bufferSize then
      if x = .callable then .ok (noHolder s m v fun id => .call true id c, true)
      else do .ok (← step size s (.assignCallable v c), false)
    else .ok ({ s with mem := m }, true)
  | .assignCopyConst v w => do
    let m ← destroy (← s.get v) s.mem
    if ← copyThrow x (← s.get w) m then .ok ({ s with mem := m }, true) else do .ok (← step size s (.assignCopyConst v w), false)
  | .assignCopy v w => do
    let m ← destroy (← s.get v) s.mem
    let t ← copyThrow x (← s.get w) m
    if wrapperSize ≤ bufferSize then
      if t then .ok (noHolder s m v fun id => .wrap true id .empty, true)
      else do .ok (← step size s (.assignCopy v w), false)
    else
      if t || decide (x = .alloc) then .ok ({ s with mem := m }, true) else do .ok (← step size s (.assignCopy v w), false)
  | .assignMove v w => do
    let m ← destroy (← s.get v) s.mem
    match ← moveThrow torn x (← s.get w) m with
    | some g => .ok (({ s with mem := m } : State V C).set w (some g), true)
    | none => do .ok (← step size s (.assignMove v w), false)

/-- One call, with or without an exception: am-function.h:101-144. -/
def stepT (size : C → Nat) (torn : C → C) (s : State V C) (o : Op V C) : Option Exc → Exec (State V C × Bool)
  | none => do .ok (← step size s o, false)
  | some x => stepThrow size torn x s o

/-- A client program that catches what the calls throw, and the calls that threw: am-function.h:101-144. -/
def runT (size : C → Nat) (torn : C → C) : List (Op V C × Option Exc) → State V C → Exec (State V C × List Bool)
  | [], s => .ok (s, [])
  | o :: os, s => do
    let (s, b) ← stepT size torn s o.1 o.2
    let (s, bs) ← runT size torn os s
    .ok (s, b :: bs)

end Verif.Function
