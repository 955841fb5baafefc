import Verif.Function.Model
/-!
# Model of `ke::Function` when callables and their destructors use `Function`s

`Model.lean` runs every operation to its end. Here `destroy()` (am-function.h:160-168) is cut at the call of the destructor of the client's
callable, and `operator()` (:150-153) at the call of the callable. Both are client code, which may use any `Function` again, including the
one it was called from. The machine keeps the stack of calls and destructors in progress.

An object whose destructor has begun counts as destroyed. `destroy()` does not clear `impl_`, so until the operation that called it stores a
new `impl_` the `Function` still points to that object.

Simplifications: the copy and move constructors of callables do not use `Function`s; a callable passed to `Function(T&&)` or
`operator=(T&&)` is a value that nothing else can destroy.
-/
namespace Verif.Function
open Verif

variable {V C : Type}

/-- The client's callable inside a `Function`: holders of `Function`s are only layers around it (am-function.h:71-73). -/
def Fn.inner : Fn C → Option (Nat × C)
  | .empty => none
  | .call _ id c => some (id, c)
  | .wrap _ _ f => f.inner

/-- Client code in progress. -/
inductive Frame (V C : Type) where
  /-- the callable in holder `id`, called by `operator()`, am-function.h:150-153 -/
  | calling (id : Nat)
  /-- a destructor, called by the `destroy()` with which operation `o` starts, am-function.h:120, 124, 129, 134, 141 -/
  | finishing (o : Op V C)
  /-- the destructor of the moved-from callable, called by `other.zap()` in `move`, am-function.h:192 -/
  | zapping (w : V)

/-- The `Function` objects and holders (am-function.h:213-217), and the client code in progress, innermost first. -/
structure Mach (V C : Type) where
  s : State V C
  stack : List (Frame V C)

/-- What client code does next. -/
inductive Act (V C : Type) where
  /-- a constructor, the destructor or an assignment, am-function.h:101-144 -/
  | op (o : Op V C)
  /-- `operator bool` and `usingInlineStorage`, am-function.h:146-148, 155-157 -/
  | look (v : V)
  /-- `operator()`, am-function.h:150-153: the callable starts -/
  | call (v : V)
  /-- the innermost running callable reads its captures, i.e. `obj_`, am-function.h:72, 86 -/
  | use
  /-- the innermost running callable or destructor returns, am-function.h:72, 165, 167 -/
  | ret

/-- What the client sees. -/
inductive Out (C : Type) where
  | done
  | seen (set inl : Bool)
  | called (c : C)
deriving DecidableEq

/-- Operations that start with `destroy()`, am-function.h:119-144. -/
def Op.replaces : Op V C → Bool
  | .dtor _ | .assignNull _ | .assignCallable _ _ | .assignCopyConst _ _ | .assignCopy _ _ | .assignMove _ _ => true
  | _ => false

/-- The object a member of am-function.h:101-144 is called on. -/
def Op.target : Op V C → V
  | .ctorNull v | .ctorCallable v _ | .ctorCopyConst v _ | .ctorCopy v _ | .ctorMove v _ | .dtor v | .assignNull v
  | .assignCallable v _ | .assignCopyConst v _ | .assignCopy v _ | .assignMove v _ => v

variable [DecidableEq V]

/-- `move(Function&&)`, am-function.h:187-197, up to the destructor that `other.zap()` (:192) calls. An inline holder of a `Function` does
not exist (`wrapperSize` exceeds the buffer); the model moves it without interruption. -/
def moveStart (s : State V C) (v w : V) : Exec (State V C × List (Frame V C)) := do
  match ← s.get w with
  | .call true id c =>
    if id ∈ s.mem.dead then .error .useAfterFree else do
      let new := s.mem.next
      let m ← destroy (Fn.call true id c) { s.mem with next := s.mem.next + 1 }
      .ok (({ s with mem := m }.set v (some (.call true new c))), [.zapping w])
  | f => do
    let (f, g, m) ← moveFn f s.mem
    .ok ((({ s with mem := m }.set v (some f)).set w (some g)), [])

/-- What is left of an operation after its `destroy()`, or the whole of a constructor. am-function.h:101-144 without :120, 124, 129, 134, 141.
A write to an object that does not exist any more is a fault. -/
def finish (size : C → Nat) (s : State V C) : Op V C → Exec (State V C × List (Frame V C))
  | .ctorNull v => .ok (s.set v (some .empty), [])
  | .ctorCallable v c =>
    let r := assignCallable size c s.mem
    .ok ({ s with mem := r.2 }.set v (some r.1), [])
  | .ctorCopyConst v w => do
    let (f, m) ← assignConst (← s.get w) s.mem
    .ok ({ s with mem := m }.set v (some f), [])
  | .ctorCopy v w => do
    let (f, m) ← assignNonConst (← s.get w) s.mem
    .ok ({ s with mem := m }.set v (some f), [])
  | .ctorMove v w => moveStart s v w
  | .dtor v => do
    let _ ← s.get v
    .ok (s.set v none, [])
  | .assignNull v => do
    let _ ← s.get v
    .ok (s.set v (some .empty), [])
  | .assignCallable v c => do
    let _ ← s.get v
    let r := assignCallable size c s.mem
    .ok ({ s with mem := r.2 }.set v (some r.1), [])
  | .assignCopyConst v w => do
    let _ ← s.get v
    let (f, m) ← assignConst (← s.get w) s.mem
    .ok ({ s with mem := m }.set v (some f), [])
  | .assignCopy v w => do
    let _ ← s.get v
    let (f, m) ← assignNonConst (← s.get w) s.mem
    .ok ({ s with mem := m }.set v (some f), [])
  | .assignMove v w => do
    let _ ← s.get v
    moveStart s v w

/-- The start of an operation: `destroy()` up to the client's destructor if there is one to run, am-function.h:119-144, 160-168. -/
def begin (size : C → Nat) (s : State V C) (o : Op V C) : Exec (State V C × List (Frame V C)) :=
  if o.replaces then do
    let f ← s.get o.target
    let m ← destroy f s.mem
    match f.inner with
    | some _ => .ok ({ s with mem := m }, [.finishing o])
    | none => finish size { s with mem := m } o
  else finish size s o

/-- One step of client code. am-function.h:101-157. -/
def stepR (size : C → Nat) (m : Mach V C) : Act V C → Exec (Mach V C × Out C)
  | .op o => do
    let (s, fr) ← begin size m.s o
    .ok (⟨s, fr ++ m.stack⟩, .done)
  | .look v => do
    let f ← m.s.get v
    .ok (m, .seen f.isSet f.inline)
  | .call v => do
    let f ← m.s.get v
    let c ← call f m.s.mem
    match f.inner with
    | some (id, _) => .ok (⟨m.s, .calling id :: m.stack⟩, .called c)
    | none => .error .assertFail
  | .use =>
    match m.stack with
    | .calling id :: _ => if id ∈ m.s.mem.dead then .error .useAfterFree else .ok (m, .done)
    | _ => .ok (m, .done)
  | .ret =>
    match m.stack with
    | [] => .ok (m, .done)
    | .calling _ :: st => .ok (⟨m.s, st⟩, .done)
    | .finishing o :: st => do
      let (s, fr) ← finish size m.s o
      .ok (⟨s, fr ++ st⟩, .done)
    | .zapping w :: st => do
      let _ ← m.s.get w
      .ok (⟨m.s.set w (some .empty), st⟩, .done)

/-- A client program with everything its callables and their destructors do (am-function.h:101-157), in order. -/
def runR (size : C → Nat) : List (Act V C) → Mach V C → Exec (Mach V C × List (Out C))
  | [], m => .ok (m, [])
  | a :: as, m => do
    let (m, o) ← stepR size m a
    let (m, os) ← runR size as m
    .ok (m, o :: os)

/-- Nothing exists, nothing runs (client state; am-function.h:213-217). -/
def Mach.start : Mach V C := ⟨State.start, []⟩

end Verif.Function
