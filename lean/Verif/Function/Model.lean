import Verif.Common
/-!
# Model of `ke::Function` (amtl/am-function.h)

`C` is the type of callables. A callable is immutable (`FunctionHolder::invoke` is const,
am-function.h:71-73), so what a call does is determined by the callable.
Every `FunctionHolder` constructed by the code gets a fresh identity; destroying one records its identity.
Using or destroying a holder that was already destroyed is a fault.
-/
namespace Verif.Function
open Verif

variable {C : Type}

/-- A `Function` object: `impl_` (am-function.h:213) and, if it is not null, the holder it points to.
`inl` says whether the holder lives in the object's own `buffer_` (`usingInlineStorage`, :155-157) or on the
heap. A holder's `obj_` is either a client callable or another `Function` (`FunctionHolder<Function>`). -/
inductive Fn (C : Type) where
  | empty
  | call (inl : Bool) (id : Nat) (c : C)
  | wrap (inl : Bool) (id : Nat) (f : Fn C)
deriving DecidableEq

/-- Which holders exist: identities handed out so far, and those destroyed (latest first). Holders are constructed at am-function.h:76-77, 81, 206, 208 and destroyed at 165, 167. -/
structure Mem where
  next : Nat
  dead : List Nat
deriving DecidableEq

/-- `kMinFunctionInlineBufferSize = sizeof(void*) * 3`, am-function.h:89; size of `buffer_`, :214-217. -/
def bufferSize : Nat := 8 * 3

/-- `sizeof(FunctionHolder<Function>)`: a vtable pointer and a `Function` (`impl_` and `buffer_`). am-function.h:86, 213-217. -/
def wrapperSize : Nat := 8 + (8 + bufferSize)

/-- `explicit operator bool`, am-function.h:146-148. -/
def Fn.isSet : Fn C → Bool
  | .empty => false
  | _ => true

/-- `usingInlineStorage`, am-function.h:155-157. -/
def Fn.inline : Fn C → Bool
  | .empty => false
  | .call inl _ _ => inl
  | .wrap inl _ _ => inl

/-- `destroy`, am-function.h:160-168; the holder's destructor runs the destructor of `obj_`. -/
def destroy : Fn C → Mem → Exec Mem
  | .empty, m => .ok m
  | .call _ id _, m => if id ∈ m.dead then .error .doubleFree else .ok { m with dead := id :: m.dead }
  | .wrap _ id f, m => if id ∈ m.dead then .error .doubleFree else do
      let m ← destroy f m
      .ok { m with dead := id :: m.dead }

/-- `assign(const Function&)`, am-function.h:178-185, with `clone` (:74-79) and the copy constructor of
`FunctionHolder` (:57-59). `obj_` is const there, so a nested `Function` is copied by
`Function(const Function&)` (:107-109). -/
def assignConst : Fn C → Mem → Exec (Fn C × Mem)
  | .empty, m => .ok (.empty, m)
  | .call inl id c, m => if id ∈ m.dead then .error .useAfterFree
      else .ok (.call inl m.next c, { m with next := m.next + 1 })
  | .wrap inl id f, m => if id ∈ m.dead then .error .useAfterFree else do
      let (f', m) ← assignConst f m
      .ok (.wrap inl m.next f', { m with next := m.next + 1 })

/-- `move(Function&&)`, am-function.h:187-197, with `FunctionHolder::move` (:80-83) and its move
constructor (:60-62). Returns the new `*this`, the new `other`. -/
def moveFn : Fn C → Mem → Exec (Fn C × Fn C × Mem)
  | .empty, m => .ok (.empty, .empty, m)
  | .call true id c, m => if id ∈ m.dead then .error .useAfterFree else do
      -- other.zap() destroys the moved-from holder, :169-172
      let new := m.next
      let m ← destroy (.call true id c) { m with next := m.next + 1 }
      .ok (.call true new c, .empty, m)
  | .wrap true id f, m => if id ∈ m.dead then .error .useAfterFree else do
      let (f', f'', m) ← moveFn f m
      let new := m.next
      let m ← destroy (.wrap true id f'') { m with next := m.next + 1 }
      .ok (.wrap true new f', .empty, m)
  | f@(.call false _ _), m => .ok (f, .empty, m)
  | f@(.wrap false _ _), m => .ok (f, .empty, m)

/-- `assign(T&&)` for a client callable, am-function.h:199-210; `size` is `sizeof(FunctionHolder<T>)`. -/
def assignCallable (size : C → Nat) (c : C) (m : Mem) : Fn C × Mem :=
  (.call (decide (size c ≤ bufferSize)) m.next c, { m with next := m.next + 1 })

/-- `assign(T&&)` with `T = Function&`: overload resolution prefers the template to
`assign(const Function&)` for a non-const lvalue, so the source is wrapped (am-function.h:114-117, 139-144,
199-210); the wrapped copy is made by `FunctionHolder(const T&)` (:63-65). -/
def assignNonConst (f : Fn C) (m : Mem) : Exec (Fn C × Mem) := do
  let (f', m) ← assignConst f m
  .ok (.wrap (decide (wrapperSize ≤ bufferSize)) m.next f', { m with next := m.next + 1 })

/-- `operator()`, am-function.h:150-153 (asserts on; with `NDEBUG` calling an empty one dereferences null). -/
def call : Fn C → Mem → Exec C
  | .empty, _ => .error .assertFail
  | .call _ id c, m => if id ∈ m.dead then .error .useAfterFree else .ok c
  | .wrap _ id f, m => if id ∈ m.dead then .error .useAfterFree else call f m

/-- Operations of a client on named `Function` objects. All members of am-function.h:101-144. -/
inductive Op (V C : Type) where
  /-- `Function()` / `Function(nullptr)`, am-function.h:101-106 -/
  | ctorNull (v : V)
  /-- `Function(T&&)` with a callable, :114-117 -/
  | ctorCallable (v : V) (c : C)
  /-- `Function(const Function&)`, :107-109 -/
  | ctorCopyConst (v w : V)
  /-- `Function(T&&)`, `T = Function&`, :114-117 -/
  | ctorCopy (v w : V)
  /-- `Function(Function&&)`, :110-112 -/
  | ctorMove (v w : V)
  /-- `~Function`, :119-121 -/
  | dtor (v : V)
  /-- `operator=(nullptr)`, :123-127 -/
  | assignNull (v : V)
  /-- `operator=(T&&)` with a callable, :139-144 -/
  | assignCallable (v : V) (c : C)
  /-- `operator=(const Function&)`, :128-132 -/
  | assignCopyConst (v w : V)
  /-- `operator=(T&&)`, `T = Function&`, :139-144 -/
  | assignCopy (v w : V)
  /-- `operator=(Function&&)`, :133-137 -/
  | assignMove (v w : V)

/-- Client state: the `Function` objects (am-function.h:213-217) by variable, and the holders. -/
structure State (V C : Type) where
  vars : V → Option (Fn C)
  mem : Mem

variable {V : Type} [DecidableEq V]

/-- No `Function` exists yet (client state). -/
def State.start : State V C := { vars := fun _ => none, mem := { next := 0, dead := [] } }

/-- Bookkeeping: a member of am-function.h:101-144 changes its object. -/
def State.set (s : State V C) (v : V) (f : Option (Fn C)) : State V C :=
  { s with vars := fun u => if u = v then f else s.vars u }

/-- The object a variable names; using one that does not exist is the client's fault. The members of am-function.h:101-157 are called on it. -/
def State.get (s : State V C) (v : V) : Exec (Fn C) :=
  match s.vars v with
  | some f => .ok f
  | none => .error .useAfterFree

/-- One operation. In the assignments `destroy()` leaves `impl_` as it was, so a source that is the same
object is read with its holder destroyed. am-function.h:101-144, by cases of `Op`. -/
def step (size : C → Nat) (s : State V C) : Op V C → Exec (State V C)
  | .ctorNull v => .ok (s.set v (some .empty))
  | .ctorCallable v c =>
    let r := assignCallable size c s.mem
    .ok ({ s with mem := r.2 }.set v (some r.1))
  | .ctorCopyConst v w => do
    let (f, m) ← assignConst (← s.get w) s.mem
    .ok ({ s with mem := m }.set v (some f))
  | .ctorCopy v w => do
    let (f, m) ← assignNonConst (← s.get w) s.mem
    .ok ({ s with mem := m }.set v (some f))
  | .ctorMove v w => do
    let (f, g, m) ← moveFn (← s.get w) s.mem
    .ok (({ s with mem := m }.set v (some f)).set w (some g))
  | .dtor v => do
    let m ← destroy (← s.get v) s.mem
    .ok ({ s with mem := m }.set v none)
  | .assignNull v => do
    let m ← destroy (← s.get v) s.mem
    .ok ({ s with mem := m }.set v (some .empty))
  | .assignCallable v c => do
    let m ← destroy (← s.get v) s.mem
    let r := assignCallable size c m
    .ok ({ s with mem := r.2 }.set v (some r.1))
  | .assignCopyConst v w => do
    let m ← destroy (← s.get v) s.mem
    let (f, m) ← assignConst (← s.get w) m
    .ok ({ s with mem := m }.set v (some f))
  | .assignCopy v w => do
    let m ← destroy (← s.get v) s.mem
    let (f, m) ← assignNonConst (← s.get w) m
    .ok ({ s with mem := m }.set v (some f))
  | .assignMove v w => do
    let m ← destroy (← s.get v) s.mem
    let (f, g, m) ← moveFn (← s.get w) m
    .ok (({ s with mem := m }.set v (some f)).set w (some g))

/-- A client program: a sequence of calls of am-function.h:101-144. -/
def run (size : C → Nat) : List (Op V C) → State V C → Exec (State V C)
  | [], s => .ok s
  | o :: os, s => do run size os (← step size s o)

end Verif.Function
