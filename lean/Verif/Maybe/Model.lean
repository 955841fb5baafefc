import Verif.Common
/-!
# Model of `ke::Maybe` (amtl/am-maybe.h)

Every `T` constructed in a `Maybe`'s buffer gets a fresh identity; running a destructor records it. `moved`
is what `T`'s move constructor leaves behind in its source.
-/
namespace Verif.Maybe
open Verif

variable {A : Type}

/-- `initialized_` and the object that was last constructed in `t_`, am-maybe.h:136-137. -/
structure Obj (A : Type) where
  init : Bool
  buf : Option (Nat × A)

/-- Bookkeeping for the objects constructed at am-maybe.h:74: the next identity, and the identities destroyed (am-maybe.h:66, 72). -/
structure Mem where
  next : Nat
  dead : List Nat

/-- `t_.address()->~T()`: there must be an object that was not destroyed. am-maybe.h:66, 72. -/
def destroyBuf (o : Obj A) (m : Mem) : Exec Mem :=
  match o.buf with
  | none => .error .uninitialised
  | some (id, _) => if id ∈ m.dead then .error .doubleFree else .ok { m with dead := id :: m.dead }

/-- Read the object in `t_`. am-maybe.h:88, 96, 100, 104, 125, 130. -/
def readBuf (o : Obj A) (m : Mem) : Exec A :=
  match o.buf with
  | none => .error .uninitialised
  | some (id, a) => if id ∈ m.dead then .error .useAfterFree else .ok a

/-- First half of `init`, am-maybe.h:71-72. -/
def clearFor (o : Obj A) (m : Mem) : Exec Mem :=
  if o.init then destroyBuf o m else .ok m

/-- Second half of `init`, am-maybe.h:74-75. -/
def construct (m : Mem) (a : A) : Obj A × Mem := ({ init := true, buf := some (m.next, a) }, { m with next := m.next + 1 })

/-- `get()` and `operator*`, am-maybe.h:86-89, 94-105 (asserts on). -/
def get (o : Obj A) (m : Mem) : Exec A :=
  if o.init then readBuf o m else .error .assertFail

/-- Operations on named `Maybe` objects. All members of am-maybe.h:47-120 that change a `Maybe`. -/
inductive Op (V A : Type) where
  /-- `Maybe()` / `Maybe(Nothing)`, :47-49, 60-62 -/
  | ctorNothing (v : V)
  /-- `Maybe(const Maybe&)`, :50-54 -/
  | ctorCopy (v w : V)
  /-- `Maybe(Maybe&&)`, :55-59 -/
  | ctorMove (v w : V)
  /-- `~Maybe`, :64-67 -/
  | dtor (v : V)
  /-- `init(value)`, :69-76; the argument is no part of a `Maybe` -/
  | init (v : V) (a : A)
  /-- `v.init(w.get())`, :69-76 -/
  | initFrom (v w : V)
  /-- `operator=(const Maybe&)`, :111-115 -/
  | assignCopy (v w : V)
  /-- `operator=(Maybe&&)`, :116-120 -/
  | assignMove (v w : V)

/-- Client state: the `Maybe` objects (am-maybe.h:136-137) by variable, and the memory. -/
structure State (V A : Type) where
  vars : V → Option (Obj A)
  mem : Mem

variable {V : Type} [DecidableEq V]

/-- No `Maybe` exists yet (client state, nothing in am-maybe.h:43-138 is global). -/
def State.start : State V A := { vars := fun _ => none, mem := { next := 0, dead := [] } }

/-- Bookkeeping: a member of am-maybe.h:47-133 changes its `Maybe`. -/
def State.set (s : State V A) (v : V) (o : Option (Obj A)) : State V A :=
  { s with vars := fun u => if u = v then o else s.vars u }

/-- The object a client variable names when a member of am-maybe.h:47-133 is called on it; using one that does not exist is a fault of the client. -/
def State.lookup (s : State V A) (v : V) : Exec (Obj A) :=
  match s.vars v with
  | some o => .ok o
  | none => .error .useAfterFree

/-- `copyFrom`, am-maybe.h:123-127, on an object whose `initialized_` is false (as at every call). -/
def copyFrom (s : State V A) (v w : V) : Exec (State V A) := do
  let o ← s.lookup w
  if o.init then do
    let a ← readBuf o s.mem
    let r := construct s.mem a
    .ok ({ s with mem := r.2 }.set v (some r.1))
  else .ok s

/-- `moveFrom`, am-maybe.h:128-133. -/
def moveFrom (moved : A → A) (s : State V A) (v w : V) : Exec (State V A) := do
  let o ← s.lookup w
  if o.init then do
    let a ← readBuf o s.mem
    let r := construct s.mem a
    .ok (({ s with mem := r.2 }.set v (some r.1)).set w (some { init := false, buf := o.buf.map fun (p : Nat × A) => (p.1, moved p.2) }))
  else .ok s

/-- One call: am-maybe.h:47-76 (constructors, destructor, `init`) and 111-120 (assignments), by cases of `Op`. -/
def step (moved : A → A) (s : State V A) : Op V A → Exec (State V A)
  | .ctorNothing v => .ok (s.set v (some { init := false, buf := none }))
  | .ctorCopy v w => copyFrom (s.set v (some { init := false, buf := none })) v w
  | .ctorMove v w => moveFrom moved (s.set v (some { init := false, buf := none })) v w
  | .dtor v => do
    let o ← s.lookup v
    let m ← clearFor o s.mem
    .ok ({ s with mem := m }.set v none)
  | .init v a => do
    let o ← s.lookup v
    let m ← clearFor o s.mem
    let r := construct m a
    .ok ({ s with mem := r.2 }.set v (some r.1))
  | .initFrom v w => do
    let o ← s.lookup v
    -- the argument is a reference: it is read by T's constructor, after `clearFor`
    let p ← s.lookup w
    let _ ← get p s.mem
    let m ← clearFor o s.mem
    let a ← readBuf p m
    let r := construct m a
    .ok ({ s with mem := r.2 }.set v (some r.1))
  | .assignCopy v w => do
    let o ← s.lookup v
    copyFrom (s.set v (some { o with init := false })) v w
  | .assignMove v w => do
    let o ← s.lookup v
    moveFrom moved (s.set v (some { o with init := false })) v w

/-- A client program: a sequence of calls of am-maybe.h:47-120. -/
def run (moved : A → A) : List (Op V A) → State V A → Exec (State V A)
  | [], s => .ok s
  | o :: os, s => do run moved os (← step moved s o)

end Verif.Maybe
