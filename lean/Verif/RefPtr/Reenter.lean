import Verif.RefPtr.Spec
/-!
# Model: reference-counted objects whose destructors run code

`Release` deletes the object in the middle of an assignment or of the destruction of a handle, so the destructor of
the object (client code) runs while the library is in the middle of an operation, and it may use handles itself. The
operations of `Model.lean` are cut where `Release` is called: what is left to do is kept on a stack of frames. The
program and the destructors are lists of actions, so what a destructor does may depend on everything.

Simplified: the raw pointer of an object under destruction is only used by its own destructor (`self`).
-/
namespace Verif.RefPtr.Reenter
open Verif Verif.RefPtr

/-- What is left to do after a call of `Release`, am-refcounting.h:125-129. -/
inductive Frame (H : Type) where
  /-- the body of the destructor of `o` (client code), called by `delete`, am-refcounting.h:128 -/
  | body (o : Obj)
  /-- the handle members `0 .. n-1` of `o` are left to destroy, am-refcounting.h:128 -/
  | members (o : Obj) (n : Nat)
  /-- the rest of `operator=(S*)`, am-refcounting.h:268-270 -/
  | store (d : Slot H) (v : Option Obj)
  /-- the rest of `operator=(const RefPtr&)`, am-refcounting.h:282-284 -/
  | copy (d e : Slot H)
  /-- the rest of `operator=(RefPtr&&)`, am-refcounting.h:289-291, and of `operator=(const AlreadyRefed&)`, 276-277 -/
  | move (d e : Slot H)
  /-- the end of `~RefPtr` or `~AlreadyRefed`, am-refcounting.h:78, 234 -/
  | gone (d : Slot H)

/-- The state of objects and handles and the calls in progress, innermost first. am-refcounting.h:54-319. -/
structure Machine (H : Type) where
  s : State H
  stack : List (Frame H)

/-- The objects under destruction: `delete` has been called and has not returned. am-refcounting.h:128, 177. For a
`VirtualRefcounted` object this is `destroying_` (am-refcounting.h:175). -/
def dying {H : Type} : List (Frame H) → List Obj
  | [] => []
  | .body o :: k | .members o _ :: k => o :: dying k
  | _ :: k => dying k

variable {H : Type} [DecidableEq H]

/-- `AddRef`, am-refcounting.h:122-124, and for `virt o` that of `VirtualRefcounted`, 167-170. -/
def addRef (virt : Obj → Bool) (m : Machine H) (o : Obj) : Exec (Machine H) :=
  if o ∉ m.s.live ∧ o ∉ dying m.stack then .error .useAfterFree
  else if virt o = true ∧ o ∈ dying m.stack then .error .assertFail
  else .ok { m with s := { m.s with cnt := fun p => if p = o then m.s.cnt o + 1 else m.s.cnt p } }

/-- `if (thing_) thing_->AddRef();`, am-refcounting.h:308-311. -/
def addRefOpt (virt : Obj → Bool) (m : Machine H) : Option Obj → Exec (Machine H)
  | none => .ok m
  | some o => addRef virt m o

/-- `Release`, am-refcounting.h:125-129, 171-179: the last reference starts the destructor. -/
def release (m : Machine H) (o : Obj) : Exec (Machine H) :=
  if o ∉ m.s.live ∧ o ∉ dying m.stack then .error .useAfterFree
  else if m.s.cnt o = 0 then .error .assertFail
  else
    let s := { m.s with cnt := fun p => if p = o then m.s.cnt o - 1 else m.s.cnt p }
    if s.cnt o = 0 then
      if o ∉ m.s.live then .error .doubleFree
      else .ok { s := { s with live := s.live.filter (fun p => decide (p ≠ o)), freed := o :: s.freed }, stack := .body o :: m.stack }
    else .ok { m with s := s }

/-- `if (thing_) thing_->Release();`, am-refcounting.h:312-315. -/
def releaseOpt (m : Machine H) : Option Obj → Exec (Machine H)
  | none => .ok m
  | some o => release m o

/-- The pointer is stored and the reference taken. am-refcounting.h:195-199, 268-269. -/
def bindTo (virt : Obj → Bool) (m : Machine H) (d : Slot H) (v : Option Obj) : Exec (Machine H) := do
  let s ← write m.s d v
  addRefOpt virt { m with s := s } v

/-- `RefPtr(T*)` and the copy constructors, am-refcounting.h:64-69, 195-199, 205-209, 215-220. -/
def ctorRaw (virt : Obj → Bool) (m : Machine H) (d : Slot H) (v : Option Obj) : Exec (Machine H) := do
  let s ← construct m.s d v
  addRefOpt virt { m with s := s } v

/-- The frame `f` is what is left to do after the reference of `d` has been given up. am-refcounting.h:75-78, 232-234,
265-292. -/
def drop (m : Machine H) (d : Slot H) (f : Frame H) : Exec (Machine H) := do
  let v ← read m.s d
  releaseOpt { m with stack := f :: m.stack } v

/-- The start of a statement, up to the first `Release`. am-refcounting.h:54-100, 191-319. -/
def begin (arity : Obj → Nat) (virt : Obj → Bool) (m : Machine H) : Op H → Exec (Machine H)
  | .ctorNull h => do
    let s ← construct m.s (.root h) none
    .ok { m with s := s }
  | .ctorNew h => ctorRaw virt { m with s := (newObj arity m.s).1 } (.root h) (some (newObj arity m.s).2)
  | .ctorGet h e => do
    let v ← read m.s e
    ctorRaw virt m (.root h) v
  | .ctorCopy h e => do
    let v ← read m.s e
    ctorRaw virt m (.root h) v
  | .ctorMove h e => do
    let s ← RefPtr.ctorMove m.s (.root h) e
    .ok { m with s := s }
  | .assignNull d => drop m d (.store d none)
  | .assignNew d => drop { m with s := (newObj arity m.s).1 } d (.store d (some (newObj arity m.s).2))
  | .assignGet d e => do
    let v ← read m.s e
    drop m d (.store d v)
  | .assignCopy d e => drop m d (.copy d e)
  | .assignMove d e => drop m d (.move d e)
  | .destroy h => drop m (.root h) (.gone (.root h))

/-- The library goes on after a `Release`. The frame `f` has been taken from the stack. am-refcounting.h:75-78, 128,
232-234, 265-292. -/
def resume (virt : Obj → Bool) (m : Machine H) : Frame H → Exec (Machine H)
  | .body o => .ok { m with stack := .body o :: m.stack }
  | .members _ 0 => .ok m
  | .members o (n + 1) => drop { m with stack := .members o n :: m.stack } (.field o n) (.gone (.field o n))
  | .store d v => bindTo virt m d v
  | .copy d e => do
    let v ← read m.s e
    bindTo virt m d v
  | .move d e => do
    let v ← read m.s e
    let s ← write m.s d v
    let s ← write s e none
    .ok { m with s := s }
  | .gone d => .ok { m with s := { m.s with hs := m.s.hs.filter (fun e => decide (e ≠ d)) } }

/-- What happens next. am-refcounting.h:54-319. -/
inductive Act (H : Type) where
  /-- a statement of the program or of the running destructor -/
  | op (op : Op H)
  /-- `RefPtr<T> h(this);` in the running destructor -/
  | self (h : H)
  /-- the end of the body of the running destructor -/
  | ret
  /-- the library goes on -/
  | go

/-- One step. Client code runs when no call is in progress or the innermost is a destructor body; an action whose turn
it is not is skipped. am-refcounting.h:54-319. -/
def step (arity : Obj → Nat) (virt : Obj → Bool) (m : Machine H) (a : Act H) : Exec (Machine H) :=
  match m.stack, a with
  | [], .op op => begin arity virt m op
  | .body _ :: _, .op op => begin arity virt m op
  | .body o :: _, .self h => ctorRaw virt m (.root h) (some o)
  | .body o :: k, .ret => .ok { m with stack := .members o (arity o) :: k }
  | .body _ :: _, .go => .ok m
  | f :: k, .go => resume virt { m with stack := k } f
  | _, _ => .ok m

/-- A history of the program, its destructors and the library. am-refcounting.h:54-319. -/
def run (arity : Obj → Nat) (virt : Obj → Bool) (m : Machine H) : List (Act H) → Exec (Machine H)
  | [] => .ok m
  | a :: as => do
    let m ← step arity virt m a
    run arity virt m as

/-- Before the program starts (client state). -/
def Machine.new : Machine H := { s := State.new, stack := [] }

end Verif.RefPtr.Reenter
