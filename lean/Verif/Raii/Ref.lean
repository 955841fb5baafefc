import Verif.Raii.Model
/-!
# Model of am-raii.h: guards whose callback is a reference, guards that are copied or outlive each other, `ReturnAndVoid`
-/
namespace Verif.Raii
open Verif

/-! ## `MakeScopeGuard` with variables -/
section ref
-- `V`: variables holding a callable; `G`: guard objects; `C`: callbacks.
variable {V G C : Type} [DecidableEq V] [DecidableEq G]

/-- `callback_` of `ScopeGuard<T>`, am-raii.h:108. `MakeScopeGuard(T&&)` (am-raii.h:112-116) deduces `T = F` for an rvalue, and
`T = F&` for an lvalue: `callback_` then is a reference to the caller's variable. -/
inductive Cb (V C : Type) where
  /-- an object of its own; `none`: moved from -/
  | val (c : Option C)
  | ref (v : V)

/-- `callback_` and `cancelled_`, am-raii.h:108-109. -/
structure RG (V C : Type) where
  callback : Cb V C
  cancelled : Bool

/-- Client state: its variables (`none`: out of scope, `some none`: moved from), the guards, the calls made (am-raii.h:93). -/
structure RState (V G C : Type) where
  vars : V → Option (Option C)
  guards : G → Option (RG V C)
  /-- callbacks invoked, latest first -/
  fired : List C

/-- No variable, no guard (client state for am-raii.h:76-116). -/
def RState.start : RState V G C := { vars := fun _ => none, guards := fun _ => none, fired := [] }

/-- What a client does. am-raii.h:76-116. -/
inductive ROp (V G C : Type) where
  /-- `F v = c;` -/
  | declare (v : V) (c : C)
  /-- `v = c;` -/
  | assign (v : V) (c : C)
  /-- the end of `v`'s lifetime -/
  | endVar (v : V)
  /-- `auto g = MakeScopeGuard(F(c));` -/
  | makeTemp (g : G) (c : C)
  /-- `auto g = MakeScopeGuard(std::move(v));` -/
  | makeMove (g : G) (v : V)
  /-- `auto g = MakeScopeGuard(v);` -/
  | makeRef (g : G) (v : V)
  /-- `ScopeGuard g(std::move(h));` -/
  | move (g h : G)
  | cancel (g : G)
  | destroy (g : G)

/-- Bookkeeping: a member of am-raii.h:80-98 changes its guard. -/
def RState.setG (s : RState V G C) (g : G) (x : Option (RG V C)) : RState V G C :=
  { s with guards := fun k => if k = g then x else s.guards k }

/-- Bookkeeping: the client (or the move at am-raii.h:81) changes a variable. -/
def RState.setV (s : RState V G C) (v : V) (x : Option (Option C)) : RState V G C :=
  { s with vars := fun k => if k = v then x else s.vars k }

/-- `callback_()`, am-raii.h:93: an own object, or the variable referred to. -/
def RState.call (s : RState V G C) : Cb V C → Exec C
  | .val none => .error .nullDeref
  | .val (some c) => .ok c
  | .ref v => match s.vars v with
    | none => .error .useAfterFree
    | some none => .error .nullDeref
    | some (some c) => .ok c

/-- One step of the client, am-raii.h:80-98, 112-116. A guard with a reference cannot be moved (am-raii.h:85 does not compile: an
rvalue for a reference to non-const); it stands here as an assertion failure. -/
def RState.step (s : RState V G C) : ROp V G C → Exec (RState V G C)
  | .declare v c => .ok (s.setV v (some (some c)))
  | .assign v c => match s.vars v with
    | none => .error .useAfterFree
    | some _ => .ok (s.setV v (some (some c)))
  | .endVar v => .ok (s.setV v none)
  | .makeTemp g c => .ok (s.setG g (some { callback := .val (some c), cancelled := false }))
  | .makeMove g v => match s.vars v with
    | none => .error .useAfterFree
    | some x => .ok ((s.setG g (some { callback := .val x, cancelled := false })).setV v (some none))
  | .makeRef g v => .ok (s.setG g (some { callback := .ref v, cancelled := false }))
  | .move g h => match s.guards h with
    | none => .error .useAfterFree
    | some x => match x.callback with
      | .ref _ => .error .assertFail
      | .val c => .ok ((s.setG g (some { callback := .val c, cancelled := x.cancelled })).setG h (some { callback := .val none, cancelled := true }))
  | .cancel g => match s.guards g with
    | none => .error .useAfterFree
    | some x => .ok (s.setG g (some { x with cancelled := true }))
  | .destroy g => match s.guards g with
    | none => .error .doubleFree
    | some x =>
      if !x.cancelled then do
        let c ← s.call x.callback
        .ok { s.setG g none with fired := c :: s.fired }
      else .ok (s.setG g none)

/-- A client program using am-raii.h:76-116. -/
def RState.run : List (ROp V G C) → RState V G C → Exec (RState V G C)
  | [], s => .ok s
  | o :: os, s => do RState.run os (← s.step o)

end ref

/-! ## `SaveAndSet` objects that are not nested -/
section save
-- `L`: locations, `A`: values, `G`: guard objects.
variable {L A G : Type} [DecidableEq L] [DecidableEq G]

/-- Client state: memory, and the `SaveAndSet` objects (am-raii.h:52-53) by name. -/
structure CState (L A G : Type) where
  mem : L → A
  guards : G → Option (Guard L A)

/-- Constructor (am-raii.h:41-46), implicit copy constructor (37-54: none is declared), destructor (47-49), a write of the client. -/
inductive COp (L A G : Type) where
  | ctor (g : G) (l : L) (a : A)
  | copy (g h : G)
  | dtor (g : G)
  | write (l : L) (a : A)

/-- Bookkeeping for am-raii.h:37-54. -/
def CState.set (s : CState L A G) (g : G) (x : Option (Guard L A)) : CState L A G :=
  { s with guards := fun k => if k = g then x else s.guards k }

/-- One step of the client, am-raii.h:37-54. The copy has the same `location_` and `old_`; `*location_` is not touched. -/
def CState.step (s : CState L A G) : COp L A G → Exec (CState L A G)
  | .ctor g l a => let (x, m) := Guard.ctor s.mem l a; .ok { s.set g (some x) with mem := m }
  | .copy g h => match s.guards h with
    | none => .error .useAfterFree
    | some x => .ok (s.set g (some x))
  | .dtor g => match s.guards g with
    | none => .error .doubleFree
    | some x => .ok { s.set g none with mem := x.dtor s.mem }
  | .write l a => .ok { s with mem := store s.mem l a }

/-- A client program using am-raii.h:37-54. -/
def CState.run : List (COp L A G) → CState L A G → Exec (CState L A G)
  | [], s => .ok s
  | o :: os, s => do CState.run os (← s.step o)

end save

/-- `ReturnAndVoid(t)`, am-raii.h:118-125, for a `t` in memory: the value returned, and memory afterwards. `dflt` is `T()`. -/
def returnAndVoid {L A : Type} [DecidableEq L] (dflt : A) (m : L → A) (t : L) : A × (L → A) :=
  let saved := m t
  let m := store m t dflt
  (saved, m)

end Verif.Raii
