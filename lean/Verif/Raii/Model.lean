import Verif.Common
/-!
# Model of amtl/am-raii.h: `SaveAndSet`, `StackLinked`, `ScopeGuard`
-/
namespace Verif.Raii
open Verif

/-! ## `SaveAndSet` (am-raii.h:37-54) -/
section save
variable {L A : Type} [DecidableEq L]

/-- `*location_ = value`, am-raii.h:45, 48. -/
def store (m : L → A) (l : L) (a : A) : L → A := fun k => if k = l then a else m k

/-- `location_` and `old_`, am-raii.h:52-53. -/
structure Guard (L A : Type) where
  location : L
  old : A

/-- `SaveAndSet(location, value)`, am-raii.h:41-46. -/
def Guard.ctor (m : L → A) (l : L) (a : A) : Guard L A × (L → A) :=
  let g : Guard L A := { location := l, old := m l }
  (g, store m g.location a)

/-- `~SaveAndSet`, am-raii.h:47-49. -/
def Guard.dtor (g : Guard L A) (m : L → A) : L → A := store m g.location g.old

/-- What a program with automatic `SaveAndSet` objects does: opens a guarded scope, ends the innermost open one (by reaching its
end, `return`, `break` or an exception, all of which run the destructor), or writes some location. The members are those of am-raii.h:41-49. -/
inductive SOp (L A : Type) where
  | enter (l : L) (a : A)
  | leave
  | write (l : L) (a : A)

/-- Client state: the memory the locations of am-raii.h:52 point into, and the live guards. -/
structure SState (L A : Type) where
  mem : L → A
  /-- the live automatic objects, innermost first -/
  live : List (Guard L A)

/-- One step of the client: the constructor (am-raii.h:41-46), the destructor (47-49), or a write of its own. -/
def SState.step (s : SState L A) : SOp L A → Exec (SState L A)
  | .enter l a => let (g, m) := Guard.ctor s.mem l a; .ok { mem := m, live := g :: s.live }
  | .leave => match s.live with
    | [] => .error .assertFail
    | g :: gs => .ok { mem := g.dtor s.mem, live := gs }
  | .write l a => .ok { s with mem := store s.mem l a }

/-- A client program using am-raii.h:37-54. -/
def SState.run : List (SOp L A) → SState L A → Exec (SState L A)
  | [], s => .ok s
  | o :: os, s => do SState.run os (← s.step o)

end save

/-! ## `StackLinked` (am-raii.h:56-74) -/
section stack
-- `P`: places holding a head pointer (`T**`); `N`: objects.
variable {P N : Type} [DecidableEq P] [DecidableEq N]

/-- `prevp_`, `prev_`, am-raii.h:72-73. -/
structure Node (P N : Type) where
  prevp : P
  prev : Option N

/-- Client state: the head pointers that am-raii.h:72 points to, and the live objects. -/
structure LState (P N : Type) where
  head : P → Option N
  node : N → Option (Node P N)

/-- `StackLinked(prevp)`, am-raii.h:60-65. -/
def LState.ctor (s : LState P N) (n : N) (p : P) : LState P N :=
  { head := fun q => if q = p then some n else s.head q
    node := fun k => if k = n then some { prevp := p, prev := s.head p } else s.node k }

/-- `~StackLinked`, am-raii.h:66-69 (asserts on). -/
def LState.dtor (s : LState P N) (n : N) : Exec (LState P N) :=
  match s.node n with
  | none => .error .doubleFree
  | some x =>
    if s.head x.prevp = some n then
      .ok { head := fun q => if q = x.prevp then x.prev else s.head q
            node := fun k => if k = n then none else s.node k }
    else .error .assertFail

/-- Construction (am-raii.h:60-65) and destruction (66-69). -/
inductive LOp (P N : Type) where
  | ctor (n : N) (p : P)
  | dtor (n : N)

/-- One step of the client: am-raii.h:60-65 or 66-69. -/
def LState.step (s : LState P N) : LOp P N → Exec (LState P N)
  | .ctor n p => .ok (s.ctor n p)
  | .dtor n => s.dtor n

/-- A client program using am-raii.h:56-74. -/
def LState.run : List (LOp P N) → LState P N → Exec (LState P N)
  | [], s => .ok s
  | o :: os, s => do LState.run os (← s.step o)

/-- No object, all heads null (client state for am-raii.h:56-74). -/
def LState.start : LState P N := { head := fun _ => none, node := fun _ => none }

/-- What a client does with the list: start at `*prevp` and follow `prev_`, at most `fuel` steps. `none`: met a dead object
or did not reach the end. The fields are those of am-raii.h:72-73. -/
def LState.walk (s : LState P N) : Nat → Option N → Option (List N)
  | _, none => some []
  | 0, some _ => none
  | k + 1, some n => match s.node n with
    | none => none
    | some x => (s.walk k x.prev).map (n :: ·)

end stack

/-! ## `ScopeGuard` (am-raii.h:76-116) -/
section guard
-- `G`: guard objects; `C`: callbacks.
variable {G C : Type} [DecidableEq G]

/-- `callback_` and `cancelled_`, am-raii.h:108-109; `none`: the callback has been moved from. -/
structure SG (C : Type) where
  callback : Option C
  cancelled : Bool

/-- Client state: the guards (am-raii.h:108-109) by variable, and the calls of am-raii.h:93. -/
structure GState (G C : Type) where
  guards : G → Option (SG C)
  /-- callbacks invoked, latest first -/
  fired : List C

/-- The members of am-raii.h:80-98. -/
inductive GOp (G C : Type) where
  /-- `ScopeGuard(callback)`, am-raii.h:80-83, also `MakeScopeGuard`, :112-116 -/
  | create (g : G) (c : C)
  /-- `ScopeGuard(ScopeGuard&&)`, am-raii.h:84-89 -/
  | move (g h : G)
  /-- `cancel()`, am-raii.h:96-98 -/
  | cancel (g : G)
  /-- `~ScopeGuard`, am-raii.h:91-94 -/
  | destroy (g : G)

/-- Bookkeeping: a member of am-raii.h:80-98 changes its guard. -/
def GState.set (s : GState G C) (g : G) (x : Option (SG C)) : GState G C :=
  { s with guards := fun k => if k = g then x else s.guards k }

/-- Calling a moved-from callback is a fault (a moved-from `std::function` or `ke::Function` is empty). One step of the client, am-raii.h:80-98, by cases of `GOp`. -/
def GState.step (s : GState G C) : GOp G C → Exec (GState G C)
  | .create g c => .ok (s.set g (some { callback := some c, cancelled := false }))
  | .move g h => match s.guards h with
    | none => .error .useAfterFree
    | some x => .ok ((s.set g (some { callback := x.callback, cancelled := x.cancelled })).set h (some { callback := none, cancelled := true }))
  | .cancel g => match s.guards g with
    | none => .error .useAfterFree
    | some x => .ok (s.set g (some { x with cancelled := true }))
  | .destroy g => match s.guards g with
    | none => .error .doubleFree
    | some x =>
      if !x.cancelled then match x.callback with
        | none => .error .nullDeref
        | some c => .ok { s.set g none with fired := c :: s.fired }
      else .ok (s.set g none)

/-- A client program using am-raii.h:76-116. -/
def GState.run : List (GOp G C) → GState G C → Exec (GState G C)
  | [], s => .ok s
  | o :: os, s => do GState.run os (← s.step o)

/-- No guard, nothing called (client state for am-raii.h:76-116). -/
def GState.start : GState G C := { guards := fun _ => none, fired := [] }

end guard

end Verif.Raii
