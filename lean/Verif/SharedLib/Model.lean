import Verif.RefPtr.Spec
import Verif.Str.Model
/-!
# Model of `amtl/os/am-shared-library.h` (POSIX branch)

`SharedLib` objects live in the reference counting model (`Verif.RefPtr`) with no member handles.
The results of `dlopen` are inputs; `freed` of the reference counting model is the log of destructor
calls, from which the calls of `dlclose` follow.
-/
namespace Verif.SharedLib
open Verif Verif.RefPtr

variable {H Lib : Type} [DecidableEq H]

/-- Program variables, plus the local variable `lib` of `Open` (`none`). `lib` is declared at am-shared-library.h:84. -/
abbrev Var (H : Type) := Option H

/-- All live and dead `SharedLib` objects (am-shared-library.h:45-117) and the handles that refer to them. -/
structure World (H Lib : Type) where
  rc : RefPtr.State (Var H)
  /-- `lib_` of every object, am-shared-library.h:116 -/
  lib : Obj → Option Lib

/-- Client state before anything of am-shared-library.h:45-117 is called. -/
def World.new : World H Lib := { rc := RefPtr.State.new, lib := fun _ => none }

/-- Calls of `dlclose` so far, latest first: `~SharedLib`, am-shared-library.h:67-76, calls it iff `lib_`
is not null. -/
def World.closed (w : World H Lib) : List Lib := w.rc.freed.filterMap w.lib

/-- What `dlopen` does: a handle, or failure with the text `dlerror()` gives (am-shared-library.h:60-66). -/
inductive Dl (Lib : Type) where
  | ok (x : Lib)
  | fail (msg : List Str.Byte)

/-- What `dlopen` returns at am-shared-library.h:64 (`none`: null). -/
def Dl.lib : Dl Lib → Option Lib
  | .ok x => some x
  | .fail _ => none

/-- `AlreadyRefed<SharedLib> h = SharedLib::Open(path, error, maxlength);`, am-shared-library.h:82-96.
Returns the error buffer as well. `dlerror()`'s text is NUL-terminated. -/
def open' (w : World H Lib) (h : H) (r : Dl Lib) (error : Option (List Str.Byte)) (maxlength : Nat) :
    Exec (World H Lib × Option (List Str.Byte)) := do
  let o := w.rc.fresh
  let rc ← exec (fun _ => 0) w.rc (.ctorNew none)
  let lib := fun p => if p = o then r.lib else w.lib p
  match r with
  | .fail msg =>
    let error ← if error = none ∨ maxlength = 0 then .ok error
      else do
        let (e, _) ← Str.safeStrcpy error maxlength (msg ++ [0])
        .ok e
    -- `return nullptr;` constructs the result, then `lib` is destroyed
    let rc ← exec (fun _ => 0) rc (.ctorNull (some h))
    let rc ← exec (fun _ => 0) rc (.destroy none)
    .ok ({ rc := rc, lib := lib }, error)
  | .ok _ =>
    let rc ← exec (fun _ => 0) rc (.ctorMove (some h) (.root none))
    let rc ← exec (fun _ => 0) rc (.destroy none)
    .ok ({ rc := rc, lib := lib }, error)

/-- What a program does: open, and any other operation on its handles. Client program: calls of am-shared-library.h:82-96 and of the smart pointer operations of am-refcounting.h:95-200. -/
inductive Op (H Lib : Type) where
  | open' (h : H) (r : Dl Lib) (error : Option (List Str.Byte)) (maxlength : Nat)
  | handle (op : RefPtr.Op H)

/-- Bookkeeping: a place of the client as a place of the model of am-refcounting.h:95-200. -/
def liftSlot : Slot H → Slot (Var H)
  | .root h => .root (some h)
  | .field o i => .field o i

/-- The same operation on the program's variables. Creating `SharedLib` objects other than through `Open`
is not modelled (null assignment stands in for it). Operations of am-refcounting.h:95-200. -/
def lift : RefPtr.Op H → RefPtr.Op (Var H)
  | .ctorNull h => .ctorNull (some h)
  | .ctorNew h => .ctorNull (some h)
  | .ctorGet h e => .ctorGet (some h) (liftSlot e)
  | .ctorCopy h e => .ctorCopy (some h) (liftSlot e)
  | .ctorMove h e => .ctorMove (some h) (liftSlot e)
  | .assignNull d => .assignNull (liftSlot d)
  | .assignNew d => .assignNull (liftSlot d)
  | .assignGet d e => .assignGet (liftSlot d) (liftSlot e)
  | .assignCopy d e => .assignCopy (liftSlot d) (liftSlot e)
  | .assignMove d e => .assignMove (liftSlot d) (liftSlot e)
  | .destroy h => .destroy (some h)

/-- One step of a client of am-shared-library.h:82-96. -/
def step (w : World H Lib) : Op H Lib → Exec (World H Lib)
  | .open' h r error maxlength => do
    let (w, _) ← open' w h r error maxlength
    .ok w
  | .handle op => do
    let rc ← exec (fun _ => 0) w.rc (lift op)
    .ok { w with rc := rc }

/-- A client program over am-shared-library.h:82-96. -/
def runAll (w : World H Lib) : List (Op H Lib) → Exec (World H Lib)
  | [] => .ok w
  | op :: ops => do
    let w ← step w op
    runAll w ops

end Verif.SharedLib
