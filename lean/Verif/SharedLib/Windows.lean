import Verif.SharedLib.Model
import Verif.Os.Model
/-!
# The Windows branch of `amtl/os/am-shared-library.h`

`LoadLibraryA`, `FreeLibrary` and `GetLastError` stand for `dlopen`, `dlclose` and `dlerror`; the message of a failure is made by `FormatSystemError`
(am-system-errors.h:62-69).
-/
namespace Verif.SharedLib
open Verif Verif.RefPtr

variable {H Lib : Type} [DecidableEq H]

/-- What `LoadLibraryA` does (am-shared-library.h:62): a module, or failure with a last-error code, and what `FormatMessageA` then answers about that code
(am-system-errors.h:48). -/
inductive Load (Lib : Type) where
  | ok (x : Lib)
  | fail (code : BitVec 32) (reply : Os.Reply)

/-- `lib_`, am-shared-library.h:62 (`none`: null). -/
def Load.lib : Load Lib → Option Lib
  | .ok x => some x
  | .fail _ _ => none

/-- The message of a failed `Open` on Windows, am-shared-library.h:86-89. -/
def winMessage (code : BitVec 32) (reply : Os.Reply) (maxlength : Nat) : Option (List Str.Byte) → Exec (Option (List Str.Byte))
  | none => .ok none
  | some buffer =>
    if maxlength = 0 then .ok (some buffer)
    else do
      let buffer ← Os.formatSystemErrorCode code reply buffer maxlength
      .ok (some buffer)

/-- `SharedLib::Open` on Windows, am-shared-library.h:82-96 with the branch at 88-89. Returns the error buffer as well. -/
def openWin (w : World H Lib) (h : H) (r : Load Lib) (error : Option (List Str.Byte)) (maxlength : Nat) :
    Exec (World H Lib × Option (List Str.Byte)) := do
  let o := w.rc.fresh
  let rc ← exec (fun _ => 0) w.rc (.ctorNew none)
  let lib := fun p => if p = o then r.lib else w.lib p
  match r with
  | .fail code reply =>
    let error ← winMessage code reply maxlength error
    let rc ← exec (fun _ => 0) rc (.ctorNull (some h))
    let rc ← exec (fun _ => 0) rc (.destroy none)
    .ok ({ rc := rc, lib := lib }, error)
  | .ok _ =>
    let rc ← exec (fun _ => 0) rc (.ctorMove (some h) (.root none))
    let rc ← exec (fun _ => 0) rc (.destroy none)
    .ok ({ rc := rc, lib := lib }, error)

/-- What a program does: open, and any other operation on its handles. Client program over am-shared-library.h:82-96 and am-refcounting.h:95-200. -/
inductive WOp (H Lib : Type) where
  | open' (h : H) (r : Load Lib) (error : Option (List Str.Byte)) (maxlength : Nat)
  | handle (op : RefPtr.Op H)

/-- One step of a client of am-shared-library.h:82-96. -/
def wstep (w : World H Lib) : WOp H Lib → Exec (World H Lib)
  | .open' h r error maxlength => do
    let (w, _) ← openWin w h r error maxlength
    .ok w
  | .handle op => do
    let rc ← exec (fun _ => 0) w.rc (lift op)
    .ok { w with rc := rc }

/-- A client program over am-shared-library.h:82-96. -/
def wrunAll (w : World H Lib) : List (WOp H Lib) → Exec (World H Lib)
  | [] => .ok w
  | op :: ops => do
    let w ← wstep w op
    wrunAll w ops

end Verif.SharedLib
