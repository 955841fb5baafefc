import Verif.SharedLib.Model
/-!
# Model of the rest of `amtl/os/am-shared-library.h`: all constructors, lookups, and the loader

The loader counts, for every library, how often it was opened and closed (`dlopen` of a library that is loaded returns the same
handle again). Symbol lookup in a library that is not loaded is `Fault.useAfterFree`.
-/
namespace Verif.SharedLib
open Verif Verif.RefPtr

variable {H Lib Sym Ptr : Type} [DecidableEq H] [DecidableEq Lib]

/-- The libraries' symbols, and those `dlsym` finds when it is given a null handle (`RTLD_DEFAULT` is null with glibc and
musl): the global ones of the process. Library function, called at am-shared-library.h:102. -/
structure Loader (Lib Sym Ptr : Type) where
  sym : Lib → Sym → Option Ptr
  global : Sym → Option Ptr

/-- The objects and handles, and what has been asked of the loader. am-shared-library.h:45-117. -/
structure Full (H Lib : Type) where
  w : World H Lib
  /-- successful `dlopen`s of each library, by whomever -/
  opened : Lib → Nat
  /-- `dlclose`s other than by `SharedLib` objects made with `new` -/
  closedElse : Lib → Nat
  /-- opens the client has made itself and neither closed nor passed to `SharedLib(const SysType&)` -/
  owned : Lib → Nat

/-- Nothing done. am-shared-library.h:45-117. -/
def Full.new : Full H Lib := { w := World.new, opened := fun _ => 0, closedElse := fun _ => 0, owned := fun _ => 0 }

/-- How often a library has been opened and not closed. am-shared-library.h:64, 74. Integer: negative if it was closed too often. -/
def Full.loaded (f : Full H Lib) (x : Lib) : Int := (f.opened x : Int) - f.closedElse x - (f.w.closed.count x : Nat)

/-- The constructors, am-shared-library.h:53-66. -/
inductive Src (Lib : Type) where
  /-- `SharedLib()` -/
  | empty
  /-- `SharedLib(path)`, with what `dlopen` returns -/
  | path (r : Option Lib)
  /-- `SharedLib(lib)`: the client passes on an open of its own -/
  | adopt (x : Lib)

/-- `lib_` after the constructor, am-shared-library.h:53-66. -/
def Src.lib : Src Lib → Option Lib
  | .empty => none
  | .path r => r
  | .adopt x => some x

/-- Add to a count. Bookkeeping of the loader behind am-shared-library.h:64, 74. -/
def bump (f : Lib → Nat) (x : Option Lib) : Lib → Nat := fun y => if x = some y then f y + 1 else f y

/-- Take from a count. Bookkeeping of the loader behind am-shared-library.h:58, 74. -/
def drop (f : Lib → Nat) (x : Lib) : Lib → Nat := fun y => if y = x then f y - 1 else f y

/-- What a program does. am-shared-library.h:45-117 and am-refcounting.h:95-319. -/
inductive FOp (H Lib : Type) where
  /-- `Open`, am-shared-library.h:82-96 -/
  | open' (h : H) (r : Dl Lib) (error : Option (List Str.Byte)) (maxlength : Nat)
  /-- `RefPtr<SharedLib> h(new SharedLib(...));` -/
  | make (h : H) (src : Src Lib)
  /-- `d = new SharedLib(...);` -/
  | assign (d : Slot H) (src : Src Lib)
  /-- any operation on handles that creates no object -/
  | handle (op : RefPtr.Op H)
  /-- the client opens a library itself -/
  | clientOpen (x : Lib)
  /-- and closes one it owns -/
  | clientClose (x : Lib)
  /-- `{ SharedLib tmp(*e); }`: the implicit copy constructor and the destructor, am-shared-library.h:67-76, 116 -/
  | scopeCopy (e : Slot H)

/-- The new object of `make` and `assign`: `op` creates it, its `lib_` is given by the constructor. am-shared-library.h:53-66. -/
def create (f : Full H Lib) (op : RefPtr.Op (Var H)) (src : Src Lib) : Exec (Full H Lib) := do
  let o := f.w.rc.fresh
  -- the constructor runs before the handle is assigned
  let lib := fun p => if p = o then src.lib else f.w.lib p
  let rc ← exec (fun _ => 0) f.w.rc op
  .ok { f with
    w := { rc := rc, lib := lib }
    opened := match src with
      | .path r => bump f.opened r
      | _ => f.opened
    owned := match src with
      | .adopt x => drop f.owned x
      | _ => f.owned }

/-- One statement of a program. am-shared-library.h:45-117. -/
def fstep (f : Full H Lib) : FOp H Lib → Exec (Full H Lib)
  | .open' h r error maxlength => do
    let (w, _) ← open' f.w h r error maxlength
    .ok { f with w := w, opened := bump f.opened r.lib }
  | .make h src => create f (.ctorNew (some h)) src
  | .assign d src => create f (.assignNew (liftSlot d)) src
  | .handle op => do
    let rc ← exec (fun _ => 0) f.w.rc (lift op)
    .ok { f with w := { f.w with rc := rc } }
  | .clientOpen x => .ok { f with opened := bump f.opened (some x), owned := bump f.owned (some x) }
  | .clientClose x => .ok { f with closedElse := bump f.closedElse (some x), owned := drop f.owned x }
  | .scopeCopy e => do
    match ← RefPtr.read f.w.rc (liftSlot e) with
    | none => .error .nullDeref
    | some o => .ok { f with closedElse := bump f.closedElse (f.w.lib o) }

/-- A program. am-shared-library.h:45-117. -/
def frun (f : Full H Lib) : List (FOp H Lib) → Exec (Full H Lib)
  | [] => .ok f
  | op :: ops => do
    let f ← fstep f op
    frun f ops

/-- `e->valid()`, `bool(*e)`, am-shared-library.h:78-80, 113-115. -/
def valid (f : Full H Lib) (e : Slot H) : Exec Bool := do
  match ← RefPtr.read f.w.rc (liftSlot e) with
  | none => .error .nullDeref
  | some o => .ok (f.w.lib o).isSome

/-- `e->lookup(symbol)`, `e->get<T>(symbol)`, am-shared-library.h:98-111. -/
def lookup (ld : Loader Lib Sym Ptr) (f : Full H Lib) (e : Slot H) (s : Sym) : Exec (Option Ptr) := do
  match ← RefPtr.read f.w.rc (liftSlot e) with
  | none => .error .nullDeref
  | some o =>
    match f.w.lib o with
    | none => .ok (ld.global s)
    | some x => if f.loaded x ≤ 0 then .error .useAfterFree else .ok (ld.sym x s)

end Verif.SharedLib
