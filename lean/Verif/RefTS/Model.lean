import Verif.Common
/-!
# Model of `RefcountedThreadsafe` and `VirtualRefcountedThreadsafe` (amtl/am-refcounting-threadsafe.h:44-112)

Any number of threads share one object. Each atomic operation, assertion load and `delete` is one step;
steps of different threads interleave arbitrarily (sequentially consistent: the default memory order of
`+=`, `fetch_sub` and `load`). `refcount_` is a natural number (see `Verif.RefPtr`).
`tok` lists, for every reference, the thread that owns it; a thread may only use the object while it owns
one. This is the client's obligation and not part of the code.
-/
namespace Verif.RefTS
open Verif

/-- Which class: the value `fetch_sub` is compared with, and whether `AddRef` asserts `!destroying_`. am-refcounting-threadsafe.h:56, 94, 98. -/
inductive Kind where
  /-- `RefcountedThreadsafe`, am-refcounting-threadsafe.h:44-69 -/
  | plain
  /-- `VirtualRefcountedThreadsafe`, am-refcounting-threadsafe.h:82-112 -/
  | virtual
deriving DecidableEq

/-- `fetch_sub(1) == ...`: am-refcounting-threadsafe.h:56 and 98. -/
def Kind.last : Kind → Nat
  | .plain => 1
  | .virtual => 0

/-- Where a thread is inside `Release`. am-refcounting-threadsafe.h:55-62, 97-105. -/
inductive PC where
  | idle
  /-- about to evaluate `assert(refcount_.load() == 0)`, am-refcounting-threadsafe.h:57, 99 -/
  | check
  /-- about to set `destroying_` (virtual, debug) and `delete`, am-refcounting-threadsafe.h:58, 100-103 -/
  | del
deriving DecidableEq

/-- The object (am-refcounting-threadsafe.h:68, 108-111) and, for every thread, where it is in 55-62 or 97-105 and which references it owns (ghost). -/
structure State (T : Type) where
  cnt : Nat
  alive : Bool
  destroying : Bool
  /-- how often the destructor ran -/
  deleted : Nat
  pc : T → PC
  tok : List T

variable {T : Type} [DecidableEq T]

/-- After `RefPtr<X> p = new X` by thread `t`: one reference. am-refcounting-threadsafe.h:48-53, 85-96. -/
def State.start (t : T) : State T :=
  { cnt := 1, alive := true, destroying := false, deleted := 0, pc := fun _ => .idle, tok := [t] }

/-- The calls of am-refcounting-threadsafe.h:52-62, 93-105, their continuation, the hand-over of a reference and the client's own accesses. -/
inductive Act (T : Type) where
  | addRef (t : T)
  | release (t : T)
  /-- next step inside `Release` -/
  | cont (t : T)
  /-- hand a reference to another thread -/
  | send (t u : T)
  /-- the client reads or writes the object through a reference -/
  | use (t : T)
deriving DecidableEq

/-- Bookkeeping: where thread `t` is in am-refcounting-threadsafe.h:55-62, 97-105. -/
def setPc (s : State T) (t : T) (p : PC) : State T := { s with pc := fun u => if u = t then p else s.pc u }

/-- One step; `none` if the thread is elsewhere or owns no reference. am-refcounting-threadsafe.h:52-62, 93-105, by cases of `Act`. -/
def step (k : Kind) (s : State T) : Act T → Option (Exec (State T))
  | .addRef t =>
    if s.pc t = .idle ∧ t ∈ s.tok then
      some (if s.alive = false then .error .useAfterFree
        else if k = .virtual ∧ s.destroying = true then .error .assertFail
        else .ok { s with cnt := s.cnt + 1, tok := t :: s.tok })
    else none
  | .release t =>
    if s.pc t = .idle ∧ t ∈ s.tok then
      some (if s.alive = false then .error .useAfterFree
        else .ok (setPc { s with cnt := s.cnt - 1, tok := s.tok.erase t } t (if s.cnt = k.last then .check else .idle)))
    else none
  | .cont t =>
    match s.pc t with
    | .idle => none
    | .check => some (if s.alive = false then .error .useAfterFree
        else if s.cnt ≠ 0 then .error .assertFail
        else .ok (setPc s t .del))
    | .del => some (if s.alive = false then .error .doubleFree
        else .ok (setPc { s with alive := false, destroying := true, deleted := s.deleted + 1 } t .idle))
  | .send t u =>
    if s.pc t = .idle ∧ t ∈ s.tok then some (.ok { s with tok := u :: s.tok.erase t }) else none
  | .use t =>
    if s.pc t = .idle ∧ t ∈ s.tok then some (if s.alive = false then .error .useAfterFree else .ok s) else none

/-- States some schedule leads to. Steps of different threads through am-refcounting-threadsafe.h:44-112 interleave in any order. -/
inductive Reachable (k : Kind) (t0 : T) : State T → Prop where
  | start : Reachable k t0 (State.start t0)
  | step {s s' a} : Reachable k t0 s → step k s a = some (.ok s') → Reachable k t0 s'

end Verif.RefTS
