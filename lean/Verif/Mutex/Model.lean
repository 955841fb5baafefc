import Verif.Common
/-!
# Model of `ke::Mutex`, debug build (amtl/am-mutex.h)

Any number of threads use one mutex. `lock` and `unlock` each make two accesses to shared state: the `std::mutex` and `owner_`. Accesses are
interleaved arbitrarily, sequentially consistently. `try_lock` is inherited from `std::mutex`.
-/
namespace Verif.Mutex
open Verif

variable {T : Type} [DecidableEq T]

/-- Positions in am-mutex.h:46-54. -/
inductive Pc where
  | idle
  /-- in `lock`: acquired the `std::mutex`; about to write `owner_` (am-mutex.h:48) -/
  | lockOwner
  /-- in `unlock`: wrote `owner_`; about to release the `std::mutex` (am-mutex.h:53) -/
  | unlockBase
deriving DecidableEq

/-- What calls report. Ghost: the results of am-mutex.h:46-58. -/
inductive Event (T : Type) where
  | locked (t : T)
  | tried (t : T) (ok : Bool)
  | unlocked (t : T)
  /-- `AssertCurrentThreadOwns()` returned (`true`) or its assertion failed (`false`) -/
  | asserted (t : T) (ok : Bool)
deriving DecidableEq

/-- The `std::mutex` base (am-mutex.h:40), `owner_` (61), and where each thread is in 46-54. -/
structure State (T : Type) where
  /-- the `std::mutex` -/
  held : Bool
  /-- `owner_`, am-mutex.h:61 -/
  owner : Option T
  pc : T → Pc
  log : List (Event T)

/-- am-mutex.h:61. -/
def State.start : State T := { held := false, owner := none, pc := fun _ => .idle, log := [] }

/-- The calls am-mutex.h:46-58, and `try_lock` inherited from am-mutex.h:40. -/
inductive Act (T : Type) where
  /-- `t` calls `lock()` and gets the `std::mutex`; impossible while it is held (the thread waits) -/
  | lock (t : T)
  /-- `t` calls `try_lock()` -/
  | tryLock (t : T)
  /-- `t` calls `unlock()`: `owner_ = {}` -/
  | unlock (t : T)
  /-- `t` calls `AssertCurrentThreadOwns()` -/
  | check (t : T)
  /-- `t` continues its `lock()` or `unlock()` -/
  | cont (t : T)

/-- Bookkeeping: where thread `t` is in am-mutex.h:46-54. -/
def State.goto (s : State T) (t : T) (p : Pc) : State T := { s with pc := fun u => if u = t then p else s.pc u }
/-- Bookkeeping: a call of am-mutex.h:46-58 returns. -/
def State.emit (s : State T) (e : Event T) : State T := { s with log := e :: s.log }

/-- `none`: this step cannot happen now. By cases of `Act`, am-mutex.h:46-58. -/
def step (s : State T) : Act T → Option (State T)
  | .lock t => -- am-mutex.h:46-47
    if s.pc t = .idle ∧ s.held = false then some ({ s with held := true }.goto t .lockOwner) else none
  | .tryLock t => -- std::mutex::try_lock, not overridden
    if s.pc t = .idle then
      if s.held then some (s.emit (.tried t false)) else some ({ s with held := true }.emit (.tried t true))
    else none
  | .unlock t => -- am-mutex.h:51-52
    if s.pc t = .idle then some ({ s with owner := none }.goto t .unlockBase) else none
  | .check t => -- am-mutex.h:56-58
    if s.pc t = .idle then some (s.emit (.asserted t (decide (s.owner = some t)))) else none
  | .cont t => match s.pc t with
    | .idle => none
    | .lockOwner => some (({ s with owner := some t }.goto t .idle).emit (.locked t)) -- am-mutex.h:48
    | .unlockBase => some (({ s with held := false }.goto t .idle).emit (.unlocked t)) -- am-mutex.h:53

/-- Calls of am-mutex.h:46-58 from different threads, interleaved. -/
def run : List (Act T) → State T → Option (State T)
  | [], s => some s
  | a :: as, s => (step s a).bind (run as)

end Verif.Mutex
