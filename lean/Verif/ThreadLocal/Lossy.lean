import Verif.ThreadLocal.Extra
/-!
# `ke::ThreadLocal` when the system cannot store a value, and the Windows branch (amtl/am-threadlocal.h)

`pthread_setspecific` (am-threadlocal.h:155) and `TlsSetValue` (:126) may fail for want of memory, since the system makes room for a thread's values when
they are first stored. Their results are not looked at. Everything else is as in `Verif.ThreadLocal.Model`.

On Windows (am-threadlocal.h:115-135) the calls have other names and the same effects, and `allocate` is private: `InterlockedCompareExchange(&allocated_, 1, 0) == 1`
is a failed compare-and-swap, `TlsAlloc` a key creation. A refused key leaves TLS_OUT_OF_INDEXES in `key_` instead of nothing, but `set` then aborts.
-/
namespace Verif.ThreadLocal
open Verif

variable {T A : Type} [DecidableEq T]

/-- One step of one thread: as before, or thread `t`'s system call in `internalSet` fails. am-threadlocal.h:102-156. -/
inductive LAct (T A : Type) where
  | act (a : Act T A)
  | noMemory (t : T)

/-- A state, and the completed calls with whether the system failed to store the value (only in `set`), latest first. am-threadlocal.h:95, 102-158. -/
structure LState (T A : Type) where
  st : State T A
  calls : List (Event T A × Bool)

/-- `ThreadLocal()`, am-threadlocal.h:98-100. -/
def LState.start (dflt : A) : LState T A := ⟨State.start dflt, []⟩

/-- Bookkeeping: calls of am-threadlocal.h:102-148 that one step completed. -/
def completed (s s' : State T A) : List (Event T A) := s'.log.take (s'.log.length - s.log.length)

/-- One step. If the system call at am-threadlocal.h:126 or 155 fails, `set` returns as if it had not. -/
def lstep (create : Nat → Bool) (dflt : A) (s : LState T A) : LAct T A → Exec (LState T A)
  | .act a => do
    let st ← step create dflt s.st a
    .ok ⟨st, (completed s.st st).map (·, false) ++ s.calls⟩
  | .noMemory t =>
    match s.st.pc t with
    | .setUse a => match s.st.key with
      | none => .error .uninitialised
      | some _ => .ok ⟨s.st.goto t .idle, (.didSet t a, true) :: s.calls⟩
    | _ => .ok s

/-- An interleaving. Calls of am-threadlocal.h:65-181 from different threads. -/
def lrun (create : Nat → Bool) (dflt : A) : List (LAct T A) → LState T A → Exec (LState T A)
  | [], s => .ok s
  | a :: as, s => do lrun create dflt as (← lstep create dflt s a)

/-- What can be called on Windows: `allocate` is private there. am-threadlocal.h:115-135. -/
def LAct.windows : LAct T A → Bool
  | .act (.begin _ .allocate) => false
  | _ => true

end Verif.ThreadLocal
