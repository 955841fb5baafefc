import Verif.Common
/-!
# Model of `ke::ThreadLocal` (amtl/am-threadlocal.h), multi-threaded

Any number of threads call `get`, `set` and `allocate` on one object. Each thread's call is cut at every access to shared state:
`allocated_` is read, compared-and-swapped, `key_` is created, `key_` is used. Accesses are interleaved arbitrarily and are sequentially consistent
(`allocated_` is a `volatile int`, not an atomic: the compiler and processor are trusted not to reorder).
`T` is a type whose zero value `dflt` is `T()` (`T` must be castable to `uintptr_t`).
-/
namespace Verif.ThreadLocal
open Verif

variable {T A : Type} [DecidableEq T]

/-- The calls am-threadlocal.h:102-113, 144-148; the operators of 69-87 only call `get` and `set`. -/
inductive Op (A : Type) where
  | get
  | set (a : A)
  | allocate

/-- Where a thread is. Positions in am-threadlocal.h:102-113, 144-156. -/
inductive Pc (A : Type) where
  | idle
  /-- in `get`, saw `allocated_ != 0`; about to call `internalGet` (am-threadlocal.h:105) -/
  | getUse
  /-- in `set`, saw `allocated_ == 0`; about to compare-and-swap (:108, :145) -/
  | setCas (a : A)
  /-- in `set`, won the compare-and-swap; about to create the key (:147) -/
  | setCreate (a : A)
  /-- in `set`; about to call `internalSet` (:112) -/
  | setUse (a : A)
  /-- in `allocate`, won the compare-and-swap; about to create the key (:147) -/
  | allocCreate

/-- Completed calls, with their results. Ghost: the results of am-threadlocal.h:102-113, 144-148. -/
inductive Event (T A : Type) where
  | got (t : T) (a : A)
  | didSet (t : T) (a : A)
  | allocated (t : T) (ok : Bool)
deriving DecidableEq

/-- `allocated_` and `key_` (am-threadlocal.h:95, 158), the system table behind 147, 152, 155, and where each thread is. -/
structure State (T A : Type) where
  /-- `allocated_`, am-threadlocal.h:95 -/
  allocated : Bool
  /-- `key_`, :158; `none`: not initialised -/
  key : Option Nat
  /-- the system's table: the value of each key in each thread -/
  tls : Nat → T → A
  /-- keys handed out so far, and creations attempted -/
  nextKey : Nat
  attempts : Nat
  pc : T → Pc A
  /-- completed calls, latest first -/
  log : List (Event T A)

/-- `ThreadLocal()`, am-threadlocal.h:98-100; `key_` is not initialised. -/
def State.start (dflt : A) : State T A :=
  { allocated := false, key := none, tls := fun _ _ => dflt, nextKey := 0, attempts := 0, pc := fun _ => .idle, log := [] }

/-- Bookkeeping: where thread `t` is in am-threadlocal.h:102-156. -/
def State.goto (s : State T A) (t : T) (p : Pc A) : State T A := { s with pc := fun u => if u = t then p else s.pc u }

/-- Bookkeeping: thread `t` returns from am-threadlocal.h:102-113, 144-148. -/
def State.done (s : State T A) (t : T) (ev : Event T A) : State T A := { s.goto t .idle with log := ev :: s.log }

/-- `pthread_key_create(&key_, nullptr)`: may fail (`create` says which attempts succeed); a new key has the null value in
every thread. am-threadlocal.h:147. -/
def State.createKey (create : Nat → Bool) (dflt : A) (s : State T A) : Bool × State T A :=
  if create s.attempts then
    (true, { s with key := some s.nextKey, nextKey := s.nextKey + 1, attempts := s.attempts + 1,
                    tls := fun k t => if k = s.nextKey then dflt else s.tls k t })
  else (false, { s with attempts := s.attempts + 1 })

/-- Thread `t` starts a call up to and including its first access to shared state; nothing happens if it is inside a call. am-threadlocal.h:102-113, 144-148. -/
def State.begin (dflt : A) (s : State T A) (t : T) (o : Op A) : State T A :=
  match s.pc t with
  | .idle => match o with
    | .get => -- am-threadlocal.h:102-106
      if !s.allocated then s.done t (.got t dflt) else s.goto t .getUse
    | .set a => -- am-threadlocal.h:107-113: `!allocated_`
      if !s.allocated then s.goto t (.setCas a) else s.goto t (.setUse a)
    | .allocate => -- am-threadlocal.h:144-148: the compare-and-swap
      if s.allocated then s.done t (.allocated t true) else ({ s with allocated := true }).goto t .allocCreate
  | _ => s

/-- Thread `t` continues its call with its next access to shared state; nothing happens if it is not in a call. am-threadlocal.h:105, 108-112, 145-147, 151-156. -/
def State.cont (create : Nat → Bool) (dflt : A) (s : State T A) (t : T) : Exec (State T A) :=
  match s.pc t with
  | .idle => .ok s
  | .getUse => -- internalGet, am-threadlocal.h:151-153
    match s.key with
    | none => .error .uninitialised
    | some k => .ok (s.done t (.got t (s.tls k t)))
  | .setCas a => -- am-threadlocal.h:145-146
    if s.allocated then .ok (s.goto t (.setUse a)) else .ok (({ s with allocated := true }).goto t (.setCreate a))
  | .setCreate a => -- am-threadlocal.h:147, 108-111
    match s.createKey create dflt with
    | (true, s) => .ok (s.goto t (.setUse a))
    | (false, _) => .error .abort
  | .setUse a => -- internalSet, am-threadlocal.h:154-156
    match s.key with
    | none => .error .uninitialised
    | some k => .ok { s.done t (.didSet t a) with tls := fun j u => if j = k ∧ u = t then a else s.tls j u }
  | .allocCreate => -- am-threadlocal.h:147
    match s.createKey create dflt with
    | (ok, s) => .ok (s.done t (.allocated t ok))

/-- One step of one thread. A call of am-threadlocal.h:102-148 begins or goes on. -/
inductive Act (T A : Type) where
  | begin (t : T) (o : Op A)
  | cont (t : T)

/-- By cases of `Act`: am-threadlocal.h:102-156. -/
def step (create : Nat → Bool) (dflt : A) (s : State T A) : Act T A → Exec (State T A)
  | .begin t o => .ok (s.begin dflt t o)
  | .cont t => s.cont create dflt t

/-- An interleaving: any sequence of steps of any threads. Calls of am-threadlocal.h:65-181 from different threads. -/
def run (create : Nat → Bool) (dflt : A) : List (Act T A) → State T A → Exec (State T A)
  | [], s => .ok s
  | a :: as, s => do run create dflt as (← step create dflt s a)

end Verif.ThreadLocal
