import Verif.ThreadLocal.Model
/-!
# `ke::ThreadLocal` without sequential consistency (am-threadlocal.h:94-158)

`allocated_` is a `volatile int` and `key_` a plain variable; each is written once after construction. What a thread reads is therefore settled
by whether the write happens before the read: if so it reads the new value, if not it may read either. The compare-and-swap is atomic and a full barrier, but
it comes before `key_` is written, so having seen `allocated_` says nothing about `key_`. Order comes only from the thread itself and from the client
(starting a thread, a mutex, a join): `sync t u`. That construction happens before every use is assumed.
-/
namespace Verif.ThreadLocal
open Verif

variable {T A : Type} [DecidableEq T]

/-- The object and which threads' actions come after the writes of `allocated_` and of `key_`. am-threadlocal.h:95, 158. -/
structure WState (T A : Type) where
  base : State T A
  /-- the write of `allocated_` happens before what the thread does next (or it has read it: coherence) -/
  flag : T → Bool
  /-- the write of `key_` happens before what the thread does next -/
  keyk : T → Bool

/-- `ThreadLocal()`, am-threadlocal.h:98-100. -/
def WState.start (dflt : A) : WState T A := { base := State.start dflt, flag := fun _ => false, keyk := fun _ => false }

/-- A read of `allocated_`, am-threadlocal.h:103, 108: old if it may be and `stale` says so. -/
def WState.readFlag (w : WState T A) (t : T) (stale : Bool) : Bool := if stale && !w.flag t then false else w.base.allocated

/-- A read of `key_`, am-threadlocal.h:152, 155. -/
def WState.readKey (w : WState T A) (t : T) (stale : Bool) : Option Nat := if stale && !w.keyk t then none else w.base.key

/-- Ghost: the thread is ordered after the write of `allocated_`. am-threadlocal.h:103, 108, 145. -/
def WState.learnFlag (w : WState T A) (t : T) : WState T A := { w with flag := fun u => if u = t then true else w.flag u }

/-- Ghost: the thread has written `key_`. am-threadlocal.h:147. -/
def WState.learnKey (w : WState T A) (t : T) : WState T A := { w with keyk := fun u => if u = t then true else w.keyk u }

/-- A thread starts a call: as `State.begin`. am-threadlocal.h:102-113, 144-148. -/
def WState.begin (dflt : A) (w : WState T A) (t : T) (o : Op A) (stale : Bool) : WState T A :=
  match w.base.pc t with
  | .idle => match o with
    | .get =>
      if !w.readFlag t stale then { w with base := w.base.done t (.got t dflt) } else { w.learnFlag t with base := w.base.goto t .getUse }
    | .set a =>
      if !w.readFlag t stale then { w with base := w.base.goto t (.setCas a) } else { w.learnFlag t with base := w.base.goto t (.setUse a) }
    | .allocate => -- the compare-and-swap
      if w.base.allocated then { w.learnFlag t with base := w.base.done t (.allocated t true) }
      else { w.learnFlag t with base := ({ w.base with allocated := true }).goto t .allocCreate }
  | _ => w

/-- A thread goes on: as `State.cont`. am-threadlocal.h:105, 108-112, 145-147, 151-156. -/
def WState.cont (create : Nat → Bool) (dflt : A) (w : WState T A) (t : T) (stale : Bool) : Exec (WState T A) :=
  match w.base.pc t with
  | .idle => .ok w
  | .getUse =>
    match w.readKey t stale with
    | none => .error .uninitialised
    | some k => .ok { w with base := w.base.done t (.got t (w.base.tls k t)) }
  | .setCas a =>
    if w.base.allocated then .ok { w.learnFlag t with base := w.base.goto t (.setUse a) }
    else .ok { w.learnFlag t with base := ({ w.base with allocated := true }).goto t (.setCreate a) }
  | .setCreate a =>
    match w.base.createKey create dflt with
    | (true, s) => .ok { w.learnKey t with base := s.goto t (.setUse a) }
    | (false, _) => .error .abort
  | .setUse a =>
    match w.readKey t stale with
    | none => .error .uninitialised
    | some k => .ok { w with base := { w.base.done t (.didSet t a) with tls := fun j u => if j = k ∧ u = t then a else w.base.tls j u } }
  | .allocCreate =>
    match w.base.createKey create dflt with
    | (ok, s) => .ok { w.learnKey t with base := s.done t (.allocated t ok) }

/-- What happens: a thread takes a step (am-threadlocal.h:102-156), or what thread `u` does from now on comes after all that `t` has done so far. -/
inductive WAct (T A : Type) where
  | begin (t : T) (o : Op A) (stale : Bool)
  | cont (t : T) (stale : Bool)
  | sync (t u : T)

/-- By cases of `WAct`: am-threadlocal.h:102-156. -/
def wstep (create : Nat → Bool) (dflt : A) (w : WState T A) : WAct T A → Exec (WState T A)
  | .begin t o stale => .ok (w.begin dflt t o stale)
  | .cont t stale => w.cont create dflt t stale
  | .sync t u => .ok { w with flag := fun v => if v = u then w.flag u || w.flag t else w.flag v
                              keyk := fun v => if v = u then w.keyk u || w.keyk t else w.keyk v }

/-- An execution. Calls of am-threadlocal.h:65-181 from different threads. -/
def wrun (create : Nat → Bool) (dflt : A) : List (WAct T A) → WState T A → Exec (WState T A)
  | [], w => .ok w
  | a :: as, w => do wrun create dflt as (← wstep create dflt w a)

end Verif.ThreadLocal
