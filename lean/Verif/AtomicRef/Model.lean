import Verif.Common
/-!
# Model of `AtomicRef` (amtl/am-refcounting-threadsafe.h:124-202)

Any number of threads share one `AtomicRef` whose objects are `RefcountedThreadsafe`. Every atomic
access is one step and steps of different threads interleave arbitrarily. Memory need not be sequentially
consistent: a load of `thing_` in `lock` and a failing CAS (am-refcounting-threadsafe.h:183-188) may see any value whatever
(`Act.stale`), which covers every stale value a weak memory model lets them see. A CAS that succeeds sees the latest
value, as a read-modify-write must. PropsWeak.lean proves that, given coherence, every execution is such an
interleaving; SpecOrder.lean has happens-before. The loads of the asserts in `unlock` (:195) follow the thread's own CAS,
and the one in `~AtomicRef` (:138) follows every call, so they see the latest value.
Objects are identified by their address, and an address may be used again after its object is destroyed
(so the "ABA" schedules are included). `tok` is a ghost: for every reference, the thread that owns it
(references in flight inside a call included). The reference the `AtomicRef` itself owns is not in `tok`.
-/
namespace Verif.AtomicRef
open Verif

/-- Contents of `thing_` and addresses. am-refcounting-threadsafe.h:201. -/
abbrev Word := BitVec 64

/-- am-refcounting-threadsafe.h:170-172 -/
def tagged (p : Word) : Word := p ||| 1#64

/-- am-refcounting-threadsafe.h:173-175 -/
def untagged (p : Word) : Word := p &&& ~~~1#64

/-- Which member function is running: `get()` or `operator=(n)`. am-refcounting-threadsafe.h:146-152, 155-162. -/
inductive Job where
  | get
  | set (n : Word)
deriving DecidableEq

/-- The pointer the call passes to `unlock`, given the value `lock` returned. am-refcounting-threadsafe.h:150, 159. -/
def Job.newval : Job → Word → Word
  | .get, v => v
  | .set n, _ => n

/-- The next step of a thread. The steps of am-refcounting-threadsafe.h:146-162, 177-198 and 55-62. -/
inductive PC where
  | idle
  /-- `oldval = untagged(thing_)`, am-refcounting-threadsafe.h:183, 188 -/
  | load (j : Job)
  /-- `compare_exchange_strong(oldval, tagged(oldval))`, :184 -/
  | cas (j : Job) (old : Word)
  /-- `if (value) value->AddRef()` :148-149 or `if (other) other->AddRef()` :157-158 -/
  | add (j : Job) (v : Word)
  /-- left operand of `assert(thing_ == tagged(thing_))`, :195 -/
  | chk1 (j : Job) (v : Word)
  /-- right operand, and `assert(ptr == untagged(ptr))`, :195-196 -/
  | chk2 (j : Job) (v w : Word)
  /-- `thing_ = ptr`, :197 -/
  | store (j : Job) (v : Word)
  /-- `fetch_sub` of `Release` on `a`, :56 -/
  | rel (a : Word)
  /-- `assert(refcount_.load() == 0)`, :57 -/
  | relCheck (a : Word)
  /-- `delete`, :58 -/
  | relDelete (a : Word)
deriving DecidableEq

/-- What happened to the stored pointer: `get` returned a value, `operator=` replaced it. Ghost: recorded at the store of am-refcounting-threadsafe.h:197. -/
inductive Event (T : Type) where
  | got (t : T) (v : Word)
  | put (t : T) (v : Word)

/-- The state all threads share: whether the `AtomicRef` exists, `thing_` (am-refcounting-threadsafe.h:201), the objects with their counts (68), where each thread is in 146-198, and the ghosts `tok` and `log`. -/
structure State (T : Type) where
  made : Bool
  word : Word
  alive : Word → Bool
  cnt : Word → Nat
  tok : List (T × Word)
  pc : T → PC
  log : List (Event T)

variable {T : Type} [DecidableEq T]

/-- Before any object and any `AtomicRef` exists; `AtomicRef()` (:127-129) and `AtomicRef(thing)` (:130-136) are the
acts `make`. -/
def State.start : State T :=
  { made := false, word := 0, alive := fun _ => false, cnt := fun _ => 0, tok := [], pc := fun _ => .idle, log := [] }

/-- What a client can make a thread do: the members of am-refcounting-threadsafe.h:146-162, and 52-62 on objects it owns a reference to. -/
inductive Act (T : Type) where
  /-- construct the `AtomicRef`: `AtomicRef()` for null, else `AtomicRef(n)` with a reference to `n` -/
  | make (t : T) (n : Word)
  /-- `~AtomicRef()` -/
  | destroy (t : T)
  /-- call `get()` -/
  | get (t : T)
  /-- call `operator=(n)`; the caller owns a reference to `n` or `n` is null -/
  | set (t : T) (n : Word)
  /-- `a->Release()` of a reference the thread owns -/
  | release (t : T) (a : Word)
  /-- `a->AddRef()` through a reference the thread owns -/
  | addRef (t : T) (a : Word)
  /-- the client reads or writes the object through a reference the thread owns -/
  | use (t : T) (a : Word)
  /-- hand a reference over -/
  | send (t u : T) (a : Word)
  /-- `RefPtr<X> p = new X` at an address not in use; the address is a multiple of `sizeof(void*)`, as :122-123 asks
  and as it is for any object with a `std::atomic<size_t>` member -/
  | create (t : T) (a : Word)
  /-- the next step of the call in progress -/
  | cont (t : T)
  /-- the next step of the call in progress is a load in `lock` or a failing CAS, and reads `w`, not necessarily the
  latest value. am-refcounting-threadsafe.h:183-188 -/
  | stale (t : T) (w : Word)

/-- Bookkeeping: where thread `t` is in am-refcounting-threadsafe.h:146-198. -/
def setPc (s : State T) (t : T) (p : PC) : State T := { s with pc := fun u => if u = t then p else s.pc u }

/-- `AddRef`: :52-54. -/
def incr (s : State T) (t : T) (a : Word) : Exec (State T) :=
  if s.alive a = false then .error .useAfterFree
  else .ok { s with cnt := fun b => if b = a then s.cnt a + 1 else s.cnt b, tok := (t, a) :: s.tok }

/-- `AtomicRef(T* thing)`, :130-136, and `AtomicRef()`, :127-129. One step: no other thread knows the object yet. -/
def make (s : State T) (t : T) (n : Word) : Exec (State T) :=
  let s1 := { s with made := true, word := n, log := .put t n :: s.log }
  if n &&& 7#64 ≠ 0 then .error .assertFail
  else if n = 0 then .ok s1
  -- the count taken here is the `AtomicRef`'s own, so it is not in `tok`
  else if s.alive n = false then .error .useAfterFree
  else .ok { s1 with cnt := fun b => if b = n then s.cnt n + 1 else s.cnt b }

/-- `~AtomicRef()`, :137-142, up to the call of `Release`, whose steps follow. -/
def destroy (s : State T) (t : T) : Exec (State T) :=
  if s.word ≠ untagged s.word then .error .assertFail
  else
    let s1 := { s with made := false, word := 0, log := .put t 0 :: s.log }
    if s.word = 0 then .ok s1
    -- the `AtomicRef`'s reference becomes the thread's
    else .ok (setPc { s1 with tok := (t, s.word) :: s.tok } t (.rel s.word))

/-- The next step inside a call. am-refcounting-threadsafe.h:177-198, 148-149, 157-161 and 55-62, one access to shared state per step. -/
def cont (s : State T) (t : T) : PC → Option (Exec (State T))
  | .idle => none
  | .load j => some (.ok (setPc s t (.cas j (untagged s.word))))
  | .cas j old =>
    some (if s.word = old then .ok (setPc { s with word := tagged old } t (.add j old)) else .ok (setPc s t (.load j)))
  | .add j v => some (if j.newval v = 0 then .ok (setPc s t (.chk1 j v))
      else do
        let s ← incr s t (j.newval v)
        .ok (setPc s t (.chk1 j v)))
  | .chk1 j v => some (.ok (setPc s t (.chk2 j v s.word)))
  | .chk2 j v w => some (if w ≠ tagged s.word then .error .assertFail
      else if j.newval v ≠ untagged (j.newval v) then .error .assertFail
      else .ok (setPc s t (.store j v)))
  | .store .get v =>
    some (.ok (setPc { s with word := v, log := .got t v :: s.log } t .idle))
  | .store (.set n) v =>
    -- the reference taken on `n` becomes the `AtomicRef`'s, its reference on `v` becomes the thread's
    let tok := if n = 0 then s.tok else s.tok.erase (t, n)
    some (.ok (if v = 0 then setPc { s with word := n, log := .put t n :: s.log, tok := tok } t .idle
      else setPc { s with word := n, log := .put t n :: s.log, tok := (t, v) :: tok } t (.rel v)))
  | .rel a => some (if s.alive a = false then .error .useAfterFree
      else .ok (setPc { s with cnt := fun b => if b = a then s.cnt a - 1 else s.cnt b, tok := s.tok.erase (t, a) } t
        (if s.cnt a = 1 then .relCheck a else .idle)))
  | .relCheck a => some (if s.alive a = false then .error .useAfterFree
      else if s.cnt a ≠ 0 then .error .assertFail
      else .ok (setPc s t (.relDelete a)))
  | .relDelete a => some (if s.alive a = false then .error .doubleFree
      else .ok (setPc { s with alive := fun b => if b = a then false else s.alive b } t .idle))

/-- A load (am-refcounting-threadsafe.h:183, 188) or a failing CAS (:184) that reads `w`. Simplified: `w` may be any
value, also one that was never stored. -/
def stale (s : State T) (t : T) (w : Word) : PC → Option (Exec (State T))
  | .load j => some (.ok (setPc s t (.cas j (untagged w))))
  | .cas j old => if w = old then none else some (.ok (setPc s t (.load j)))
  | _ => none

/-- One step; `none` if it is not the thread's turn for it or the client may not do it. am-refcounting-threadsafe.h:146-162, by cases of `Act`. -/
def step (s : State T) : Act T → Option (Exec (State T))
  | .make t n => if s.pc t = .idle ∧ s.made = false ∧ (n = 0 ∨ (t, n) ∈ s.tok) then some (make s t n) else none
  | .destroy t => if s.pc t = .idle ∧ s.made = true then some (destroy s t) else none
  | .get t => if s.pc t = .idle ∧ s.made = true then some (.ok (setPc s t (.load .get))) else none
  | .set t n => if s.pc t = .idle ∧ s.made = true ∧ (n = 0 ∨ (t, n) ∈ s.tok) then some (.ok (setPc s t (.load (.set n)))) else none
  | .release t a => if s.pc t = .idle ∧ (t, a) ∈ s.tok then some (.ok (setPc s t (.rel a))) else none
  | .addRef t a => if s.pc t = .idle ∧ (t, a) ∈ s.tok then some (incr s t a) else none
  | .use t a => if s.pc t = .idle ∧ (t, a) ∈ s.tok then some (if s.alive a = false then .error .useAfterFree else .ok s) else none
  | .send t u a => if s.pc t = .idle ∧ (t, a) ∈ s.tok then some (.ok { s with tok := (u, a) :: s.tok.erase (t, a) }) else none
  | .create t a => if s.pc t = .idle ∧ s.alive a = false ∧ a ≠ 0 ∧ a &&& 7#64 = 0 then
      some (.ok { s with alive := fun b => if b = a then true else s.alive b, cnt := fun b => if b = a then 1 else s.cnt b, tok := (t, a) :: s.tok })
    else none
  | .cont t => cont s t (s.pc t)
  | .stale t w => stale s t w (s.pc t)

/-- The thread is inside a member function of the `AtomicRef` and may still touch `thing_` (am-refcounting-threadsafe.h:146-150, 155-159, 177-198). -/
def PC.uses : PC → Bool
  | .load .. | .cas .. | .add .. | .chk1 .. | .chk2 .. | .store .. => true
  | _ => false

/-- The one thing clients must not do: destroy the `AtomicRef` (am-refcounting-threadsafe.h:137-142) while a thread is inside a call on it. -/
def Allowed (s : State T) : Act T → Prop
  | .destroy _ => ∀ u, (s.pc u).uses = false
  | _ => True

/-- What clients have done, latest first, and the state a schedule of it has led to. Steps of different threads
through am-refcounting-threadsafe.h:124-202 interleave in any order. -/
inductive Run : List (Act T) → State T → Prop where
  | start : Run [] State.start
  | step {as s s' a} : Run as s → Allowed s a → step s a = some (.ok s') → Run (a :: as) s'

/-- States some schedule leads to, through am-refcounting-threadsafe.h:124-202. -/
def Reachable (s : State T) : Prop := ∃ as, Run as s

end Verif.AtomicRef
