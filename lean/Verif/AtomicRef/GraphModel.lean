import Verif.AtomicRef.Model
/-!
# Model of many `AtomicRef`s and of objects that contain them (amtl/am-refcounting-threadsafe.h:41-69, 124-202)

Model.lean has one `AtomicRef`. Here there are any number: free-standing ones, and the members of
`RefcountedThreadsafe` objects, so that threads build and take apart linked structures. When the last reference to
an object goes, `delete` runs the destructors of its `AtomicRef` members, each of which releases what it holds, which
may delete further objects, to any depth.

As in Model.lean every atomic access is one step, steps of different threads interleave arbitrarily, a load in `lock`
and a failing CAS may see any value (`Act.stale`), and addresses are used again. Accesses to an `AtomicRef` that does
not exist are faults, and so are accesses to the count of an object whose destruction has begun.

Simplified: the members of an object start out null (`AtomicRef()`); the body of the object's own destructor does
nothing beyond destroying its members; the classes have no other members that hold references.
-/
namespace Verif.AtomicRef.Graph
open Verif

/-- An `AtomicRef` object (am-refcounting-threadsafe.h:124-202): `(none, f)` is the free-standing one called `f`, `(some a, f)` the member called `f`
of the object at address `a`. -/
abbrev Key (F : Type) := Option Word × F

/-- Who owns a reference: a thread (its `RefPtr`s, and references in flight inside its call), or an `AtomicRef`. Ghost, for the counts of am-refcounting-threadsafe.h:68. -/
inductive Owner (T F : Type) where
  | thread (t : T)
  | ref (k : Key F)
deriving DecidableEq

/-- An address: no object there, an object, or an object whose destructor is running (`delete`, am-refcounting-threadsafe.h:58). -/
inductive Life where
  | free
  | live
  | dying
deriving DecidableEq, Repr

/-- Where a function of am-refcounting-threadsafe.h:52-62, 137-162, 177-198 is. A thread has a stack of these: a `Release` (55-62) inside a running destructor, and so on. -/
inductive Frame (F : Type) where
  /-- `oldval = untagged(thing_)`, am-refcounting-threadsafe.h:183, 188 -/
  | load (k : Key F) (j : Job)
  /-- `compare_exchange_strong(oldval, tagged(oldval))`, :184 -/
  | cas (k : Key F) (j : Job) (old : Word)
  /-- `if (value) value->AddRef()` :148-149 or `if (other) other->AddRef()` :157-158 -/
  | add (k : Key F) (j : Job) (v : Word)
  /-- left operand of `assert(thing_ == tagged(thing_))`, :195 -/
  | chk1 (k : Key F) (j : Job) (v : Word)
  /-- right operand, and `assert(ptr == untagged(ptr))`, :195-196 -/
  | chk2 (k : Key F) (j : Job) (v w : Word)
  /-- `thing_ = ptr`, :197 -/
  | store (k : Key F) (j : Job) (v : Word)
  /-- `fetch_sub` of `Release` on `a`, :56 -/
  | rel (a : Word)
  /-- `assert(refcount_.load() == 0)`, :57 -/
  | relCheck (a : Word)
  /-- `delete`, :58: the destructor starts -/
  | relDelete (a : Word)
  /-- inside the destructor of the object at `a`: the members `fs` are still to be destroyed (137-142), then the memory is freed -/
  | dtor (a : Word) (fs : List F)
deriving DecidableEq

/-- The state all threads share: which `AtomicRef`s exist, their `thing_` (am-refcounting-threadsafe.h:201), the objects, their counts (68) and members, the threads' stacks, and the ghosts `tok` (every reference) and `log` (what happened to each stored pointer). -/
structure State (T F : Type) where
  made : Key F → Bool
  word : Key F → Word
  life : Word → Life
  cnt : Word → Nat
  fields : Word → List F
  tok : List (Owner T F × Word)
  stack : T → List (Frame F)
  log : List (Key F × Event T)

variable {T F : Type} [DecidableEq T] [DecidableEq F]

/-- Nothing exists yet. The state before am-refcounting-threadsafe.h:127-136. -/
def State.start : State T F :=
  { made := fun _ => false, word := fun _ => 0, life := fun _ => .free, cnt := fun _ => 0, fields := fun _ => [],
    tok := [], stack := fun _ => [], log := [] }

/-- What a client can make a thread do: the members of am-refcounting-threadsafe.h:127-162, and 52-62 on objects it owns a reference to. -/
inductive Act (T F : Type) where
  /-- construct the free-standing `f`: `AtomicRef()` for null, else `AtomicRef(n)` with a reference to `n` -/
  | make (t : T) (f : F) (n : Word)
  /-- `~AtomicRef()` of the free-standing `f` -/
  | destroy (t : T) (f : F)
  /-- call `get()` on `k` -/
  | get (t : T) (k : Key F)
  /-- call `operator=(n)` on `k`; the caller owns a reference to `n` or `n` is null -/
  | set (t : T) (k : Key F) (n : Word)
  /-- `a->Release()` of a reference the thread owns -/
  | release (t : T) (a : Word)
  /-- `a->AddRef()` through a reference the thread owns -/
  | addRef (t : T) (a : Word)
  /-- the client reads or writes the object through a reference the thread owns -/
  | use (t : T) (a : Word)
  /-- hand a reference over -/
  | send (t u : T) (a : Word)
  /-- `RefPtr<X> p = new X` at a free address that is a multiple of `sizeof(void*)`, as :122-123 asks; `X` has the
  `AtomicRef` members `fs` -/
  | create (t : T) (a : Word) (fs : List F)
  /-- the next step of what the thread is doing -/
  | cont (t : T)
  /-- the same if that step is a load in `lock` or a failing CAS, but it reads `w`, not necessarily the latest value.
  am-refcounting-threadsafe.h:183-188 -/
  | stale (t : T) (w : Word)

/-- Bookkeeping: what thread `t` has still to do in am-refcounting-threadsafe.h:52-62, 137-198. -/
def setStack (s : State T F) (t : T) (fr : List (Frame F)) : State T F :=
  { s with stack := fun u => if u = t then fr else s.stack u }

/-- `thing_ = w` of the `AtomicRef` `k`, am-refcounting-threadsafe.h:197, 184. -/
def setWord (s : State T F) (k : Key F) (w : Word) : State T F :=
  { s with word := fun k' => if k' = k then w else s.word k' }

/-- Bookkeeping: a reference changes its owner (am-refcounting-threadsafe.h:150-151, 159-161, 139-141 move references between the `AtomicRef` and the thread). -/
def move (l : List (Owner T F × Word)) (o p : Owner T F) (a : Word) : List (Owner T F × Word) := (p, a) :: l.erase (o, a)

/-- `AddRef` by the owner `o`: am-refcounting-threadsafe.h:52-54. -/
def incr (s : State T F) (o : Owner T F) (a : Word) : Exec (State T F) :=
  if s.life a ≠ .live then .error .useAfterFree
  else .ok { s with cnt := fun b => if b = a then s.cnt a + 1 else s.cnt b, tok := (o, a) :: s.tok }

/-- `AtomicRef(T* thing)`, am-refcounting-threadsafe.h:130-136, and `AtomicRef()`, :127-129. One step: no other thread knows the `AtomicRef` yet. -/
def make (s : State T F) (t : T) (k : Key F) (n : Word) : Exec (State T F) :=
  if n &&& 7#64 ≠ 0 then .error .assertFail
  else
    let s := { setWord s k n with made := fun k' => if k' = k then true else s.made k', log := (k, .put t n) :: s.log }
    if n = 0 then .ok s else incr s (.ref k) n

/-- `~AtomicRef()`, am-refcounting-threadsafe.h:137-142, up to the call of `Release`, whose steps are the frame put on `rest`. -/
def destroy (s : State T F) (t : T) (k : Key F) (rest : List (Frame F)) : Exec (State T F) :=
  if s.made k = false then .error .useAfterFree
  else if s.word k ≠ untagged (s.word k) then .error .assertFail
  else
    let s1 := { setWord s k 0 with made := fun k' => if k' = k then false else s.made k', log := (k, .put t 0) :: s.log }
    if s.word k = 0 then .ok (setStack s1 t rest)
    else .ok (setStack { s1 with tok := move s.tok (.ref k) (.thread t) (s.word k) } t (.rel (s.word k) :: rest))

/-- An access to `thing_` of `k` is a fault if there is no such `AtomicRef`. As at am-refcounting-threadsafe.h:183-188, 195, 197. -/
def touch (s : State T F) (k : Key F) (r : Exec (State T F)) : Exec (State T F) :=
  if s.made k = false then .error .useAfterFree else r

/-- The next step of thread `t`, whose topmost frame is the second last argument. am-refcounting-threadsafe.h:177-198, 148-149, 157-161, 55-62 and 137-142, one access to shared state per step. -/
def cont (s : State T F) (t : T) : Frame F → List (Frame F) → Exec (State T F)
  | .load k j, r => touch s k (.ok (setStack s t (.cas k j (untagged (s.word k)) :: r)))
  | .cas k j old, r => touch s k
      (if s.word k = old then .ok (setStack (setWord s k (tagged old)) t (.add k j old :: r))
       else .ok (setStack s t (.load k j :: r)))
  | .add k j v, r =>
      if j.newval v = 0 then .ok (setStack s t (.chk1 k j v :: r))
      else do
        let s ← incr s (.thread t) (j.newval v)
        .ok (setStack s t (.chk1 k j v :: r))
  | .chk1 k j v, r => touch s k (.ok (setStack s t (.chk2 k j v (s.word k) :: r)))
  | .chk2 k j v w, r => touch s k
      (if w ≠ tagged (s.word k) then .error .assertFail
       else if j.newval v ≠ untagged (j.newval v) then .error .assertFail
       else .ok (setStack s t (.store k j v :: r)))
  | .store k .get v, r => touch s k (.ok (setStack { setWord s k v with log := (k, .got t v) :: s.log } t r))
  | .store k (.set n) v, r => touch s k
      -- the reference taken on `n` becomes the `AtomicRef`'s, its reference on `v` becomes the thread's
      (let tok := if n = 0 then s.tok else move s.tok (.thread t) (.ref k) n
       let tok := if v = 0 then tok else move tok (.ref k) (.thread t) v
       let s := { setWord s k n with log := (k, .put t n) :: s.log, tok := tok }
       .ok (setStack s t (if v = 0 then r else .rel v :: r)))
  | .rel a, r =>
      if s.life a ≠ .live then .error .useAfterFree
      else .ok (setStack { s with cnt := fun b => if b = a then s.cnt a - 1 else s.cnt b, tok := s.tok.erase (.thread t, a) } t
        (if s.cnt a = 1 then .relCheck a :: r else r))
  | .relCheck a, r =>
      if s.life a ≠ .live then .error .useAfterFree
      else if s.cnt a ≠ 0 then .error .assertFail
      else .ok (setStack s t (.relDelete a :: r))
  | .relDelete a, r =>
      if s.life a ≠ .live then .error .doubleFree
      -- members are destroyed in the reverse order of their construction
      else .ok (setStack { s with life := fun b => if b = a then .dying else s.life b } t (.dtor a (s.fields a).reverse :: r))
  | .dtor a (f :: fs), r => destroy s t (some a, f) (.dtor a fs :: r)
  | .dtor a [], r =>
      if s.life a ≠ .dying then .error .doubleFree
      else .ok (setStack { s with life := fun b => if b = a then .free else s.life b } t r)

/-- A load (am-refcounting-threadsafe.h:183, 188) or a failing CAS (:184) that reads `w`. Simplified: `w` may be any
value, also one that was never stored. -/
def stale (s : State T F) (t : T) (w : Word) : List (Frame F) → Option (Exec (State T F))
  | .load k j :: r => some (touch s k (.ok (setStack s t (.cas k j (untagged w) :: r))))
  | .cas k j old :: r => if w = old then none else some (touch s k (.ok (setStack s t (.load k j :: r))))
  | _ => none

/-- The client's rule for calling the members of am-refcounting-threadsafe.h:146-162: the thread reaches a free-standing `AtomicRef` while it exists, and
a member of an object it owns a reference to (and that reference stays its own until the call is over). -/
def reaches (s : State T F) (t : T) (k : Key F) : Bool :=
  match k.1 with
  | none => s.made k
  | some a => decide ((Owner.thread t, a) ∈ s.tok) && decide (k.2 ∈ s.fields a)

/-- One step; `none` if it is not the thread's turn for it or the client may not do it. am-refcounting-threadsafe.h:52-62, 127-162, by cases of `Act`. -/
def step (s : State T F) : Act T F → Option (Exec (State T F))
  | .make t f n => if s.stack t = [] ∧ s.made (none, f) = false ∧ (n = 0 ∨ (.thread t, n) ∈ s.tok) then some (make s t (none, f) n) else none
  | .destroy t f => if s.stack t = [] ∧ s.made (none, f) = true then some (destroy s t (none, f) []) else none
  | .get t k => if s.stack t = [] ∧ reaches s t k = true then some (.ok (setStack s t [.load k .get])) else none
  | .set t k n => if s.stack t = [] ∧ reaches s t k = true ∧ (n = 0 ∨ (.thread t, n) ∈ s.tok) then
      some (.ok (setStack s t [.load k (.set n)])) else none
  | .release t a => if s.stack t = [] ∧ (.thread t, a) ∈ s.tok then some (.ok (setStack s t [.rel a])) else none
  | .addRef t a => if s.stack t = [] ∧ (.thread t, a) ∈ s.tok then some (incr s (.thread t) a) else none
  | .use t a => if s.stack t = [] ∧ (.thread t, a) ∈ s.tok then some (if s.life a ≠ .live then .error .useAfterFree else .ok s) else none
  | .send t u a => if s.stack t = [] ∧ (.thread t, a) ∈ s.tok then some (.ok { s with tok := move s.tok (.thread t) (.thread u) a }) else none
  | .create t a fs => if s.stack t = [] ∧ s.life a = .free ∧ a ≠ 0 ∧ a &&& 7#64 = 0 ∧ fs.Nodup then
      some (.ok { s with
        life := fun b => if b = a then .live else s.life b
        cnt := fun b => if b = a then 1 else s.cnt b
        fields := fun b => if b = a then fs else s.fields b
        made := fun k => if k.1 = some a then decide (k.2 ∈ fs) else s.made k
        tok := (.thread t, a) :: s.tok })
    else none
  | .cont t => match s.stack t with
    | [] => none
    | f :: r => some (cont s t f r)
  | .stale t w => stale s t w (s.stack t)

/-- The call may still touch `thing_` of `k` (am-refcounting-threadsafe.h:146-150, 155-159, 177-198). -/
def Frame.uses (k : Key F) : Frame F → Bool
  | .load k' .. | .cas k' .. | .add k' .. | .chk1 k' .. | .chk2 k' .. | .store k' .. => decide (k' = k)
  | _ => false

/-- The one thing clients must not do: destroy a free-standing `AtomicRef` (am-refcounting-threadsafe.h:137-142) while a thread is inside a call on it. -/
def Allowed (s : State T F) : Act T F → Prop
  | .destroy _ f => ∀ u, (s.stack u).any (Frame.uses (none, f)) = false
  | _ => True

/-- What clients have done, latest first, and the state a schedule of it has led to. Steps of different threads
through am-refcounting-threadsafe.h:41-69, 124-202 interleave in any order. -/
inductive Run : List (Act T F) → State T F → Prop where
  | start : Run [] State.start
  | step {as s s' a} : Run as s → Allowed s a → step s a = some (.ok s') → Run (a :: as) s'

/-- States some schedule leads to, through am-refcounting-threadsafe.h:41-69, 124-202. -/
def Reachable (s : State T F) : Prop := ∃ as, Run as s

end Verif.AtomicRef.Graph
