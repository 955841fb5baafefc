import Verif.Common
/-!
# Model of `ke::FixedArray` (amtl/am-fixedarray.h)

Buffers returned by `am_malloc` have identities. A buffer is a list of slots, one per `sizeof(T)` bytes; a slot
is raw or holds a live `T`. Reading or destroying a raw slot, constructing on a live one, going outside the buffer and
freeing a buffer that is not allocated are faults.
-/
namespace Verif.FixedArray
open Verif

variable {A : Type}

/-- `sizeof(T)`, and the number of bits of `size_t`. am-fixedarray.h:159-163. -/
structure Layout where
  sizeof : Nat
  word : Nat

/-- What the environment decides: `sizeof(T)`, which `am_malloc` calls (numbered) of how many bytes succeed, and
whether the policy aborts when they do not (`SystemAllocatorPolicy`, am-allocator-policies.h:57-66) or returns null. -/
structure Cfg extends Layout where
  alloc : Nat → Nat → Bool
  aborts : Bool

/-- `size_` and `data_`, am-fixedarray.h:173-174. -/
structure Arr where
  size : Nat
  data : Option Nat
deriving DecidableEq

/-- Bookkeeping for what am-fixedarray.h:161 allocates, 169 frees, 50, 56, 72, 81, 134 construct and 166 destroys. -/
structure Mem (A : Type) where
  bufs : Nat → Option (List (Option A))
  next : Nat
  tries : Nat
  freed : List Nat
  /-- elements constructed and destroyed so far -/
  made : Nat
  gone : Nat

/-- `new (&data_[i]) T(a)`: am-fixedarray.h:50, 56, 72, 81, 134. -/
def construct (m : Mem A) (d : Option Nat) (i : Nat) (a : A) : Exec (Mem A) :=
  match d with
  | none => .error .nullDeref
  | some b => match m.bufs b with
    | none => .error .useAfterFree
    | some l => match l[i]? with
      | none => .error .outOfBounds
      | some (some _) => .error .overwriteLive
      | some none => .ok { m with bufs := fun c => if c = b then some (l.set i (some a)) else m.bufs c, made := m.made + 1 }

/-- `data_[i].~T()`: am-fixedarray.h:166. -/
def destroyAt (m : Mem A) (d : Option Nat) (i : Nat) : Exec (Mem A) :=
  match d with
  | none => .error .nullDeref
  | some b => match m.bufs b with
    | none => .error .useAfterFree
    | some l => match l[i]? with
      | none => .error .outOfBounds
      | some none => .error .doubleFree
      | some (some _) => .ok { m with bufs := fun c => if c = b then some (l.set i none) else m.bufs c, gone := m.gone + 1 }

/-- `at(i)`, am-fixedarray.h:103-110 (asserts on). -/
def at' (m : Mem A) (x : Arr) (i : Nat) : Exec A :=
  if i < x.size then
    match x.data with
    | none => .error .nullDeref
    | some b => match m.bufs b with
      | none => .error .useAfterFree
      | some l => match l[i]? with
        | none => .error .outOfBounds
        | some none => .error .useAfterFree
        | some (some a) => .ok a
  else .error .assertFail

/-- `at(i) = a`: A client assignment through the reference of am-fixedarray.h:97-106. -/
def write (m : Mem A) (x : Arr) (i : Nat) (a : A) : Exec (Mem A) := do
  let _ ← at' m x i
  match x.data with
  | none => .error .nullDeref
  | some b => match m.bufs b with
    | none => .error .useAfterFree
    | some l => .ok { m with bufs := fun c => if c = b then some (l.set i (some a)) else m.bufs c }

/-- `back()`, am-fixedarray.h:111-118. -/
def back (m : Mem A) (x : Arr) : Exec A :=
  if 0 < x.size then at' m x (x.size - 1) else .error .assertFail

/-- `initialize()`, am-fixedarray.h:90-92. -/
def isInitialized (x : Arr) : Bool := x.size = 0 || x.data.isSome

/-- `allocate`, am-fixedarray.h:159-163: the byte count is a `size_t` product. The result says whether it succeeded. -/
def allocate (c : Cfg) (m : Mem A) (n : Nat) : Exec (Arr × Bool × Mem A) :=
  let bytes := (c.sizeof * n) % 2 ^ c.word
  if c.alloc m.tries bytes then
    .ok ({ size := n, data := some m.next }, true,
      { m with bufs := fun b => if b = m.next then some (List.replicate (bytes / c.sizeof) none) else m.bufs b
               next := m.next + 1, tries := m.tries + 1 })
  else if c.aborts then .error .abort
  else .ok ({ size := n, data := none }, false, { m with tries := m.tries + 1 })

/-- `destruct`, am-fixedarray.h:164-167. -/
def destruct (m : Mem A) (x : Arr) : Exec (Mem A) :=
  (List.range x.size).foldlM (fun m i => destroyAt m x.data i) m

/-- `deallocate`, am-fixedarray.h:168-170; `free(nullptr)` does nothing. -/
def deallocate (m : Mem A) (x : Arr) : Exec (Mem A) :=
  match x.data with
  | none => .ok m
  | some b => match m.bufs b with
    | none => .error .doubleFree
    | some _ => .ok { m with bufs := fun c => if c = b then none else m.bufs c, freed := b :: m.freed }

/-- The loop that fills a new array with copies of `other`, am-fixedarray.h:55-56, 133-134. -/
def copyElems (m : Mem A) (x other : Arr) : Exec (Mem A) :=
  (List.range x.size).foldlM (fun m i => do construct m x.data i (← at' m other i)) m

/-- The loop that fills a new array with `T()`, am-fixedarray.h:49-50. -/
def fillElems (m : Mem A) (x : Arr) (val : Nat → A) : Exec (Mem A) :=
  (List.range x.size).foldlM (fun m i => construct m x.data i (val i)) m

/-- `new (&data_[i]) T(other[i])` where `other` is a vector, am-fixedarray.h:71-72, 80-81. -/
def putFrom (m : Mem A) (d : Option Nat) (l : List A) (i : Nat) : Exec (Mem A) :=
  match l[i]? with
  | some a => construct m d i a
  | none => .error .outOfBounds

/-- All members of am-fixedarray.h:44-143 that change an array. -/
inductive Op (V A : Type) where
  /-- `FixedArray()`, :44-45 -/
  | ctor (v : V)
  /-- `FixedArray(n)` with `T() = a`, :46-51 -/
  | ctorSize (v : V) (n : Nat) (a : A)
  /-- `FixedArray(const FixedArray&)`, :52-57 -/
  | ctorCopy (v w : V)
  /-- `FixedArray(FixedArray&&)`, :59-64 -/
  | ctorMove (v w : V)
  /-- `FixedArray(std::vector)`, copying :66-73 or moving :75-82 -/
  | ctorVector (v : V) (l : List A)
  /-- `~FixedArray`, :84-87 -/
  | dtor (v : V)
  /-- `v[i] = a` -/
  | write (v : V) (i : Nat) (a : A)
  /-- `operator=(const FixedArray&)`, :126-136 -/
  | assignCopy (v w : V)
  /-- `operator=(FixedArray&&)`, :137-143 -/
  | assignMove (v w : V)

/-- Client state: the arrays (am-fixedarray.h:173-174) by variable, and the memory. -/
structure State (V A : Type) where
  vars : V → Option Arr
  mem : Mem A

variable {V : Type} [DecidableEq V]

/-- No array exists yet (client state). -/
def State.start : State V A :=
  { vars := fun _ => none, mem := { bufs := fun _ => none, next := 0, tries := 0, freed := [], made := 0, gone := 0 } }

/-- Bookkeeping: a member of am-fixedarray.h:44-143 changes its array. -/
def State.set (s : State V A) (v : V) (x : Option Arr) : State V A :=
  { s with vars := fun u => if u = v then x else s.vars u }

/-- The array a client variable names when a member of am-fixedarray.h:44-156 is called on it; using one that does not exist is a fault of the client. -/
def State.lookup (s : State V A) (v : V) : Exec Arr :=
  match s.vars v with
  | some x => .ok x
  | none => .error .useAfterFree

/-- `operator=(const FixedArray&)`, am-fixedarray.h:126-136. (If `other` is `*this` the sizes are equal, so nothing of
`other` but its elements changes before it is read.) -/
def assignCopy (c : Cfg) (m : Mem A) (x y : Arr) : Exec (Arr × Mem A) := do
  let m ← destruct m x
  if x.size ≠ y.size then do
    let m ← deallocate m x
    let (x', good, m) ← allocate c m y.size
    if good then do
      let m ← copyElems m x' y
      .ok (x', m)
    else .ok (x', m)
  else do
    let m ← copyElems m x y
    .ok (x, m)

/-- One call, am-fixedarray.h:44-87, 97-110 and 126-143, by cases of `Op`. -/
def step (c : Cfg) (s : State V A) : Op V A → Exec (State V A)
  | .ctor v => .ok (s.set v (some { size := 0, data := none }))
  | .ctorSize v n a => do
    let (x, good, m) ← allocate c s.mem n
    let m ← if good then fillElems m x (fun _ => a) else .ok m
    .ok ({ s with mem := m }.set v (some x))
  | .ctorCopy v w => do
    let y ← s.lookup w
    let (x, good, m) ← allocate c s.mem y.size
    let m ← if good then copyElems m x y else .ok m
    .ok ({ s with mem := m }.set v (some x))
  | .ctorMove v w => do
    let y ← s.lookup w
    .ok ((s.set v (some y)).set w (some { size := 0, data := none }))
  | .ctorVector v l => do
    let (x, good, m) ← allocate c s.mem l.length
    let m ← if good then (List.range x.size).foldlM (fun m i => putFrom m x.data l i) m else .ok m
    .ok ({ s with mem := m }.set v (some x))
  | .dtor v => do
    let x ← s.lookup v
    let m ← destruct s.mem x
    let m ← deallocate m x
    .ok ({ s with mem := m }.set v none)
  | .write v i a => do
    let x ← s.lookup v
    let m ← write s.mem x i a
    .ok { s with mem := m }
  | .assignCopy v w => do
    let x ← s.lookup v
    let y ← s.lookup w
    let (x', m) ← assignCopy c s.mem x y
    .ok ({ s with mem := m }.set v (some x'))
  | .assignMove v w => do
    let _ ← s.lookup v
    let y ← s.lookup w
    .ok ((s.set v (some y)).set w (some { size := 0, data := none }))

/-- A client program: a sequence of calls of am-fixedarray.h:44-143. -/
def run (c : Cfg) : List (Op V A) → State V A → Exec (State V A)
  | [], s => .ok s
  | o :: os, s => do run c os (← step c s o)

/-- `operator==`, am-fixedarray.h:145-153. -/
def equal [DecidableEq A] (m : Mem A) (x y : Arr) : Exec Bool :=
  if y.size ≠ x.size then .ok false
  else go y.size 0
where
  /-- the loop, `k` iterations to go -/
  go : Nat → Nat → Exec Bool
    | 0, _ => .ok true
    | k + 1, i => do
      let a ← at' m x i
      let b ← at' m y i
      if a ≠ b then .ok false else go k (i + 1)

/-- `operator!=`, am-fixedarray.h:154-156. -/
def notEqual [DecidableEq A] (m : Mem A) (x y : Arr) : Exec Bool := do
  .ok (!(← equal m x y))

end Verif.FixedArray
