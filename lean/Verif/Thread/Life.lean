import Verif.Common
/-!
# The objects `ke::NewThread` makes, and exceptions (am-thread.h:102-110)

`std::bind` copies or moves the callable and the arguments into the callback, a string is made from the name, `std::make_unique`
allocates the `std::thread`, whose constructor allocates a state, moves string and callback into it and asks the system for a thread.
Any copy, move (but the string's), allocation and the start may throw. When a thread has been started, the caller destroys its
temporaries while the new thread names itself, calls the callback and destroys the state, in any interleaving. The callback is
assumed to return (if it throws the program is terminated).
-/
namespace Verif.Thread.Life
open Verif

/-- The objects and heap blocks that exist, what they hold, and the number of operations so far that might have thrown. am-thread.h:102-110. -/
structure St (α : Type) where
  next : Nat
  live : List Nat
  val : Nat → α
  clock : Nat

/-- The client's classes and the system: which operations throw, what a move leaves in its source, what one that throws leaves there,
and in which order a callback's parts are moved. am-thread.h:104, 109. -/
structure Plan (α : Type) where
  throws : Nat → Bool
  moved : α → α
  torn : α → α
  order : List (Nat × Nat) → List (Nat × Nat)
  blank : α

/-- A callable or argument given to `NewThread`: an object of the caller, to be moved from (an rvalue) or copied. am-thread.h:102, 104. -/
structure Src where
  id : Nat
  move : Bool
deriving DecidableEq

variable {α : Type}

/-- End of an object, or `operator delete`. am-thread.h:109-110. -/
def destroy (s : St α) (i : Nat) : Exec (St α) :=
  if i ∈ s.live then .ok { s with live := s.live.erase i } else .error .doubleFree

/-- End of several objects: a scope, or what has been built when an exception passes. am-thread.h:104, 109-110. -/
def destroyAll (s : St α) : List Nat → Exec (St α)
  | [] => .ok s
  | i :: is => do
    let s ← destroy s i
    destroyAll s is

/-- Beginning of an object. am-thread.h:104, 109. -/
def make (s : St α) (v : α) : St α × Nat :=
  ({ s with next := s.next + 1, live := s.next :: s.live, val := fun i => if i = s.next then v else s.val i }, s.next)

/-- An allocation, or a constructor that allocates: `none` if it throws. am-thread.h:109. -/
def alloc (p : Plan α) (s : St α) (v : α) : St α × Option Nat :=
  if p.throws s.clock then ({ s with clock := s.clock + 1 }, none)
  else
    let (s, i) := make { s with clock := s.clock + 1 } v
    (s, some i)

/-- Move or copy construction from `src` (`std::forward`): am-thread.h:104, 109. -/
def take (p : Plan α) (s : St α) (src : Src) : Exec (St α × Option Nat) :=
  if src.id ∉ s.live then .error .useAfterFree
  else
    let v := s.val src.id
    if p.throws s.clock then
      .ok ({ s with clock := s.clock + 1, val := fun i => if i = src.id ∧ src.move = true then p.torn v else s.val i }, none)
    else
      let (s, i) := make { s with clock := s.clock + 1, val := fun i => if i = src.id ∧ src.move = true then p.moved v else s.val i } v
      .ok (s, some i)

/-- Construction of a callback from its parts (numbered: 0 is the callable), in the order given; `built` is what exists already, latest first. If a part throws, the
others are destroyed. `std::bind` at am-thread.h:104, the callback's move constructor at :109. -/
def build (p : Plan α) (s : St α) : List (Nat × Src) → List (Nat × Nat) → Exec (St α × Option (List (Nat × Nat)))
  | [], built => .ok (s, some built)
  | (k, src) :: rest, built => do
    let (s, r) ← take p s src
    match r with
    | none => do
      let s ← destroyAll s (built.map (·.2))
      .ok (s, none)
    | some i => build p s rest ((k, i) :: built)

/-- What the new thread owns (its state, the name and the callback in it), what the caller still has to destroy, and the `std::thread`. am-thread.h:105-109. -/
structure Started where
  state : Nat
  name : Nat
  bound : List (Nat × Nat)
  temps : List Nat
  thread : Nat

/-- `NewThread`, am-thread.h:102-109, up to the start of the thread; `none` if it throws. -/
def newThread (p : Plan α) (s : St α) (name : α) (srcs : List (Nat × Src)) : Exec (St α × Option Started) := do
  let (s, cb) ← build p s srcs []
  match cb with
  | none => .ok (s, none)
  | some cb =>
    let cbs := cb.map (·.2)
    match alloc p s name with
    | (s, none) => do .ok (← destroyAll s cbs, none)
    | (s, some nm) =>
      match alloc p s p.blank with
      | (s, none) => do .ok (← destroyAll s (nm :: cbs), none)
      | (s, some th) =>
        match alloc p s p.blank with
        | (s, none) => do .ok (← destroyAll s (th :: nm :: cbs), none)
        | (s, some state) => do
          let (s, nm2) := make s (s.val nm)
          let (s, bd) ← build p s ((p.order cb).map fun x => (x.1, ⟨x.2, true⟩)) []
          match bd with
          | none => do .ok (← destroyAll s (nm2 :: state :: th :: nm :: cbs), none)
          | some bd =>
            if p.throws s.clock then do
              .ok (← destroyAll { s with clock := s.clock + 1 } (bd.map (·.2) ++ nm2 :: state :: th :: nm :: cbs), none)
            else .ok ({ s with clock := s.clock + 1 }, some { state := state, name := nm2, bound := bd, temps := nm :: cbs, thread := th })

/-- Where the new thread is: am-thread.h:105-108. -/
inductive Pc where
  | start
  | named
  | ending (rest : List Nat)
deriving DecidableEq

/-- What the new thread does that can be seen: it names itself (am-thread.h:106), it calls the callable on the arguments (am-thread.h:107). -/
inductive Event (α : Type) where
  | name (v : α)
  | call (parts : List (Nat × α))

/-- Caller and new thread, after the start. am-thread.h:105-110. -/
structure Both (α : Type) where
  s : St α
  st : Started
  todo : List Nat
  pc : Pc
  trace : List (Event α)

/-- Read an object, which must exist. am-thread.h:106-107. -/
def look (s : St α) (i : Nat) : Exec α := if i ∈ s.live then .ok (s.val i) else .error .useAfterFree

/-- The parts of the callback, read when it is called. am-thread.h:107. -/
def lookAll (s : St α) : List (Nat × Nat) → Exec (List (Nat × α))
  | [] => .ok []
  | (k, i) :: rest => do
    let v ← look s i
    let vs ← lookAll s rest
    .ok ((k, v) :: vs)

/-- Who takes a step. -/
inductive Actor where
  | caller
  | child
deriving DecidableEq

/-- A step: the caller destroys its next temporary (am-thread.h:109-110), or the new thread goes on (am-thread.h:105-108). A thread that has ended does nothing. -/
def step (b : Both α) : Actor → Exec (Both α)
  | .caller => match b.todo with
    | [] => .ok b
    | i :: is => do .ok { b with s := ← destroy b.s i, todo := is }
  | .child => match b.pc with
    | .start => do
      let v ← look b.s b.st.name
      .ok { b with pc := .named, trace := b.trace ++ [.name v] }
    | .named => do
      let vs ← lookAll b.s b.st.bound
      .ok { b with pc := .ending (b.st.bound.map (·.2) ++ [b.st.name, b.st.state]), trace := b.trace ++ [.call vs] }
    | .ending [] => .ok b
    | .ending (i :: is) => do .ok { b with s := ← destroy b.s i, pc := .ending is }

/-- A schedule. -/
def run (b : Both α) : List Actor → Exec (Both α)
  | [] => .ok b
  | a :: as => do
    let b ← step b a
    run b as

/-- Just after the start. am-thread.h:109. -/
def begin (s : St α) (st : Started) : Both α := { s := s, st := st, todo := st.temps, pc := .start, trace := [] }

/-- Caller and thread are done. -/
def Both.done (b : Both α) : Prop := b.todo = [] ∧ b.pc = .ending []

end Verif.Thread.Life
