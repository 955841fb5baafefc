import Verif.Common
/-!
# Model of `ke::NewThread` and `ke::SetThreadName` (amtl/am-thread.h)

A world has the client's memory, in which the name and the arguments given to `NewThread` live, and the
threads started so far. The client may change or free its memory at any time after `NewThread` returns;
threads run in any order. What happens is recorded in a trace. The memory accesses of `NewThread` itself
(copying the arguments) are one step: a client that changes them during the call has a race of its own.
-/
namespace Verif.Thread
open Verif

/-- A byte of a name or of an object in client memory. -/
abbrev Byte := BitVec 8

/-- The name the system has for a thread. am-thread.h:76-86. -/
inductive OsName where
  /-- none was set: the one inherited from the creator -/
  | inherited
  /-- bytes given to `pthread_setname_np` -/
  | posix (name : List Byte)
  /-- UTF-16 text given to `SetThreadDescription` -/
  | windows (text : List (BitVec 16))
deriving DecidableEq

/-- The platforms distinguished by am-thread.h:55-97. For Windows: whether `LoadLibraryA` succeeds, whether the function exists (am-thread.h:57-64), and what
`wstring_convert::from_bytes` makes of the name (`none`: not UTF-8). -/
inductive Platform where
  | linux
  | macos
  | windows (loads found : Bool) (decode : List Byte → Option (List (BitVec 16)))
  | other

/-- Result of `SetThreadName` for a thread called `old`: its name, and references to kernel32.dll that were not given back. -/
structure Named where
  name : OsName
  leaked : Nat
deriving DecidableEq

/-- `impl::SetThreadName`, am-thread.h:56-71. A name that is not UTF-8 makes `from_bytes` throw (`none`). -/
def winSetName (loads found : Bool) (decode : List Byte → Option (List (BitVec 16))) (old : OsName) (name : List Byte) : Option Named :=
  if !loads then some ⟨old, 0⟩
  else if !found then some ⟨old, 1⟩
  else match decode name with
    | none => none
    | some w => some ⟨.windows w, 0⟩

/-- `pthread_setname_np`: names that do not fit with their terminator (16 bytes on Linux, 64 on macOS) are refused, and the result is not looked at. am-thread.h:78, 80, 90. -/
def posixSetName (limit : Nat) (old : OsName) (name : List Byte) : Named :=
  if name.length < limit then ⟨.posix name, 0⟩ else ⟨old, 0⟩

/-- `SetThreadName(const char*)`, am-thread.h:76-86; `none` if it throws. -/
def setOwnName (p : Platform) (old : OsName) (name : List Byte) : Option Named :=
  match p with
  | .macos => some (posixSetName 64 old name)
  | .linux => some (posixSetName 16 old name)
  | .windows loads found decode => winSetName loads found decode old name
  | .other => some ⟨old, 0⟩

/-- `SetThreadName(std::thread*, const char*)`, am-thread.h:88-97. -/
def setOtherName (p : Platform) (old : OsName) (name : List Byte) : Option Named :=
  match p with
  | .linux => some (posixSetName 16 old name)
  | .windows loads found decode => winSetName loads found decode old name
  | _ => some ⟨old, 0⟩

/-- An argument expression given to `NewThread`: an object, which `std::bind` copies or moves into the callback, or a `std::ref` to one, which it keeps. am-thread.h:102-104. -/
inductive ArgExpr where
  | obj (addr : Nat)
  | ref (addr : Nat)
deriving DecidableEq

/-- An argument as the callback holds it. am-thread.h:104. -/
inductive Bound where
  | val (v : List Byte)
  | ref (addr : Nat)
deriving DecidableEq

/-- Where a thread is in the body of am-thread.h:105-108. -/
inductive Pc where
  | start
  | named
  | finished
deriving DecidableEq

/-- What the new thread owns: the string and the callback moved into it (am-thread.h:109), and its name. -/
structure Child where
  name : List Byte
  fn : Nat
  args : List Bound
  pc : Pc
  os : OsName
deriving DecidableEq

/-- What can be observed. -/
inductive Event where
  /-- `NewThread` made thread `i` for function `fn`; the name and the arguments as they are in the caller's memory then. am-thread.h:102-110 -/
  | spawn (i : Nat) (name : List Byte) (fn : Nat) (args : List Bound)
  /-- thread `i` has named itself; the system's name for it. am-thread.h:106 -/
  | naming (i : Nat) (os : OsName)
  /-- thread `i` calls `fn`. am-thread.h:107 -/
  | call (i : Nat) (fn : Nat) (args : List (List Byte))
deriving DecidableEq

/-- The client's memory, the threads, references to kernel32.dll leaked, and the trace. am-thread.h:102-110. -/
structure World where
  mem : Nat → Option (List Byte)
  children : List Child
  leaked : Nat
  trace : List Event

/-- What happens next. -/
inductive Action where
  /-- `NewThread(name, fn, args...)`, am-thread.h:102-110; `ok` says whether the system can start a thread -/
  | spawn (name : Nat) (fn : Nat) (args : List ArgExpr) (ok : Bool)
  /-- the `i`-th thread takes a step, am-thread.h:105-108 -/
  | run (i : Nat)
  /-- the client writes or frees an object -/
  | write (addr : Nat) (v : List Byte)
  | free (addr : Nat)
deriving DecidableEq

/-- An object of the client, which must exist. am-thread.h:104, 107, 109. -/
def load (mem : Nat → Option (List Byte)) (a : Nat) : Exec (List Byte) :=
  match mem a with
  | none => .error .useAfterFree
  | some v => .ok v

/-- `std::bind` of the arguments, am-thread.h:104. -/
def bindArgs (mem : Nat → Option (List Byte)) : List ArgExpr → Exec (List Bound)
  | [] => .ok []
  | .obj a :: as => do
      let v ← load mem a
      let rest ← bindArgs mem as
      .ok (.val v :: rest)
  | .ref a :: as => do
      let rest ← bindArgs mem as
      .ok (.ref a :: rest)

/-- The arguments `callback()` passes on, am-thread.h:107. -/
def passArgs (mem : Nat → Option (List Byte)) : List Bound → Exec (List (List Byte))
  | [] => .ok []
  | .val v :: as => do
      let rest ← passArgs mem as
      .ok (v :: rest)
  | .ref a :: as => do
      let v ← load mem a
      let rest ← passArgs mem as
      .ok (v :: rest)

/-- One step of the thread body, am-thread.h:105-108. An exception in a thread calls `std::terminate`. -/
def runChild (p : Platform) (w : World) (i : Nat) (c : Child) : Exec World :=
  match c.pc with
  | .start =>
      match setOwnName p c.os c.name with
      | none => .error .abort
      | some r => .ok { w with
          children := w.children.set i { c with pc := .named, os := r.name }
          leaked := w.leaked + r.leaked
          trace := w.trace ++ [.naming i r.name] }
  | .named => do
      let vs ← passArgs w.mem c.args
      .ok { w with
        children := w.children.set i { c with pc := .finished }
        trace := w.trace ++ [.call i c.fn vs] }
  | .finished => .ok w

/-- One step. -/
def step (p : Platform) (w : World) : Action → Exec World
  | .spawn name fn args ok => do
      -- am-thread.h:104: std::bind copies the arguments; :109: std::string copies the name
      let bound ← bindArgs w.mem args
      let n ← load w.mem name
      if ok then
        .ok { w with
          children := w.children ++ [⟨n, fn, bound, .start, .inherited⟩]
          trace := w.trace ++ [.spawn w.children.length n fn bound] }
      else .ok w  -- std::thread throws, the copies are destroyed
  | .run i =>
      match w.children[i]? with
      | none => .ok w
      | some c => runChild p w i c
  | .write a v => .ok { w with mem := fun b => if b = a then some v else w.mem b }
  | .free a => .ok { w with mem := fun b => if b = a then none else w.mem b }

/-- Any number of steps. -/
def run (p : Platform) (w : World) : List Action → Exec World
  | [] => .ok w
  | a :: as => do
      let w ← step p w a
      run p w as

end Verif.Thread
