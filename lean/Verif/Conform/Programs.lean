import Verif.ArgParser.BuildModel
import Verif.ArgParser.Many
import Verif.Function.Model
import Verif.RefPtr.Spec
import Verif.AtomicRef.Model
import Verif.ThreadLocal.Extra
import Verif.SharedLib.Model
/-!
# Conformance of the models with the unit tests of the repository, 3

Tests of the models, not proofs of properties: see Small.lean.
-/
namespace Verif.Conform
open Verif

/-! ## tests/test-argparser.cpp -/

section argparser
open Verif.ArgParser Verif.ArgParser.Many

/-- One step of a test program. -/
inductive T where
  | opt (v : Nat) (d : Decl)
  | switches (inlineValues slashes collectExtra passthrough : Bool)
  | reset
  | parse (args : List String)
  | read (v : Nat)

/-- What the test looks at: whether `parse` succeeded, or what an option object holds; extra and pass-through arguments with `parse`. -/
inductive R where
  | parsed (ok : Bool) (extra pass : List Str)
  | value (v : Option Val)
  | values (vs : List Val)
deriving DecidableEq

/-- The program of the test as a program of the model (64-bit `long`). -/
def ops : List T → Exec (List (Many.Op Nat Nat))
  | [] => .ok []
  | .opt v d :: r => do .ok (.declare 0 v (← construct d) :: (← ops r))
  | .switches a b c d :: r => do .ok (.switches 0 a b c d :: (← ops r))
  | .reset :: r => do .ok (.reset 0 :: (← ops r))
  | .parse as :: r => do .ok (.parse 0 (as.map lit) :: (← ops r))
  | .read v :: r => do .ok (.read v :: (← ops r))

/-- `Option::value()` and so on need the declaration to find the default. -/
def seen' (ts : List T) (outs : List Out) : List R :=
  let decl (v : Nat) : Option Opt := (ts.findSome? fun t => match t with
    | .opt u d => if u = v then (match construct d with | .ok o => some o | .error _ => none) else none
    | _ => none)
  (ts.zip outs).filterMap fun p => match p with
    | (.parse _, .parsed ok _ x y) => some (.parsed ok x y)
    | (.read v, .holds c) => (decl v).map fun o => match o.kind with
      | .repBool | .repString | .repInt => .values c.values
      | _ => .value (maybeValue o c)
    | _ => none

/-- `Parser parser("help");` and the test. -/
def play (ts : List T) : Exec (List R) := do
  let os ← ops ts
  let (_, outs) ← Many.run 64 (.parser 0 true :: os) World.start
  .ok (seen' ts (outs.drop 1))

/-- Part of the replay of tests/test-argparser.cpp. -/
def yes : R := .parsed true [] []
/-- Part of the replay of tests/test-argparser.cpp. -/
def no : R := .parsed false [] []
/-- Part of the replay of tests/test-argparser.cpp. -/
def bool (b : Bool) : R := .value (some (.bool b))
/-- Part of the replay of tests/test-argparser.cpp. -/
def str (s : String) : R := .value (some (.str (lit s)))
/-- Part of the replay of tests/test-argparser.cpp. -/
def int (n : Int) : R := .value (some (.int n))

-- Basic
example : play [.parse [], .parse ["asdf"], .parse ["--asdf"]] = .ok [yes, no, no] := by decide +kernel

-- ToggleArg
example : play
    [.opt 0 (.forms (.toggle none) (some (lit "x")) none (lit "help")),
     .opt 1 (.forms (.toggle (some true)) (some (lit "y")) none (lit "help")),
     .opt 2 (.forms (.toggle (some false)) (some (lit "z")) none (lit "help")),
     .reset, .parse [], .read 0,
     .reset, .parse ["-x"], .read 0,
     .reset, .parse ["-y"], .read 1,
     .reset, .parse ["-z"], .read 2,
     .reset, .parse ["-z=false"]]
    = .ok [yes, bool false, yes, bool true, yes, bool false, yes, bool true, no] := by decide +kernel

-- StringArg
example : play
    [.opt 0 (.forms (.string none) (some (lit "s")) (some (lit "string")) (lit "help")),
     .opt 1 (.forms (.string (some (lit "whatever"))) (some (lit "t")) (some (lit "ttt")) (lit "help")),
     .opt 2 (.named .string (some (lit "mode")) (lit "help")),
     .reset, .parse [],
     .reset, .parse ["crab"], .read 0, .read 1, .read 2,
     .reset, .parse ["-s", "yam", "egg"], .read 0, .read 2]
    = .ok [no, yes, .value none, str "whatever", str "crab", yes, str "yam", str "egg"] := by decide +kernel

-- IntArg
example : play
    [.opt 0 (.forms (.int none) none (some (lit "val")) (lit "help")),
     .reset, .parse ["--val", "308"], .read 0,
     .reset, .parse ["--val", "30x"]]
    = .ok [yes, int 308, no] := by decide +kernel

-- RepeatArg
example : play
    [.opt 0 (.forms .repString (some (lit "-i")) (some (lit "--include-path")) (lit "Include path.")),
     .parse ["-i", "blah", "-i", "crab", "--include-path=yam"], .read 0]
    = .ok [yes, .values [.str (lit "blah"), .str (lit "crab"), .str (lit "yam")]] := by decide +kernel

-- StopArg1
example : play
    [.opt 0 (.forms (.stop (some false)) (some (lit "-v")) (some (lit "--version")) (lit "Show the version and exit.")),
     .opt 1 (.named .string (some (lit "something_required")) (lit "This is a required positional argument.")),
     .parse [], .parse ["-v"], .read 0]
    = .ok [no, yes, bool true] := by decide +kernel

-- StopArg2
example : play
    [.opt 0 (.forms (.stop (some false)) (some (lit "-v")) (some (lit "--version")) (lit "Show the version and exit.")),
     .opt 1 (.named .string (some (lit "file")) (lit "SMX file to execute.")),
     .parse ["-v", "-w"], .read 0]
    = .ok [yes, bool true] := by decide +kernel

/-- The option of the next three tests. -/
def level : T := .opt 0 (.forms (.int none) (some (lit "-O")) none (lit "Optimization level"))

-- NoSeparator, ColonSeparator, Slashes
example : play [.switches true false false false, level, .parse ["-O2"], .read 0] = .ok [yes, int 2] := by decide +kernel
example : play [.switches true false false false, level, .parse ["-O:2"], .read 0] = .ok [yes, int 2] := by decide +kernel
example : play [.switches true true false false, level, .parse ["/O:2"], .read 0] = .ok [yes, int 2] := by decide +kernel

-- CollectExtra
example : play [.switches false false true false, .parse ["a", "b", "c"]] = .ok [.parsed true [lit "a", lit "b", lit "c"] []] := by decide +kernel

-- OptionWithNo
example : play
    [.opt 0 (.forms (.enable false) none (some (lit "--stuff")) (lit "Stuff or whatever")),
     .opt 1 (.forms (.enable true) none (some (lit "--other")) (lit "Other or whatever")),
     .parse ["--stuff", "--other"], .read 0, .read 1,
     .reset, .parse ["--no-stuff", "--no-other"], .read 0, .read 1]
    = .ok [yes, bool true, bool true, yes, bool false, bool false] := by decide +kernel

-- PassthroughArgs
example : play
    [.switches false false false true, .opt 0 (.forms (.enable false) none (some (lit "--stuff")) (lit "Stuff or whatever")),
     .parse ["--stuff", "--", "crab", "ham"], .read 0]
    = .ok [.parsed true [] [lit "crab", lit "ham"], bool true] := by decide +kernel

end argparser

/-! ## tests/test-callable.cpp -/

section callable
open Verif.Function

/-- The callables of the tests are numbered; 9 is the one with the huge capture. `sizeof(FunctionHolder<T>)`: vtable pointer and captures. -/
def fnSize : Nat → Nat := fun c => if c = 9 then 8 + 14 * 8 + 8 else if c = 1 then 16 else 9

/-- After a program: the callable a call of `v` reaches, whether it is stored inline, holders made and holders destroyed. -/
def after (os : List (Function.Op Nat Nat)) (v : Nat) : Exec (Nat × Bool × Nat × Nat) := do
  let s ← Function.run fnSize os Function.State.start
  let f ← s.get v
  let c ← call f s.mem
  .ok (c, f.inline, s.mem.next, s.mem.dead.length)

-- BasicFunction: each assignment replaces the callable
example : (after [.ctorCallable 0 1] 0).map (·.1) = .ok 1 := by decide +kernel
example : (after [.ctorCallable 0 1, .assignCallable 0 2] 0).map (·.1) = .ok 2 := by decide +kernel
example : (after [.ctorCallable 0 1, .assignCallable 0 2, .assignCallable 0 3] 0).map (·.1) = .ok 3 := by decide +kernel
example : (after [.ctorCallable 0 1, .assignCallable 0 2, .assignCallable 0 3, .assignCallable 0 4] 0).map (·.1) = .ok 4 := by decide +kernel

-- InlineStorage: the small callable is stored inline, the huge one is not, and assigning null destroys it
example : after [.ctorCallable 0 2] 0 = .ok (2, true, 1, 0) := by decide +kernel
example : after [.ctorCallable 0 2, .assignCallable 0 9] 0 = .ok (9, false, 2, 1) := by decide +kernel
example : (Function.run fnSize [.ctorCallable 0 2, .assignCallable 0 9, .assignNull 0] (Function.State.start : Function.State Nat Nat)).map
    (fun s => (s.vars 0, s.mem.dead)) = .ok (some .empty, [1, 0]) := by decide +kernel

-- Move: `ptr2 = ptr` copies the callable once (and nothing is destroyed); `ptr3 = std::move(ptr2)` neither copies nor moves the callable, because
-- the copy from a non-const variable was wrapped on the heap; the counts of the test would be different if it were not
example : after [.ctorCallable 0 2] 0 = .ok (2, true, 1, 0) := by decide +kernel
-- the wrapper and the holder inside it
example : after [.ctorCallable 0 2, .ctorCopy 1 0] 1 = .ok (2, false, 3, 0) := by decide +kernel
example : after [.ctorCallable 0 2, .ctorCopy 1 0, .ctorMove 2 1] 2 = .ok (2, false, 3, 0) := by decide +kernel
-- the move of an inline callable would have made a holder and destroyed one
example : after [.ctorCallable 0 2, .ctorMove 2 0] 2 = .ok (2, true, 2, 1) := by decide +kernel

end callable

/-! ## tests/test-refcounting.cpp and Vector.Remove of tests/test-vector.cpp -/

section refptr
open Verif.RefPtr

/-- Destructor calls (`sDtors`) after a program; the objects have no members. -/
def dtors (ops : List (RefPtr.Op Nat)) : Exec Nat := (RefPtr.run (fun _ => 0) RefPtr.State.new ops).map (·.freed.length)

example : dtors [.ctorNew 0, .destroy 0] = .ok 1 := by decide +kernel
example : dtors [.ctorNew 0, .destroy 0, .ctorNew 0, .destroy 0] = .ok 2 := by decide +kernel
-- `AdoptRef` of a counted object
example : dtors [.ctorNew 1, .ctorMove 0 (.root 1), .destroy 1, .destroy 0] = .ok 1 := by decide +kernel
-- `PassThrough(new SubCounted())`: a temporary (2), its copy (1)
example : dtors [.ctorNew 0, .ctorNew 2, .ctorCopy 1 (.root 2), .destroy 2, .destroy 1, .destroy 0] = .ok 2 := by decide +kernel
-- `PassThrough(obj)` twice, and three deep
example : dtors [.ctorNew 0, .ctorCopy 2 (.root 0), .ctorCopy 3 (.root 0)] = .ok 0 := by decide +kernel
example : dtors [.ctorNew 0, .ctorCopy 2 (.root 0), .ctorCopy 3 (.root 0), .ctorCopy 10 (.root 0), .ctorCopy 11 (.root 10), .ctorCopy 4 (.root 11),
    .destroy 11, .destroy 10] = .ok 0 := by decide +kernel
example : dtors [.ctorNew 0, .ctorCopy 2 (.root 0), .ctorCopy 3 (.root 0), .ctorCopy 10 (.root 0), .ctorCopy 11 (.root 10), .ctorCopy 4 (.root 11),
    .destroy 11, .destroy 10, .destroy 4, .destroy 3, .destroy 2, .destroy 0] = .ok 1 := by decide +kernel
-- `take()`: the handle is null, the result is not
example : (RefPtr.run (fun _ => 0) RefPtr.State.new [.ctorNew 0, .ctorMove 1 (.root 0)]).map
    (fun s : RefPtr.State Nat => (s.val (.root 0), s.val (.root 1), s.freed.length)) = .ok (none, some 0, 0) := by decide +kernel
example : dtors [.ctorNew 0, .ctorMove 1 (.root 0), .destroy 1, .destroy 0] = .ok 1 := by decide +kernel

/-- Reference counts of the two objects after a program. -/
def counts (ops : List (RefPtr.Op Nat)) : Exec (Nat × Nat) := (RefPtr.run (fun _ => 0) RefPtr.State.new ops).map (fun s => (s.cnt 0, s.cnt 1))

-- Vector.Remove: 0 and 1 are `thing1` and `thing2`, 10 and 11 the elements of the vector; each temporary (20) is moved into its element. `RemoveAt(0)`
-- moves the later element down and destroys the last.
/-- Part of the replay of tests/test-refcounting.cpp. -/
def twoThings : List (RefPtr.Op Nat) :=
  [.ctorNew 0, .ctorNew 1, .ctorGet 20 (.root 0), .ctorMove 10 (.root 20), .destroy 20, .ctorGet 20 (.root 1), .ctorMove 11 (.root 20), .destroy 20]
example : counts twoThings = .ok (2, 2) := by decide +kernel
example : counts (twoThings ++ [.assignMove (.root 10) (.root 11), .destroy 11]) = .ok (1, 2) := by decide +kernel
example : counts (twoThings ++ [.assignMove (.root 10) (.root 11), .destroy 11, .destroy 10]) = .ok (1, 1) := by decide +kernel

end refptr

section atomicref
open Verif.AtomicRef

/-- Thread 0 runs alone: each of its calls to the end. -/
def finishCall (s : AtomicRef.State Nat) : Nat → Option (Exec (AtomicRef.State Nat))
  | 0 => none
  | n + 1 => if s.pc 0 = .idle then some (.ok s) else match AtomicRef.step s (.cont 0) with
    | some (.ok s) => finishCall s n
    | r => r

/-- Calls of thread 0, one after the other. -/
def alone (s : AtomicRef.State Nat) : List (AtomicRef.Act Nat) → Option (Exec (AtomicRef.State Nat))
  | [] => some (.ok s)
  | a :: as => match AtomicRef.step s a with
    | some (.ok s) => match finishCall s 30 with
      | some (.ok s) => alone s as
      | r => r
    | r => r

/-- Which of the objects at addresses 8 and 16 are alive. -/
def aliveAfter (as : List (AtomicRef.Act Nat)) : Option (Exec (Bool × Bool)) := (alone AtomicRef.State.start as).map (·.map fun s => (s.alive 8, s.alive 16))

-- `{ AtomicRef<Counted> obj(new Counted()); }`. The model's clients hold a reference while they hand an object over.
example : aliveAfter [.create 0 8, .make 0 8, .release 0 8] = some (.ok (true, false)) := by decide +kernel
example : aliveAfter [.create 0 8, .make 0 8, .release 0 8, .destroy 0] = some (.ok (false, false)) := by decide +kernel
-- `obj = new Counted(); obj = new Counted(); obj = nullptr;`
example : aliveAfter [.make 0 0, .create 0 8, .set 0 8, .release 0 8] = some (.ok (true, false)) := by decide +kernel
example : aliveAfter [.make 0 0, .create 0 8, .set 0 8, .release 0 8, .create 0 16, .set 0 16, .release 0 16] = some (.ok (false, true)) := by decide +kernel
example : aliveAfter [.make 0 0, .create 0 8, .set 0 8, .release 0 8, .create 0 16, .set 0 16, .release 0 16, .set 0 0] = some (.ok (false, false)) := by
  decide +kernel

end atomicref

/-! ## tests/test-threadlocal-threaded.cpp and tests/test-threadlocal-unthreaded.cpp -/

section threadlocal
open Verif.ThreadLocal

/-- The results of the calls of a schedule, latest first. -/
def tlLog (as : List (ThreadLocal.Act Nat Nat)) : Exec (List (Event Nat Nat)) :=
  (ThreadLocal.run (fun _ => true) 0 as (ThreadLocal.State.start 0)).map (·.log)

-- Threaded: the main thread (0) sets 10; the new thread (1) sees 0, sets 20, sees 20; the main thread sees 10
example : tlLog [.begin 0 (.set 10), .cont 0, .cont 0, .cont 0, .begin 1 .get, .cont 1, .begin 1 (.set 20), .cont 1, .begin 1 .get, .cont 1, .begin 0 .get, .cont 0]
    = .ok [.got 0 10, .got 1 20, .didSet 1 20, .got 1 0, .didSet 0 10] := by decide +kernel
-- Unthreaded
example : (Single.calls (0 : Nat) [.get, .set 10, .get] (Single.start (0 : Nat), [])).2 = [.got 0 10, .didSet 0 10, .got 0 0] := by decide +kernel

end threadlocal

/-! ## System.SharedLibs of tests/test-system.cpp -/

-- the library opens; the handle is not null; nothing is closed while it lives, and it is closed once at the end
example : (SharedLib.open' (SharedLib.World.new : SharedLib.World Nat Nat) 0 (.ok 77) none 0).map
    (fun r => (r.1.rc.val (.root (some 0)) != none, r.1.closed)) = .ok (true, []) := by decide +kernel
example : (SharedLib.runAll (SharedLib.World.new : SharedLib.World Nat Nat) [.open' 0 (.ok 77) none 0, .handle (.destroy 0)]).map
    (·.closed) = .ok [77] := by decide +kernel

end Verif.Conform
