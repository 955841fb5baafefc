import Verif.Raii.Model
/-!
# Programs that leave scopes by exceptions, `return` and `break` (amtl/am-raii.h)

A client program is a tree of statements whose scopes hold the automatic objects of am-raii.h. It runs on an abstract machine with
a control stack: leaving a scope in any way takes the frames off that stack one by one, which is when the destructors run, as the
compiler arranges. Client code may throw anywhere, in the callbacks of guards as well, and so may the copies and assignments of
the type whose values `SaveAndSet` keeps. Destructors are `noexcept` (C++11 and later), so an exception that leaves one ends the
program.
-/
namespace Verif.Raii
open Verif

/-- How a statement ends. -/
inductive Out (E : Type) where
  | fall
  | brk
  | ret
  | thrown (e : E)

/-- What client code can see: its memory, and for each head pointer the frames it finds by following `prev_` (am-raii.h:72-73);
`none` if that leads to a dead object. -/
structure View (L A P : Type) where
  mem : L → A
  chain : P → Option (List Nat)

/-- Client programs. -/
inductive Stmt (L A P E : Type) where
  /-- code that writes memory and falls through, breaks, returns or throws -/
  | prim (f : View L A P → (L → A) × Out E)
  | seq (a b : Stmt L A P E)
  | ite (c : View L A P → Bool) (a b : Stmt L A P E)
  /-- `while (true) body` -/
  | loop (body : Stmt L A P E)
  /-- a function call -/
  | call (body : Stmt L A P E)
  /-- `try { body } catch (E& e) { handler(e) }` -/
  | tryCatch (body : Stmt L A P E) (handler : E → Stmt L A P E)
  /-- `{ SaveAndSet<A> s(&l, v); body }`, am-raii.h:37-54 -/
  | save (l : L) (v : View L A P → A) (body : Stmt L A P E)
  /-- `{ Frame f(&p); body }`, `Frame` derived from `StackLinked<Frame>`, am-raii.h:56-74; if the rest of `Frame`'s constructor throws, that is a `body` that throws -/
  | link (p : P) (body : Stmt L A P E)
  /-- `{ auto g = MakeScopeGuard([&] { cb }); body }`, am-raii.h:76-116 -/
  | guard (cb body : Stmt L A P E)
  /-- `g.cancel()` on the `i`-th innermost live guard, am-raii.h:96-98; a program in which there is none does not compile, here it does nothing -/
  | cancel (i : Nat)

/-- The type whose values `SaveAndSet` keeps: whether its `n`-th copy or assignment throws, and what an assignment that throws leaves in its target (am-raii.h:43, 45, 48). -/
structure Cls (A E : Type) where
  throws : Nat → Option E
  torn : Nat → A → A → A

/-- What is left to do when a statement ends: the frames of the control stack. `save`, `link`, `guard` stand for the automatic objects of am-raii.h:52-53, 72-73, 108-109. -/
inductive Frame (L A P E : Type) where
  | seq (b : Stmt L A P E)
  | loop (body : Stmt L A P E)
  | call
  | tryCatch (h : E → Stmt L A P E)
  | save (g : Guard L A)
  | link (n : Nat)
  | guard
  /-- inside `~ScopeGuard`, which was called because a scope ends with `o` (am-raii.h:91-94) -/
  | dtor (o : Out E)

/-- State of the machine: memory, the `StackLinked` objects (am-raii.h:56-74), the number of objects made so far, the live guards, innermost first (am-raii.h:108-109), and the number of copies and assignments so far. -/
structure Mach (L A P E : Type) where
  mem : L → A
  links : LState P Nat
  next : Nat
  guards : List (SG (Stmt L A P E))
  clock : Nat

/-- Running a statement, or ending one. -/
inductive Ctl (L A P E : Type) where
  | run (s : Stmt L A P E)
  | out (o : Out E)

/-- A machine with its control stack. -/
structure Config (L A P E : Type) where
  ctl : Ctl L A P E
  k : List (Frame L A P E)
  m : Mach L A P E

/-- How the program ends: normally or by an exception nobody caught (seen by whoever started the program), in `std::terminate`, or in undefined behaviour or a failed assertion. -/
inductive Final (L A P E : Type) where
  | halted (o : Out E) (m : Mach L A P E)
  | aborted
  | fault (f : Fault)

/-- Result of a step. -/
inductive Next (L A P E : Type) where
  | next (c : Config L A P E)
  | final (f : Final L A P E)

section
variable {L A P E : Type} [DecidableEq L] [DecidableEq P]

/-- What the client sees; am-raii.h:72-73. -/
def Mach.view (m : Mach L A P E) : View L A P :=
  { mem := m.mem, chain := fun p => m.links.walk m.next (m.links.head p) }

/-- `*l = v`, by the client's type (am-raii.h:45, 48). -/
def Mach.assign (cls : Cls A E) (m : Mach L A P E) (l : L) (v : A) : Option E × Mach L A P E :=
  match cls.throws m.clock with
  | some e => (some e, { m with mem := store m.mem l (cls.torn m.clock (m.mem l) v), clock := m.clock + 1 })
  | none => (none, { m with mem := store m.mem l v, clock := m.clock + 1 })

/-- `SaveAndSet(location, value)`, am-raii.h:41-46: the copy of the old value, then the assignment. If either throws there is no object and no destructor call. -/
def Mach.saveCtor (cls : Cls A E) (m : Mach L A P E) (l : L) (v : A) : Except E (Guard L A) × Mach L A P E :=
  match cls.throws m.clock with
  | some e => (.error e, { m with clock := m.clock + 1 })
  | none =>
    let g : Guard L A := { location := l, old := m.mem l }
    match Mach.assign cls { m with clock := m.clock + 1 } g.location v with
    | (some e, m) => (.error e, m)
    | (none, m) => (.ok g, m)

/-- Beginning of a statement. Constructors: am-raii.h:41-46, 60-65, 80-83; `cancel`: 96-98. -/
def Mach.begin (cls : Cls A E) (m : Mach L A P E) (k : List (Frame L A P E)) : Stmt L A P E → Config L A P E
  | .prim f => let (mem, o) := f m.view; ⟨.out o, k, { m with mem := mem }⟩
  | .seq a b => ⟨.run a, .seq b :: k, m⟩
  | .ite c a b => if c m.view then ⟨.run a, k, m⟩ else ⟨.run b, k, m⟩
  | .loop b => ⟨.run b, .loop b :: k, m⟩
  | .call b => ⟨.run b, .call :: k, m⟩
  | .tryCatch b h => ⟨.run b, .tryCatch h :: k, m⟩
  | .save l v b => match m.saveCtor cls l (v m.view) with
    | (.error e, m) => ⟨.out (.thrown e), k, m⟩
    | (.ok g, m) => ⟨.run b, .save g :: k, m⟩
  | .link p b => ⟨.run b, .link m.next :: k, { m with links := m.links.ctor m.next p, next := m.next + 1 }⟩
  | .guard cb b => ⟨.run b, .guard :: k, { m with guards := { callback := some cb, cancelled := false } :: m.guards }⟩
  | .cancel i => ⟨.out .fall, k, { m with guards := m.guards.modify i fun g => { g with cancelled := true } }⟩

/-- A statement has ended with `o`, and the frame is taken off the stack. Destructors: am-raii.h:47-49, 66-69, 91-94. -/
def Mach.finish (cls : Cls A E) (m : Mach L A P E) (k : List (Frame L A P E)) (o : Out E) : Frame L A P E → Next L A P E
  | .seq b => match o with
    | .fall => .next ⟨.run b, k, m⟩
    | _ => .next ⟨.out o, k, m⟩
  | .loop b => match o with
    | .fall => .next ⟨.run (.loop b), k, m⟩
    | .brk => .next ⟨.out .fall, k, m⟩
    | _ => .next ⟨.out o, k, m⟩
  | .call => match o with
    | .ret => .next ⟨.out .fall, k, m⟩
    | _ => .next ⟨.out o, k, m⟩
  | .tryCatch h => match o with
    | .thrown e => .next ⟨.run (h e), k, m⟩
    | _ => .next ⟨.out o, k, m⟩
  | .save g => match m.assign cls g.location g.old with
    | (some _, _) => .final .aborted
    | (none, m) => .next ⟨.out o, k, m⟩
  | .link n => match m.links.dtor n with
    | .error f => .final (.fault f)
    | .ok links => .next ⟨.out o, k, { m with links := links }⟩
  | .guard => match m.guards with
    | [] => .final (.fault .doubleFree)
    | g :: gs =>
      if !g.cancelled then match g.callback with
        | none => .final (.fault .nullDeref)
        | some cb => .next ⟨.run cb, .dtor o :: k, { m with guards := gs }⟩
      else .next ⟨.out o, k, { m with guards := gs }⟩
  | .dtor o' => match o with
    | .thrown _ => .final .aborted
    | _ => .next ⟨.out o', k, m⟩

/-- One step of the machine. -/
def Config.step (cls : Cls A E) (c : Config L A P E) : Next L A P E :=
  match c.ctl with
  | .run s => .next (c.m.begin cls c.k s)
  | .out o => match c.k with
    | [] => .final (.halted o c.m)
    | f :: k => c.m.finish cls k o f

/-- At most `n` steps; `none`: not finished by then. -/
def exec (cls : Cls A E) : Nat → Config L A P E → Option (Final L A P E)
  | 0, _ => none
  | n + 1, c => match c.step cls with
    | .next c => exec cls n c
    | .final f => some f

/-- Running a whole program from memory `mem`. -/
def start (s : Stmt L A P E) (mem : L → A) : Config L A P E :=
  ⟨.run s, [], { mem := mem, links := LState.start, next := 0, guards := [], clock := 0 }⟩

end
end Verif.Raii
