import Verif.Maybe.Model
/-!
# `amtl/am-maybe.h` when constructors of `T` throw

Each call comes with a flag: does the constructor of `T` that the call runs (if it runs one) throw? The client catches the exception and goes on. An object whose own
constructor throws does not exist afterwards.
-/
namespace Verif.Maybe
open Verif

variable {V A : Type} [DecidableEq V]

/-- One call in which `T`'s constructor throws if it is reached, and whether it was. `torn` is what a throwing move constructor leaves in its source. am-maybe.h:47-76,
111-133: the exception leaves `init` between :74 and :75, and `moveFrom` between :130 and :131. Simplified: `StorageBuffer` has nothing to undo. -/
def stepThrow (moved torn : A → A) (s : State V A) : Op V A → Exec (State V A × Bool)
  | .ctorNothing v => do .ok (← step moved s (.ctorNothing v), false)
  | .dtor v => do .ok (← step moved s (.dtor v), false)
  | .ctorCopy v w => do
    let p ← s.lookup w
    if p.init then do
      let _ ← readBuf p s.mem
      .ok (s, true)
    else do .ok (← step moved s (.ctorCopy v w), false)
  | .ctorMove v w => do
    let p ← s.lookup w
    if p.init then do
      let _ ← readBuf p s.mem
      .ok (s.set w (some { p with buf := p.buf.map fun (q : Nat × A) => (q.1, torn q.2) }), true)
    else do .ok (← step moved s (.ctorMove v w), false)
  | .init v _ => do
    let o ← s.lookup v
    let m ← clearFor o s.mem
    .ok ({ s with mem := m }, true)
  | .initFrom v w => do
    let o ← s.lookup v
    let p ← s.lookup w
    let _ ← get p s.mem
    let m ← clearFor o s.mem
    let _ ← readBuf p m
    .ok ({ s with mem := m }, true)
  | .assignCopy v w => do
    let o ← s.lookup v
    let s := s.set v (some { o with init := false })
    let p ← s.lookup w
    if p.init then do
      let _ ← readBuf p s.mem
      .ok (s, true)
    else .ok (s, false)
  | .assignMove v w => do
    let o ← s.lookup v
    let s := s.set v (some { o with init := false })
    let p ← s.lookup w
    if p.init then do
      let _ ← readBuf p s.mem
      .ok (s.set w (some { p with buf := p.buf.map fun (q : Nat × A) => (q.1, torn q.2) }), true)
    else .ok (s, false)

/-- One call, with or without an exception: am-maybe.h:47-133. -/
def stepT (moved torn : A → A) (s : State V A) (o : Op V A) (throws : Bool) : Exec (State V A × Bool) :=
  if throws then stepThrow moved torn s o else do .ok (← step moved s o, false)

/-- A client program that catches what the calls throw, and the calls that threw: am-maybe.h:47-133. -/
def runT (moved torn : A → A) : List (Op V A × Bool) → State V A → Exec (State V A × List Bool)
  | [], s => .ok (s, [])
  | o :: os, s => do
    let (s, b) ← stepT moved torn s o.1 o.2
    let (s, bs) ← runT moved torn os s
    .ok (s, b :: bs)

end Verif.Maybe
