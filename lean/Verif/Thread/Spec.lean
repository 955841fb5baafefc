import Verif.Thread.Model
/-!
# Specification for C98
-/
namespace Verif.Thread

/-- Is the event about thread `i`? -/
def Event.about (i : Nat) : Event → Bool
  | .spawn j _ _ _ => j == i
  | .naming j _ => j == i
  | .call j _ _ => j == i

/-- A world in which nothing was started. -/
def Fresh (w : World) : Prop := w.children = [] ∧ w.trace = [] ∧ w.leaked = 0

/-- The values passed on match the arguments given: those given by value are the values at the time of `NewThread`, the others whatever the object is when called. -/
inductive Matches : List Bound → List (List Byte) → Prop
  | nil : Matches [] []
  | val {as vs} (v : List Byte) : Matches as vs → Matches (.val v :: as) (v :: vs)
  | ref {as vs} (a : Nat) (v : List Byte) : Matches as vs → Matches (.ref a :: as) (v :: vs)

/-- What the caller's memory held for the arguments of `NewThread`. -/
inductive Taken (mem : Nat → Option (List Byte)) : List ArgExpr → List Bound → Prop
  | nil : Taken mem [] []
  | obj {as bs a v} : mem a = some v → Taken mem as bs → Taken mem (.obj a :: as) (.val v :: bs)
  | ref {as bs} (a : Nat) : Taken mem as bs → Taken mem (.ref a :: as) (.ref a :: bs)

/-- What a call passes, given the memory at that time. -/
inductive Passed (mem : Nat → Option (List Byte)) : List Bound → List (List Byte) → Prop
  | nil : Passed mem [] []
  | val {as vs} (v : List Byte) : Passed mem as vs → Passed mem (.val v :: as) (v :: vs)
  | ref {as vs a v} : mem a = some v → Passed mem as vs → Passed mem (.ref a :: as) (v :: vs)

/-- The name the system should have: the one requested. -/
def Wanted (name : List Byte) : Platform → OsName → Prop
  | .windows _ _ decode, os => ∃ w, decode name = some w ∧ os = .windows w
  | _, os => os = .posix name

end Verif.Thread
