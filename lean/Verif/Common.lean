/-!
# Outcomes shared by all models

The C++ code can do more than return: it can run into undefined behaviour, fail an assertion, abort
or loop for ever.  Each of these is a separate outcome of the models, never assumed away.
-/
namespace Verif

/-- The ways an execution of the modelled C++ can go wrong. -/
inductive Fault where
  /-- an `assert` failed (asserts are modelled as enabled unless a definition takes a build flag) -/
  | assertFail
  /-- dereference of a null pointer -/
  | nullDeref
  /-- read or write outside an object -/
  | outOfBounds
  /-- access to a destroyed or freed object -/
  | useAfterFree
  /-- destruction or release of something already destroyed or freed -/
  | doubleFree
  /-- construction on top of an object that is still alive -/
  | overwriteLive
  /-- read of storage that holds no object or an indeterminate value -/
  | uninitialised
  /-- signed integer overflow or an invalid shift of a signed value -/
  | signedOverflow
  /-- compiler builtin called outside its domain (`__builtin_clz(0)`, ...), or library precondition -/
  | badBuiltin
  /-- integer division by zero -/
  | divZero
  /-- the loop never terminates -/
  | diverge
  /-- the program called `abort()` -/
  | abort
  /-- conversion of an integer to an enumeration whose range does not contain it -/
  | badEnum
deriving DecidableEq, Repr

/-- An execution: a value, or a fault. -/
abbrev Exec (α : Type _) := Except Fault α

/-- Outcomes can be compared (used by concrete examples). -/
instance instDecidableEqExec {α : Type} [DecidableEq α] : DecidableEq (Exec α)
  | .ok a, .ok b => if h : a = b then isTrue (by rw [h]) else isFalse (fun e => h (by injection e))
  | .error a, .error b => if h : a = b then isTrue (by rw [h]) else isFalse (fun e => h (by injection e))
  | .ok _, .error _ => isFalse (fun e => by cases e)
  | .error _, .ok _ => isFalse (fun e => by cases e)

end Verif
