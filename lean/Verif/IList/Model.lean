import Verif.Common
/-!
# Model of `amtl/am-inlinelist.h`

Memory: every list `l : L` has a sentinel node, every object `n : N` an `InlineListNode` base. All lists
and objects are alive throughout (the header demands that nodes outlive the lists they are in); a null
`next_`/`prev_` that is dereferenced is `Fault.nullDeref`. `debug` says whether `NDEBUG` is undefined.
-/
namespace Verif.IList
open Verif

variable {L N : Type} [DecidableEq L] [DecidableEq N]

/-- Address of an `InlineListNode`: the sentinel of a list or an object. `head_`, am-inlinelist.h:90, or the base class of an object, 44-75. -/
inductive Addr (L N : Type) where
  | head (l : L)
  | node (n : N)
deriving DecidableEq

/-- `next_`, `prev_`, am-inlinelist.h:73-74. -/
structure Links (L N : Type) where
  next : Option (Addr L N)
  prev : Option (Addr L N)

/-- All nodes, and `length_` (a `size_t`) of every list. am-inlinelist.h:73-74, 90-91. -/
structure State (L N : Type) where
  mem : Addr L N → Links L N
  len : L → BitVec 64

/-- Constructors: nodes are null (am-inlinelist.h:50-53), lists point to themselves
(am-inlinelist.h:99-102). -/
def State.new : State L N where
  mem
    | .head l => { next := some (.head l), prev := some (.head l) }
    | .node _ => { next := none, prev := none }
  len _ := 0

/-- `a->next_ = v`: The stores of am-inlinelist.h:66, 68, 211, 216, 226-227. -/
def setNext (s : State L N) (a : Addr L N) (v : Option (Addr L N)) : State L N :=
  { s with mem := fun b => if b = a then { s.mem b with next := v } else s.mem b }

/-- `a->prev_ = v`: The stores of am-inlinelist.h:67, 69, 212, 217, 225, 228. -/
def setPrev (s : State L N) (a : Addr L N) (v : Option (Addr L N)) : State L N :=
  { s with mem := fun b => if b = a then { s.mem b with prev := v } else s.mem b }

/-- `length_ = v`: am-inlinelist.h:101, 213, 229. -/
def setLen (s : State L N) (l : L) (v : BitVec 64) : State L N :=
  { s with len := fun k => if k = l then v else s.len k }

/-- Use of a pointer value that must not be null. The dereferences in am-inlinelist.h:66-67, 124, 129, 157, 162, 211-212, 227. -/
def nonNull (p : Option (Addr L N)) : Exec (Addr L N) :=
  match p with
  | some a => .ok a
  | none => .error .nullDeref

/-- `isInList`, am-inlinelist.h:60-63. -/
def isInList (debug : Bool) (s : State L N) (n : N) : Exec Bool :=
  if debug = true ∧ (s.mem (.node n)).next.isSome ≠ (s.mem (.node n)).prev.isSome then .error .assertFail
  else .ok (s.mem (.node n)).next.isSome

/-- `prev_->next_ = next_; next_->prev_ = prev_;` (am-inlinelist.h:66-67, 211-212). -/
def unlink (s : State L N) (t : Addr L N) : Exec (State L N) := do
  let p ← nonNull (s.mem t).prev
  let s := setNext s p (s.mem t).next
  let q ← nonNull (s.mem t).next
  .ok (setPrev s q (s.mem t).prev)

/-- `next_ = nullptr; prev_ = nullptr;` (am-inlinelist.h:68-69, 216-217). -/
def nullify (s : State L N) (t : Addr L N) : State L N := setPrev (setNext s t none) t none

/-- `removeFromParentList`, am-inlinelist.h:65-70. -/
def removeFromParentList (s : State L N) (n : N) : Exec (State L N) := do
  let s ← unlink s (.node n)
  .ok (nullify s (.node n))

/-- `remove`, am-inlinelist.h:210-219. -/
def remove (debug : Bool) (s : State L N) (l : L) (t : Addr L N) : Exec (State L N) := do
  let s ← unlink s t
  let s := setLen s l (s.len l - 1)
  if debug then .ok (nullify s t) else .ok s

/-- `append`, am-inlinelist.h:221-230. -/
def append (debug : Bool) (s : State L N) (l : L) (n : N) : Exec (State L N) :=
  if debug = true ∧ (s.mem (.node n)).next.isSome then .error .assertFail
  else if debug = true ∧ (s.mem (.node n)).prev.isSome then .error .assertFail
  else do
    let s := setPrev s (.node n) (s.mem (.head l)).prev
    let s := setNext s (.node n) (some (.head l))
    let p ← nonNull (s.mem (.head l)).prev
    let s := setNext s p (some (.node n))
    let s := setPrev s (.head l) (some (.node n))
    .ok (setLen s l (s.len l + 1))

/-- `empty`, am-inlinelist.h:206-208. -/
def empty (s : State L N) (l : L) : Bool := decide ((s.mem (.head l)).next = some (.head l))

/-- `length`, am-inlinelist.h:232-234. -/
def length (s : State L N) (l : L) : BitVec 64 := s.len l

/-- `begin()` / `rbegin()`, am-inlinelist.h:179-184. The direction `rev` selects the iterator class. -/
def beginIt (rev : Bool) (s : State L N) (l : L) : Option (Addr L N) :=
  if rev then (s.mem (.head l)).prev else (s.mem (.head l)).next

/-- `++` of the iterator classes, am-inlinelist.h:123-131, 156-164. -/
def nextIt (rev : Bool) (s : State L N) (it : Option (Addr L N)) : Exec (Option (Addr L N)) := do
  let a ← nonNull it
  .ok (if rev then (s.mem a).prev else (s.mem a).next)

/-- `erase`, am-inlinelist.h:193-204; the invalidated argument is not modelled further. -/
def erase (debug rev : Bool) (s : State L N) (l : L) (it : Option (Addr L N)) :
    Exec (State L N × Option (Addr L N)) := do
  let next ← nextIt rev s it
  let a ← nonNull it
  let s ← remove debug s l a
  .ok (s, next)

/-- The client loop `for (it = begin(); it != end(); )` that erases the nodes `pick` selects
(`it = list.erase(it)`) and steps over the others; returns the nodes visited. With `pick` constantly
false it is a plain traversal. Dereferencing a sentinel as an object of another list is
`Fault.outOfBounds`. It uses am-inlinelist.h:113-204. -/
def sweepLoop (debug rev : Bool) (pick : N → Bool) (l : L) (s : State L N) (it : Option (Addr L N)) :
    Nat → Exec (State L N × List N)
  | 0 => .error .diverge
  | fuel + 1 =>
    if it = some (.head l) then .ok (s, [])
    else match it with
      | none => .error .nullDeref
      | some (.head _) => .error .outOfBounds
      | some (.node n) =>
        if pick n then do
          let (s, it) ← erase debug rev s l it
          let (s, ns) ← sweepLoop debug rev pick l s it fuel
          .ok (s, n :: ns)
        else do
          let it ← nextIt rev s it
          let (s, ns) ← sweepLoop debug rev pick l s it fuel
          .ok (s, n :: ns)

/-- `~InlineList`, am-inlinelist.h:104-110: `while (begin() != end()) remove(*begin());` in debug
builds. -/
def destroyLoop (s : State L N) (l : L) : Nat → Exec (State L N)
  | 0 => .error .diverge
  | fuel + 1 =>
    if (s.mem (.head l)).next = some (.head l) then .ok s
    else do
      let a ← nonNull (s.mem (.head l)).next
      let s ← remove true s l a
      destroyLoop s l fuel

/-- Destruction of a list followed by construction of a new one in its place. am-inlinelist.h:99-110. -/
def recreate (debug : Bool) (s : State L N) (l : L) (fuel : Nat) : Exec (State L N) := do
  let s ← if debug then destroyLoop s l fuel else .ok s
  .ok (setLen (setPrev (setNext s (.head l) (some (.head l))) (.head l) (some (.head l))) l 0)

end Verif.IList
