import Verif.Common
/-!
# Model: which allocation policy the containers use

The containers derive from their `AllocPolicy`, an object that may have state (an arena, a counter, a fallible allocator). Here a
policy object is represented by the arena `A` it stands for; copying or moving it gives a policy for the same arena. `dflt n` is the arena of the
`n`-th policy made by `AllocPolicy()`. Sizes, contents and failures are the subject of other models (`Verif.HashTable`,
`Verif.FixedArray`); here only who is asked for memory, and to whom it is given back.
-/
namespace Verif.Alloc
open Verif

variable {V A : Type} [DecidableEq V]

/-- A call of the policy. am-hashtable.h:156, 278, 406; am-fixedarray.h:161, 169. -/
inductive Event (V A : Type) where
  /-- `am_malloc` of a policy for arena `a`, on behalf of `v` -/
  | alloc (v : V) (a : A)
  /-- `am_free` of a policy for arena `a`, on memory that came from arena `b` -/
  | free (v : V) (a b : A)

/-! ## `HashTable`, am-hashtable.h:131-553, and its wrappers `HashMap` and `HashSet` -/

/-- A `HashTable`: its policy (base class, am-hashtable.h:132) and the arena `table_` came from, if it is not null (551). -/
structure Tab (A : Type) where
  pol : A
  buf : Option A

/-- A container variable: a `HashTable`, or a `HashMap`/`HashSet` with a policy of its own (am-hashmap.h:51, am-hashset.h:48)
besides that of `table_` (am-hashmap.h:173, am-hashset.h:156). -/
inductive Box (A : Type) where
  | table (t : Tab A)
  | wrapper (base : A) (t : Tab A)

/-- The table inside. am-hashmap.h:173, am-hashset.h:156. -/
def Box.tab : Box A → Tab A
  | .table t => t
  | .wrapper _ t => t

/-- Bookkeeping: the same container with another state of its table. am-hashmap.h:173, am-hashset.h:156. -/
def Box.setTab : Box A → Tab A → Box A
  | .table _, t => .table t
  | .wrapper b _, t => .wrapper b t

/-- `allocPolicy()`: am-hashtable.h:486-491, am-hashmap.h:165-170, am-hashset.h:148-153 (`*this`). -/
def Box.allocPolicy : Box A → A
  | .table t => t.pol
  | .wrapper b _ => b

/-- Containers, the calls so far (latest first) and the number of policies made by `AllocPolicy()`. -/
structure State (V A : Type) where
  vars : V → Option (Box A)
  log : List (Event V A)
  made : Nat

/-- No containers (client state for am-hashtable.h:131-553). -/
def State.new : State V A := { vars := fun _ => none, log := [], made := 0 }

/-- What a client does. am-hashtable.h:378-491, am-hashmap.h:93-170, am-hashset.h:67-153. -/
inductive Op (V A : Type) where
  /-- `HashTable<..., A> v(ap);`, am-hashtable.h:379-386 -/
  | newTable (v : V) (ap : A)
  /-- `HashMap<..., A> v(ap);`, am-hashmap.h:93-95, am-hashset.h:67-69 -/
  | newWrapper (v : V) (ap : A)
  /-- `init()`, or an operation that changes the capacity: memory is obtained, and the old memory, if any, given back
  (am-hashtable.h:156, 255-281, 422) -/
  | obtain (v : V)
  /-- move construction, am-hashtable.h:388-401, am-hashmap.h:97-99, am-hashset.h:71-73 -/
  | move (v w : V)
  /-- `v.allocPolicy() = a;` -/
  | setPolicy (v : V) (a : A)
  /-- the end of `v`, am-hashtable.h:403-407 -/
  | destroy (v : V)

/-- Bookkeeping: a member of am-hashtable.h:378-491 changes its container. -/
def State.set (s : State V A) (v : V) (x : Option (Box A)) : State V A := { s with vars := fun k => if k = v then x else s.vars k }

/-- `am_free(table_)` (am-hashtable.h:278, 406); nothing happens for null. -/
def freed (v : V) (t : Tab A) : List (Event V A) :=
  match t.buf with
  | none => []
  | some b => [.free v t.pol b]

/-- One step. am-hashtable.h:378-491, am-hashmap.h:93-170, am-hashset.h:67-153. -/
def step (dflt : Nat → A) (s : State V A) : Op V A → Exec (State V A)
  | .newTable v ap => .ok (s.set v (some (.table { pol := ap, buf := none })))
  -- the base class `AllocPolicy` is not mentioned in the initialiser list
  | .newWrapper v ap => .ok { s.set v (some (.wrapper (dflt s.made) { pol := ap, buf := none })) with made := s.made + 1 }
  | .obtain v => match s.vars v with
    | none => .error .useAfterFree
    | some x =>
      let t := x.tab
      .ok { s.set v (some (x.setTab { t with buf := some t.pol })) with log := freed v t ++ .alloc v t.pol :: s.log }
  | .move v w => match s.vars w with
    | none => .error .useAfterFree
    | some x =>
      let t := x.tab
      let s := s.set w (some (x.setTab { t with buf := none }))
      match x with
      | .table _ => .ok (s.set v (some (.table t)))
      | .wrapper _ _ => .ok { s.set v (some (.wrapper (dflt s.made) t)) with made := s.made + 1 }
  | .setPolicy v a => match s.vars v with
    | none => .error .useAfterFree
    | some (.table t) => .ok (s.set v (some (.table { t with pol := a })))
    | some (.wrapper _ t) => .ok (s.set v (some (.wrapper a t)))
  | .destroy v => match s.vars v with
    | none => .error .doubleFree
    | some x => .ok { s.set v none with log := freed v x.tab ++ s.log }

/-- A history. am-hashtable.h:378-491, am-hashmap.h:93-170, am-hashset.h:67-153. -/
def run (dflt : Nat → A) (s : State V A) : List (Op V A) → Exec (State V A)
  | [] => .ok s
  | o :: os => do run dflt (← step dflt s o) os

/-! ## `FixedArray`, am-fixedarray.h:40-175 -/

/-- Client state: the arrays by variable, each with its policy (base class, am-fixedarray.h:41) and the arena `data_` (174) came
from, if it is not null. -/
structure FState (V A : Type) where
  vars : V → Option (Tab A)
  log : List (Event V A)
  made : Nat

/-- No arrays (client state for am-fixedarray.h:40-175). -/
def FState.new : FState V A := { vars := fun _ => none, log := [], made := 0 }

/-- Members of am-fixedarray.h:44-143. -/
inductive FOp (V A : Type) where
  /-- `FixedArray()`, am-fixedarray.h:44-45 -/
  | ctor (v : V)
  /-- `FixedArray(n, ap)`, am-fixedarray.h:46-51; also the copy and vector constructors, 52-57, 66-82, which take no policy -/
  | ctorSize (v : V) (ap : A)
  /-- `FixedArray(FixedArray&&)`, am-fixedarray.h:59-64 -/
  | ctorMove (v w : V)
  /-- `operator=(const FixedArray&)` with another size, am-fixedarray.h:126-136 -/
  | assignCopy (v : V)
  /-- `operator=(FixedArray&&)`, am-fixedarray.h:137-143 -/
  | assignMove (v w : V)
  /-- `~FixedArray`, am-fixedarray.h:84-87 -/
  | dtor (v : V)

/-- Bookkeeping: a member of am-fixedarray.h:44-143 changes its array. -/
def FState.set (s : FState V A) (v : V) (x : Option (Tab A)) : FState V A := { s with vars := fun k => if k = v then x else s.vars k }

/-- One step. am-fixedarray.h:44-143. No constructor names the base class, so every array starts with a policy made by `AllocPolicy()`;
the parameter at :46 has no name and is not used. -/
def fstep (dflt : Nat → A) (s : FState V A) : FOp V A → Exec (FState V A)
  | .ctor v => .ok { s.set v (some { pol := dflt s.made, buf := none }) with made := s.made + 1 }
  | .ctorSize v _ =>
    .ok { s.set v (some { pol := dflt s.made, buf := some (dflt s.made) }) with made := s.made + 1, log := .alloc v (dflt s.made) :: s.log }
  | .ctorMove v w => match s.vars w with
    | none => .error .useAfterFree
    | some t => .ok { (s.set w (some { t with buf := none })).set v (some { pol := dflt s.made, buf := t.buf }) with made := s.made + 1 }
  | .assignCopy v => match s.vars v with
    | none => .error .useAfterFree
    | some t => .ok { s.set v (some { t with buf := some t.pol }) with log := .alloc v t.pol :: freed v t ++ s.log }
  | .assignMove v w => match s.vars v, s.vars w with
    | some tv, some tw =>
      -- `data_ = other.data_; other.data_ = nullptr;`
      .ok ((s.set v (some { tv with buf := tw.buf })).set w (some { (if w = v then { tv with buf := tw.buf } else tw) with buf := none }))
    | _, _ => .error .useAfterFree
  | .dtor v => match s.vars v with
    | none => .error .doubleFree
    | some t => .ok { s.set v none with log := freed v t ++ s.log }

/-- A history. am-fixedarray.h:44-143. -/
def frun (dflt : Nat → A) (s : FState V A) : List (FOp V A) → Exec (FState V A)
  | [] => .ok s
  | o :: os => do frun dflt (← fstep dflt s o) os

end Verif.Alloc
