import Verif.FixedArray.Model
/-!
# `amtl/am-fixedarray.h` when constructors of `T` throw

Each call comes with a number `k`: the element constructor the call runs for index `k` throws (if the call gets so far). The client catches the exception and goes on. A
`FixedArray` whose own constructor is left by an exception does not exist afterwards, and its destructor is not run.
-/
namespace Verif.FixedArray
open Verif

variable {V A : Type} [DecidableEq V]

/-- A loop over the elements that is left by an exception at index `k`; whether it was. `pre` is what happens at index `k` before the constructor throws. am-fixedarray.h:49-50,
55-56, 71-72, 80-81, 133-134. -/
def loopThrow (k n : Nat) (body : Mem A → Nat → Exec (Mem A)) (pre : Mem A → Exec Unit) (m : Mem A) : Exec (Mem A × Bool) := do
  let m ← (List.range (min k n)).foldlM body m
  if k < n then do
    pre m
    .ok (m, true)
  else .ok (m, false)

/-- The end of a constructor, am-fixedarray.h:46-82: without an exception the array exists. -/
def ended (s : State V A) (v : V) (x : Arr) (r : Mem A × Bool) : State V A × Bool :=
  if r.2 then ({ s with mem := r.1 }, true) else (({ s with mem := r.1 }).set v (some x), false)

/-- `other[i]` is bound to the parameter of the copy constructor and read there: am-fixedarray.h:56, 134. -/
def touch (other : Arr) (k : Nat) (m : Mem A) : Exec Unit := do
  let _ ← at' m other k
  .ok ()

/-- One call in which the element constructor for index `k` throws, am-fixedarray.h:44-87, 97-110, 126-143. -/
def stepThrow (c : Cfg) (k : Nat) (s : State V A) : Op V A → Exec (State V A × Bool)
  | .ctorSize v n a => do
    let (x, good, m) ← allocate c s.mem n
    let r ← if good then loopThrow k x.size (fun m i => construct m x.data i a) (fun _ => .ok ()) m else .ok (m, false)
    .ok (ended s v x r)
  | .ctorCopy v w => do
    let y ← s.lookup w
    let (x, good, m) ← allocate c s.mem y.size
    let r ← if good then loopThrow k x.size (fun m i => do construct m x.data i (← at' m y i)) (touch y k) m else .ok (m, false)
    .ok (ended s v x r)
  | .ctorVector v l => do
    let (x, good, m) ← allocate c s.mem l.length
    let r ← if good then loopThrow k x.size (fun m i => putFrom m x.data l i) (fun _ => .ok ()) m else .ok (m, false)
    .ok (ended s v x r)
  | .assignCopy v w => do
    let x ← s.lookup v
    let y ← s.lookup w
    let m ← destruct s.mem x
    if x.size ≠ y.size then do
      let m ← deallocate m x
      let (x', good, m) ← allocate c m y.size
      let r ← if good then loopThrow k x'.size (fun m i => do construct m x'.data i (← at' m y i)) (touch y k) m else .ok (m, false)
      .ok (({ s with mem := r.1 }).set v (some x'), r.2)
    else do
      let r ← loopThrow k x.size (fun m i => do construct m x.data i (← at' m y i)) (touch y k) m
      .ok (({ s with mem := r.1 }).set v (some x), r.2)
  | o => do .ok (← step c s o, false)

/-- One call, with or without a constructor that throws: am-fixedarray.h:44-143. -/
def stepT (c : Cfg) (s : State V A) (o : Op V A) : Option Nat → Exec (State V A × Bool)
  | none => do .ok (← step c s o, false)
  | some k => stepThrow c k s o

/-- A client program that catches what the calls throw, and which calls threw: am-fixedarray.h:44-143. -/
def runT (c : Cfg) : List (Op V A × Option Nat) → State V A → Exec (State V A × List Bool)
  | [], s => .ok (s, [])
  | o :: os, s => do
    let (s, b) ← stepT c s o.1 o.2
    let (s, bs) ← runT c os s
    .ok (s, b :: bs)

end Verif.FixedArray
