import Verif.Bits.Model
import Verif.Flags.Model
import Verif.Raii.Model
import Verif.PQueue.Model
import Verif.Vec.Model
import Verif.Num.Model
/-!
# Conformance of the models with the unit tests of the repository, 1

These are **tests of the models, not proofs of properties**: each replays a unit test of `/repo/tests` on the model of the code it exercises and
checks that the model gives the answers the test expects of the C++. They guard the fidelity of the models: a model on which one of them fails is
not a model of the code that passes the repository's own tests. No property in MANIFEST.json rests on them.
-/
namespace Verif.Conform
open Verif

/-! ## tests/test-bits.cpp -/

-- Multiply
example : Bits.isUint32MultiplySafe 0x80000000#32 1#32 = .ok true := by decide +kernel
example : Bits.isUint32MultiplySafe 0x80000000#32 2#32 = .ok false := by decide +kernel
-- FindLeftmostBit
example : Bits.findLeftmostBit32 0x7f#32 = .ok 6 := by decide +kernel
example : Bits.findLeftmostBit64 0x7f#64 = .ok 6 := by decide +kernel
example : Bits.findLeftmostBit32 0xffffffff#32 = .ok 31 := by decide +kernel
example : Bits.findLeftmostBit64 0xffffffffffffffff#64 = .ok 63 := by decide +kernel
-- FindRightmostBit
example : Bits.findRightmostBit 0x7d#64 = .ok 0 := by decide +kernel
example : Bits.findRightmostBit 0xffffffc0#64 = .ok 6 := by decide +kernel
example : Bits.findRightmostBit 0xfffc000000000000#64 = .ok 50 := by decide +kernel
-- PointerBits, for some address of an `int`
example : Bits.getPointerBits 2 0x7ffc1234#64 = .ok 0#64 := by decide +kernel
example : Bits.setPointerBits 0x7ffc1234#64 3#64 = 0x7ffc1237#64 := by decide +kernel
example : Bits.clearPointerBits 2 (Bits.setPointerBits 0x7ffc1234#64 3#64) = .ok 0x7ffc1234#64 := by decide +kernel

/-! ## tests/test-flags.cpp (`Scoped : uint32_t`) -/

-- The variables of the test, in order.
/-- Part of the replay of tests/test-flags.cpp. -/
def flags0 : Flags.Flags 32 := Flags.Flags.empty
/-- Part of the replay of tests/test-flags.cpp. -/
def flags1 : Flags.Flags 32 := flags0.add false ⟨1#32⟩
/-- Part of the replay of tests/test-flags.cpp. -/
def flags2 : Flags.Flags 32 := flags1.add false ⟨2#32⟩
/-- Part of the replay of tests/test-flags.cpp. -/
def other : Flags.Flags 32 := ⟨Flags.enumOr false 2#32 4#32⟩
/-- Part of the replay of tests/test-flags.cpp. -/
def flags3 : Flags.Flags 32 := flags2.sub false other
/-- Part of the replay of tests/test-flags.cpp. -/
def flags4 : Flags.Flags 32 := flags3.or false other
/-- Part of the replay of tests/test-flags.cpp. -/
def flags5 : Flags.Flags 32 := flags4.and false other

example : flags0.not = true ∧ flags0.toBool = false ∧ flags1.toBool = true := by decide +kernel
example : flags2.ne other = true ∧ other.bits = 6#32 := by decide +kernel
example : flags3.eq ⟨1#32⟩ = true ∧ flags3.bits = 1#32 := by decide +kernel
example : flags4.bits = 7#32 ∧ flags5.bits = 6#32 := by decide +kernel

/-! ## tests/test-raii.cpp -/

/-- The callbacks that have run after a program. -/
def fired (ops : List (Raii.GOp Nat Nat)) : Exec (List Nat) := (Raii.GState.run ops Raii.GState.start).map (·.fired)

-- Invoke
example : fired [.create 1 1, .create 2 2, .destroy 2] = .ok [2] := by decide +kernel
example : fired [.create 1 1, .create 2 2, .destroy 2, .destroy 1] = .ok [1, 2] := by decide +kernel
-- Cancel
example : fired [.create 1 1, .cancel 1, .destroy 1] = .ok [] := by decide +kernel

/-! ## tests/test-priority-queue.cpp -/

/-- `pq.add` of each element in turn. -/
def addAll (v : PQueue.Vec Int) : List Int → Exec (PQueue.Vec Int)
  | [] => .ok v
  | x :: xs => do addAll (← PQueue.add (fun a b => decide (a < b)) v x) xs

/-- `n` calls of `pq.pop()`: the results and whether the queue is empty then. -/
def popAll (v : PQueue.Vec Int) : Nat → Exec (List Int × Bool)
  | 0 => .ok ([], PQueue.empty v)
  | n + 1 => do
    let (x, v) ← PQueue.pop (fun a b => decide (a < b)) v
    let (xs, e) ← popAll v n
    .ok (x :: xs, e)

example : (addAll [] [16, 16, 16, 9, 77, 3] >>= fun v => popAll v 6) = .ok ([3, 9, 16, 16, 16, 77], true) := by decide +kernel

/-! ## tests/test-vector.cpp and tests/test-deque.cpp -/

-- Vector.Ints
example : Vec.popBack (fun x : Int => x) [1, 2, 3, 4, 5] = .ok (5, [1, 2, 3, 4]) := by decide +kernel
example : Vec.popBack (fun x : Int => x) [1, 2, 3, 4] = .ok (4, [1, 2, 3]) := by decide +kernel
example : (do Vec.insertAt (← Vec.insertAt (← Vec.insertAt [1, 2, 3] 0 (88 : Int)) 0 99) 4 111) = .ok [99, 88, 1, 2, 111, 3] := by decide +kernel
example : (do Vec.removeAt (← Vec.removeAt [(99 : Int), 88, 1, 2, 111, 3] 5) 0) = .ok [88, 1, 2, 111] := by decide +kernel
-- Vector.InsertAtEnd
example : Vec.insertAt [] 0 (555 : Int) = .ok [555] := by decide +kernel
-- Vector.EraseIf
example : (Vec.eraseIf (fun x : Int => x) (fun i => i % 2 == 0) [1, 2, 3, 4, 5]).map Prod.fst = .ok [1, 3, 5] := by decide +kernel
-- Vector.MoveDuringInsert: with moved-from elements marked `true`, nothing in the vector is moved from
example : Vec.insertAt (List.replicate 8 false) 0 false = .ok (List.replicate 9 false) := by decide +kernel
-- Deque.Basic, after `pop_back` and `pop_front`
example : Vec.popFront (fun x : Int => x) [6, 5, 4, 0, 1, 2] = .ok (6, [5, 4, 0, 1, 2]) := by decide +kernel
example : Vec.popBack (fun x : Int => x) [5, 4, 0, 1, 2] = .ok (2, [5, 4, 0, 1]) := by decide +kernel

/-- `n` calls of `PopBack`. -/
def popBacks (v : List Nat) : Nat → Exec (List Nat × List Nat)
  | 0 => .ok ([], v)
  | n + 1 => do
    let (x, v) ← Vec.popBack id v
    let (xs, v) ← popBacks v n
    .ok (x :: xs, v)
/-- `n` calls of `PopFront`. -/
def popFronts (v : List Nat) : Nat → Exec (List Nat × List Nat)
  | 0 => .ok ([], v)
  | n + 1 => do
    let (x, v) ← Vec.popFront id v
    let (xs, v) ← popFronts v n
    .ok (x :: xs, v)

-- Deque.Resize: 387 `push_front`s and 293 `push_back`s
example : popBacks ((List.range 387).reverse ++ List.range 293) 293 = .ok ((List.range 293).reverse, (List.range 387).reverse) := by decide +kernel
example : popFronts (List.range 387).reverse 387 = .ok ((List.range 387).reverse, []) := by decide +kernel

/-! ## tests/test-time.cpp (nanosecond system clock) -/

example : Num.timespecToTimePoint 1 100 500000 = Num.timespecToDuration 100 500000 := by decide +kernel
example : (Num.timespecToTimePoint 1 100 500000).map (fun t => Int.tdiv t 1000000000) = .ok 100 := by decide +kernel

end Verif.Conform
