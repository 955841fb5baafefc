import Verif.Storage.Model
/-!
# Specification for C97

A type is legal if its alignment is a power of two that divides its (positive) size. An object of type `t`
may live at address `a` inside the bytes `lo .. lo + n` if `a` is a multiple of `t`'s alignment and all its
bytes lie there.
-/
namespace Verif.Storage

/-- What the language guarantees of `sizeof` and `alignof`. -/
def Ty.Legal (t : Ty) : Prop := (∃ k, t.align = 2 ^ k) ∧ t.align ∣ t.size ∧ 0 < t.size

/-- An ABI: pointers of at least four bytes, a power of two; `double` and `uint64_t` aligned to at most their size of eight, and a pointer's size at most their alignment;
`malloc` aligned at least for them. -/
def Abi.Legal (a : Abi) : Prop :=
  (∃ k, a.ptr = 2 ^ k) ∧ (∃ k, a.al64 = 2 ^ k) ∧ (∃ k, a.aldbl = 2 ^ k) ∧ (∃ k, a.malloc = 2 ^ k) ∧
  4 ≤ a.ptr ∧ a.ptr ≤ a.al64 ∧ a.ptr ≤ a.aldbl ∧ a.al64 ≤ 8 ∧ a.aldbl ≤ 8 ∧ 8 ≤ a.malloc

/-- The address suits the type. -/
def Aligned (t : Ty) (addr : Nat) : Prop := addr % t.align = 0

/-- All bytes of an object of type `t` at `addr` lie in the `n` bytes at `lo`. -/
def Inside (t : Ty) (addr lo n : Nat) : Prop := lo ≤ addr ∧ addr + t.size ≤ lo + n

/-- Two ranges of bytes are disjoint. -/
def Apart (a n b m : Nat) : Prop := a + n ≤ b ∨ b + m ≤ a

end Verif.Storage
