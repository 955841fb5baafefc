/-! # Specification of text editing -/
namespace Verif.Rewriter

/-- What a user of the rewriter asks for: the bytes from `start` up to `stop` are to become `text`. -/
structure Edit where
  start : Nat
  stop : Nat
  text : List UInt8
deriving DecidableEq

/-- One edit of a text. -/
def Edit.apply (e : Edit) (t : List UInt8) : List UInt8 := t.take e.start ++ e.text ++ t.drop e.stop

/-- Edits listed from left to right are carried out from the right, so that none moves the text the others refer to. -/
def applyAll (edits : List Edit) (t : List UInt8) : List UInt8 := edits.foldr Edit.apply t

/-- The edits, from left to right, do not overlap, and stay within a text of length `n`. -/
def Disjoint (n : Nat) : List Edit → Prop
  | [] => True
  | [e] => e.start ≤ e.stop ∧ e.stop ≤ n
  | e :: f :: r => e.start ≤ e.stop ∧ e.stop ≤ f.start ∧ Disjoint n (f :: r)

end Verif.Rewriter
