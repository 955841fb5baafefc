import Verif.Str.Model
/-!
# Specifications for `am-string.h`

Independent of the model's loops: what the destination buffer, the pieces and the joined text should be.
-/
namespace Verif.Str

/-- Overwrite the first `bs.length` bytes of a buffer, leave the rest. -/
def overwritten (buffer bs : List Byte) : List Byte := bs ++ buffer.drop bs.length

/-- The buffer holds the C string `s`. -/
def HoldsCStr (buffer s : List Byte) : Prop := 0 ∉ s ∧ ∃ rest, buffer = s ++ 0 :: rest

/-- `s` cut into fields by `sep`, left to right at the first occurrence each time. -/
inductive Fields (sep : List Byte) : List Byte → List (List Byte) → Prop
  | last {s : List Byte} : ¬ sep <:+: s → Fields sep s [s]
  | cons {f r : List Byte} {ps : List (List Byte)} :
      (∀ i < f.length, ¬ sep <+: (f ++ sep ++ r).drop i) → Fields sep r ps →
      Fields sep (f ++ sep ++ r) (f :: ps)

/-- Concatenation with a separator between consecutive pieces. -/
def concatWith (sep : List Byte) (ps : List (List Byte)) : List Byte := (ps.intersperse sep).flatten

/-- ASCII upper case of one byte. -/
def asciiUpper (b : Byte) : Byte := if 97 ≤ b.toNat ∧ b.toNat ≤ 122 then UInt8.ofNat (b.toNat - 32) else b

/-- ASCII lower case of one byte. -/
def asciiLower (b : Byte) : Byte := if 65 ≤ b.toNat ∧ b.toNat ≤ 90 then UInt8.ofNat (b.toNat + 32) else b

end Verif.Str
