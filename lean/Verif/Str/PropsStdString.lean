import Verif.Str.Props
/-!
# C132: `Split` on a `std::string`
-/
namespace Verif.Str
open Verif

/-- C132 in full: joining the pieces of any `std::string` gives the string back. -/
def SplitStringInverse : Prop :=
  ∀ (debug : Bool) (str sep : List Byte), sep ≠ [] → str.length < 2 ^ 64 →
    ∃ ps, splitString debug str sep = .ok ps ∧ join ps sep = .ok str

/-- C132 is false of the code: the `std::string` overload passes `str.c_str()`, so everything from an
embedded NUL on is lost: `Split("a\0b"s, ",")` is `{"a"}`. -/
theorem C132_split_string_refuted : ¬ SplitStringInverse := by
  intro h
  obtain ⟨ps, h1, h2⟩ := h false [97, 0, 98] [44] (by decide) (by decide)
  have e : splitString false [97, 0, 98] [44] = split false [97] [44] := rfl
  rw [e] at h1
  obtain ⟨qs, h3, h4⟩ := C32_join_split false [97] [44] (by decide) (by decide)
  rw [h3] at h1
  cases h1
  rw [h4] at h2
  cases h2

/-- C132, what does hold (missing: strings with an embedded NUL): the pieces are those of the text before
the first NUL; joining them gives that text, and gives the whole string when it has no NUL. -/
theorem C132_split_string_partial (debug : Bool) (text rest sep : List Byte) (hsep : sep ≠ [])
    (hnul : 0 ∉ text) (hlen : text.length < 2 ^ 64) :
    (∃ ps, splitString debug text sep = .ok ps ∧ join ps sep = .ok text ∧ ∀ p ∈ ps, ¬ sep <:+: p) ∧
    splitString debug (text ++ 0 :: rest) sep = splitString debug text sep := by
  have e0 : ∀ r, (text ++ r).takeWhile (· ≠ 0) = text ++ r.takeWhile (· ≠ (0 : Byte)) := by
    intro r
    rw [List.takeWhile_append_of_pos]
    intro a ha
    simp only [decide_eq_true_eq, ne_eq]
    rintro rfl; exact hnul ha
  have e1 : text.takeWhile (· ≠ (0 : Byte)) = text := by simpa using e0 []
  have e2 : (text ++ 0 :: rest).takeWhile (· ≠ (0 : Byte)) = text := by
    rw [e0]; simp
  refine ⟨?_, ?_⟩
  · obtain ⟨ps, h1, h2⟩ := C32_join_split debug text sep hsep hlen
    obtain ⟨qs, h3, -, -, h4⟩ := C33_split_fields debug text sep hsep
    rw [h1] at h3; cases h3
    exact ⟨ps, by rw [splitString, e1]; exact h1, h2, h4⟩
  · rw [splitString, splitString, e1, e2]

example : splitString true [97, 44, 98] [44] = .ok [[97], [98]] ∧ (0 : Byte) ∉ [97, 44, 98] := by
  refine ⟨?_, by decide⟩
  rw [splitString, split, dif_neg (by decide)]
  decide +kernel

end Verif.Str
