import Verif.Str.Locale
import Verif.Str.PropsCase
/-!
# C154: case conversion in any locale
-/
namespace Verif.Str
open Verif

/-- C154 in full, for a platform: in every locale the conversion changes each byte as that locale says. -/
def LocaleCorrect (signed : Bool) : Prop := ∀ (tab : CaseTable) (s : List Byte), convert signed tab s = .ok (s.map tab)

theorem ctype_ascii (signed : Bool) (tab : CaseTable) (b : Byte) (h : signed = false ∨ b.toNat < 128) :
    ctype tab (charVal signed b) = .ok (tab b).toNat := by
  have hb : b.toNat < 256 := b.toNat_lt
  have hv : charVal signed b = (b.toNat : Int) := by
    rcases h with h | h
    · simp [charVal, h]
    · simp [charVal, charToInt, h]
  rw [hv, ctype, if_neg (by omega), if_pos (by omega)]
  simp

theorem ctype_high (tab : CaseTable) (b : Byte) (h : 128 ≤ b.toNat) :
    ctype tab (charVal true b) = if b.toNat = 255 then .ok (-1) else .error .badBuiltin := by
  have hb : b.toNat < 256 := b.toNat_lt
  have hv : charVal true b = (b.toNat : Int) - 256 := by simp [charVal, charToInt, show ¬ b.toNat < 128 by omega]
  rw [hv, ctype]
  by_cases h5 : b.toNat = 255
  · rw [if_pos (by omega), if_pos h5]
  · rw [if_neg (by omega), if_neg (by omega), if_neg h5]

theorem intToChar_toNat (b : Byte) : intToChar (b.toNat : Int) = b := by
  have hb : b.toNat < 256 := b.toNat_lt
  simp only [intToChar]
  rw [Int.emod_eq_of_lt (by omega) (by omega)]
  simp

/-- Exactly what the conversions do, on every platform, in every locale, for every string. Where `char` is unsigned they are always
defined and follow the locale. Where it is signed they are defined exactly if all bytes are ASCII or 255, and then follow the locale
on ASCII and leave 255 alone, whatever the locale says about it. -/
theorem C154_exact (signed : Bool) (tab : CaseTable) (s : List Byte) :
    convert signed tab s =
      if signed = true ∧ ∃ b ∈ s, 128 ≤ b.toNat ∧ b.toNat ≠ 255 then .error .badBuiltin
      else .ok (s.map fun b => if signed = true ∧ b.toNat = 255 then b else tab b) := by
  induction s with
  | nil => simp [convert]
  | cons b s ih =>
    simp only [convert, bind, Except.bind, ih]
    by_cases hlow : signed = false ∨ b.toNat < 128
    · rw [ctype_ascii signed tab b hlow]
      have h1 : ¬ (signed = true ∧ b.toNat = 255) := by
        rintro ⟨h, h'⟩; rcases hlow with hl | hl
        · rw [hl] at h; cases h
        · omega
      by_cases hs : signed = true ∧ ∃ b ∈ s, 128 ≤ b.toNat ∧ b.toNat ≠ 255
      · obtain ⟨h, x, hx, hb⟩ := hs
        rw [if_pos ⟨h, x, hx, hb⟩, if_pos ⟨h, x, List.mem_cons_of_mem _ hx, hb⟩]
      · rw [if_neg hs, if_neg]
        · simp [intToChar_toNat, h1]
        · rintro ⟨h, x, hx, hb⟩
          rcases List.mem_cons.1 hx with rfl | hx
          · rcases hlow with hl | hl
            · rw [hl] at h; cases h
            · omega
          · exact hs ⟨h, x, hx, hb⟩
    · have hsg : signed = true := by cases signed <;> simp_all
      have hhi : 128 ≤ b.toNat := by
        have : ¬ b.toNat < 128 := fun h => hlow (.inr h)
        omega
      subst hsg
      rw [ctype_high tab b hhi]
      by_cases h5 : b.toNat = 255
      · rw [if_pos h5]
        have e5 : b = 255 := by
          have := UInt8.ofNat_toNat (x := b); rw [h5] at this; rw [← this]; rfl
        by_cases hs : true = true ∧ ∃ b ∈ s, 128 ≤ b.toNat ∧ b.toNat ≠ 255
        · obtain ⟨_, x, hx, hb⟩ := hs
          rw [if_pos ⟨rfl, x, hx, hb⟩, if_pos ⟨rfl, x, List.mem_cons_of_mem _ hx, hb⟩]
        · rw [if_neg hs, if_neg]
          · subst e5; rfl
          · rintro ⟨_, x, hx, hb⟩
            rcases List.mem_cons.1 hx with rfl | hx
            · exact hb.2 h5
            · exact hs ⟨rfl, x, hx, hb⟩
      · rw [if_neg h5]
        show Except.error _ = _
        rw [if_pos ⟨rfl, b, List.mem_cons_self, hhi, h5⟩]

/-- Where `char` is unsigned the property holds. -/
theorem C154_unsigned : LocaleCorrect false := fun tab s => by
  rw [C154_exact, if_neg (by simp)]; simp

/-- Where `char` is signed it does not: a Latin-1 letter reaches `toupper` as a negative number. -/
theorem C154_refuted : ¬ LocaleCorrect true := fun h => by
  have := h id [0xE9]
  rw [C154_exact, if_pos ⟨rfl, 0xE9, by simp, by decide, by decide⟩] at this
  cases this

/-- What holds on every platform and in every locale (missing: strings with bytes above 127 where `char` is signed): on ASCII text
the conversion is the locale's, byte by byte. -/
theorem C154_ascii_partial (signed : Bool) (tab : CaseTable) (s : List Byte) (h : ∀ b ∈ s, b.toNat < 128) :
    convert signed tab s = .ok (s.map tab) := by
  rw [C154_exact, if_neg]
  · congr 1
    refine List.map_congr_left fun b hb => ?_
    rw [if_neg]; rintro ⟨_, h'⟩; have := h b hb; omega
  · rintro ⟨_, b, hb, h', _⟩; have := h b hb; omega

/-- When a conversion returns, the string has kept its length, on every platform and in every locale. -/
theorem C154_length (signed : Bool) (tab : CaseTable) (s r : List Byte) (h : convert signed tab s = .ok r) : r.length = s.length := by
  rw [C154_exact] at h
  by_cases hc : signed = true ∧ ∃ b ∈ s, 128 ≤ b.toNat ∧ b.toNat ≠ 255
  · rw [if_pos hc] at h; cases h
  · rw [if_neg hc] at h; cases h; simp

/-- Converting twice is converting once, if the locale's table is idempotent. -/
theorem C154_idempotent (signed : Bool) (tab : CaseTable) (ht : ∀ b, tab (tab b) = tab b) (s r : List Byte)
    (h : convert signed tab s = .ok r) (h' : convert signed tab r ≠ .error .badBuiltin) : convert signed tab r = .ok r := by
  rw [C154_exact] at h h' ⊢
  by_cases hc : signed = true ∧ ∃ b ∈ s, 128 ≤ b.toNat ∧ b.toNat ≠ 255
  · rw [if_pos hc] at h; cases h
  rw [if_neg hc] at h
  by_cases hr : signed = true ∧ ∃ b ∈ r, 128 ≤ b.toNat ∧ b.toNat ≠ 255
  · rw [if_pos hr] at h'; exact absurd rfl h'
  rw [if_neg hr]
  cases h
  rw [List.map_map]
  congr 1
  refine List.map_congr_left fun b hb => ?_
  show (if signed = true ∧ (if signed = true ∧ b.toNat = 255 then b else tab b).toNat = 255 then _ else tab (if signed = true ∧ b.toNat = 255 then b else tab b)) = _
  by_cases h5 : signed = true ∧ b.toNat = 255
  · rw [if_pos h5, if_pos ⟨h5.1, h5.2⟩]
  · rw [if_neg h5, ht]; simp

/-- In the C locale this is the conversion of C36; so where `char` is unsigned, C36 holds for every string. -/
theorem C154_c_locale (s : List Byte) :
    convert true asciiUpper s = uppercase s ∧ convert true asciiLower s = lowercase s ∧
    convert false asciiUpper s = .ok (s.map asciiUpper) ∧ convert false asciiLower s = .ok (s.map asciiLower) := by
  have key : ∀ (f : CaseTable), (∀ b : Byte, b.toNat = 255 → f b = b) →
      convert true f s = if ∀ b ∈ s, CaseByte b then .ok (s.map f) else .error .badBuiltin := by
    intro f hf
    rw [C154_exact]
    by_cases hc : ∀ b ∈ s, CaseByte b
    · rw [if_pos hc, if_neg]
      · congr 1
        refine List.map_congr_left fun b hb => ?_
        by_cases h5 : b.toNat = 255
        · rw [if_pos ⟨rfl, h5⟩, hf b h5]
        · rw [if_neg (fun h => h5 h.2)]
      · rintro ⟨_, b, hb, h1, h2⟩
        rcases hc b hb with h | h
        · omega
        · exact h2 h
    · rw [if_neg hc, if_pos]
      refine ⟨rfl, ?_⟩
      apply Classical.byContradiction
      intro hn
      refine hc fun b hb => ?_
      by_cases h1 : b.toNat < 128
      · exact .inl h1
      · refine .inr (Classical.byContradiction fun h2 => hn ⟨b, hb, by omega, h2⟩)
  refine ⟨?_, ?_, C154_unsigned _ s, C154_unsigned _ s⟩
  · rw [key asciiUpper (fun b h => by simp [asciiUpper, h]), (C36_case_exact s).1]
  · rw [key asciiLower (fun b h => by simp [asciiLower, h]), (C36_case_exact s).2]

-- Concrete cases: Latin-1 "é" (0xE9) with its capital 0xC9; KOI8-R 0xFF, whose small letter is 0xDF.
example : convert false (fun b => if b = 0xE9 then 0xC9 else asciiUpper b) [97, 0xE9] = .ok [65, 0xC9] := by decide
example : convert true (fun b => if b = 0xE9 then 0xC9 else asciiUpper b) [97, 0xE9] = .error .badBuiltin := by decide
example : convert true (fun b => if b = 0xFF then 0xDF else asciiLower b) [65, 0xFF] = .ok [97, 0xFF] := by decide

end Verif.Str
