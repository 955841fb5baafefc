import Verif.Str.Props
/-!
# C36: exactly which strings the case conversions are defined for
-/
namespace Verif.Str
open Verif

/-- Bytes that reach `toupper` as a value it accepts: ASCII, and 255, which becomes `EOF`. -/
def CaseByte (b : Byte) : Prop := b.toNat < 128 ∨ b.toNat = 255

instance (b : Byte) : Decidable (CaseByte b) := by unfold CaseByte; infer_instance

theorem mapChars_exact (f : Int → Exec Int) (g : Byte → Byte)
    (h : ∀ b, (CaseByte b → ∃ i, f (charToInt b) = .ok i ∧ intToChar i = g b) ∧
      (¬ CaseByte b → f (charToInt b) = .error .badBuiltin)) (s : List Byte) :
    mapChars f s = if ∀ b ∈ s, CaseByte b then .ok (s.map g) else .error .badBuiltin := by
  induction s with
  | nil => rfl
  | cons b s ih =>
    simp only [mapChars, bind, Except.bind]
    by_cases hb : CaseByte b
    · obtain ⟨i, h1, h2⟩ := (h b).1 hb
      rw [h1, ih]
      by_cases hs : ∀ x ∈ s, CaseByte x
      · rw [if_pos hs, if_pos (by simpa [hb] using hs)]
        simp [h2]
      · rw [if_neg hs, if_neg (by simpa [hb] using hs)]
    · rw [(h b).2 hb, if_neg (fun hh => hb (hh b (by simp)))]

/-- C36, exactly: the conversions are defined if every byte is ASCII or 255, and then change exactly the
ASCII letters of the other case; on any other string they call `toupper`/`tolower` with an argument
outside its domain. -/
theorem C36_case_exact (s : List Byte) :
    uppercase s = (if ∀ b ∈ s, CaseByte b then .ok (s.map asciiUpper) else .error .badBuiltin) ∧
    lowercase s = (if ∀ b ∈ s, CaseByte b then .ok (s.map asciiLower) else .error .badBuiltin) := by
  constructor
  · refine mapChars_exact toupper asciiUpper ?_ s
    refine forall_byte fun n => ⟨fun hc => ?_, ?_⟩
    · have key : ∀ n : Fin 256, CaseByte (UInt8.ofNat n.1) →
          (match toupper (charToInt (UInt8.ofNat n.1)) with
           | .ok i => decide (intToChar i = asciiUpper (UInt8.ofNat n.1)) | .error _ => false) = true := by decide +kernel
      have := key n hc
      split at this
      · rename_i i hi; exact ⟨i, hi, by simpa using this⟩
      · cases this
    · revert n; decide +kernel
  · refine mapChars_exact tolower asciiLower ?_ s
    refine forall_byte fun n => ⟨fun hc => ?_, ?_⟩
    · have key : ∀ n : Fin 256, CaseByte (UInt8.ofNat n.1) →
          (match tolower (charToInt (UInt8.ofNat n.1)) with
           | .ok i => decide (intToChar i = asciiLower (UInt8.ofNat n.1)) | .error _ => false) = true := by decide +kernel
      have := key n hc
      split at this
      · rename_i i hi; exact ⟨i, hi, by simpa using this⟩
      · cases this
    · revert n; decide +kernel

example : uppercase [97, 255, 65] = .ok [65, 255, 65] ∧ lowercase [97, 128] = .error .badBuiltin := by decide

end Verif.Str
