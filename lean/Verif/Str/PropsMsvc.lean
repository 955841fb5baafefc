import Verif.Str.Msvc
import Verif.Str.Props
/-!
# The printf helpers behave the same with MSVC (C103)
-/
namespace Verif.Str
open Verif

theorem st_blit {m bs : List Byte} {k : Nat} (hk : bs.length = k + 1) (hm : k < m.length) (c : Byte) :
    st (blit m bs) k c = .ok (blit m (bs.take k ++ [c])) := by
  have hl : k < (blit m bs).length := by rw [blit, List.length_append]; omega
  rw [st_at hl, blit, List.take_append_of_le_length (by omega), blit]
  congr 1
  rw [List.append_assoc]
  congr 1
  rw [List.drop_append, List.drop_eq_nil_of_le (by omega), List.nil_append, List.drop_drop]
  simp only [List.length_append, List.length_take, List.length_singleton, List.singleton_append]
  congr 2; omega

/-- C103: `SafeSprintf` built with MSVC, although `_vsnprintf` neither terminates a text that does not fit nor tells its length: the buffer and the result are
those of the other platforms (C30), for every text and every error. For texts longer than `INT_MAX` only the guarantees of the next theorem hold. -/
theorem C103_safeVsprintf_same (f : Fmt) (buffer : List Byte) (max : Nat) (hroom : max ≤ buffer.length) (hobj : buffer.length < 2 ^ 63)
    (hf : ∀ t, f = .text t → t.length < 2 ^ 31) : msSafeVsprintf f buffer max = safeVsprintf f buffer max := by
  unfold msSafeVsprintf safeVsprintf
  by_cases hm : max = 0
  · rw [if_pos hm, if_pos hm]
  rw [if_neg hm, if_neg hm]
  unfold msVsnprintf vsnprintf
  rw [if_neg (by omega), if_neg (by omega)]
  cases f with
  | fail code garbage => rfl
  | text t =>
    have ht := hf t rfl
    simp only []
    rw [if_neg (show ¬ 2 ^ 31 ≤ t.length by omega), if_neg (show ¬ 2 ^ 31 ≤ t.length by omega), if_neg hm]
    by_cases h1 : t.length < max
    · rw [if_pos h1, List.take_of_length_le (show t.length ≤ max - 1 by omega)]
    · rw [if_neg h1]
      have key : ∀ bs : List Byte, bs = t.take max → st (blit buffer bs) (max - 1) 0 = .ok (blit buffer (t.take (max - 1) ++ [0])) := by
        rintro bs rfl
        rw [st_blit (k := max - 1) (by rw [List.length_take]; omega) (by omega), List.take_take]
        congr 3
        congr 1; omega
      have hs : st (blit buffer (t.take (max - 1) ++ [0])) (max - 1) 0 = .ok (blit buffer (t.take (max - 1) ++ [0])) := by
        rw [st_blit (k := max - 1) (by simp; omega) (by omega)]
        congr 2
        rw [List.take_append_of_le_length (by rw [List.length_take]; omega), List.take_take, Nat.min_self]
      have hbig : toSizeT (-1) = 2 ^ 64 - 1 := by decide
      by_cases h2 : t.length = max
      · rw [if_pos h2]
        simp only [bind, Except.bind]
        rw [toSizeT_nat _ (by omega), if_pos (by omega), if_pos (by omega), hs, key t (by rw [List.take_of_length_le (by omega)])]
      · rw [if_neg h2]
        simp only [bind, Except.bind]
        rw [toSizeT_nat _ (by omega), if_pos (by omega), if_pos (by omega), hs, key _ rfl]

/-- C103: with MSVC too the buffer is always terminated inside its bounds, whatever the text (also one longer than `INT_MAX`) or error, and bytes beyond `max` are not touched. -/
theorem C103_safeVsprintf_terminates (f : Fmt) (buffer : List Byte) (max : Nat) (hmax : 0 < max) (hroom : max ≤ buffer.length) (hobj : buffer.length < 2 ^ 63) :
    ∃ b n, msSafeVsprintf f buffer max = .ok (b, n) ∧ n < max ∧ b.length = buffer.length ∧ b[n]? = some 0 ∧ b.drop max = buffer.drop max := by
  by_cases hf : ∀ t, f = .text t → t.length < 2 ^ 31
  · obtain ⟨b, n, h1, h2, h3, h4, h5, -⟩ := C30_safeVsprintf f buffer max hmax hroom hobj
    exact ⟨b, n, by rw [C103_safeVsprintf_same f buffer max hroom hobj hf]; exact h1, h2, h3, h4, h5⟩
  · cases f with
    | fail c g => exact (hf (fun t h => by cases h)).elim
    | text t =>
      have ht : 2 ^ 31 ≤ t.length := by
        apply Nat.le_of_not_lt; intro h; exact hf (fun t' e => by cases e; exact h)
      unfold msSafeVsprintf msVsnprintf
      rw [if_neg (by omega), if_neg (by omega)]
      simp only []
      rw [if_pos ht]
      have hbig : toSizeT (-1) = 2 ^ 64 - 1 := by decide
      have hbl := blit_length (m := buffer) (bs := t.take max) (by simp; omega)
      have hbd := blit_drop (m := buffer) (bs := t.take max) (k := max) (by simp; omega)
      simp only [bind, Except.bind]
      rw [if_pos (by omega), st, if_pos (by omega)]
      refine ⟨_, max - 1, rfl, by omega, by simpa using hbl, ?_, ?_⟩
      · rw [List.getElem?_set_self (by omega)]
      · rw [List.drop_set_of_lt (by omega), hbd]

/-- C103: `Sprintf` and `StringPrintf` give the same buffer and length with MSVC, for every outcome of the two formatting calls that agree on the length
(a text formatted twice, an error in either). -/
theorem C103_sprintf_same (f1 f2 : Fmt) (hf : ∀ t, f1 = .text t → f2 = .text t ∨ ∃ c g, f2 = .fail c g) :
    msSprintfArgsImpl f1 f2 = sprintfArgsImpl f1 f2 := by
  unfold msSprintfArgsImpl sprintfArgsImpl
  cases f1 with
  | fail c g =>
    have e1 : vsnprintf (.fail c g) [0, 0] 2 = .ok (-1 - ((c % 2 ^ 31 : Nat) : Int), blit [0, 0] (g.take 2)) := rfl
    have hv : msVscprintf (.fail c g) = -1 - ((c % 2 ^ 31 : Nat) : Int) := rfl
    have hneg : msVscprintf (.fail c g) < 0 := by rw [hv]; omega
    simp only [e1, bind, Except.bind]
    rw [if_pos hneg, if_pos (by omega)]
  | text t =>
    have e0 : ∃ m, vsnprintf (.text t) [0, 0] 2 = .ok (msVscprintf (.text t), m) := by
      unfold vsnprintf msVscprintf
      rw [if_neg (by decide)]
      simp only []
      split
      · exact ⟨_, rfl⟩
      · rw [if_neg (by decide)]; exact ⟨_, rfl⟩
    obtain ⟨m, e1⟩ := e0
    simp only [e1, bind, Except.bind]
    by_cases h0 : msVscprintf (.text t) < 0
    · rw [if_pos h0, if_pos h0]
    rw [if_neg h0, if_neg h0]
    by_cases h1 : msVscprintf (.text t) = 0
    · rw [if_pos h1, if_pos h1]
    rw [if_neg h1, if_neg h1]
    by_cases h2 : msVscprintf (.text t) + 1 ≥ 2 ^ 31
    · rw [if_pos h2, if_pos h2]
    rw [if_neg h2, if_neg h2]
    have hlen : msVscprintf (.text t) = t.length ∧ t.length < 2 ^ 31 := by
      have e : msVscprintf (.text t) = if 2 ^ 31 ≤ t.length then -1 else (t.length : Int) := rfl
      by_cases h : 2 ^ 31 ≤ t.length
      · rw [e, if_pos h] at h0; omega
      · exact ⟨by rw [e, if_neg h], by omega⟩
    have hn : (msVscprintf (.text t) + 1).toNat = t.length + 1 := by rw [hlen.1]; omega
    rw [hn]
    have e2 : msVsnprintf f2 (List.replicate (t.length + 1) 0) (t.length + 1) = vsnprintf f2 (List.replicate (t.length + 1) 0) (t.length + 1) := by
      rcases hf t rfl with rfl | ⟨c, g, rfl⟩
      · unfold msVsnprintf vsnprintf
        rw [if_neg (by simp), if_neg (by simp)]
        simp only []
        rw [if_neg (show ¬ 2 ^ 31 ≤ t.length by omega), if_neg (show ¬ 2 ^ 31 ≤ t.length by omega), if_pos (by omega), if_neg (by omega)]
        simp
      · rfl
    rw [e2]

example : msSafeVsprintf (.text [97, 98, 99]) [9, 9, 9, 9] 3 = .ok ([97, 98, 0, 9], 2) ∧ msSafeVsprintf (.text [97, 98, 99, 100, 101]) [9, 9, 9, 9] 3 = .ok ([97, 98, 0, 9], 2) ∧
    (msVsnprintf (.text [97, 98, 99, 100, 101]) [9, 9, 9, 9] 3).map (·.2) = .ok [97, 98, 99, 9] ∧
    msSprintfArgsImpl (.text [97, 98]) (.text [97, 98]) = .ok (some [97, 98, 0], 2) := by decide

end Verif.Str
