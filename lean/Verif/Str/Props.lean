import Verif.Str.Lemmas
import Verif.Str.Spec
/-!
# Properties C27-C37: `am-string.h` and `os/am-path.h`
-/
namespace Verif.Str
open Verif

theorem overwritten_snoc (d s : List Byte) (b : Byte) :
    overwritten d (s ++ [b]) = s ++ b :: d.drop (s.length + 1) := by
  simp [overwritten]

/-! ### C27 -/

/-- C27: for a destination of at least `max` bytes and any source string `s` (whatever follows its NUL,
even nothing), exactly the longest prefix of at most `max - 1` characters and a NUL are written, the
rest of the destination is untouched, and the length is returned. -/
theorem C27_safeStrcpy (dest s rest : List Byte) (max : Nat) (hs : 0 ∉ s) (hmax : 0 < max)
    (hroom : max ≤ dest.length) :
    safeStrcpy (some dest) max (s ++ 0 :: rest) =
      .ok (some (overwritten dest (s.take (max - 1) ++ [0])), min s.length (max - 1)) := by
  have h := strcpyLoop_spec rest s [] dest max hs hmax hroom
  simp only [List.nil_append, List.length_nil, Nat.zero_add] at h
  have hl : (s.take (max - 1)).length = min s.length (max - 1) := by rw [List.length_take, Nat.min_comm]
  simp only [safeStrcpy, show max ≠ 0 by omega, if_false, bind, Except.bind, h]
  rw [st_append (by rw [← List.length_pos_iff, List.length_drop]; omega) hl.symm, overwritten_snoc, hl,
    List.drop_drop]

/-- C27: with `max = 0` or a null destination nothing is written. -/
theorem C27_safeStrcpy_nothing (dest : Option (List Byte)) (max : Nat) (src : List Byte)
    (h : dest = none ∨ max = 0) : safeStrcpy dest max src = .ok (dest, 0) := by
  rcases h with rfl | rfl
  · rfl
  · cases dest <;> rfl

example : safeStrcpy (some [9, 9, 9, 9]) 3 [97, 98, 99, 0] = .ok (some [97, 98, 0, 9], 2) := by decide
example : (0 : Byte) ∉ ([97, 98, 99] : List Byte) ∧ 0 < 3 ∧ 3 ≤ ([9, 9, 9, 9] : List Byte).length := by decide

/-! ### C28 -/

/-- C28: `dest` holds the string `d`; the longest prefix of `s` that keeps the length below `max` is
appended (nothing if `d` is already that long), a NUL follows, nothing else changes. -/
theorem C28_safeStrcat (d junk s rest : List Byte) (max : Nat) (hd : 0 ∉ d) (hs : 0 ∉ s)
    (hroom : max ≤ (d ++ 0 :: junk).length) :
    safeStrcat (d ++ 0 :: junk) max (s ++ 0 :: rest) =
      .ok (overwritten (d ++ 0 :: junk) (d ++ s.take (max - 1 - d.length) ++ [0]),
        d.length + min s.length (max - 1 - d.length)) := by
  have h0 := scanNul_spec junk d [] hd
  simp only [List.nil_append, List.length_nil, Nat.zero_add] at h0
  have h1 := strcatLoop_spec max rest s [] d (0 :: junk) hs (by simpa using hroom)
  simp only [List.nil_append, List.length_nil] at h1
  have hl : (s.take (max - 1 - d.length)).length = min s.length (max - 1 - d.length) := by
    rw [List.length_take, Nat.min_comm]
  simp only [safeStrcat, bind, Except.bind, h0, h1]
  simp only [List.length_append, List.length_cons] at hroom
  rw [← List.append_assoc, st_append
    (by rw [← List.length_pos_iff, List.length_drop, List.length_cons]; omega)
    (by rw [List.length_append, hl]), overwritten_snoc, List.drop_drop]
  have e : ∀ k, (d ++ 0 :: junk).drop (d.length + k) = (0 :: junk).drop k := by
    intro k
    rw [List.drop_append, List.drop_eq_nil_of_le (by omega), List.nil_append]
    congr 1; omega
  rw [List.length_append, hl, Nat.add_assoc, e]

/-- C28: the bytes at and after `dest[max]` never change: in particular when the string already fills
the buffer, nothing changes at all. -/
theorem C28_no_overrun (d junk s rest : List Byte) (max : Nat) (hd : 0 ∉ d) (hs : 0 ∉ s)
    (hroom : max ≤ (d ++ 0 :: junk).length) (m : List Byte) (n : Nat)
    (h : safeStrcat (d ++ 0 :: junk) max (s ++ 0 :: rest) = .ok (m, n)) :
    m.length = (d ++ 0 :: junk).length ∧ m.drop max = (d ++ 0 :: junk).drop max ∧
    (max ≤ d.length + 1 → m = d ++ 0 :: junk) ∧ (d.length < max → n < max) := by
  rw [C28_safeStrcat d junk s rest max hd hs hroom] at h
  simp only [Except.ok.injEq, Prod.mk.injEq] at h
  obtain ⟨rfl, rfl⟩ := h
  have hl : (d ++ s.take (max - 1 - d.length) ++ [0]).length = d.length + min s.length (max - 1 - d.length) + 1 := by
    simp only [List.length_append, List.length_take, List.length_singleton]; omega
  simp only [List.length_append, List.length_cons] at hroom
  have hbig : max ≤ d.length + 1 → overwritten (d ++ 0 :: junk) (d ++ s.take (max - 1 - d.length) ++ [0]) =
      d ++ 0 :: junk := by
    intro hm
    rw [show max - 1 - d.length = 0 by omega]
    simp [overwritten]
  refine ⟨?_, ?_, hbig, by omega⟩
  · rw [overwritten, List.length_append, List.length_drop, hl]
    simp only [List.length_append, List.length_cons]
    omega
  · by_cases hm : max ≤ d.length + 1
    · rw [hbig hm]
    · simp only [overwritten]
      rw [List.drop_append, List.drop_eq_nil_of_le (by omega), List.nil_append, List.drop_drop, hl]
      congr 1
      omega

example : safeStrcat [97, 0, 9, 9, 9] 3 [98, 99, 100, 0] = .ok ([97, 98, 0, 9, 9], 2) := by
  have := C28_safeStrcat [97] [9, 9, 9] [98, 99, 100] [] 3 (by decide) (by decide) (by decide)
  exact this

/-! ### C29 -/

/-- C29 in full: `SafeStrcpy` limited to `n` characters. -/
def StrcpyNCorrect : Prop :=
  ∀ (dest s rest : List Byte) (max n : Nat), 0 ∉ s → 0 < max → max ≤ dest.length →
    safeStrcpyN (some dest) max (s ++ 0 :: rest) n =
      .ok (some (overwritten dest (s.take (min (max - 1) n) ++ [0])), min s.length (min (max - 1) n))

/-- C29 is false of the code: it reads past the NUL of a source shorter than `n`. -/
theorem C29_safeStrcpyN_refuted : ¬ StrcpyNCorrect := by
  intro h
  have := h [9, 9, 9, 9] [97] [] 4 3 (by decide) (by decide) (by decide)
  have h2 : safeStrcpyN (some [9, 9, 9, 9]) 4 [97, 0] 3 = .error .outOfBounds := by decide
  exact absurd (this.symm.trans h2) (by simp)

/-- It also leaves the destination unterminated when `n = 0`. -/
theorem C29_unterminated_refuted :
    ¬ ∀ (dest src : List Byte) (max n : Nat), 0 < max → max ≤ dest.length → n ≤ src.length →
      ∃ d k, safeStrcpyN (some dest) max src n = .ok (some d, k) ∧ d[k]? = some 0 := by
  intro h
  obtain ⟨d, k, h1, h2⟩ := h [9] [] 1 0 (by decide) (by decide) (by decide)
  cases h1
  exact absurd h2 (by decide)

/-- C29, what does hold (missing: `n = 0`, and sources with fewer than `n` readable bytes): if `n > 0`
and `n` bytes of the source can be read, exactly the first `min (max-1) n` bytes - NULs included - and a
terminator are written. -/
theorem C29_safeStrcpyN_partial (dest src : List Byte) (max n : Nat) (hmax : 0 < max) (hn : 0 < n)
    (hroom : max ≤ dest.length) (hsrc : n ≤ src.length) :
    safeStrcpyN (some dest) max src n =
      .ok (some (overwritten dest (src.take (min (max - 1) n) ++ [0])), min (max - 1) n) := by
  have h := strcpyNLoop_spec n [] src dest max hsrc hmax hroom
  simp only [List.nil_append, List.length_nil, Nat.zero_add] at h
  rw [Nat.min_comm n] at h
  have hl : (src.take (min (max - 1) n)).length = min (max - 1) n := by rw [List.length_take]; omega
  simp only [safeStrcpyN, show max ≠ 0 by omega, show n ≠ 0 by omega, if_false, bind, Except.bind, h]
  rw [st_append (by rw [← List.length_pos_iff, List.length_drop]; omega) hl.symm, overwritten_snoc, hl,
    List.drop_drop]

example : safeStrcpyN (some [9, 9, 9, 9]) 4 [97, 98, 99] 2 = .ok (some [97, 98, 0, 9], 2) := by decide

/-! ### C30 -/

theorem toSizeT_nat (n : Nat) (h : n < 2 ^ 64) : toSizeT (n : Int) = n := by
  unfold toSizeT; omega

theorem toSizeT_neg (c : Nat) : 2 ^ 63 ≤ toSizeT (-1 - ((c % 2 ^ 31 : Nat) : Int)) := by
  unfold toSizeT; omega

theorem blit_length {m bs : List Byte} (h : bs.length ≤ m.length) : (blit m bs).length = m.length := by
  simp [blit]; omega

theorem blit_drop {m bs : List Byte} {k : Nat} (h : bs.length ≤ k) : (blit m bs).drop k = m.drop k := by
  rw [blit, List.drop_append, List.drop_eq_nil_of_le h, List.nil_append, List.drop_drop]
  congr 1; omega

/-- C30: `SafeVsprintf` into a buffer of at least `max` bytes (an object is at most `PTRDIFF_MAX` bytes)
never leaves it and keeps its size, returns a length below `max`, and a NUL stands at that length; bytes
from `max` on are untouched; if formatting yields the text `t` the buffer is overwritten by its longest
fitting prefix and a NUL, and that prefix's length is returned. -/
theorem C30_safeVsprintf (f : Fmt) (buffer : List Byte) (max : Nat) (hmax : 0 < max)
    (hroom : max ≤ buffer.length) (hobj : buffer.length < 2 ^ 63) :
    ∃ b n, safeVsprintf f buffer max = .ok (b, n) ∧ n < max ∧ b.length = buffer.length ∧
      b[n]? = some 0 ∧ b.drop max = buffer.drop max ∧
      ∀ t, f = .text t → t.length < 2 ^ 31 →
        n = min t.length (max - 1) ∧ b = overwritten buffer (t.take (max - 1) ++ [0]) := by
  have cut : ∀ m : List Byte, m.length = buffer.length → m.drop max = buffer.drop max →
      ∃ b, st m (max - 1) 0 = .ok b ∧ b.length = buffer.length ∧ b[max - 1]? = some 0 ∧
        b.drop max = buffer.drop max ∧ (m[max - 1]? = some 0 → b = m) := by
    intro m hm hd
    refine ⟨m.set (max - 1) 0, by rw [st, if_pos (by omega)], by simpa using hm, ?_, ?_, ?_⟩
    · rw [List.getElem?_set_self (by omega)]
    · rw [List.drop_set_of_lt (by omega), hd]
    · intro h0
      apply List.ext_getElem?
      intro i
      rw [List.getElem?_set]
      split
      · rename_i h; subst h; rw [if_pos (by omega), h0]
      · rfl
  unfold safeVsprintf vsnprintf
  rw [if_neg (by omega), if_neg (by omega)]
  cases f with
  | text t =>
    simp only []
    by_cases hbig : 2 ^ 31 ≤ t.length
    · rw [if_pos hbig]
      obtain ⟨b, hb, h1, h2, h3, _⟩ := cut buffer rfl rfl
      refine ⟨b, max - 1, ?_, by omega, h1, h2, h3, ?_⟩
      · simp only [bind, Except.bind]
        rw [if_pos (by show max ≤ toSizeT (-1); have : toSizeT (-1) = 2 ^ 64 - 1 := by decide
                       omega), hb]
      · intro t' ht; cases ht; omega
    · rw [if_neg hbig, if_neg (by omega)]
      have hlen : (t.take (max - 1) ++ [0]).length = min t.length (max - 1) + 1 := by simp; omega
      have hbl := blit_length (m := buffer) (bs := t.take (max - 1) ++ [0]) (by omega)
      have hbd := blit_drop (m := buffer) (bs := t.take (max - 1) ++ [0]) (k := max) (by omega)
      have h0 : (blit buffer (t.take (max - 1) ++ [0]))[min t.length (max - 1)]? = some 0 := by
        rw [blit, List.getElem?_append_left (by omega), List.getElem?_append_right (by simp; omega)]
        have : min t.length (max - 1) - (t.take (max - 1)).length = 0 := by simp; omega
        rw [this]; rfl
      obtain ⟨b, hb, h1, h2, h3, h4⟩ := cut _ hbl hbd
      simp only [bind, Except.bind]
      rw [toSizeT_nat _ (by omega)]
      by_cases hc : t.length ≥ max
      · rw [if_pos hc, hb]
        have hmin : min t.length (max - 1) = max - 1 := by omega
        rw [hmin] at h0
        refine ⟨b, max - 1, rfl, by omega, h1, h2, h3, ?_⟩
        intro t' ht; cases ht
        intro _
        exact ⟨by omega, h4 h0⟩
      · rw [if_neg hc]
        have hmin : min t.length (max - 1) = t.length := by omega
        rw [hmin] at h0
        refine ⟨_, t.length, rfl, by omega, hbl, h0, hbd, ?_⟩
        intro t' ht; cases ht
        intro _
        exact ⟨by omega, rfl⟩
  | fail code garbage =>
    simp only []
    have hbl := blit_length (m := buffer) (bs := garbage.take max) (by simp; omega)
    have hbd := blit_drop (m := buffer) (bs := garbage.take max) (k := max) (by simp; omega)
    obtain ⟨b, hb, h1, h2, h3, h4⟩ := cut _ hbl hbd
    simp only [bind, Except.bind]
    have := toSizeT_neg code
    rw [if_pos (by omega), hb]
    exact ⟨b, max - 1, rfl, by omega, h1, h2, h3, fun t ht => by cases ht⟩

/-- C30: with `max = 0` nothing is written, whatever the buffer pointer. -/
theorem C30_zero (f : Fmt) (buffer : List Byte) : safeVsprintf f buffer 0 = .ok (buffer, 0) := rfl

example : safeVsprintf (.text [97, 98, 99]) [9, 9, 9, 9] 3 = .ok ([97, 98, 0, 9], 2) := by decide

/-! ### C31 -/

/-- C31 in full: any text that `vsnprintf` can format is returned exactly. -/
def SprintfExact : Prop :=
  ∀ t : List Byte, t.length < 2 ^ 31 →
    sprintf (.text t) (.text t) = .ok (some (t ++ [0])) ∧ stringPrintf (.text t) (.text t) = .ok t

theorem impl_text {t : List Byte} (h0 : 0 < t.length) (h : t.length < 2 ^ 31) :
    sprintfArgsImpl (.text t) (.text t) =
      if t.length + 1 ≥ 2 ^ 31 then .error .signedOverflow else .ok (some (t ++ [0]), t.length) := by
  unfold sprintfArgsImpl
  have e1 : vsnprintf (.text t) [0, 0] 2 = .ok ((t.length : Int), blit [0, 0] (t.take (2 - 1) ++ [0])) := by
    unfold vsnprintf
    rw [if_neg (by decide)]
    simp only []
    rw [if_neg (by omega), if_neg (by decide)]
  simp only [e1, bind, Except.bind]
  rw [if_neg (by omega), if_neg (by omega)]
  by_cases hb : t.length + 1 ≥ 2 ^ 31
  · rw [if_pos hb, if_pos (by omega)]
  · rw [if_neg hb, if_neg (by omega)]
    have hn : ((t.length : Int) + 1).toNat = t.length + 1 := by omega
    rw [hn]
    have e2 : vsnprintf (.text t) (List.replicate (t.length + 1) 0) (t.length + 1) =
        .ok ((t.length : Int), t ++ [0]) := by
      unfold vsnprintf
      rw [if_neg (by simp)]
      simp only []
      rw [if_neg (by omega), if_neg (by omega)]
      simp [blit]
    simp only [e2]
    rw [if_neg (by omega), if_neg (by simp)]
    simp

/-- C31 is false of the code at the largest formattable length: `len + 1` overflows `int`. -/
theorem C31_sprintf_refuted : ¬ SprintfExact := by
  intro h
  have hex : ∃ t : List Byte, t.length = 2 ^ 31 - 1 := ⟨List.replicate _ 97, List.length_replicate⟩
  obtain ⟨t, ht⟩ := hex
  have h1 := (h t (by omega)).1
  unfold sprintf at h1
  rw [impl_text (by omega) (by omega), if_pos (by omega)] at h1
  cases h1

/-- C31, what does hold (missing: length exactly `INT_MAX`): every shorter text is returned exactly, in a
buffer with room for just the terminator; a formatting error gives null and the empty string. -/
theorem C31_sprintf_partial :
    (∀ t : List Byte, t.length < 2 ^ 31 - 1 →
      sprintf (.text t) (.text t) = .ok (some (t ++ [0])) ∧ stringPrintf (.text t) (.text t) = .ok t) ∧
    (∀ (c1 : Nat) (g1 : List Byte) (f2 : Fmt),
      sprintf (.fail c1 g1) f2 = .ok none ∧ stringPrintf (.fail c1 g1) f2 = .ok []) ∧
    (∀ (t : List Byte) (c2 : Nat) (g2 : List Byte), 0 < t.length → t.length < 2 ^ 31 - 1 →
      sprintf (.text t) (.fail c2 g2) = .ok none ∧ stringPrintf (.text t) (.fail c2 g2) = .ok []) ∧
    (∀ (t : List Byte) (f2 : Fmt), 2 ^ 31 ≤ t.length →
      sprintf (.text t) f2 = .ok none ∧ stringPrintf (.text t) f2 = .ok []) := by
  refine ⟨?_, ?_, ?_, ?_⟩
  · intro t ht
    by_cases h0 : t.length = 0
    · have : t = [] := List.length_eq_zero_iff.1 h0
      subst this
      constructor <;> decide
    · have := impl_text (t := t) (by omega) (by omega)
      rw [if_neg (by omega)] at this
      constructor
      · simp [sprintf, this, bind, Except.bind]
      · simp [stringPrintf, this, bind, Except.bind]
  · intro c1 g1 f2
    have : sprintfArgsImpl (.fail c1 g1) f2 = .ok (none, 0) := by
      unfold sprintfArgsImpl
      have e1 : vsnprintf (.fail c1 g1) [0, 0] 2 =
          .ok (-1 - ((c1 % 2 ^ 31 : Nat) : Int), blit [0, 0] (g1.take 2)) := rfl
      simp only [e1, bind, Except.bind]
      rw [if_pos (by omega)]
    exact ⟨by simp [sprintf, this, bind, Except.bind], by simp [stringPrintf, this, bind, Except.bind]⟩
  · intro t c2 g2 h0 ht
    have : sprintfArgsImpl (.text t) (.fail c2 g2) = .ok (none, 0) := by
      unfold sprintfArgsImpl
      have e1 : vsnprintf (.text t) [0, 0] 2 = .ok ((t.length : Int), blit [0, 0] (t.take (2 - 1) ++ [0])) := by
        unfold vsnprintf
        rw [if_neg (by decide)]
        simp only []
        rw [if_neg (by omega), if_neg (by decide)]
      simp only [e1, bind, Except.bind]
      rw [if_neg (by omega), if_neg (by omega), if_neg (by omega)]
      have e2 : vsnprintf (.fail c2 g2) (List.replicate ((t.length : Int) + 1).toNat 0)
          ((t.length : Int) + 1).toNat = .ok (-1 - ((c2 % 2 ^ 31 : Nat) : Int),
            blit (List.replicate ((t.length : Int) + 1).toNat 0) (g2.take ((t.length : Int) + 1).toNat)) := by
        unfold vsnprintf
        rw [if_neg (by simp)]
      simp only [e2]
      rw [if_pos (by omega)]
    exact ⟨by simp [sprintf, this, bind, Except.bind], by simp [stringPrintf, this, bind, Except.bind]⟩
  · intro t f2 ht
    have : sprintfArgsImpl (.text t) f2 = .ok (none, 0) := by
      unfold sprintfArgsImpl
      have e1 : vsnprintf (.text t) [0, 0] 2 = .ok (-1, [0, 0]) := by
        unfold vsnprintf
        rw [if_neg (by decide)]
        simp only []
        rw [if_pos (by omega)]
      simp only [e1, bind, Except.bind]
      rw [if_pos (by omega)]
    exact ⟨by simp [sprintf, this, bind, Except.bind], by simp [stringPrintf, this, bind, Except.bind]⟩

example : stringPrintf (.text [97, 98, 99]) (.text [97, 98, 99]) = .ok [97, 98, 99] := by decide

/-! ### C32-C34 -/

theorem glue_eq (sep : List Byte) : ∀ ps, glue sep ps = concatWith sep ps := by
  intro ps
  induction ps with
  | nil => rfl
  | cons p ps ih =>
    cases ps with
    | nil => simp [glue, concatWith]
    | cons q qs => rw [glue, ih]; simp [concatWith, List.intersperse]

/-- C34: as long as the joined length fits `size_t`, `Join` returns the pieces with the separator between
consecutive ones; every `memcpy` stays inside the buffer and together they fill it exactly (the final
assert holds). -/
theorem C34_join (ps : List (List Byte)) (sep : List Byte) (h : (concatWith sep ps).length < 2 ^ 64) :
    join ps sep = .ok (concatWith sep ps) := by
  rw [← glue_eq] at h ⊢
  have hl := joinLen_eq ps sep
  rw [Nat.mod_eq_of_lt h] at hl
  unfold join
  rw [hl]
  have := joinLoop_spec sep ps [] (List.replicate (glue sep ps).length 0) [] (by simp)
  simp only [List.nil_append, List.append_nil, List.length_nil, Nat.zero_add] at this
  simp only [bind, Except.bind, this]
  simp

example : join [[97], [], [98, 99]] [44] = .ok [97, 44, 44, 98, 99] := by decide

/-- C32: for every string and every non-empty separator, joining the pieces of `Split` gives the string
back. -/
theorem C32_join_split (debug : Bool) (str sep : List Byte) (hsep : sep ≠ []) (hlen : str.length < 2 ^ 64) :
    ∃ ps, split debug str sep = .ok ps ∧ join ps sep = .ok str := by
  refine ⟨splitLoop sep hsep str false, by rw [split, dif_neg hsep], ?_⟩
  have hg := glue_splitLoop sep hsep str false
  rw [C34_join _ _ (by rw [← glue_eq, hg]; exact hlen), ← glue_eq, hg]

theorem splitLoop_fields (sep : List Byte) (hsep : sep ≠ []) (cursor : List Byte) (b : Bool)
    (h : cursor ≠ [] ∨ b = true) : Fields sep cursor (splitLoop sep hsep cursor b) := by
  induction hn : cursor.length using Nat.strongRecOn generalizing cursor b with
  | ind n ih =>
    unfold splitLoop
    split
    · rename_i hc
      subst hc
      have hb : b = true := by rcases h with h | h <;> simp_all
      subst hb
      exact .last (by simpa using hsep)
    · rename_i hc
      split
      · rename_i hs
        exact .last (strstr_none hs)
      · rename_i off hoff
        obtain ⟨⟨r, hr, hd⟩, hl, hmin⟩ := strstr_some hoff
        have h2 : 0 < sep.length := List.length_pos_iff.2 hsep
        have := ih (cursor.drop (off + sep.length)).length (by simp only [List.length_drop]; omega) _ true
          (.inr rfl) rfl
        rw [hd] at this ⊢
        conv => lhs; rw [hr]
        refine .cons ?_ this
        intro i hi
        rw [← hr]
        exact hmin i (by simp at hi; omega)

theorem fields_no_sep {sep s : List Byte} {ps : List (List Byte)} (hsep : sep ≠ []) (h : Fields sep s ps) :
    ∀ p ∈ ps, ¬ sep <:+: p := by
  induction h with
  | last hn => intro p hp; simp only [List.mem_singleton] at hp; subst hp; exact hn
  | cons hfirst _ ih =>
    rename_i f r ps'
    intro p hp
    rcases List.mem_cons.1 hp with rfl | hp
    · rintro ⟨a, b, hab⟩
      have h2 : 0 < sep.length := List.length_pos_iff.2 hsep
      refine hfirst a.length (by rw [← hab]; simp; omega) ?_
      rw [← hab]
      simp only [List.append_assoc, List.drop_left]
      exact List.prefix_append _ _
    · exact ih p hp

/-- C33: a non-empty string is cut into fields at the first occurrence of the separator each time, no
field contains the separator; the empty string has no pieces. -/
theorem C33_split_fields (debug : Bool) (str sep : List Byte) (hsep : sep ≠ []) :
    ∃ ps, split debug str sep = .ok ps ∧ (str = [] → ps = []) ∧ (str ≠ [] → Fields sep str ps) ∧
      ∀ p ∈ ps, ¬ sep <:+: p := by
  refine ⟨splitLoop sep hsep str false, by rw [split, dif_neg hsep], ?_, ?_, ?_⟩
  · rintro rfl; unfold splitLoop; simp
  · intro h; exact splitLoop_fields _ _ _ _ (.inl h)
  · by_cases h : str = []
    · subst h; unfold splitLoop; simp
    · exact fields_no_sep hsep (splitLoop_fields _ _ _ _ (.inl h))

theorem strstr_char {c : Byte} {r : List Byte} : ∀ {p : List Byte}, c ∉ p →
    strstr (p ++ c :: r) [c] = some p.length := by
  intro p
  induction p with
  | nil => intro _; unfold strstr; simp
  | cons a p ih =>
    intro h
    unfold strstr
    have hne : c ≠ a := fun e => h (by simp [e])
    simp only [List.cons_append]
    rw [if_neg (by simp [hne]), ih (fun e => h (List.mem_cons_of_mem _ e))]
    rfl

theorem strstr_char_none {c : Byte} : ∀ {p : List Byte}, c ∉ p → strstr p [c] = none := by
  intro p
  induction p with
  | nil => intro _; unfold strstr; simp
  | cons a p ih =>
    intro h
    unfold strstr
    have hne : c ≠ a := fun e => h (by simp [e])
    rw [if_neg (by simp [hne])]
    simp only [ih (fun e => h (List.mem_cons_of_mem _ e))]
    rfl

theorem splitLoop_glue (c : Byte) : ∀ (ps : List (List Byte)) (b : Bool), (∀ p ∈ ps, c ∉ p) → ps ≠ [] →
    (glue [c] ps ≠ [] ∨ b = true) → splitLoop [c] (by simp) (glue [c] ps) b = ps := by
  intro ps
  induction ps with
  | nil => intro b _ h _; exact absurd rfl h
  | cons p ps ih =>
    intro b hps _ hb
    by_cases hnil : ps = []
    · subst hnil
      simp only [glue] at hb ⊢
      unfold splitLoop
      split
      · rename_i hp
        subst hp
        have : b = true := by rcases hb with hb | hb <;> simp_all
        simp [this]
      · rw [strstr_char_none (hps p (by simp))]
    · rw [glue_cons hnil]
      unfold splitLoop
      rw [dif_neg (by simp)]
      simp only [List.append_assoc, List.singleton_append]
      rw [strstr_char (hps p (by simp))]
      simp only [List.take_left, List.length_singleton]
      congr 1
      rw [show (p ++ c :: glue [c] ps).drop (p.length + 1) = glue [c] ps by
        rw [List.drop_append, List.drop_eq_nil_of_le (by omega)]; simp]
      exact ih true (fun q hq => hps q (List.mem_cons_of_mem _ hq)) hnil (.inr rfl)

/-- C33, converse: with a one-character separator, `Split` recovers the pieces given to `Join`, provided
no piece contains the separator (the single empty piece joins to the empty string, which splits to no
pieces). -/
theorem C33_split_join (debug : Bool) (c : Byte) (ps : List (List Byte)) (hps : ∀ p ∈ ps, c ∉ p)
    (hlen : (concatWith [c] ps).length < 2 ^ 64) :
    ∃ s, join ps [c] = .ok s ∧ split debug s [c] = .ok (if ps = [[]] then [] else ps) := by
  refine ⟨_, C34_join ps [c] hlen, ?_⟩
  rw [split, dif_neg (by simp), ← glue_eq]
  congr 1
  split
  · rename_i h; subst h; unfold splitLoop; rfl
  · rename_i hne
    by_cases hnil : ps = []
    · subst hnil; unfold splitLoop; rfl
    · refine splitLoop_glue c ps false hps hnil (.inl ?_)
      intro hg
      cases ps with
      | nil => exact hnil rfl
      | cons p ps =>
        by_cases hn : ps = []
        · subst hn; simp only [glue] at hg; subst hg; exact hne rfl
        · rw [glue_cons hn] at hg; simp at hg

example : ∀ p ∈ ([[97], [], [98]] : List (List Byte)), (44 : Byte) ∉ p := by decide

/-! ### C35 -/

theorem strncmp_spec (ra rb : List Byte) : ∀ (b a pa pb : List Byte), pa.length = pb.length → 0 ∉ b →
    strncmpEq (pa ++ (a ++ 0 :: ra)) (pb ++ (b ++ rb)) pb.length b.length = .ok (decide (b <+: a)) := by
  intro b
  induction b with
  | nil => intro a pa pb _ _; simp [strncmpEq]
  | cons y b ih =>
    intro a pa pb hl hb
    have hy : y ≠ 0 := fun e => hb (by simp [e])
    simp only [List.length_cons, strncmpEq, bind, Except.bind, List.cons_append, ld_mid]
    cases a with
    | nil =>
      rw [← hl]
      simp only [List.nil_append, ld_mid]
      rw [if_pos (fun e => hy e.symm)]
      simp
    | cons x a =>
      rw [← hl]
      simp only [List.cons_append, ld_mid]
      by_cases hxy : x = y
      · subst hxy
        simp only [ne_eq, not_true_eq_false, if_false, hy]
        have := ih a (pa ++ [x]) (pb ++ [x]) (by simpa using hl) (fun e => hb (List.mem_cons_of_mem _ e))
        simp only [List.append_assoc, List.singleton_append, List.length_append, List.length_singleton,
          ← hl] at this
        rw [this]
        simp [List.cons_prefix_cons]
      · rw [if_pos hxy]
        simp [List.cons_prefix_cons, Ne.symm hxy]

/-- C35: `StartsWith(first, other)`: `first` is any byte string (its `c_str()` memory ends in NUL and may
contain NULs), `other` a C string. -/
theorem C35_startsWith (first other ra rb : List Byte) (ho : 0 ∉ other) :
    startsWith (first ++ 0 :: ra) (other ++ 0 :: rb) = .ok (decide (other <+: first)) := by
  have h0 := scanNul_spec rb other [] ho
  simp only [List.nil_append, List.length_nil, Nat.zero_add] at h0
  simp only [startsWith, bind, Except.bind, h0]
  exact strncmp_spec ra (0 :: rb) other first [] [] rfl ho

/-- C35: `EndsWith` is the suffix test. -/
theorem C35_endsWith (first second : List Byte) : endsWith first second = true ↔ second <:+ first := by
  unfold endsWith
  simp only [Bool.and_eq_true, decide_eq_true_eq, beq_iff_eq]
  constructor
  · rintro ⟨h, he⟩
    rw [List.take_of_length_le (by simp; omega)] at he
    rw [← he]
    exact List.drop_suffix _ _
  · rintro ⟨r, rfl⟩
    simp

example : startsWith [97, 98, 0] [97, 0] = .ok true ∧ startsWith [97, 0] [97, 98, 0] = .ok false := by
  constructor
  · exact C35_startsWith [97, 98] [97] [] [] (by decide)
  · exact C35_startsWith [97] [97, 98] [] [] (by decide)

/-! ### C36 -/

theorem forall_byte {P : Byte → Prop} (h : ∀ n : Fin 256, P (UInt8.ofNat n.1)) : ∀ b, P b := by
  intro b
  have := h ⟨b.toNat, b.toNat_lt⟩
  simpa using this

/-- C36 in full. -/
def CaseCorrect : Prop :=
  ∀ s : List Byte, uppercase s = .ok (s.map asciiUpper) ∧ lowercase s = .ok (s.map asciiLower)

/-- C36 is false of the code: a byte above 127 reaches `toupper` as a negative `int`. -/
theorem C36_case_refuted : ¬ CaseCorrect := by
  intro h
  have := (h [0xE9]).1
  exact absurd this (by decide)

/-- C36, what does hold (missing: strings with bytes 128..254, which are undefined behaviour): on ASCII
text the conversions change exactly the letters of the other case, keep the length, are idempotent, and
lower after upper is lower. -/
theorem C36_case_partial (s : List Byte) (h : ∀ b ∈ s, b.toNat < 128) :
    uppercase s = .ok (s.map asciiUpper) ∧ lowercase s = .ok (s.map asciiLower) ∧
    uppercase (s.map asciiUpper) = .ok (s.map asciiUpper) ∧
    lowercase (s.map asciiLower) = .ok (s.map asciiLower) ∧
    lowercase (s.map asciiUpper) = .ok (s.map asciiLower) := by
  have up : ∀ b : Byte, b.toNat < 128 → (toupper (charToInt b)) = .ok (charToInt (asciiUpper b)) ∧
      intToChar (charToInt (asciiUpper b)) = asciiUpper b :=
    forall_byte (by decide +kernel)
  have low : ∀ b : Byte, b.toNat < 128 → (tolower (charToInt b)) = .ok (charToInt (asciiLower b)) ∧
      intToChar (charToInt (asciiLower b)) = asciiLower b :=
    forall_byte (by decide +kernel)
  have facts : ∀ b : Byte, b.toNat < 128 → (asciiUpper b).toNat < 128 ∧ (asciiLower b).toNat < 128 ∧
      asciiUpper (asciiUpper b) = asciiUpper b ∧ asciiLower (asciiLower b) = asciiLower b ∧
      asciiLower (asciiUpper b) = asciiLower b :=
    forall_byte (by decide +kernel)
  have mu : ∀ s : List Byte, (∀ b ∈ s, b.toNat < 128) → uppercase s = .ok (s.map asciiUpper) := by
    intro s
    induction s with
    | nil => intro _; rfl
    | cons b s ih =>
      intro hs
      have h1 := up b (hs b (by simp))
      have h2 := ih (fun x hx => hs x (List.mem_cons_of_mem _ hx))
      simp only [uppercase] at h2
      simp only [uppercase, mapChars, bind, Except.bind, h1.1, h2, h1.2, List.map_cons]
  have ml : ∀ s : List Byte, (∀ b ∈ s, b.toNat < 128) → lowercase s = .ok (s.map asciiLower) := by
    intro s
    induction s with
    | nil => intro _; rfl
    | cons b s ih =>
      intro hs
      have h1 := low b (hs b (by simp))
      have h2 := ih (fun x hx => hs x (List.mem_cons_of_mem _ hx))
      simp only [lowercase] at h2
      simp only [lowercase, mapChars, bind, Except.bind, h1.1, h2, h1.2, List.map_cons]
  have hu : ∀ b ∈ s.map asciiUpper, b.toNat < 128 := by
    intro b hb
    obtain ⟨a, ha, rfl⟩ := List.mem_map.1 hb
    exact (facts a (h a ha)).1
  have hlo : ∀ b ∈ s.map asciiLower, b.toNat < 128 := by
    intro b hb
    obtain ⟨a, ha, rfl⟩ := List.mem_map.1 hb
    exact (facts a (h a ha)).2.1
  refine ⟨mu s h, ml s h, ?_, ?_, ?_⟩
  · rw [mu _ hu, List.map_map]
    congr 1
    exact List.map_congr_left (fun a ha => (facts a (h a ha)).2.2.1)
  · rw [ml _ hlo, List.map_map]
    congr 1
    exact List.map_congr_left (fun a ha => (facts a (h a ha)).2.2.2.1)
  · rw [ml _ hu, List.map_map]
    congr 1
    exact List.map_congr_left (fun a ha => (facts a (h a ha)).2.2.2.2)

example : uppercase [104, 105, 33] = .ok [72, 73, 33] := by decide

/-! ### C37 -/

/-- The native form of a character: on POSIX systems backslash becomes slash, on Windows slash becomes backslash. -/
def nativeSep (win : Bool) (b : Byte) : Byte := match win, b with
  | false, 92 => 47
  | true, 47 => 92
  | _, b => b

theorem nativeSep_eq (win : Bool) (b : Byte) : nativeSep win b = if win then (if b = 47 then 92 else b) else (if b = 92 then 47 else b) := by
  cases win <;> simp only [nativeSep] <;> split <;> simp_all

theorem slashLoop_spec (win : Bool) : ∀ (k : Nat) (pre mid post : List Byte), mid.length = k →
    slashLoop win (pre ++ (mid ++ post)) pre.length (pre.length + k) = .ok (pre ++ (mid.map (nativeSep win) ++ post)) := by
  intro k
  induction k with
  | zero =>
    intro pre mid post h
    have : mid = [] := List.length_eq_zero_iff.1 h
    subst this
    unfold slashLoop; simp
  | succ k ih =>
    intro pre mid post h
    cases mid with
    | nil => simp at h
    | cons b mid =>
      unfold slashLoop
      rw [dif_pos (by omega)]
      have := ih (pre ++ [nativeSep win b]) mid post (by simpa using h)
      simp only [List.append_assoc, List.singleton_append, List.length_append, List.length_singleton] at this
      simp only [List.cons_append, bind, Except.bind, ld_mid, List.map_cons]
      rw [show pre.length + (k + 1) = pre.length + 1 + k by omega]
      rw [nativeSep_eq] at this ⊢
      cases win
      · simp only [Bool.false_eq_true, if_false] at this ⊢
        by_cases hb : b = 92
        · rw [if_pos hb] at this ⊢; rw [if_pos hb, st_mid]; exact this
        · rw [if_neg hb] at this ⊢; rw [if_neg hb]; exact this
      · simp only [if_true] at this ⊢
        by_cases hb : b = 47
        · rw [if_pos hb] at this ⊢; rw [if_pos hb, st_mid]; exact this
        · rw [if_neg hb] at this ⊢; rw [if_neg hb]; exact this

/-- C37: `path::Format` is `SafeSprintf` with every separator of the other system among the characters
of the result replaced by the native one (POSIX: slash, Windows: backslash) and nothing else changed; the result is still NUL-terminated inside the buffer. -/
theorem C37_path_format (win : Bool) (f : Fmt) (buffer : List Byte) (max : Nat) (hmax : 0 < max)
    (hroom : max ≤ buffer.length) (hobj : buffer.length < 2 ^ 63) :
    ∃ b n, safeVsprintf f buffer max = .ok (b, n) ∧ n < max ∧ b.length = buffer.length ∧
      pathFormat win f buffer max = .ok ((b.take n).map (nativeSep win) ++ b.drop n, n) ∧
      ((b.take n).map (nativeSep win) ++ b.drop n)[n]? = some 0 ∧
      ((b.take n).map (nativeSep win) ++ b.drop n).drop max = buffer.drop max := by
  obtain ⟨b, n, h1, h2, h3, h4, h5, _⟩ := C30_safeVsprintf f buffer max hmax hroom hobj
  have hl : (b.take n).length = n := by rw [List.length_take]; omega
  refine ⟨b, n, h1, h2, h3, ?_, ?_, ?_⟩
  · have := slashLoop_spec win n [] (b.take n) (b.drop n) hl
    simp only [List.nil_append, List.length_nil, Nat.zero_add, List.take_append_drop] at this
    simp only [pathFormat, bind, Except.bind, h1, this]
  · rw [List.getElem?_append_right (by rw [List.length_map]; omega), List.length_map, hl, Nat.sub_self, List.getElem?_drop]
    exact h4
  · rw [List.drop_append, List.drop_eq_nil_of_le (by rw [List.length_map, hl]; omega), List.nil_append,
      List.length_map, hl, List.drop_drop, ← h5]
    congr 1; omega

example : pathFormat false (.text [97, 92, 98]) [9, 9, 9, 9, 9] 5 = .ok ([97, 47, 98, 0, 9], 3) := by
  obtain ⟨b, n, h1, _, _, h4, _⟩ := C37_path_format false (.text [97, 92, 98]) [9, 9, 9, 9, 9] 5 (by decide) (by decide)
    (by decide)
  have e : safeVsprintf (.text [97, 92, 98]) [9, 9, 9, 9, 9] 5 = .ok ([97, 92, 98, 0, 9], 3) := by decide
  rw [e] at h1
  cases h1
  exact h4

example : [97, 92, 98, 47].map (nativeSep true) = [97, 92, 98, 92] ∧ [97, 92, 98, 47].map (nativeSep false) = [97, 47, 98, 47] := by decide

/-! ### Split with an empty separator -/

/-- C33: the loop as written agrees with `split` for every separator: it ends with the pieces if the separator is not empty or the string is, and otherwise never. -/
theorem C33_split_rounds (str sep : List Byte) :
    (∀ ps, split false str sep = .ok ps ↔ ∃ fuel, splitRounds sep fuel str false [] = some ps) ∧
    (split false str sep = .error .diverge ↔ ∀ fuel, splitRounds sep fuel str false [] = none) ∧
    (split false str sep = .error .diverge ↔ sep = [] ∧ str ≠ []) := by
  have det : ∀ (f g : Nat) (c : List Byte) (m : Bool) (o p q : List (List Byte)),
      splitRounds sep f c m o = some p → splitRounds sep g c m o = some q → p = q := by
    intro f
    induction f with
    | zero => intro g c m o p q h; nomatch h
    | succ f ih =>
      intro g c m o p q h1 h2
      cases g with
      | zero => nomatch h2
      | succ g =>
        simp only [splitRounds] at h1 h2
        by_cases hc : c = []
        · rw [if_pos hc] at h1 h2; rw [h1] at h2; injection h2
        · rw [if_neg hc] at h1 h2
          cases hs : strstr c sep with
          | none => rw [hs] at h1 h2; simp only at h1 h2; rw [h1] at h2; injection h2
          | some off => rw [hs] at h1 h2; exact ih g _ _ _ _ _ h1 h2
  by_cases hsep : sep = []
  · subst hsep
    have hs : ∀ c : List Byte, strstr c [] = some 0 := by intro c; unfold strstr; cases c <;> rfl
    have never : ∀ (f : Nat) (c : List Byte) (m : Bool) (o : List (List Byte)), c ≠ [] → splitRounds [] f c m o = none := by
      intro f
      induction f with
      | zero => intros; rfl
      | succ f ih =>
        intro c m o hc
        simp only [splitRounds, hc, if_false, hs]
        exact ih _ _ _ (by simpa using hc)
    have hsp : split false str [] = if str = [] then .ok [] else .error .diverge := by
      unfold split; rw [dif_pos rfl, if_neg (by decide)]
    by_cases hstr : str = []
    · subst hstr
      rw [hsp, if_pos rfl]
      refine ⟨fun ps => ⟨(fun h => ⟨1, by injection h with h; subst h; rfl⟩), fun ⟨f, h⟩ => ?_⟩, ⟨(fun h => nomatch h), (fun h => nomatch (h 1))⟩, ⟨(fun h => nomatch h), fun h => absurd rfl h.2⟩⟩
      have := det 1 f [] false [] [] ps rfl h
      rw [this]
    · rw [hsp, if_neg hstr]
      refine ⟨fun ps => ⟨(fun h => nomatch h), fun ⟨f, h⟩ => ?_⟩, ⟨fun _ f => never f _ _ _ hstr, fun _ => rfl⟩, ⟨fun _ => ⟨rfl, hstr⟩, fun _ => rfl⟩⟩
      rw [never f _ _ _ hstr] at h; nomatch h
  · have ends : ∀ (n : Nat) (c : List Byte) (m : Bool) (o : List (List Byte)), c.length ≤ n →
        ∃ f, splitRounds sep f c m o = some (o ++ splitLoop sep hsep c m) := by
      intro n
      induction n with
      | zero =>
        intro c m o hc
        have : c = [] := List.length_eq_zero_iff.1 (by omega)
        subst this
        refine ⟨1, ?_⟩
        unfold splitLoop
        cases m <;> simp [splitRounds]
      | succ n ih =>
        intro c m o hc
        by_cases h0 : c = []
        · subst h0
          refine ⟨1, ?_⟩
          unfold splitLoop
          cases m <;> simp [splitRounds]
        · cases hs : strstr c sep with
          | none =>
            refine ⟨1, ?_⟩
            unfold splitLoop
            simp [splitRounds, h0, hs]
          | some off =>
            have h1 : 0 < c.length := List.length_pos_iff.2 h0
            have h2 : 0 < sep.length := List.length_pos_iff.2 hsep
            obtain ⟨f, hf⟩ := ih (c.drop (off + sep.length)) true (o ++ [c.take off]) (by simp only [List.length_drop]; omega)
            refine ⟨f + 1, ?_⟩
            simp only [splitRounds, h0, if_false, hs, hf]
            conv => rhs; rw [splitLoop, dif_neg h0]
            simp only [hs, List.append_assoc, List.singleton_append]
    obtain ⟨f0, hf0⟩ := ends str.length str false [] (Nat.le_refl _)
    rw [List.nil_append] at hf0
    have hsp : split false str sep = .ok (splitLoop sep hsep str false) := by unfold split; rw [dif_neg hsep]
    rw [hsp]
    refine ⟨fun ps => ⟨fun h => ⟨f0, by injection h with h; rw [← h]; exact hf0⟩, fun ⟨f, h⟩ => ?_⟩, ⟨(fun h => nomatch h), fun h => ?_⟩, ⟨(fun h => nomatch h), fun h => absurd h.1 hsep⟩⟩
    · rw [det _ _ _ _ _ _ _ hf0 h]
    · rw [h f0] at hf0; nomatch hf0

/-- With asserts, an empty separator is an assertion failure. -/
theorem C33_empty_separator_asserts (str : List Byte) : split true str [] = .error .assertFail := by
  unfold split; rw [dif_pos rfl, if_pos rfl]

example : splitRounds [44] 5 [97, 44, 98, 44] false [] = some [[97], [98], []] := by decide +kernel

end Verif.Str
