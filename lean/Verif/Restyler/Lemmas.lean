import Verif.Restyler.Spec
import Verif.Rewriter.Props
/-! # Lemmas about the restyler -/
namespace Verif.Restyler
open Verif Verif.Rewriter

theorem White.lt {t : Text} {i : Nat} (h : White t i) : i < t.length := by
  obtain ⟨c, hc, _⟩ := h
  exact (List.getElem?_eq_some_iff.1 hc).1

theorem Solid.lt {t : Text} {i : Nat} (h : Solid t i) : i < t.length := by
  obtain ⟨c, hc, _⟩ := h
  exact (List.getElem?_eq_some_iff.1 hc).1

theorem Solid.not_white {t : Text} {i : Nat} (h : Solid t i) : ¬ White t i := by
  rintro ⟨d, hd, hd'⟩
  obtain ⟨c, hc, hc'⟩ := h
  rw [Option.mem_def] at hc hd
  rw [hc] at hd
  injection hd with e
  rw [e, hd'] at hc'
  cases hc'

theorem solid_or_white {t : Text} {i : Nat} (h : i < t.length) : Solid t i ∨ White t i := by
  have hc : t[i]? = some t[i] := List.getElem?_eq_getElem h
  cases hw : isWs t[i] with
  | true => exact .inr ⟨t[i], hc, hw⟩
  | false => exact .inl ⟨t[i], hc, hw⟩

theorem solid_of_not_white {t : Text} {i : Nat} (h : i < t.length) (hw : ¬ White t i) : Solid t i := (solid_or_white h).resolve_right hw

theorem isWhitespace_white {s : Src} {i : Nat} (h : White s.text i) : isWhitespace s i = .ok true := by
  obtain ⟨c, hc, hc'⟩ := h
  rw [Option.mem_def] at hc
  simp only [isWhitespace, charAt, hc, bind, Except.bind, hc']

theorem isWhitespace_solid {s : Src} {i : Nat} (h : Solid s.text i) : isWhitespace s i = .ok false := by
  obtain ⟨c, hc, hc'⟩ := h
  rw [Option.mem_def] at hc
  simp only [isWhitespace, charAt, hc, bind, Except.bind, hc']

theorem skipToken_solid {s : Src} {i : Nat} (h : Solid s.text i) : skipToken s i = .ok (s.tokEnd i) := by
  simp [skipToken, isWhitespace_solid h, bind, Except.bind]

theorem getTokenKind_solid {s : Src} {i : Nat} (h : Solid s.text i) : getTokenKind s i = .ok (s.kind i) := by
  simp [getTokenKind, isWhitespace_solid h, bind, Except.bind]

theorem skipWs_white {t : Text} {i : Nat} (h : White t i) : skipWs (t.drop i) i = skipWs (t.drop (i + 1)) (i + 1) := by
  have hl := h.lt
  obtain ⟨c, hc, hc'⟩ := h
  rw [Option.mem_def, List.getElem?_eq_getElem hl] at hc
  injection hc with hc
  rw [List.drop_eq_getElem_cons hl, skipWs, hc, if_pos hc']

theorem skipWs_solid {t : Text} {i : Nat} (h : Solid t i) : skipWs (t.drop i) i = i := by
  have hl := h.lt
  obtain ⟨c, hc, hc'⟩ := h
  rw [Option.mem_def, List.getElem?_eq_getElem hl] at hc
  injection hc with hc
  rw [List.drop_eq_getElem_cons hl, skipWs, hc, if_neg (by simp [hc'])]

theorem skipWs_spec (t : Text) : ∀ (n i : Nat), i + n = t.length → i ≤ skipWs (t.drop i) i ∧ skipWs (t.drop i) i ≤ t.length ∧
    AllWhite t i (skipWs (t.drop i) i) ∧ ¬ White t (skipWs (t.drop i) i) := by
  intro n
  induction n with
  | zero =>
    intro i hi
    have : i = t.length := by omega
    subst this
    rw [List.drop_length]
    simp only [skipWs]
    exact ⟨Nat.le_refl _, Nat.le_refl _, fun k h1 h2 => by omega, fun h => by have := h.lt; omega⟩
  | succ n ih =>
    intro i hi
    rcases solid_or_white (t := t) (i := i) (by omega) with h | h
    · rw [skipWs_solid h]
      exact ⟨Nat.le_refl _, by omega, fun k h1 h2 => by omega, h.not_white⟩
    · rw [skipWs_white h]
      obtain ⟨h1, h2, h3, h4⟩ := ih (i + 1) (by omega)
      refine ⟨by omega, h2, fun k hk hik => ?_, h4⟩
      rcases Nat.eq_or_lt_of_le hik with rfl | hlt
      · exact h
      · exact h3 k hk (by omega)

theorem skipWs_eq {t : Text} {i j : Nat} (hij : i ≤ j) (hw : AllWhite t i j) (hj : Solid t j) : skipWs (t.drop i) i = j := by
  have hl := hj.lt
  obtain ⟨h1, h2, h3, h4⟩ := skipWs_spec t (t.length - i) i (by omega)
  rcases Nat.lt_trichotomy (skipWs (t.drop i) i) j with h | h | h
  · exact absurd (hw _ h h1) h4
  · exact h
  · exact absurd (h3 j h hij) hj.not_white

theorem skipWhitespace_eq {s : Src} {i j : Nat} (hij : i ≤ j) (hw : AllWhite s.text i j) (hj : Solid s.text j) : skipWhitespace s i = .ok j := by
  have hl := hj.lt
  rw [skipWhitespace, if_pos (by omega), skipWs_eq hij hw hj]

theorem NextCode.solid {s : Src} {i j : Nat} (h : NextCode s i j) : Solid s.text j := by
  induction h with
  | here i h _ => exact h
  | white _ _ _ _ ih => exact ih
  | comment _ _ _ _ _ ih => exact ih

theorem NextCode.le {s : Src} (hl : Lexes s) {i j : Nat} (h : NextCode s i j) : i ≤ j := by
  induction h with
  | here i h _ => exact Nat.le_refl _
  | white _ _ _ _ ih => omega
  | comment i _ hs _ _ ih => have := (hl i hs).1; omega

theorem getNextTokenLoop_eq {s : Src} (hl : Lexes s) : ∀ {i j : Nat}, NextCode s i j → ∀ fuel, j - i < fuel → getNextTokenLoop s fuel i = .ok j := by
  intro i j h
  induction h with
  | here i hs hk =>
    intro fuel hf
    obtain ⟨f, rfl⟩ : ∃ f, fuel = f + 1 := ⟨fuel - 1, by omega⟩
    simp only [getNextTokenLoop, skipWhitespace_eq (Nat.le_refl i) (fun k h1 h2 => by omega) hs, bind, Except.bind, getTokenKind_solid hs]
    rw [if_pos hk]
  | white i j hw hn ih =>
    intro fuel hf
    have hle := hn.le hl
    have := ih fuel (by omega)
    obtain ⟨f, rfl⟩ : ∃ f, fuel = f + 1 := ⟨fuel - 1, by omega⟩
    have hsk : skipWhitespace s i = skipWhitespace s (i + 1) := by
      have := hw.lt
      rw [skipWhitespace, skipWhitespace, if_pos (by omega), if_pos (by omega), skipWs_white hw]
    rw [← this]
    simp only [getNextTokenLoop, hsk]
  | comment i j hs hk hn ih =>
    intro fuel hf
    have hle := hn.le hl
    have hlt := (hl i hs).1
    obtain ⟨f, rfl⟩ : ∃ f, fuel = f + 1 := ⟨fuel - 1, by omega⟩
    simp only [getNextTokenLoop, skipWhitespace_eq (Nat.le_refl i) (fun k h1 h2 => by omega) hs, bind, Except.bind, getTokenKind_solid hs, skipToken_solid hs]
    rw [if_neg (by simp [hk])]
    exact ih f (by omega)

theorem getNextToken_eq {s : Src} (hl : Lexes s) {i j : Nat} (h : NextCode s i j) : getNextToken s i = .ok j := by
  have := h.solid.lt
  exact getNextTokenLoop_eq hl h _ (by omega)

/-! ### Lines and columns -/

theorem count_eq_iff (t : Text) {i j : Nat} (h : i ≤ j) : (t.take i).count 10 = (t.take j).count 10 ↔ ∀ k < j, i ≤ k → t[k]? ≠ some 10 := by
  induction h with
  | refl => simp; intro k h1 h2; omega
  | @step j hij ih =>
    have hij : i ≤ j := hij
    have hmono : (t.take i).count 10 ≤ (t.take j).count 10 := (List.take_sublist_take_left hij).count_le _
    have hs : (t.take (j + 1)).count 10 = (t.take j).count 10 + if t[j]? = some 10 then 1 else 0 := by
      rw [List.take_add_one, List.count_append]
      cases h : t[j]? with
      | none => simp
      | some c => simp [List.count_singleton]
    rw [hs]
    constructor
    · intro h k hk hik
      split at h
      · omega
      · rename_i hne
        rcases Nat.eq_or_lt_of_le (Nat.lt_succ_iff.1 hk) with rfl | hlt
        · exact hne
        · exact ih.1 (by omega) k hlt hik
    · intro h
      rw [if_neg (h j (by omega) hij), ih.2 (fun k hk => h k (by omega))]
      rfl

theorem getLine_eq_iff (t : Text) (i j : Nat) : getLine t i = getLine t j ↔ SameLine t i j := by
  unfold getLine SameLine
  rcases Nat.le_total i j with h | h
  · rw [Nat.max_eq_right h, Nat.min_eq_left h, ← count_eq_iff t h]; omega
  · rw [Nat.max_eq_left h, Nat.min_eq_right h, ← count_eq_iff t h]; omega

theorem getLine_mono (t : Text) {i j : Nat} (h : i ≤ j) : getLine t i ≤ getLine t j := by
  unfold getLine
  have : (t.take i).count 10 ≤ (t.take j).count 10 := (List.take_sublist_take_left h).count_le _
  omega

theorem SameLine.symm {t : Text} {i j : Nat} (h : SameLine t i j) : SameLine t j i := by
  unfold SameLine at *
  rw [Nat.max_comm, Nat.min_comm]; exact h

theorem lineBegin_le (t : Text) : ∀ i, lineBegin t i ≤ i := by
  intro i
  induction i with
  | zero => exact Nat.le_refl _
  | succ i ih =>
    rw [lineBegin]
    split
    · exact Nat.le_refl _
    · omega

theorem getCol_eq_one (t : Text) (i : Nat) : getCol t i = 1 ↔ FirstCol t i := by
  have hle := lineBegin_le t i
  unfold getCol FirstCol
  cases i with
  | zero => simp
  | succ i =>
    have := lineBegin_le t i
    rw [lineBegin] at *
    split
    · rename_i h; simp [h]
    · rename_i h; simp [h]; omega

theorem lineUpTo_zero (t : Text) : lineUpTo t 0 = [] := by simp [lineUpTo]

theorem lineUpTo_succ (t : Text) (i : Nat) : lineUpTo t (i + 1) = if t[i]? = some 10 then [] else lineUpTo t i ++ t[i]?.toList := by
  unfold lineUpTo
  rw [List.take_add_one]
  cases h : t[i]? with
  | none => simp
  | some c =>
    by_cases hc : c = 10
    · subst hc; simp
    · simp [hc]

theorem drop_lineBegin (t : Text) (i : Nat) (hi : i ≤ t.length) : t.drop (lineBegin t i) = lineUpTo t i ++ t.drop i := by
  induction i with
  | zero => simp [lineBegin, lineUpTo_zero]
  | succ i ih =>
    rw [lineBegin, lineUpTo_succ]
    split
    · simp
    · rw [ih (by omega), List.append_assoc]
      congr 1
      rw [List.drop_eq_getElem_cons (by omega), List.getElem?_eq_getElem (by omega)]
      rfl

theorem indentLoop_eq : ∀ (t : Text), (∀ c, (t.dropWhile isWs).head? = some c → c.toNat < 128) → indentLoop t = .ok (t.takeWhile isWs) := by
  intro t
  induction t with
  | nil => intro _; rfl
  | cons c r ih =>
    intro h
    unfold indentLoop
    cases hw : isWs c with
    | true =>
      have : c.toNat < 128 := by
        simp only [isWs, Bool.or_eq_true, beq_iff_eq, Bool.and_eq_true, decide_eq_true_eq] at hw
        rcases hw with rfl | ⟨_, h⟩
        · decide
        · omega
      rw [if_neg (by omega)]
      rw [List.takeWhile_cons, hw]
      have := ih (by rw [List.dropWhile_cons, hw] at h; exact h)
      simp [this, bind, Except.bind]
    | false =>
      rw [if_neg (by have := h c (by simp [hw]); omega), List.takeWhile_cons, hw]
      simp

theorem indentLoop_negative : ∀ (t : Text), (¬ ∀ c, (t.dropWhile isWs).head? = some c → c.toNat < 128) → indentLoop t = .error .badBuiltin := by
  intro t
  induction t with
  | nil => intro h; exact (h (fun c hc => by cases hc)).elim
  | cons c r ih =>
    intro h
    unfold indentLoop
    cases hw : isWs c with
    | true =>
      have hc : c.toNat < 128 := by
        simp only [isWs, Bool.or_eq_true, beq_iff_eq, Bool.and_eq_true, decide_eq_true_eq] at hw
        rcases hw with rfl | ⟨_, h⟩
        · decide
        · omega
      rw [if_neg (by omega)]
      have := ih (by rw [List.dropWhile_cons, hw] at h; exact h)
      simp [this, bind, Except.bind]
    | false =>
      rw [List.dropWhile_cons, hw] at h
      by_cases hc : 128 ≤ c.toNat
      · rw [if_pos hc]
      · exact (h (fun d hd => by cases hd; omega)).elim

theorem getIndentForLine_eq {t : Text} {i : Nat} (hs : Solid t i) (ha : AsciiLine t i) : getIndentForLine t i = .ok (indentOf t i) := by
  have hl := hs.lt
  obtain ⟨c, hc, hw⟩ := hs
  rw [Option.mem_def] at hc
  have hne : t[i]? ≠ some 10 := by
    rw [hc]; intro h; injection h with h; subst h; exact absurd hw (by decide)
  unfold getIndentForLine
  rw [lineBegin, if_neg hne, drop_lineBegin t i (by omega), indentLoop_eq _ ha]
  congr 1
  unfold indentOf
  have hd : t.drop i = c :: t.drop (i + 1) := by
    rw [List.drop_eq_getElem_cons hl]
    rw [List.getElem?_eq_getElem hl] at hc
    injection hc with hc
    rw [hc]
  rw [hd, List.takeWhile_append]
  split
  · rename_i h
    simp only [List.takeWhile_cons, hw, Bool.false_eq_true, if_false, List.append_nil]
    exact ((List.takeWhile_sublist _).eq_of_length h).symm
  · rfl

/-! ### White space before a place -/

theorem runLen_succ (t : Text) (i : Nat) : ((t.take (i + 1)).reverse.takeWhile isWs).length =
    if White t i then ((t.take i).reverse.takeWhile isWs).length + 1 else if i < t.length then 0 else ((t.take i).reverse.takeWhile isWs).length := by
  rw [List.take_add_one]
  by_cases hl : i < t.length
  · have hg : t[i]? = some t[i] := List.getElem?_eq_getElem hl
    rw [hg]
    rcases solid_or_white hl with h | h
    · have : isWs t[i] = false := by
        obtain ⟨c, hc, hc'⟩ := h
        rw [Option.mem_def, hg] at hc; injection hc with hc; rw [hc]; exact hc'
      rw [if_neg h.not_white, if_pos hl, List.reverse_append]
      simp only [Option.toList, List.reverse_cons, List.reverse_nil, List.nil_append, List.cons_append, List.takeWhile_cons, this]
      rfl
    · rw [if_pos h]
      have : isWs t[i] = true := by
        obtain ⟨c, hc, hc'⟩ := h
        rw [Option.mem_def, hg] at hc; injection hc with hc; rw [hc]; exact hc'
      rw [List.reverse_append]
      simp only [Option.toList, List.reverse_cons, List.reverse_nil, List.nil_append, List.cons_append, List.takeWhile_cons, this, if_true, List.length_cons]
  · have hg : t[i]? = none := List.getElem?_eq_none (by omega)
    rw [hg, if_neg (fun h => hl h.lt), if_neg hl]
    simp

theorem runStart_spec (t : Text) : ∀ i, i ≤ t.length → runStart t i ≤ i ∧ AllWhite t (runStart t i) i ∧ (runStart t i = 0 ∨ Solid t (runStart t i - 1)) ∧
    ((t.take i).reverse.takeWhile isWs).length ≤ i := by
  intro i
  induction i with
  | zero => intro _; simp [runStart]; intro k h; omega
  | succ i ih =>
    intro hi
    obtain ⟨h1, h2, h3, h4⟩ := ih (by omega)
    have hr : runStart t (i + 1) = if White t i then runStart t i else i + 1 := by
      unfold runStart
      rw [runLen_succ]
      split
      · omega
      · rw [if_pos (by omega)]; omega
    rw [hr, runLen_succ]
    split
    · rename_i hw
      refine ⟨by omega, ?_, h3, by omega⟩
      intro k hk hik
      rcases Nat.eq_or_lt_of_le (Nat.lt_succ_iff.1 hk) with rfl | hlt
      · exact hw
      · exact h2 k hlt hik
    · rename_i hw
      rw [if_pos (by omega)]
      exact ⟨Nat.le_refl _, fun k h1 h2 => by omega, .inr (solid_of_not_white (by omega) hw), by omega⟩

theorem runStart_eq {t : Text} {r i : Nat} (hi : i ≤ t.length) (hr : r < i) (hs : Solid t r) (hw : AllWhite t (r + 1) i) : runStart t i = r + 1 := by
  obtain ⟨h1, h2, h3, -⟩ := runStart_spec t i hi
  rcases Nat.lt_trichotomy (runStart t i) (r + 1) with h | h | h
  · exact absurd (h2 r hr (by omega)) hs.not_white
  · exact h
  · rcases h3 with h3 | h3
    · omega
    · exact absurd (hw _ (by omega) (by omega)) h3.not_white

theorem Walk.le {s : Src} (hl : Lexes s) {i j : Nat} (h : Walk s i j) : i ≤ j := by
  induction h with
  | refl => exact Nat.le_refl _
  | white _ _ _ _ ih => omega
  | token i _ hs _ ih => have := (hl i hs).1; omega

theorem Walk.skip {s : Src} {j : Nat} : ∀ {n i : Nat}, Walk s i j → AllWhite s.text i (i + n) → i + n ≤ j → Walk s (i + n) j := by
  intro n
  induction n with
  | zero => intro i h _ _; exact h
  | succ n ih =>
    intro i h hw hle
    have hwi : White s.text i := hw i (by omega) (Nat.le_refl _)
    cases h with
    | refl => omega
    | white _ _ _ h' =>
      have := ih h' (fun k h1 h2 => hw k (by omega) (by omega)) (by omega)
      rw [show i + (n + 1) = i + 1 + n by omega]
      exact this
    | token _ _ hs _ => exact absurd hwi hs.not_white

theorem firstWsLoop_eq {s : Src} (hl : Lexes s) {b a : Nat} (hb : Solid s.text b) (hab : a < b) (hw : AllWhite s.text a b) (ha : a = 0 ∨ Solid s.text (a - 1)) :
    ∀ (fuel i : Nat), Walk s i a → a - i < fuel → firstWsLoop s b fuel i = .ok a := by
  intro fuel
  induction fuel with
  | zero => intro i _ h; omega
  | succ fuel ih =>
    intro i h hf
    have hle := h.le hl
    have hbl := hb.lt
    rcases solid_or_white (t := s.text) (i := i) (by omega) with hs | hwi
    · cases h with
      | refl => exact absurd (hw a hab (Nat.le_refl _)) hs.not_white
      | white _ _ hwi _ => exact absurd hwi hs.not_white
      | token _ _ _ h' =>
        have h1 := (hl i hs).1
        have h2 := h'.le hl
        simp only [firstWsLoop, isWhitespace_solid hs, skipToken_solid hs, bind, Except.bind]
        rw [if_neg (by simp), if_pos (by omega)]
        exact ih _ h' (by omega)
    · obtain ⟨k1, k2, k3, k4⟩ := skipWs_spec s.text (s.text.length - i) i (by omega)
      rcases Nat.eq_or_lt_of_le hle with rfl | hlt
      · have : skipWhitespace s i = .ok b := skipWhitespace_eq (by omega) hw hb
        simp only [firstWsLoop, isWhitespace_white hwi, this, bind, Except.bind]
        simp
      · have hka : skipWs (s.text.drop i) i < a := by
          rcases Nat.lt_or_ge (skipWs (s.text.drop i) i) a with h' | h'
          · exact h'
          · rcases ha with ha | ha
            · omega
            · exact absurd (k3 (a - 1) (by omega) (by omega)) ha.not_white
        have hki : i < skipWs (s.text.drop i) i := by
          rcases Nat.eq_or_lt_of_le k1 with h' | h'
          · rw [← h'] at k4; exact absurd hwi k4
          · exact h'
        simp only [firstWsLoop, isWhitespace_white hwi, skipWhitespace, bind, Except.bind]
        rw [if_pos (show i ≤ s.text.length by omega)]
        simp only [if_true]
        rw [if_neg (by omega), if_pos (by omega)]
        refine ih _ ?_ (by omega)
        have hadd : i + (skipWs (s.text.drop i) i - i) = skipWs (s.text.drop i) i := by omega
        have := Walk.skip (n := skipWs (s.text.drop i) i - i) h (by rw [hadd]; exact k3) (by omega)
        rw [hadd] at this
        exact this

theorem getFirst_eq {s : Src} (hl : Lexes s) {b i : Nat} (hb : Solid s.text b) (hlt : runStart s.text b < b) (h : Walk s i (runStart s.text b)) :
    getFirstWhitespaceBeforeLoc s i b = .ok (runStart s.text b) := by
  have hbl := hb.lt
  obtain ⟨h1, h2, h3, -⟩ := runStart_spec s.text b (by omega)
  exact firstWsLoop_eq hl hb hlt h2 h3 _ _ h (by omega)

/-! ### Parentheses -/

theorem getRParenLoc_closed {s : Src} (hl : Lexes s) {e r : Nat} (h : ClosedAt s e r) : getRParenLoc s e = .ok (some r) := by
  obtain ⟨h1, h2, h3⟩ := h
  simp [getRParenLoc, skipToken_solid h1, getNextToken_eq hl h2, getTokenKind_solid h2.solid, h3, bind, Except.bind]

theorem getRParenLoc_hash {s : Src} (hl : Lexes s) {e : Nat} (h : HashAfter s e) : getRParenLoc s e = .ok none := by
  obtain ⟨h1, r, h2, h3⟩ := h
  simp [getRParenLoc, skipToken_solid h1, getNextToken_eq hl h2, getTokenKind_solid h2.solid, h3, bind, Except.bind]

theorem charAt_lt {t : Text} {i : Nat} (h : i < t.length) : charAt t i = .ok t[i] := by
  simp [charAt, List.getElem?_eq_getElem h]

theorem backwards_found {t : Text} {start r : Nat} (hs : start < r) (hr : t[r]? = some 41) : ∀ (n : Nat), r + n < t.length →
    (∀ k, r < k → k ≤ r + n → t[k]? ≠ some 41) → getRParenLocBackwards t start (r + n) = .ok (some r) := by
  intro n
  have hstep : ∀ m, m + 1 < t.length → m + 1 ≠ start → getRParenLocBackwards t start (m + 1) = if t[m + 1]? = some 41 then .ok (some (m + 1)) else getRParenLocBackwards t start m := by
    intro m hm hne
    rw [getRParenLocBackwards, if_neg hne, charAt_lt hm, List.getElem?_eq_getElem hm]
    simp [bind, Except.bind]
  induction n with
  | zero =>
    intro hlt _
    obtain ⟨m, rfl⟩ : ∃ m, r = m + 1 := ⟨r - 1, by omega⟩
    rw [Nat.add_zero, hstep m hlt (by omega), if_pos hr]
  | succ n ih =>
    intro hlt hno
    rw [← Nat.add_assoc, hstep (r + n) hlt (by omega), if_neg (hno _ (by omega) (by omega))]
    exact ih (by omega) (fun k h1 h2 => hno k h1 (by omega))

theorem backwards_none {t : Text} {start : Nat} : ∀ (n : Nat), start + n < t.length →
    (∀ k, start < k → k ≤ start + n → t[k]? ≠ some 41) → getRParenLocBackwards t start (start + n) = .ok none := by
  intro n
  induction n with
  | zero => intro _ _; cases start <;> simp [getRParenLocBackwards]
  | succ n ih =>
    intro hlt hno
    rw [← Nat.add_assoc, getRParenLocBackwards, if_neg (by omega), charAt_lt (by omega)]
    have := hno (start + (n + 1)) (by omega) (by omega)
    rw [List.getElem?_eq_getElem hlt] at this
    have h2 : ¬ t[start + n + 1] = 41 := fun h => this (by rw [← h]; rfl)
    simp only [bind, Except.bind, if_neg h2]
    exact ih (by omega) (fun k h1 h2 => hno k h1 (by omega))

end Verif.Restyler
