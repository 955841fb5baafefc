import Verif.ArgParser.Spec
/-! # Lemmas for `am-argparser.h`: lookup, values, and one round of the loop -/
namespace Verif.ArgParser
open Verif

theorem strchr_some {a : Str} {c : UInt8} {k : Nat} (h : strchr a c = some k) :
    a = a.take k ++ c :: a.drop (k + 1) ∧ c ∉ a.take k ∧ k < a.length := by
  unfold strchr at h
  rw [List.findIdx?_eq_some_iff_getElem] at h
  obtain ⟨hk, h1, h2⟩ := h
  have hc : a[k] = c := by simpa using h1
  refine ⟨?_, ?_, hk⟩
  · conv => lhs; rw [← List.take_append_drop k a]
    rw [List.drop_eq_getElem_cons hk, hc]
  · intro hm
    rw [List.mem_iff_getElem] at hm
    obtain ⟨j, hj, e⟩ := hm
    rw [List.length_take] at hj
    have := h2 j (by omega)
    rw [List.getElem_take] at e
    simp [e] at this

theorem strchr_none {a : Str} {c : UInt8} : strchr a c = none ↔ c ∉ a := by
  unfold strchr
  rw [List.findIdx?_eq_none_iff]
  constructor
  · intro h hm; simpa using h c hm
  · intro h x hx; simp; rintro rfl; exact h hx

/-- What `sepOf` says. -/
theorem sepOf_some {cfg : Config} {a : Str} {k : Nat} (h : sepOf cfg a = some k) :
    ∃ c, (c = 61 ∨ (cfg.inlineValues = true ∧ c = 58)) ∧ a = a.take k ++ c :: a.drop (k + 1) ∧ k < a.length ∧
      (cfg.inlineValues = true → a.drop (k + 1) ≠ []) := by
  unfold sepOf at h
  simp only at h
  split at h
  · rename_i k' hk
    split at h
    · cases h
    · rename_i hlen
      cases h
      have hl : cfg.inlineValues = true → a.drop (k + 1) ≠ [] := by
        intro hi e; rw [hi, e] at hlen; simp at hlen
      split at hk
      · rename_i hc
        simp only [Bool.and_eq_true] at hc
        obtain ⟨h1, h2, h3⟩ := strchr_some hk
        exact ⟨58, .inr ⟨hc.2, rfl⟩, h1, h3, hl⟩
      · obtain ⟨h1, h2, h3⟩ := strchr_some hk
        exact ⟨61, .inl rfl, h1, h3, hl⟩
  · cases h

theorem formIs_iff {form : Option Str} {text : Str} {len : Nat} (h : formIs form text len = true) :
    form = some (text.take len) := by
  unfold formIs at h
  split at h
  · cases h
  · rename_i f
    simp only [Bool.and_eq_true, beq_iff_eq] at h
    rw [← h.2, ← h.1, List.take_length]

theorem findFrom_some {p : Opt → Bool} : ∀ {l : List Opt} {n i : Nat} {o : Opt}, findFrom p l n = some (i, o) →
    n ≤ i ∧ l[i - n]? = some o ∧ p o = true ∧ ∀ j, j < i - n → ∀ q, l[j]? = some q → p q = false := by
  intro l
  induction l with
  | nil => intro n i o h; cases h
  | cons q r ih =>
    intro n i o h
    simp only [findFrom] at h
    split at h
    · rename_i hp; cases h
      exact ⟨Nat.le_refl _, by simp, hp, fun j hj => by omega⟩
    · rename_i hp
      obtain ⟨h1, h2, h3, h4⟩ := ih h
      refine ⟨by omega, ?_, h3, ?_⟩
      · rw [show i - n = (i - (n + 1)) + 1 by omega]; simpa using h2
      · intro j hj q' hq'
        cases j with
        | zero => simp at hq'; subst hq'; simpa using hp
        | succ j => exact h4 j (by omega) q' (by simpa using hq')

theorem findFrom_none {p : Opt → Bool} : ∀ {l : List Opt} {n : Nat}, findFrom p l n = none ↔ ∀ o ∈ l, p o = false := by
  intro l
  induction l with
  | nil => simp [findFrom]
  | cons q r ih =>
    intro n
    simp only [findFrom]
    split
    · rename_i hp; simp; intro h; rw [hp] at h; cases h
    · rename_i hp
      rw [ih]; simp; intro _; simpa using hp

theorem findFrom_eq {p : Opt → Bool} : ∀ {l : List Opt} {n i : Nat} {o : Opt}, l[i]? = some o → p o = true →
    (∀ j, j < i → ∀ q, l[j]? = some q → p q = false) → findFrom p l n = some (n + i, o) := by
  intro l
  induction l with
  | nil => intro n i o h; simp at h
  | cons q r ih =>
    intro n i o h hp hmin
    cases i with
    | zero => simp at h; subst h; simp [findFrom, hp]
    | succ i =>
      have hq := hmin 0 (by omega) q rfl
      simp only [findFrom, hq]
      have := ih (n := n + 1) (i := i) (by simpa using h) hp (fun j hj q' hq' => hmin (j + 1) (by omega) q' (by simpa using hq'))
      simp only [Bool.false_eq_true, if_false]
      rw [this]; congr 2; omega

theorem isPrefixOf_sNo {a : Str} (h : sNo.isPrefixOf a = true) : a = sNo ++ a.drop 5 := by
  rw [List.isPrefixOf_iff_prefix] at h
  obtain ⟨t, rfl⟩ := h
  rfl

/-- The separator is behind the leading dash or slash. -/
theorem sep_pos {cfg : Config} {a : Str} {k : Nat} (hopt : OptionLike cfg a) (h : sepOf cfg a = some k) : 1 ≤ k := by
  obtain ⟨c, hc, h1, h2, h3⟩ := sepOf_some h
  cases k with
  | succ k => omega
  | zero =>
    exfalso
    rw [List.take_zero, List.nil_append] at h1
    have : a[0]? = some c := by rw [h1]; rfl
    rcases hopt with h | ⟨_, h⟩ <;> rw [h] at this <;> rcases hc with rfl | ⟨_, rfl⟩ <;> cases this

/-- What an option argument that was recognised spells. -/
theorem lookup_some {cfg : Config} {a : Str} {i : Nat} {o : Opt} {v : Option Str} {sep : Option Nat} (hopt : OptionLike cfg a)
    (h : lookup cfg a = .ok (some (i, o, v, sep))) :
    cfg.options[i]? = some o ∧
    ((o.takesNo = false ∧ v = none ∧ Spells cfg a i (sep.map fun k => a.drop (k + 1)) false) ∨
     (o.takesNo = true ∧ (sep = none → ∃ neg, v = some (if neg then sFalse else sTrue) ∧ Spells cfg a i none neg) ∧ v ≠ none)) := by
  -- a spelling that was found directly
  have key : ∀ (j : Nat) (q : Opt) (s : Option Nat), cfg.options[j]? = some q →
      Spells cfg a j (s.map fun k => a.drop (k + 1)) false →
      (Except.ok (some (j, q, if q.takesNo then some sTrue else none, s)) : Exec _) = .ok (some (i, o, v, sep)) →
      cfg.options[i]? = some o ∧
      ((o.takesNo = false ∧ v = none ∧ Spells cfg a i (sep.map fun k => a.drop (k + 1)) false) ∨
       (o.takesNo = true ∧ (sep = none → ∃ neg, v = some (if neg then sFalse else sTrue) ∧ Spells cfg a i none neg) ∧ v ≠ none)) := by
    intro j q s hq hs he
    cases he
    refine ⟨hq, ?_⟩
    cases ht : o.takesNo with
    | false => exact .inl ⟨rfl, by simp, hs⟩
    | true =>
      refine .inr ⟨rfl, ?_, by simp⟩
      rintro rfl
      exact ⟨false, by simp, hs⟩
  obtain ⟨p, t, rfl⟩ : ∃ p t, a = p :: t := by
    cases a with
    | nil => rcases hopt with h | ⟨_, h⟩ <;> cases h
    | cons p t => exact ⟨p, t, rfl⟩
  have hp : p = 45 ∨ (cfg.slashes = true ∧ p = 47) := by
    rcases hopt with h | ⟨h1, h⟩
    · left; simpa using h
    · right; exact ⟨h1, by simpa using h⟩
  -- the key cut off at the separator
  have cut : ∀ k, sepOf cfg (p :: t) = some k → ∃ c, (c = 61 ∨ (cfg.inlineValues = true ∧ c = 58)) ∧ t = t.take (k - 1) ++ c :: t.drop k ∧
      k - 1 < t.length ∧ 1 ≤ k ∧ (cfg.inlineValues = true → t.drop k ≠ []) := by
    intro k hk
    have h1 := sep_pos hopt hk
    obtain ⟨c, hc, e, hl, hn⟩ := sepOf_some hk
    obtain ⟨k, rfl⟩ : ∃ m, k = m + 1 := ⟨k - 1, by omega⟩
    refine ⟨c, hc, ?_, ?_, by omega, ?_⟩
    · simp only [List.take_succ_cons, List.drop_succ_cons, List.cons_append] at e
      simpa using e
    · simp at hl; omega
    · simpa using hn
  have no : ∀ s : Option Nat, s = sepOf cfg (p :: t) →
      (if sNo.isPrefixOf (p :: t) then
        match findLong cfg ((p :: t).drop 5) (((sepOf cfg (p :: t)).getD (p :: t).length) - 5) with
        | none => (.error .nullDeref : Exec (Option (Nat × Opt × Option Str × Option Nat)))
        | some (i, o) => if o.takesNo then .ok (some (i, o, some sFalse, s)) else .ok none
      else .ok none) = .ok (some (i, o, v, sep)) →
      cfg.options[i]? = some o ∧
      ((o.takesNo = false ∧ v = none ∧ Spells cfg (p :: t) i (sep.map fun k => (p :: t).drop (k + 1)) false) ∨
       (o.takesNo = true ∧ (sep = none → ∃ neg, v = some (if neg then sFalse else sTrue) ∧ Spells cfg (p :: t) i none neg) ∧ v ≠ none)) := by
    intro s hs h
    split at h
    · rename_i hpre
      split at h
      · cases h
      · rename_i j q hf
        split at h
        · rename_i ht
          cases h
          obtain ⟨_, h2, h3, _⟩ := findFrom_some hf
          refine ⟨by simpa using h2, .inr ⟨ht, ?_, by simp⟩⟩
          rintro rfl
          refine ⟨true, by simp, ?_⟩
          have hl := formIs_iff h3
          rw [← hs, Option.getD_none, List.take_of_length_le (by simp [List.length_drop])] at hl
          obtain ⟨d, hd⟩ : ∃ d, o.kind = .enable d := by
            unfold Opt.takesNo at ht
            split at ht
            · exact ⟨_, ‹_›⟩
            · cases ht
          have := Spells.no (cfg := cfg) (i := i) (by simpa using h2) hl hd
          rw [isPrefixOf_sNo hpre]
          exact this
        · cases h
    · cases h
  unfold lookup at h
  simp only at h
  by_cases hd : (p :: t)[0]? = some 45 ∧ (p :: t)[1]? = some 45
  · rw [if_pos hd] at h
    obtain ⟨rfl, t, rfl⟩ : p = 45 ∧ ∃ t', t = 45 :: t' := by
      refine ⟨by simpa using hd.1, ?_⟩
      cases t with
      | nil => simp at hd
      | cons x t' => exact ⟨t', by have := hd.2; simp at this; rw [this]⟩
    cases hf : findLong cfg ((45 :: 45 :: t : Str).drop 2) ((sepOf cfg (45 :: 45 :: t)).getD (45 :: 45 :: t : Str).length - 2) with
    | none => rw [hf] at h; exact no _ rfl h
    | some jq =>
      obtain ⟨j, q⟩ := jq
      rw [hf] at h
      obtain ⟨_, h2, h3, _⟩ := findFrom_some hf
      have hl := formIs_iff h3
      refine key j q _ (by simpa using h2) ?_ h
      cases hs : sepOf cfg (45 :: 45 :: t) with
      | none =>
        rw [hs] at hl
        simp only [Option.getD_none, List.length_cons, List.drop_succ_cons, List.drop_zero] at hl
        rw [show t.length + 1 + 1 - 2 = t.length by omega, List.take_length] at hl
        exact Spells.long (by simpa using h2) hl
      | some k =>
        rw [hs] at hl
        obtain ⟨c, hc, e, hlen, hk1, hn⟩ := cut k hs
        have hk2 : 2 ≤ k := by
          rcases Nat.lt_or_ge k 2 with h | h
          · have : k = 1 := by omega
            subst this
            simp only [Nat.sub_self, List.take_zero, List.nil_append] at e
            have hc45 : c = 45 := by injection e with e1 e2; exact e1.symm
            rcases hc with rfl | ⟨_, rfl⟩ <;> cases hc45
          · exact h
        obtain ⟨k, rfl⟩ : ∃ m, k = m + 2 := ⟨k - 2, by omega⟩
        simp only [Option.getD_some, List.drop_succ_cons, List.drop_zero, Nat.add_sub_cancel] at hl
        simp only [Nat.add_succ_sub_one, List.take_succ_cons, List.drop_succ_cons, List.cons_append] at e
        have e' := (List.cons.inj e).2
        simp only [Option.map_some, List.drop_succ_cons]
        have := Spells.longValue (cfg := cfg) (i := j) (v := t.drop (k + 1)) (c := c) (by simpa using h2) hl hc
        rw [← e'] at this
        exact this
  · rw [if_neg hd] at h
    cases hf : findShort cfg ((p :: t).drop 1) ((sepOf cfg (p :: t)).getD (p :: t).length - 1) with
    | some jq =>
      obtain ⟨j, q⟩ := jq
      rw [hf] at h
      obtain ⟨_, h2, h3, _⟩ := findFrom_some hf
      have hl := formIs_iff h3
      refine key j q _ (by simpa using h2) ?_ h
      cases hs : sepOf cfg (p :: t) with
      | none =>
        rw [hs] at hl
        simp only [Option.getD_none, List.length_cons, List.drop_succ_cons, List.drop_zero, Nat.add_sub_cancel, List.take_length] at hl
        exact Spells.short hp (by simpa using h2) hl
      | some k =>
        rw [hs] at hl
        obtain ⟨c, hc, e, hlen, hk1, hn⟩ := cut k hs
        obtain ⟨k, rfl⟩ : ∃ m, k = m + 1 := ⟨k - 1, by omega⟩
        simp only [Option.getD_some, List.drop_succ_cons, List.drop_zero, Nat.add_sub_cancel] at hl e
        simp only [Option.map_some, List.drop_succ_cons]
        have := Spells.shortValue (cfg := cfg) (p := p) (i := j) (v := t.drop (k + 1)) (c := c) hp (by simpa using h2) hl hc
        rw [← e] at this
        exact this
    | none =>
      rw [hf] at h
      by_cases hi : cfg.inlineValues = true
      · rw [hi] at h
        cases hg : findInline cfg (p :: t)[1]? with
        | none => rw [hg] at h; exact no _ rfl h
        | some jq =>
          obtain ⟨j, q⟩ := jq
          rw [hg] at h
          obtain ⟨_, h2, h3, _⟩ := findFrom_some hg
          refine key j q _ (by simpa using h2) ?_ h
          obtain ⟨ch, t', ht, hsh⟩ : ∃ ch t', t = ch :: t' ∧ q.short = some [ch] := by
            cases hq : q.short with
            | none => rw [hq] at h3; cases h3
            | some f =>
              rw [hq] at h3
              simp only [Bool.and_eq_true, beq_iff_eq] at h3
              cases t with
              | nil => simp at h3
              | cons ch t' =>
                refine ⟨ch, t', rfl, ?_⟩
                match f, h3 with
                | [x], h3 => have := h3.2.2; simp at this; rw [this]
                | [], h3 => simp at h3
                | _ :: _ :: _, h3 => simp at h3
          subst ht
          have h2' : cfg.options[j]? = some q := by simpa using h2
          by_cases hlen : (sepOf cfg (p :: ch :: t')).getD (p :: ch :: t' : Str).length > 2
          · rw [if_pos hlen]
            simp only [Option.map_some, List.drop_succ_cons, List.drop_zero]
            refine Spells.inlineValue hp hi ?_ h2' hsh
            rintro rfl
            cases hs : sepOf cfg [p, ch] with
            | none => rw [hs] at hlen; simp at hlen
            | some k =>
              rw [hs] at hlen
              obtain ⟨_, _, _, h5, _⟩ := cut k hs
              simp at hlen h5; omega
          · rw [if_neg hlen]
            cases hs : sepOf cfg (p :: ch :: t') with
            | none =>
              rw [hs] at hlen
              simp only [Option.getD_none, List.length_cons] at hlen
              have : t' = [] := List.length_eq_zero_iff.1 (by omega)
              subst this
              exact Spells.short hp h2' hsh
            | some k =>
              rw [hs] at hlen
              obtain ⟨c, hc, e, h5, h6, hn⟩ := cut k hs
              simp only [Option.getD_some] at hlen
              have : k = 1 ∨ k = 2 := by omega
              rcases this with rfl | rfl
              · simp only [Option.map_some, List.drop_succ_cons, List.drop_zero]
                exact Spells.inlineValue hp hi (by simpa using hn hi) h2' hsh
              · simp only [Option.map_some, List.drop_succ_cons, List.drop_zero]
                simp only [Nat.add_one_sub_one, List.take_succ_cons, List.take_zero, List.drop_succ_cons, List.cons_append, List.nil_append] at e
                have := Spells.shortValue (cfg := cfg) (p := p) (i := j) (v := t'.drop 1) (c := c) hp h2' hsh hc
                rw [List.cons_append, List.nil_append, ← (List.cons.inj e).2] at this
                exact this
      · rw [if_neg hi] at h
        exact no _ rfl h

end Verif.ArgParser
