import Verif.ArgParser.Chain
/-! # Lemmas for `am-argparser.h`: the name part of an argument, unknown `--no-` options -/
namespace Verif.ArgParser
open Verif

variable {cfg : Config}

theorem strchr_at {n v : Str} {c : UInt8} (h : c ∉ n) : strchr (n ++ c :: v) c = some n.length := by
  induction n with
  | nil => simp [strchr, List.findIdx?_cons]
  | cons x r ih =>
    simp only [List.mem_cons, not_or] at h
    unfold strchr at ih ⊢
    rw [List.cons_append, List.findIdx?_cons]
    have hx : (x == c) = false := by simpa using Ne.symm h.1
    rw [hx, ih h.2]; simp

/-- The separator in terms of `Head`. -/
theorem head_sep {a h : Str} (hh : Head cfg a h) :
    sepOf cfg a = (if h.length < a.length then some h.length else none) ∧ h = a.take h.length ∧ h.length ≤ a.length := by
  cases hh with
  | whole h1 h2 =>
    refine ⟨?_, by simp, Nat.le_refl _⟩
    rw [if_neg (by omega)]
    unfold sepOf
    simp only [strchr_none.2 h1, Option.isNone_none, Bool.true_and]
    cases hi : cfg.inlineValues with
    | false => simp
    | true => simp [strchr_none.2 (h2 hi)]
  | @equals n v h1 h2 =>
    refine ⟨?_, by simp, by simp⟩
    rw [if_pos (by simp)]
    unfold sepOf
    simp only [strchr_at h1, Option.isNone_some, Bool.false_and, Bool.false_eq_true, if_false]
    rw [if_neg]
    simp only [Bool.and_eq_true, beq_iff_eq, not_and]
    intro hi
    have := h2 hi
    rw [List.drop_append]; simp [this]
  | @equalsEnd n h1 hi =>
    refine ⟨?_, (List.take_length).symm, Nat.le_refl _⟩
    rw [if_neg (by simp)]
    unfold sepOf
    simp [strchr_at h1, hi]
  | @colon n v h1 h2 h3 hi hv =>
    refine ⟨?_, by simp, by simp⟩
    rw [if_pos (by simp)]
    unfold sepOf
    have : (61 : UInt8) ∉ h ++ 58 :: v := by simp [h1, h2]
    simp only [strchr_none.2 this, Option.isNone_none, Bool.true_and, hi, if_true, strchr_at h3]
    rw [if_neg]
    simp [hv]
  | @colonEnd n h1 h3 hi =>
    refine ⟨?_, (List.take_length).symm, Nat.le_refl _⟩
    rw [if_neg (by simp)]
    unfold sepOf
    have : (61 : UInt8) ∉ n ++ [58] := by simp [h1]
    simp [strchr_none.2 this, hi, strchr_at h3]

theorem head_unique {a h : Str} (hh : Head cfg a h) : h = a.take ((sepOf cfg a).getD a.length) := by
  obtain ⟨h1, h2, h3⟩ := head_sep hh
  rw [h1]
  split
  · simpa using h2
  · have : h.length = a.length := by omega
    rw [this] at h2; simpa using h2

theorem head_exists (a : Str) : ∃ h, Head cfg a h := by
  by_cases h1 : (61 : UInt8) ∈ a
  · obtain ⟨k, hk⟩ : ∃ k, strchr a 61 = some k := by
      cases h : strchr a 61 with
      | none => exact (strchr_none.1 h h1).elim
      | some k => exact ⟨k, rfl⟩
    obtain ⟨e, hn, _⟩ := strchr_some hk
    by_cases hi : cfg.inlineValues = true ∧ a.drop (k + 1) = []
    · rw [hi.2] at e; rw [e]; exact ⟨_, .equalsEnd hn hi.1⟩
    · rw [e]; exact ⟨_, .equals hn (fun h he => hi ⟨h, he⟩)⟩
  · by_cases hi : cfg.inlineValues = true
    · by_cases h2 : (58 : UInt8) ∈ a
      · obtain ⟨k, hk⟩ : ∃ k, strchr a 58 = some k := by
          cases h : strchr a 58 with
          | none => exact (strchr_none.1 h h2).elim
          | some k => exact ⟨k, rfl⟩
        obtain ⟨e, hn, _⟩ := strchr_some hk
        have hn1 : (61 : UInt8) ∉ a.take k := fun h => h1 (List.mem_of_mem_take h)
        have hn2 : (61 : UInt8) ∉ a.drop (k + 1) := fun h => h1 (List.mem_of_mem_drop h)
        by_cases he : a.drop (k + 1) = []
        · rw [he] at e; rw [e]; exact ⟨_, .colonEnd hn1 hn hi⟩
        · rw [e]; exact ⟨_, .colon hn1 hn2 hn hi he⟩
      · exact ⟨a, .whole h1 (fun _ => h2)⟩
    · exact ⟨a, .whole h1 (fun h => (hi h).elim)⟩

theorem formIs_true {text : Str} {len : Nat} (h : len ≤ text.length) : formIs (some (text.take len)) text len = true := by
  simp [formIs, Nat.min_eq_left h, List.take_take]

theorem formIs_false {form : Option Str} {text : Str} {len : Nat} (h : len ≤ text.length) :
    formIs form text len = false ↔ form ≠ some (text.take len) := by
  constructor
  · rintro h1 rfl; rw [formIs_true h] at h1; cases h1
  · intro h1
    cases hf : formIs form text len with
    | false => rfl
    | true => exact (h1 (formIs_iff hf)).elim

theorem unknownNo_iff (a : Str) : UnknownNo cfg a ↔ NoUnknown cfg a := by
  have hu : UnknownNo cfg a ↔ sNo.isPrefixOf a = true ∧
      (∀ o ∈ cfg.options, formIs o.long (a.drop 2) ((sepOf cfg a).getD a.length - 2) = false) ∧
      (∀ o ∈ cfg.options, formIs o.long (a.drop 5) ((sepOf cfg a).getD a.length - 5) = false) := by
    constructor
    · intro h
      have hp : sNo.isPrefixOf a = true := by
        unfold UnknownNo lookup at h
        simp only at h
        split at h
        · split at h
          · assumption
          · cases h
        · cases h
      have e := isPrefixOf_sNo hp
      have h0 : a[0]? = some 45 := by rw [e]; rfl
      have h1 : a[1]? = some 45 := by rw [e]; rfl
      unfold UnknownNo lookup at h
      simp only [h0, h1, and_self, if_true, hp] at h
      refine ⟨hp, ?_⟩
      cases hl : findLong cfg (a.drop 2) ((sepOf cfg a).getD a.length - 2) with
      | some r => rw [hl] at h; cases h
      | none =>
        rw [hl] at h
        simp only at h
        refine ⟨findFrom_none.1 hl, ?_⟩
        cases hl2 : findLong cfg (a.drop 5) ((sepOf cfg a).getD a.length - 5) with
        | none => exact findFrom_none.1 hl2
        | some r =>
          obtain ⟨i, o⟩ := r
          rw [hl2] at h
          simp only at h
          split at h <;> cases h
    · rintro ⟨hp, h2, h5⟩
      have e := isPrefixOf_sNo hp
      have h0 : a[0]? = some 45 := by rw [e]; rfl
      have h1 : a[1]? = some 45 := by rw [e]; rfl
      have hl : findLong cfg (a.drop 2) ((sepOf cfg a).getD a.length - 2) = none := findFrom_none.2 h2
      have hl5 : findLong cfg (a.drop 5) ((sepOf cfg a).getD a.length - 5) = none := findFrom_none.2 h5
      unfold UnknownNo lookup
      simp only [h0, h1, and_self, if_true, hp, hl, hl5]
  rw [hu]
  unfold NoUnknown
  rw [List.isPrefixOf_iff_prefix]
  have hlen : (sepOf cfg a).getD a.length ≤ a.length := by
    cases hs : sepOf cfg a with
    | none => simp
    | some k => obtain ⟨_, _, _, h, _⟩ := sepOf_some hs; simp; omega
  have hd : ∀ n, (a.take ((sepOf cfg a).getD a.length)).drop n = (a.drop n).take ((sepOf cfg a).getD a.length - n) := by
    intro n; rw [List.drop_take]
  constructor
  · rintro ⟨hp, h2, h5⟩
    obtain ⟨h, hh⟩ := head_exists (cfg := cfg) a
    refine ⟨hp, h, hh, fun o ho => ?_⟩
    rw [head_unique hh, hd, hd]
    exact ⟨(formIs_false (by simp; omega)).1 (h2 o ho), (formIs_false (by simp; omega)).1 (h5 o ho)⟩
  · rintro ⟨hp, h, hh, hall⟩
    rw [head_unique hh, hd, hd] at hall
    exact ⟨hp, fun o ho => (formIs_false (by simp; omega)).2 (hall o ho).1, fun o ho => (formIs_false (by simp; omega)).2 (hall o ho).2⟩

end Verif.ArgParser
