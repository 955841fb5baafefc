import Verif.ArgParser.Lemmas
/-! # Lemmas for `am-argparser.h`: what value texts are read as -/
namespace Verif.ArgParser
open Verif

/-! ### Numerals -/

theorem isDigit_iff {c : UInt8} : isDigit c = true ↔ Digit c (c.toNat - 48) := by
  unfold isDigit Digit
  simp only [Bool.and_eq_true, decide_eq_true_eq]
  omega

theorem digit_isDigit {c : UInt8} {n : Nat} (h : Digit c n) : isDigit c = true ∧ c.toNat - 48 = n := by
  unfold Digit at h
  refine ⟨isDigit_iff.2 ?_, by omega⟩
  unfold Digit; omega

theorem digitsVal_snoc (ds : Str) (c : UInt8) : digitsVal (ds ++ [c]) = 10 * digitsVal ds + (c.toNat - 48) := by
  simp [digitsVal]

theorem digits_iff {ds : Str} {n : Nat} : Digits ds n ↔ ds ≠ [] ∧ (∀ c ∈ ds, isDigit c = true) ∧ digitsVal ds = n := by
  constructor
  · intro h
    induction h with
    | one hd =>
      obtain ⟨h1, h2⟩ := digit_isDigit hd
      refine ⟨by simp, by simpa using h1, ?_⟩
      simp [digitsVal, h2]
    | more _ hd ih =>
      obtain ⟨h1, h2⟩ := digit_isDigit hd
      refine ⟨by simp, ?_, ?_⟩
      · intro c hc
        rcases List.mem_append.1 hc with hc | hc
        · exact ih.2.1 c hc
        · simp at hc; subst hc; exact h1
      · rw [digitsVal_snoc, ih.2.2, h2]
  · rintro ⟨h1, h2, rfl⟩
    have : ∀ (k : Nat) (ds : Str), ds.length = k → ds ≠ [] → (∀ c ∈ ds, isDigit c = true) → Digits ds (digitsVal ds) := by
      intro k
      induction k with
      | zero => intro ds h h1; exact (h1 (List.length_eq_zero_iff.1 h)).elim
      | succ k ih =>
        intro ds hl h1 h2
        obtain ⟨i, c, rfl⟩ : ∃ i c, ds = i ++ [c] := ⟨_, _, (List.dropLast_concat_getLast h1).symm⟩
        have hc : Digit c (c.toNat - 48) := isDigit_iff.1 (h2 c (by simp))
        by_cases hi : i = []
        · subst hi
          have : digitsVal ([] ++ [c]) = c.toNat - 48 := by simp [digitsVal]
          rw [this]; exact .one hc
        · rw [digitsVal_snoc]
          exact .more (ih i (by simp at hl; omega) hi (fun x hx => h2 x (by simp [hx]))) hc
    exact this _ ds rfl h1 h2

theorem isSpace_iff {c : UInt8} : isSpace c = true ↔ (c = 32 ∨ (9 ≤ c.toNat ∧ c.toNat ≤ 13)) := by
  unfold isSpace; simp

theorem isDigit_not_space {c : UInt8} (h : isDigit c = true) : isSpace c = false := by
  cases hs : isSpace c with
  | false => rfl
  | true =>
    rw [isSpace_iff] at hs
    unfold isDigit at h; simp at h
    rcases hs with rfl | hs
    · simp at h
    · omega

/-- The parts of a numeral, as `strtol` sees them. -/
theorem numeral_iff {a : Str} {n : Int} :
    Numeral a n ↔ let b := a.dropWhile isSpace
      (signOf b).2 ≠ [] ∧ (∀ c ∈ (signOf b).2, isDigit c = true) ∧
        n = if (signOf b).1 then -(digitsVal (signOf b).2 : Int) else digitsVal (signOf b).2 := by
  constructor
  · intro h
    induction h with
    | @plain ds n h =>
      obtain ⟨h1, h2, h3⟩ := digits_iff.1 h
      obtain ⟨c, r, rfl⟩ := List.exists_cons_of_ne_nil h1
      have hc := h2 c (by simp)
      have e : (c :: r).dropWhile isSpace = c :: r := List.dropWhile_cons_of_neg (by simp [isDigit_not_space hc])
      have hs : signOf (c :: r) = (false, c :: r) := by
        unfold isDigit at hc; simp at hc
        have h45 : c ≠ 45 := by rintro rfl; simp at hc
        have h43 : c ≠ 43 := by rintro rfl; simp at hc
        simp [signOf, h45, h43]
      simp only [e, hs]
      exact ⟨h1, h2, by simp [h3]⟩
    | @plus ds n h =>
      obtain ⟨h1, h2, h3⟩ := digits_iff.1 h
      have e : (43 :: ds : Str).dropWhile isSpace = 43 :: ds := List.dropWhile_cons_of_neg (by decide)
      have hs : signOf (43 :: ds) = (false, ds) := by simp [signOf]
      simp only [e, hs]
      exact ⟨h1, h2, by simp [h3]⟩
    | @minus ds n h =>
      obtain ⟨h1, h2, h3⟩ := digits_iff.1 h
      have e : (45 :: ds : Str).dropWhile isSpace = 45 :: ds := List.dropWhile_cons_of_neg (by decide)
      have hs : signOf (45 :: ds) = (true, ds) := by simp [signOf]
      simp only [e, hs]
      exact ⟨h1, h2, by simp [h3]⟩
    | @space c t n hc _ ih =>
      have e : (c :: t).dropWhile isSpace = t.dropWhile isSpace := List.dropWhile_cons_of_pos (isSpace_iff.2 hc)
      simp only [e]
      exact ih
  · simp only
    induction a with
    | nil => intro h; simp [signOf] at h
    | cons c t ih =>
      by_cases hc : isSpace c = true
      · rw [List.dropWhile_cons_of_pos hc]
        intro h
        exact .space (isSpace_iff.1 hc) (ih h)
      · rw [List.dropWhile_cons_of_neg hc]
        rintro ⟨h1, h2, h3⟩
        have hD : ∀ ds : Str, (signOf (c :: t)).2 = ds → Digits ds (digitsVal ds) := by
          rintro ds rfl; exact digits_iff.2 ⟨h1, h2, rfl⟩
        unfold signOf at h1 h2 h3 hD
        simp only at h1 h2 h3 hD
        split at h3
        · rename_i e; subst e; simp at h3; rw [h3]
          exact .minus (hD t (by simp))
        · split at h3
          · rename_i e1 e; subst e; simp at h3; rw [h3]
            exact .plus (hD t (by simp))
          · rename_i e1 e2
            simp at h3; rw [h3]
            exact .plain (hD (c :: t) (by simp [e1, e2]))

/-- The number `strtol` and the conversion to `int` make of a numeral. -/
def codeNum (w : Nat) (n m : Int) : Prop := m = toInt32 (clampLong w n)

theorem dropWhile_nil (d : Str) : d.dropWhile isDigit = [] ↔ ∀ c ∈ d, isDigit c = true := by
  induction d with
  | nil => simp
  | cons c r ih =>
    by_cases h : isDigit c = true
    · rw [List.dropWhile_cons_of_pos h, ih]; simp [h]
    · rw [List.dropWhile_cons_of_neg h]; simp [h]

theorem takeWhile_all (d : Str) : d.takeWhile isDigit = d ↔ ∀ c ∈ d, isDigit c = true := by
  induction d with
  | nil => simp
  | cons c r ih =>
    by_cases h : isDigit c = true
    · rw [List.takeWhile_cons_of_pos h]; simp [h, ih]
    · rw [List.takeWhile_cons_of_neg h]; simp [h]

theorem policyInt_spec (w : Nat) (a : Str) :
    (∃ n, Numeral a n ∧ policyInt w (some a) = .ok (some (toInt32 (clampLong w n)))) ∨
    ((∀ n, ¬ Numeral a n) ∧ policyInt w (some a) = .ok none) := by
  unfold policyInt strtol
  simp only
  generalize hb : a.dropWhile isSpace = b
  rcases hd : signOf b with ⟨neg, d⟩
  by_cases hdig : d ≠ [] ∧ ∀ c ∈ d, isDigit c = true
  · left
    refine ⟨if neg then -(digitsVal d : Int) else digitsVal d, numeral_iff.2 ?_, ?_⟩
    · simp only [hb, hd]; exact ⟨hdig.1, hdig.2, trivial⟩
    · have e1 : d.takeWhile isDigit = d := (takeWhile_all _).2 hdig.2
      have e2 : d.dropWhile isDigit = [] := (dropWhile_nil _).2 hdig.2
      have e3 : d.isEmpty = false := by simpa using hdig.1
      simp [e1, e2, e3]
  · right
    refine ⟨fun n h => ?_, ?_⟩
    · have := numeral_iff.1 h
      simp only [hb, hd] at this
      exact hdig ⟨this.1, this.2.1⟩
    · by_cases he : (d.takeWhile isDigit).isEmpty = true
      · simp [he]
      · rw [if_neg he]
        have : d.dropWhile isDigit ≠ [] := by
          intro h
          rw [dropWhile_nil] at h
          refine hdig ⟨?_, h⟩
          rintro rfl; simp at he
        simp [this]

/-! ### `consumeValue` -/

/-- The option object after it has been given a value. -/
def put (o : Opt) (c : Cell) (x : Val) : Cell :=
  if o.kind.repeats then { c with values := c.values ++ [x] } else { c with value := some x }

theorem caseEq_iff (a b : Str) : caseEq a b = true ↔ lowered a = lowered b := by
  unfold caseEq lowered; simp

theorem policyBool_spec (v : Str) (x : Val) (k : Kind) (hk : (∃ d, k = .boolean d) ∨ k = .repBool) (num : Int → Int → Prop) :
    Reads num k v x ↔ (policyBool (some v)).map Val.bool = some x := by
  have e1 : lowered sTrue = [116, 114, 117, 101] := by decide
  have e2 : lowered sFalse = [102, 97, 108, 115, 101] := by decide
  have hr : Reads num k v x ↔ ((lowered v = [116, 114, 117, 101] ∧ x = .bool true) ∨ (lowered v = [102, 97, 108, 115, 101] ∧ x = .bool false)) := by
    rcases hk with ⟨d, rfl⟩ | rfl <;> rfl
  rw [hr]
  unfold policyBool
  by_cases h1 : caseEq v sTrue = true
  · have h1' := (caseEq_iff _ _).1 h1
    rw [e1] at h1'
    simp [h1, h1', eq_comm]
  · have h1' : lowered v ≠ [116, 114, 117, 101] := fun h => h1 ((caseEq_iff _ _).2 (by rw [e1]; exact h))
    by_cases h2 : caseEq v sFalse = true
    · have h2' := (caseEq_iff _ _).1 h2
      rw [e2] at h2'
      simp [h1, h2, h2', eq_comm]
    · have h2' : lowered v ≠ [102, 97, 108, 115, 101] := fun h => h2 ((caseEq_iff _ _).2 (by rw [e2]; exact h))
      simp [h1, h2, h1', h2']

theorem consume_text (w : Nat) (o : Opt) (v : Str) (c : Cell) (hm : o.mustOmit = false) :
    (∃ x, Reads (codeNum w) o.kind v x ∧ consume w o (some v) c = .ok (true, put o c x)) ∨
    ((∀ x, ¬ Reads (codeNum w) o.kind v x) ∧ consume w o (some v) c = .ok (false, c)) := by
  unfold consume put
  cases hk : o.kind with
  | boolean d =>
    cases hp : policyBool (some v) with
    | none =>
      right
      refine ⟨fun x hx => ?_, by simp [setOne]⟩
      rw [policyBool_spec v x _ (.inl ⟨d, rfl⟩), hp] at hx; cases hx
    | some b =>
      left
      refine ⟨.bool b, (policyBool_spec v _ _ (.inl ⟨d, rfl⟩) _).2 (by rw [hp]; rfl), by simp [setOne, Kind.repeats]⟩
  | repBool =>
    cases hp : policyBool (some v) with
    | none =>
      right
      refine ⟨fun x hx => ?_, by simp [pushOne]⟩
      rw [policyBool_spec v x _ (.inr rfl), hp] at hx; cases hx
    | some b =>
      left
      refine ⟨.bool b, (policyBool_spec v _ _ (.inr rfl) _).2 (by rw [hp]; rfl), by simp [pushOne, Kind.repeats]⟩
  | string d =>
    cases v with
    | nil => right; exact ⟨fun x hx => hx.1 rfl, by simp [policyString, setOne, bind, Except.bind]⟩
    | cons b r => left; exact ⟨.str (b :: r), ⟨by simp, rfl⟩, by simp [policyString, setOne, Kind.repeats, bind, Except.bind]⟩
  | repString =>
    cases v with
    | nil => right; exact ⟨fun x hx => hx.1 rfl, by simp [policyString, pushOne, bind, Except.bind]⟩
    | cons b r => left; exact ⟨.str (b :: r), ⟨by simp, rfl⟩, by simp [policyString, pushOne, Kind.repeats, bind, Except.bind]⟩
  | int d =>
    rcases policyInt_spec w v with ⟨n, hn, e⟩ | ⟨hn, e⟩
    · left; exact ⟨.int _, ⟨n, _, hn, rfl, rfl⟩, by simp [e, setOne, Kind.repeats, bind, Except.bind]⟩
    · right; exact ⟨fun x ⟨n, m, h, _⟩ => hn n h, by simp [e, setOne, bind, Except.bind]⟩
  | repInt =>
    rcases policyInt_spec w v with ⟨n, hn, e⟩ | ⟨hn, e⟩
    · left; exact ⟨.int _, ⟨n, _, hn, rfl, rfl⟩, by simp [e, pushOne, Kind.repeats, bind, Except.bind]⟩
    · right; exact ⟨fun x ⟨n, m, h, _⟩ => hn n h, by simp [e, pushOne, bind, Except.bind]⟩
  | enable d => simp [Opt.mustOmit, hk] at hm
  | toggle d => simp [Opt.mustOmit, hk] at hm
  | stop d => simp [Opt.mustOmit, hk] at hm

theorem consume_none (w : Nat) (o : Opt) (c : Cell) (hm : o.canOmit = true) :
    ∃ x, FlagValue o.kind false x ∧ consume w o none c = .ok (true, put o c x) := by
  unfold consume put
  unfold Opt.canOmit at hm
  cases hk : o.kind <;> rw [hk] at hm <;> try (simp at hm; done)
  · exact ⟨.bool true, ⟨rfl, rfl⟩, by simp [policyBool, setOne, Kind.repeats]⟩
  · rename_i d; exact ⟨.bool (!d), ⟨rfl, rfl⟩, by simp [setOne, Kind.repeats]⟩
  · rename_i d; exact ⟨.bool (!d), ⟨rfl, rfl⟩, by simp [setOne, Kind.repeats]⟩

theorem consume_enable (w : Nat) (o : Opt) (c : Cell) (neg : Bool) (hk : o.takesNo = true) :
    FlagValue o.kind neg (.bool (!neg)) ∧ consume w o (some (if neg then sFalse else sTrue)) c = .ok (true, put o c (.bool (!neg))) := by
  unfold consume put
  unfold Opt.takesNo at hk
  cases h : o.kind <;> rw [h] at hk <;> try (simp at hk; done)
  refine ⟨rfl, ?_⟩
  cases neg <;> simp [setOne, Kind.repeats, sFalse, sTrue]

end Verif.ArgParser
