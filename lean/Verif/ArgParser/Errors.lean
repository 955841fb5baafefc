import Verif.ArgParser.Final
import Verif.ArgParser.Heads
import Verif.ArgParser.SpecError
/-! # Lemmas for `am-argparser.h`: what the error message says -/
namespace Verif.ArgParser
open Verif

theorem ascii_lit1 : lit "Unrecognized option: " = ascii "Unrecognized option: " := by decide +kernel
theorem ascii_lit2 : lit "Unrecognized extra arguments at end of command." = ascii "Unrecognized extra arguments at end of command." := by decide +kernel
theorem ascii_lit3 : lit "Option '" = ascii "Option '" := by decide +kernel
theorem ascii_lit4 : lit "' needs a value." = ascii "' needs a value." := by decide +kernel
theorem ascii_lit5 : lit "Argument '" = ascii "Argument '" := by decide +kernel
theorem ascii_lit6 : lit "' did not recognize value: " = ascii "' did not recognize value: " := by decide +kernel
theorem ascii_lit7 : lit "Missing value for '" = ascii "Missing value for '" := by decide +kernel
theorem ascii_lit8 : lit "'." = ascii "'." := by decide +kernel
theorem ascii_lit9 : lit "' was specified more than once." = ascii "' was specified more than once." := by decide +kernel

variable {w : Nat} {cfg : Config}

theorem called_option (hv : cfg.Valid) {i : Nat} {o : Opt} (ho : cfg.options[i]? = some o) (hf : o.short ≠ none ∨ o.long ≠ none) : Called o o.pretty := by
  have hn := hv.options o (List.mem_of_getElem? ho)
  unfold Opt.pretty
  rw [hn]
  cases hl : o.long with
  | some l => exact .long hn hl
  | none =>
    cases hs : o.short with
    | some f => exact .short hn hl hs
    | none => simp [hs, hl] at hf

theorem called_positional (hv : cfg.Valid) {i : Nat} {o : Opt} (ho : cfg.positionals[i]? = some o) : Called o o.pretty := by
  have hn := (hv.positionals o (List.mem_of_getElem? ho)).1
  unfold Opt.pretty
  cases h : o.name with
  | some n => exact .name h
  | none => exact (hn h).elim

theorem sep_char {a : Str} {k : Nat} (h : sepOf cfg a = some k) : k < a.length ∧ (a[k]? = some 61 ∨ a[k]? = some 58) := by
  obtain ⟨c, hc, e, hl, _⟩ := sepOf_some h
  refine ⟨hl, ?_⟩
  have : a[k]? = some c := by
    rw [e, List.getElem?_append_right (by simp; omega)]
    simp [Nat.min_eq_left (Nat.le_of_lt hl)]
  rw [this]
  rcases hc with rfl | ⟨_, rfl⟩
  · exact .inl rfl
  · exact .inr rfl

theorem sep_len (a : Str) : (sepOf cfg a).getD a.length ≤ a.length := by
  cases hs : sepOf cfg a with
  | none => simp
  | some k => have := (sep_char hs).1; simp; omega

/-- The head of an argument whose beginning has no separator. -/
theorem head_pre (pre t : Str) (h1 : 61 ∉ pre) (h2 : 58 ∉ pre) :
    pre.length ≤ (sepOf cfg (pre ++ t)).getD (pre ++ t).length ∧
    Head cfg (pre ++ t) (pre ++ t.take ((sepOf cfg (pre ++ t)).getD (pre ++ t).length - pre.length)) := by
  have hle : pre.length ≤ (sepOf cfg (pre ++ t)).getD (pre ++ t).length := by
    cases hs : sepOf cfg (pre ++ t) with
    | none => simp
    | some k =>
      simp only [Option.getD_some]
      rcases Nat.lt_or_ge k pre.length with h | h
      · exfalso
        have := (sep_char hs).2
        rw [List.getElem?_append_left h] at this
        rcases this with h | h
        · exact h1 (List.mem_of_getElem? h)
        · exact h2 (List.mem_of_getElem? h)
      · exact h
  refine ⟨hle, ?_⟩
  obtain ⟨h, hh⟩ := head_exists (cfg := cfg) (pre ++ t)
  have e := head_unique hh
  rw [List.take_append, List.take_of_length_le hle] at e
  rw [← e]; exact hh

theorem owns_long {text : Str} {len i : Nat} {o : Opt} (hl : len ≤ text.length) (h : findLong cfg text len = some (i, o)) :
    Owns Opt.long cfg i o (text.take len) := by
  obtain ⟨_, h2, h3, h4⟩ := findFrom_some h
  refine ⟨by simpa using h2, formIs_iff h3, fun j q hj hq => ?_⟩
  exact (formIs_false hl).1 (h4 j (by omega) q hq)

theorem owns_short {text : Str} {len i : Nat} {o : Opt} (hl : len ≤ text.length) (h : findShort cfg text len = some (i, o)) :
    Owns Opt.short cfg i o (text.take len) := by
  obtain ⟨_, h2, h3, h4⟩ := findFrom_some h
  refine ⟨by simpa using h2, formIs_iff h3, fun j q hj hq => ?_⟩
  exact (formIs_false hl).1 (h4 j (by omega) q hq)

theorem inline_iff (q : Opt) (c : UInt8) :
    (match q.short with | none => false | some f => f.length == 1 && ((some c).isSome && f[0]? == some c)) = true ↔ q.short = some [c] := by
  cases q.short with
  | none => simp
  | some f =>
    match f with
    | [] => simp
    | [x] => simp
    | x :: y :: r => simp

theorem owns_inline {c : UInt8} {i : Nat} {o : Opt} (h : findInline cfg (some c) = some (i, o)) : Owns Opt.short cfg i o [c] := by
  obtain ⟨_, h2, h3, h4⟩ := findFrom_some h
  refine ⟨by simpa using h2, (inline_iff o c).1 h3, fun j q hj hq e => ?_⟩
  have h5 := h4 j (by omega) q hq
  have h6 := (inline_iff q c).2 e
  exact absurd (h6.symm.trans h5) (by decide)

theorem long_none {text : Str} {len : Nat} (hl : len ≤ text.length) (h : findLong cfg text len = none) (o : Opt) (ho : o ∈ cfg.options) :
    o.long ≠ some (text.take len) := (formIs_false hl).1 (findFrom_none.1 h o ho)

theorem short_none {text : Str} {len : Nat} (hl : len ≤ text.length) (h : findShort cfg text len = none) (o : Opt) (ho : o ∈ cfg.options) :
    o.short ≠ some (text.take len) := (formIs_false hl).1 (findFrom_none.1 h o ho)

theorem owns_unique {form : Opt → Option Str} {i j : Nat} {o q : Opt} {f : Str} (h1 : Owns form cfg i o f) (h2 : Owns form cfg j q f) : i = j ∧ o = q := by
  rcases Nat.lt_trichotomy i j with h | h | h
  · exact (h2.2.2 i o h h1.1 h1.2.1).elim
  · subst h; refine ⟨rfl, ?_⟩; have := h1.1; rw [h2.1] at this; cases this; rfl
  · exact (h1.2.2 j q h h2.1 h2.2.1).elim

theorem takesNo_enable {o : Opt} : o.takesNo = true ↔ ∃ d, o.kind = .enable d := by
  unfold Opt.takesNo
  cases o.kind <;> simp

/-- What is behind the separator is attached. -/
theorem attached_sep {a : Str} {k : Nat} (h : sepOf cfg a = some k) : Attached cfg a (a.drop (k + 1)) := by
  obtain ⟨c, hc, e, hl, _⟩ := sepOf_some h
  obtain ⟨hd, hh⟩ := head_exists (cfg := cfg) a
  have e2 := head_unique hh
  rw [h, Option.getD_some] at e2
  exact .behind hh (by rw [e2]; exact e) hc

theorem head_whole {a : Str} (h : sepOf cfg a = none) : Head cfg a a := by
  obtain ⟨hd, hh⟩ := head_exists (cfg := cfg) a
  have e2 := head_unique hh
  rw [h, Option.getD_none, List.take_length] at e2
  rw [e2] at hh; exact hh

/-- What an option argument that was recognised is about. -/
theorem lookup_about {a : Str} {i : Nat} {o : Opt} {v : Option Str} {sep : Option Nat} (hopt : OptionLike cfg a)
    (h : lookup cfg a = .ok (some (i, o, v, sep))) :
    About cfg a i o ∧ (∀ k, sep = some k → Attached cfg a (a.drop (k + 1))) ∧ (sep = none → Head cfg a a) := by
  have std : ∀ s, s = sepOf cfg a → (∀ k, s = some k → Attached cfg a (a.drop (k + 1))) ∧ (s = none → Head cfg a a) := by
    rintro s rfl
    exact ⟨fun k hk => attached_sep hk, head_whole⟩
  have hlen := sep_len (cfg := cfg) a
  by_cases hd : [45, 45] <+: a
  · obtain ⟨t, rfl⟩ := hd
    obtain ⟨hle, hh⟩ := head_pre (cfg := cfg) [45, 45] t (by decide) (by decide)
    have hlt : (sepOf cfg ([45, 45] ++ t)).getD ([45, 45] ++ t).length - 2 ≤ t.length := by simp at hlen; simp; omega
    unfold lookup at h
    simp only [List.cons_append, List.nil_append] at h hh hlt std ⊢
    rw [if_pos ⟨rfl, rfl⟩] at h
    rw [show (45 :: 45 :: t : Str).drop 2 = t from rfl] at h
    cases hf : findLong cfg t ((sepOf cfg (45 :: 45 :: t)).getD (45 :: 45 :: t : Str).length - 2) with
    | some jq =>
      obtain ⟨j, q⟩ := jq
      rw [hf] at h
      cases h
      exact ⟨.long hh (owns_long hlt hf), std _ rfl⟩
    | none =>
      rw [hf] at h
      simp only at h
      split at h
      · rename_i hpre
        have e := isPrefixOf_sNo hpre
        obtain ⟨t', e'⟩ : ∃ t', (45 :: 45 :: t : Str) = sNo ++ t' := ⟨_, e⟩
        have hlen : (sepOf cfg (45 :: 45 :: t)).getD (45 :: 45 :: t : Str).length ≤ (45 :: 45 :: t : Str).length := hlen
        rw [e'] at h std hlen ⊢
        obtain ⟨hle5, hh5⟩ := head_pre (cfg := cfg) sNo t' (by decide) (by decide)
        rw [show (sNo ++ t').drop 5 = t' from rfl] at h
        split at h
        · cases h
        · rename_i j q hf5
          split at h
          · rename_i ht
            cases h
            obtain ⟨d, hk⟩ := takesNo_enable.1 ht
            refine ⟨.no hh5 (owns_long ?_ hf5) hk, std _ rfl⟩
            simp [sNo] at hlen ⊢; omega
          · cases h
      · cases h
  · obtain ⟨p, t, rfl⟩ : ∃ p t, a = p :: t := by
      cases a with
      | nil => rcases hopt with h | ⟨_, h⟩ <;> cases h
      | cons p t => exact ⟨p, t, rfl⟩
    have hp : p = 45 ∨ p = 47 := by
      rcases hopt with h | ⟨_, h⟩
      · left; simpa using h
      · right; simpa using h
    obtain ⟨hle, hh⟩ := head_pre (cfg := cfg) [p] t (by rcases hp with rfl | rfl <;> decide) (by rcases hp with rfl | rfl <;> decide)
    simp only [List.cons_append, List.nil_append, List.length_singleton] at hle hh
    have hlt : (sepOf cfg (p :: t)).getD (p :: t).length - 1 ≤ t.length := by simp at hlen; simp; omega
    have hno : sNo.isPrefixOf (p :: t) = false := by
      cases hb : sNo.isPrefixOf (p :: t) with
      | false => rfl
      | true =>
        rw [List.isPrefixOf_iff_prefix] at hb
        obtain ⟨r, hr⟩ := hb
        exact (hd ⟨[110, 111, 45] ++ r, by rw [← hr]; rfl⟩).elim
    have hnd : ¬ ((p :: t)[0]? = some 45 ∧ (p :: t)[1]? = some 45) := by
      rintro ⟨h1, h2⟩
      cases t with
      | nil => cases h2
      | cons x t => simp at h1 h2; subst h1; subst h2; exact hd ⟨t, rfl⟩
    unfold lookup at h
    simp only at h
    rw [if_neg hnd] at h
    rw [show (p :: t : Str).drop 1 = t from rfl] at h
    cases hf : findShort cfg t ((sepOf cfg (p :: t)).getD (p :: t).length - 1) with
    | some jq =>
      obtain ⟨j, q⟩ := jq
      rw [hf] at h
      cases h
      exact ⟨.short hd hh (owns_short hlt hf), std _ rfl⟩
    | none =>
      rw [hf] at h
      simp only [hno] at h
      cases hi : cfg.inlineValues with
      | false => rw [hi] at h; simp at h
      | true =>
        rw [hi] at h
        simp only [if_true] at h
        cases t with
        | nil =>
          have : findInline cfg (none : Option UInt8) = none := by
            unfold findInline
            rw [findFrom_none]
            intro q _
            cases q.short <;> simp
          simp only [List.getElem?_cons_succ, List.getElem?_nil, this] at h
          simp at h
        | cons c t =>
          simp only [List.getElem?_cons_succ, List.getElem?_cons_zero] at h
          cases hfi : findInline cfg (some c) with
          | none => rw [hfi] at h; simp at h
          | some jq =>
            obtain ⟨j, q⟩ := jq
            rw [hfi] at h
            simp only at h
            cases h
            refine ⟨.inlined hd hi rfl (owns_inline hfi), ?_⟩
            split
            · rename_i hl
              refine ⟨?_, by intro h; cases h⟩
              rintro k hk
              cases hk
              refine .inlined hd hi rfl ?_ (owns_inline hfi)
              rw [show (p :: c :: t : Str).drop (1 + 1) = t from rfl]
              rintro rfl
              have h2 : ([p, c] : Str).length = 2 := rfl
              omega
            · exact std _ rfl

/-- An option argument that was not recognised is about no option. -/
theorem lookup_none {a : Str} (hopt : OptionLike cfg a) (h : lookup cfg a = .ok none) : ∀ i o, ¬ About cfg a i o := by
  have hlen := sep_len (cfg := cfg) a
  intro i o hab
  have mem : ∀ {form : Opt → Option Str} {f : Str}, Owns form cfg i o f → o ∈ cfg.options := fun ho => List.mem_of_getElem? ho.1
  by_cases hd : [45, 45] <+: a
  · obtain ⟨t, rfl⟩ := hd
    obtain ⟨hle, hh⟩ := head_pre (cfg := cfg) [45, 45] t (by decide) (by decide)
    have hlt : (sepOf cfg ([45, 45] ++ t)).getD ([45, 45] ++ t).length - 2 ≤ t.length := by simp at hlen; simp; omega
    unfold lookup at h
    simp only [List.cons_append, List.nil_append] at h hh hlt hab hlen
    rw [if_pos ⟨rfl, rfl⟩] at h
    rw [show (45 :: 45 :: t : Str).drop 2 = t from rfl] at h
    cases hf : findLong cfg t ((sepOf cfg (45 :: 45 :: t)).getD (45 :: 45 :: t : Str).length - 2) with
    | some jq => rw [hf] at h; cases h
    | none =>
      rw [hf] at h
      simp only at h
      cases hab with
      | short hn _ _ => exact hn ⟨t, rfl⟩
      | inlined hn _ _ _ => exact hn ⟨t, rfl⟩
      | long h1 h2 =>
        have e := (head_unique h1).trans (head_unique hh).symm
        exact long_none hlt hf o (mem h2) (by rw [h2.2.1]; exact congrArg some (List.cons.inj (List.cons.inj e).2).2)
      | @no l _ _ d h1 h2 hk =>
        obtain ⟨t', e'⟩ : ∃ t', (45 :: 45 :: t : Str) = sNo ++ t' := by
          have e := head_unique h1
          have hpre : sNo <+: (45 :: 45 :: t : Str).take ((sepOf cfg (45 :: 45 :: t)).getD (45 :: 45 :: t : Str).length) := by
            rw [← e]; exact ⟨l, rfl⟩
          obtain ⟨r, hr⟩ := hpre.trans (List.take_prefix _ _)
          exact ⟨r, hr.symm⟩
        rw [e'] at h h1 hlen
        have hpre : sNo.isPrefixOf (sNo ++ t') = true := by rw [List.isPrefixOf_iff_prefix]; exact ⟨t', rfl⟩
        rw [hpre, if_pos rfl, show (sNo ++ t').drop 5 = t' from rfl] at h
        obtain ⟨hle5, hh5⟩ := head_pre (cfg := cfg) sNo t' (by decide) (by decide)
        have hlt5 : (sepOf cfg (sNo ++ t')).getD (sNo ++ t').length - 5 ≤ t'.length := by simp [sNo] at hlen ⊢; omega
        have e : l = t'.take ((sepOf cfg (sNo ++ t')).getD (sNo ++ t').length - 5) := by
          have e := (head_unique h1).trans (head_unique hh5).symm
          exact List.append_cancel_left (as := sNo) e
        split at h
        · cases h
        · rename_i j q hf5
          have ho := owns_long hlt5 hf5
          rw [← e] at ho
          obtain ⟨rfl, rfl⟩ := owns_unique h2 ho
          rw [takesNo_enable.2 ⟨d, hk⟩, if_pos rfl] at h
          cases h
  · obtain ⟨p, t, rfl⟩ : ∃ p t, a = p :: t := by
      cases a with
      | nil => rcases hopt with h | ⟨_, h⟩ <;> cases h
      | cons p t => exact ⟨p, t, rfl⟩
    have hp : p = 45 ∨ p = 47 := by
      rcases hopt with h | ⟨_, h⟩
      · left; simpa using h
      · right; simpa using h
    obtain ⟨hle, hh⟩ := head_pre (cfg := cfg) [p] t (by rcases hp with rfl | rfl <;> decide) (by rcases hp with rfl | rfl <;> decide)
    simp only [List.cons_append, List.nil_append, List.length_singleton] at hle hh
    have hlt : (sepOf cfg (p :: t)).getD (p :: t).length - 1 ≤ t.length := by simp at hlen; simp; omega
    have hnd : ¬ ((p :: t)[0]? = some 45 ∧ (p :: t)[1]? = some 45) := by
      rintro ⟨h1, h2⟩
      cases t with
      | nil => cases h2
      | cons x t => simp at h1 h2; subst h1; subst h2; exact hd ⟨t, rfl⟩
    have pre2 : ∀ l : Str, Head cfg (p :: t) (45 :: 45 :: l) → False := by
      intro l h1
      have e := head_unique h1
      have : [45, 45] <+: (p :: t).take ((sepOf cfg (p :: t)).getD (p :: t).length) := by rw [← e]; exact ⟨l, rfl⟩
      exact hd (this.trans (List.take_prefix _ _))
    unfold lookup at h
    simp only at h
    rw [if_neg hnd] at h
    rw [show (p :: t : Str).drop 1 = t from rfl] at h
    cases hf : findShort cfg t ((sepOf cfg (p :: t)).getD (p :: t).length - 1) with
    | some jq => rw [hf] at h; cases h
    | none =>
      rw [hf] at h
      cases hab with
      | long h1 _ => exact pre2 _ h1
      | no h1 _ _ => exact pre2 _ h1
      | short _ h1 h2 =>
        have e := (head_unique h1).trans (head_unique hh).symm
        simp only [List.cons.injEq] at e
        exact short_none hlt hf o (mem h2) (by rw [← e.2]; exact h2.2.1)
      | @inlined p' c v _ _ _ hi e h2 =>
        cases e
        rw [hi] at h
        simp only [if_true, List.getElem?_cons_succ, List.getElem?_cons_zero] at h
        cases hfi : findInline cfg (some c) with
        | some jq => rw [hfi] at h; cases h
        | none =>
          have h5 := findFrom_none.1 hfi o (mem h2)
          have h6 := (inline_iff o c).2 h2.2.1
          exact absurd (h6.symm.trans h5) (by decide)

theorem reads_true {k : Kind} {v : Str} {x : Val} (h : Reads (fun _ _ => True) k v x) : ∃ y, Reads (codeNum w) k v y := by
  unfold Reads at h ⊢
  cases k <;> simp only at h ⊢
  case int => obtain ⟨n, m, h1, _, _⟩ := h; exact ⟨_, n, _, h1, rfl, rfl⟩
  case repInt => obtain ⟨n, m, h1, _, _⟩ := h; exact ⟨_, n, _, h1, rfl, rfl⟩
  all_goals first | exact ⟨_, h⟩ | exact h.elim

theorem noValue_of {k : Kind} {v : Str} (h : ∀ x, ¬ Reads (codeNum w) k v x) : NoValue k v := fun _ hx => by
  obtain ⟨y, hy⟩ := reads_true (w := w) hx
  exact h y hy

theorem mustOmit_bare (o : Opt) : o.mustOmit = o.kind.bare := by
  unfold Opt.mustOmit Kind.bare
  cases o.kind <;> rfl

theorem about_form {a : Str} {i : Nat} {o : Opt} (h : About cfg a i o) : cfg.options[i]? = some o ∧ (o.short ≠ none ∨ o.long ≠ none) := by
  cases h with
  | long _ h | no _ h _ => exact ⟨h.1, .inr (by rw [h.2.1]; simp)⟩
  | short _ _ h | inlined _ _ _ h => exact ⟨h.1, .inl (by rw [h.2.1]; simp)⟩

/-- A round that fails fails for a reason. -/
theorem stepArg_complaint (hv : cfg.Valid) {before : List Item} {st st1 : State} {pos : Nat} (hc : Chain w cfg fresh 0 before st pos) {a : Str} {rest : List Str}
    (h : stepArg w cfg st pos a rest.head? = .ok (.fail st1)) : Complaint cfg before (a :: rest) st1.error := by
  have hpos := (chain_pos hc).1
  rw [Nat.zero_add] at hpos
  unfold stepArg at h
  split at h
  · cases h
  split at h
  · cases h
  split at h
  · rename_i hopt
    have hopt : OptionLike cfg a := hopt
    rcases lookup_total cfg a with ⟨r, hr⟩ | hu
    rotate_left
    · unfold UnknownNo at hu; rw [hu] at h; cases h
    cases r with
    | none =>
      simp only [hr, bind, Except.bind] at h
      cases h
      rw [show ({ st with error := msgUnrecognized a } : State).error = msgUnrecognized a from rfl]
      unfold msgUnrecognized
      rw [ascii_lit1]
      exact .unknown hopt (lookup_none hopt hr)
    | some q =>
      obtain ⟨i, o, v, sep⟩ := q
      obtain ⟨hab, hat, hhd⟩ := lookup_about hopt hr
      obtain ⟨ho, hc2⟩ := lookup_some hopt hr
      have hcall := called_option hv ho (about_form hab).2
      simp only [hr, bind, Except.bind] at h
      cases hw : willRepeat o (st.cells (.opt i)) with
      | false =>
        rw [hw] at h
        simp only [Bool.not_false, if_true] at h
        cases h
        rw [show ({ st with error := msgTwice o } : State).error = msgTwice o from rfl]
        unfold msgTwice
        rw [ascii_lit3, ascii_lit9]
        rw [repeats_willRepeat] at hw
        simp only [Bool.or_eq_false_iff] at hw
        refine .twice hopt hab hw.1 (fun he => ?_) hcall
        have := chain_opt hc i o ho
        rw [he] at this
        rw [this] at hw
        simp [fresh] at hw
      | true =>
        rw [hw] at h
        simp only [Bool.not_true, Bool.false_eq_true, if_false] at h
        cases sep with
        | some k =>
          simp only at h
          cases hm : o.mustOmit with
          | true =>
            rw [hm] at h
            simp only [if_true] at h
            cases h
            rw [show ({ st with error := msgInvalid o (a.drop (k + 1)) } : State).error = msgInvalid o (a.drop (k + 1)) from rfl]
            unfold msgInvalid
            rw [ascii_lit5, ascii_lit6]
            exact .noArgument hopt hab (hat k rfl) (by rw [← mustOmit_bare]; exact hm) hcall
          | false =>
            rw [hm] at h
            simp only [Bool.false_eq_true, if_false] at h
            rcases finish_text w st (.opt i) o pos (a.drop (k + 1)) rest.head? hm with ⟨x, hx, e⟩ | ⟨hx, ⟨hcan, e⟩ | ⟨hcan, e⟩⟩
            · rw [e] at h; cases h
            · rw [e] at h; cases h
            · rw [e] at h; cases h
              rw [show ({ st with error := msgInvalid o (a.drop (k + 1)) } : State).error = msgInvalid o (a.drop (k + 1)) from rfl]
              unfold msgInvalid
              rw [ascii_lit5, ascii_lit6]
              exact .badAttached hopt hab (hat k rfl) (noValue_of hx) hcall
        | none =>
          simp only at h
          have hh := hhd rfl
          cases hm : o.mustOmit with
          | true =>
            rcases hc2 with ⟨ht, rfl, hs⟩ | ⟨ht, hs, _⟩
            · obtain ⟨x, hx, e⟩ := finish_toggle w st (.opt i) o pos rest.head? hm ht
              rw [e] at h
              cases hh : o.halts <;> rw [hh] at h <;> cases h
            · obtain ⟨neg, rfl, hs'⟩ := hs rfl
              obtain ⟨hx, e⟩ := finish_enable w st (.opt i) o pos neg rest.head? ht
              rw [e] at h; cases h
          | false =>
            rcases hc2 with ⟨_, rfl, hs⟩ | ⟨ht', _⟩
            rotate_left
            · rw [(takesNo_halts ht').2.1] at hm; cases hm
            cases rest with
            | nil =>
              rcases finish_last w st (.opt i) o pos hm with ⟨hcan, e⟩ | ⟨hcan, x, hx, e⟩
              · simp only [List.head?_nil] at h
                rw [e] at h; cases h
                rw [show ({ st with error := msgNeedsValue o } : State).error = msgNeedsValue o from rfl]
                unfold msgNeedsValue
                rw [ascii_lit3, ascii_lit4]
                refine .needsValue hopt hab hh (by rw [← mustOmit_bare]; exact hm) ?_ hcall
                unfold Opt.canOmit at hcan
                rw [hv.options o (List.mem_of_getElem? ho)] at hcan
                unfold Kind.boolean?
                cases hk : o.kind <;> rw [hk] at hcan <;> simp_all
              · simp only [List.head?_nil] at h
                rw [e] at h; cases h
            | cons v rest =>
              simp only [List.head?_cons] at h
              rcases finish_next w st (.opt i) o pos v hm with ⟨x, hx, e⟩ | ⟨hx, ⟨hcan, e⟩ | ⟨hcan, e⟩⟩
              · rw [e] at h; cases h
              · rw [e] at h; cases h
              · rw [e] at h; cases h
                rw [show ({ st with error := msgInvalid o v } : State).error = msgInvalid o v from rfl]
                unfold msgInvalid
                rw [ascii_lit5, ascii_lit6]
                exact .badNext hopt hab hh (by rw [← mustOmit_bare]; exact hm) (noValue_of hx) hcall
  · rename_i hopt
    have hopt : ¬ OptionLike cfg a := hopt
    cases hp : cfg.positionals[pos]? with
    | none =>
      rw [hp] at h
      simp only at h
      cases hcol : cfg.collectExtra with
      | true => rw [hcol] at h; cases h
      | false =>
        rw [hcol] at h
        simp only [Bool.not_false, if_true] at h
        cases h
        rw [show ({ st with error := msgExtra } : State).error = msgExtra from rfl]
        unfold msgExtra
        rw [ascii_lit2]
        refine .surplus hopt ?_ hcol
        have h1 := (chain_pos hc).2.1 (Nat.zero_le _)
        rw [List.getElem?_eq_none_iff] at hp
        omega
    | some o =>
      rw [hp] at h
      simp only at h
      obtain ⟨hn, hk⟩ := hv.positionals o (List.mem_of_getElem? hp)
      have hm : o.mustOmit = false := by
        unfold Opt.mustOmit
        rcases hk with ⟨d, hk⟩ | ⟨d, hk⟩ | ⟨d, hk⟩ <;> simp [hk]
      rcases finish_text w st (.pos pos) o (pos + 1) a rest.head? hm with ⟨x, hx, e⟩ | ⟨hx, ⟨hcan, e⟩ | ⟨hcan, e⟩⟩
      · rw [e] at h; cases h
      · rw [e] at h; cases h
      · rw [e] at h; cases h
        rw [show ({ st with error := msgInvalid o a } : State).error = msgInvalid o a from rfl]
        unfold msgInvalid
        rw [ascii_lit5, ascii_lit6]
        exact .badPositional hopt (by rw [← hpos]; exact hp) (noValue_of hx) (called_positional hv hp)

theorem chain_snoc {st st1 st2 : State} {pos pos1 pos2 : Nat} {items : List Item} {it : Item} (h : Chain w cfg st pos items st1 pos1)
    (hd : Does w cfg st1 pos1 it st2 pos2) : Chain w cfg st pos (items ++ [it]) st2 pos2 := by
  induction h with
  | nil => exact .cons hd .nil
  | cons h1 _ ih => exact .cons h1 (ih hd)

/-- The loop fails at some argument for a reason, everything before being all right. -/
theorem loop_complaint (hv : cfg.Valid) : ∀ (n : Nat) (rest : List Str), rest.length ≤ n → ∀ (before : List Item) (st st' : State) (pos : Nat),
    Chain w cfg fresh 0 before st pos → (∀ it ∈ before, ¬ it.stops cfg) → loop w cfg rest false st pos = .ok (none, st') →
    ∃ items rest' stf posf, before.flatMap Item.args ++ rest = items.flatMap Item.args ++ rest' ∧ Chain w cfg fresh 0 items stf posf ∧
      (∀ it ∈ items, ¬ it.stops cfg) ∧ Complaint cfg items rest' st'.error := by
  intro n
  induction n with
  | zero =>
    intro rest hl before st st' pos hc hns h
    have : rest = [] := List.length_eq_zero_iff.1 (by omega)
    subst this
    cases h
  | succ n ih =>
    intro rest hl before st st' pos hc hns h
    cases rest with
    | nil => cases h
    | cons a rest =>
      simp only [List.length_cons] at hl
      have snoc : ∀ it : Item, ¬ it.stops cfg → ∀ j ∈ before ++ [it], ¬ j.stops cfg := by
        intro it hit j hj
        rcases List.mem_append.1 hj with hj | hj
        · exact hns j hj
        · rw [List.mem_singleton] at hj; subst hj; exact hit
      rcases stepArg_spec w cfg hv st pos a rest.head? with ⟨e, he, hs⟩ | ⟨it, st1, pos1, hd, ha, hns', hs⟩ | ⟨it, v, st1, pos1, hn, hd, ha, hns', hs⟩ | ⟨it, st1, hd, ha, hst, hs⟩ | ⟨hu, hs⟩
      · simp only [loop, hs, bind, Except.bind] at h
        cases h
        exact ⟨before, a :: rest, st, pos, rfl, hc, hns, stepArg_complaint hv hc hs⟩
      · have e : loop w cfg (a :: rest) false st pos = loop w cfg rest false st1 pos1 := by simp [loop, hs, bind, Except.bind]
        rw [e] at h
        obtain ⟨items, rest', stf, posf, h1, h2, h3, h4⟩ := ih rest (by omega) (before ++ [it]) st1 st' pos1 (chain_snoc hc hd) (snoc it hns') h
        refine ⟨items, rest', stf, posf, ?_, h2, h3, h4⟩
        rw [← h1]; simp [ha]
      · obtain ⟨rest', rfl⟩ : ∃ r, rest = v :: r := by
          cases rest with
          | nil => cases hn
          | cons x r => simp at hn; exact ⟨r, by rw [hn]⟩
        rw [List.head?_cons] at hs
        have e : loop w cfg (a :: v :: rest') false st pos = loop w cfg rest' false st1 pos1 := by simp [loop, hs, bind, Except.bind]
        rw [e] at h
        simp only [List.length_cons] at hl
        obtain ⟨items, rest'', stf, posf, h1, h2, h3, h4⟩ := ih rest' (by omega) (before ++ [it]) st1 st' pos1 (chain_snoc hc hd) (snoc it hns') h
        refine ⟨items, rest'', stf, posf, ?_, h2, h3, h4⟩
        rw [← h1]; simp [ha]
      · simp only [loop, hs, bind, Except.bind] at h; cases h
      · simp only [loop, hs, bind, Except.bind] at h; cases h

theorem chain_soFar (hw : 32 ≤ w) {items : List Item} {st : State} {pos : Nat} (h : Chain w cfg fresh 0 items st pos) (hns : ∀ it ∈ items, ¬ it.stops cfg) :
    SoFar IntNum cfg items where
  each := fun it hit => ok_mono (fun n m => codeNum_intNum hw) (chain_ok h (fun hf => by cases hf) it hit)
  once := chain_once h
  plain := (chain_plain h).1
  positionals := fun k a x hk => by
    obtain ⟨o, h3, h4⟩ := (chain_pos h).2.2 k a x hk
    rw [Nat.zero_add] at h3
    exact ⟨o, h3, reads_mono (fun n m => codeNum_intNum hw) h4⟩
  noStop := hns
  tail := (chain_tail h).2.1
  tailStart := (chain_tail h).2.2 rfl

end Verif.ArgParser
