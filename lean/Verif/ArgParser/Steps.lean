import Verif.ArgParser.Values
/-! # Lemmas for `am-argparser.h`: one round of the loop, and the loop -/
namespace Verif.ArgParser
open Verif

theorem setCell_self (st : State) (r : Ref) : st.setCell r (st.cells r) = st := by
  unfold State.setCell
  cases st
  simp only [State.mk.injEq, and_true]
  funext r'
  by_cases h : r' = r
  · subst h; simp
  · simp [h]

theorem halts_mustOmit {o : Opt} (h : o.mustOmit = false) : o.halts = false := by
  unfold Opt.mustOmit at h; unfold Opt.halts
  cases hk : o.kind <;> simp [hk] at h ⊢

theorem takesNo_halts {o : Opt} (h : o.takesNo = true) : o.halts = false ∧ o.mustOmit = true ∧ o.canOmit = false := by
  unfold Opt.takesNo at h; unfold Opt.halts Opt.mustOmit Opt.canOmit
  cases hk : o.kind <;> simp [hk] at h ⊢

/-- A value text at hand. -/
theorem finish_text (w : Nat) (st : State) (r : Ref) (o : Opt) (pos : Nat) (v : Str) (next : Option Str) (hm : o.mustOmit = false) :
    (∃ x, Reads (codeNum w) o.kind v x ∧ finish w st r o pos (some v) next = .ok (.next (st.setCell r (put o (st.cells r) x)) pos false)) ∨
    ((∀ x, ¬ Reads (codeNum w) o.kind v x) ∧ ((o.canOmit = true ∧ finish w st r o pos (some v) next = .ok (.next st pos false)) ∨
      (o.canOmit = false ∧ finish w st r o pos (some v) next = .ok (.fail { st with error := msgInvalid o v })))) := by
  unfold finish
  rcases consume_text w o v (st.cells r) hm with ⟨x, hx, e⟩ | ⟨hx, e⟩
  · left
    refine ⟨x, hx, ?_⟩
    simp [e, halts_mustOmit hm, bind, Except.bind]
  · right
    refine ⟨hx, ?_⟩
    cases hc : o.canOmit with
    | true => left; refine ⟨rfl, ?_⟩; simp [e, halts_mustOmit hm, setCell_self, bind, Except.bind]
    | false => right; refine ⟨rfl, ?_⟩; simp [e, setCell_self, bind, Except.bind]

/-- No value text, and this is the last argument. -/
theorem finish_last (w : Nat) (st : State) (r : Ref) (o : Opt) (pos : Nat) (hm : o.mustOmit = false) :
    (o.canOmit = false ∧ finish w st r o pos none none = .ok (.fail { st with error := msgNeedsValue o })) ∨
    (o.canOmit = true ∧ ∃ x, FlagValue o.kind false x ∧ finish w st r o pos none none = .ok (.next (st.setCell r (put o (st.cells r) x)) pos false)) := by
  unfold finish
  cases hc : o.canOmit with
  | false => left; exact ⟨rfl, by simp⟩
  | true =>
    right
    obtain ⟨x, hx, e⟩ := consume_none w o (st.cells r) hc
    refine ⟨rfl, x, hx, ?_⟩
    simp [e, halts_mustOmit hm, bind, Except.bind]

/-- No value text, but another argument. -/
theorem finish_next (w : Nat) (st : State) (r : Ref) (o : Opt) (pos : Nat) (v : Str) (hm : o.mustOmit = false) :
    (∃ x, Reads (codeNum w) o.kind v x ∧ finish w st r o pos none (some v) = .ok (.next (st.setCell r (put o (st.cells r) x)) pos true)) ∨
    ((∀ x, ¬ Reads (codeNum w) o.kind v x) ∧ ((o.canOmit = true ∧ finish w st r o pos none (some v) = .ok (.next st pos false)) ∨
      (o.canOmit = false ∧ finish w st r o pos none (some v) = .ok (.fail { st with error := msgInvalid o v })))) := by
  unfold finish
  rcases consume_text w o v (st.cells r) hm with ⟨x, hx, e⟩ | ⟨hx, e⟩
  · left
    refine ⟨x, hx, ?_⟩
    simp [e, halts_mustOmit hm, hm, bind, Except.bind]
  · right
    refine ⟨hx, ?_⟩
    cases hc : o.canOmit with
    | true => left; refine ⟨rfl, ?_⟩; simp [e, halts_mustOmit hm, hm, setCell_self, bind, Except.bind]
    | false => right; refine ⟨rfl, ?_⟩; simp [e, setCell_self, hm, bind, Except.bind]

theorem finish_enable (w : Nat) (st : State) (r : Ref) (o : Opt) (pos : Nat) (neg : Bool) (next : Option Str) (hk : o.takesNo = true) :
    FlagValue o.kind neg (.bool (!neg)) ∧
    finish w st r o pos (some (if neg then sFalse else sTrue)) next = .ok (.next (st.setCell r (put o (st.cells r) (.bool (!neg)))) pos false) := by
  obtain ⟨h1, h2⟩ := consume_enable w o (st.cells r) neg hk
  refine ⟨h1, ?_⟩
  obtain ⟨h3, h4, h5⟩ := takesNo_halts hk
  unfold finish
  simp [h2, h3, bind, Except.bind]

theorem finish_toggle (w : Nat) (st : State) (r : Ref) (o : Opt) (pos : Nat) (next : Option Str) (hm : o.mustOmit = true) (hk : o.takesNo = false) :
    ∃ x, FlagValue o.kind false x ∧
    finish w st r o pos none next = .ok (if o.halts then .halt (st.setCell r (put o (st.cells r) x)) pos else .next (st.setCell r (put o (st.cells r) x)) pos false) := by
  have hc : o.canOmit = true := by
    unfold Opt.mustOmit at hm; unfold Opt.takesNo at hk; unfold Opt.canOmit
    cases h : o.kind <;> simp [h] at hm hk ⊢
  obtain ⟨x, hx, e⟩ := consume_none w o (st.cells r) hc
  refine ⟨x, hx, ?_⟩
  unfold finish
  simp only [hm, hc, bind, Except.bind]
  cases o.halts <;> simp [e]

/-! ### One round -/

/-- What one item does to the parser. -/
inductive Does (w : Nat) (cfg : Config) (st : State) (pos : Nat) : Item → State → Nat → Prop
  | dashes : Item.Ok (codeNum w) cfg .dashes → Does w cfg st pos .dashes { st with hasPass := true } pos
  | pass (a : Str) : st.hasPass = true → (cfg.passthrough = true → a ≠ [45, 45]) → Does w cfg st pos (.pass a) { st with pass := st.pass ++ [a] } pos
  | give (it : Item) (i : Nat) (o : Opt) (x : Val) : st.hasPass = false → it.Ok (codeNum w) cfg → it.gives = some (i, x) →
      cfg.options[i]? = some o → willRepeat o (st.cells (.opt i)) = true → Does w cfg st pos it (st.setCell (.opt i) (put o (st.cells (.opt i)) x)) pos
  | ignore (it : Item) : st.hasPass = false → it.Ok (codeNum w) cfg → it.void = true → Does w cfg st pos it st pos
  | positional (a : Str) (x : Val) (o : Opt) : st.hasPass = false → ¬ OptionLike cfg a → cfg.positionals[pos]? = some o → Reads (codeNum w) o.kind a x →
      Does w cfg st pos (.positional a x) (st.setCell (.pos pos) (put o (st.cells (.pos pos)) x)) (pos + 1)
  | extra (a : Str) : st.hasPass = false → ¬ OptionLike cfg a → cfg.positionals[pos]? = none → cfg.collectExtra = true →
      Does w cfg st pos (.extra a) { st with extra := st.extra ++ [a] } pos

/-- The argument is one of the unknown `--no-` options that make `lookup` fault. -/
def UnknownNo (cfg : Config) (a : Str) : Prop := lookup cfg a = .error .nullDeref

theorem lookup_total (cfg : Config) (a : Str) : (∃ r, lookup cfg a = .ok r) ∨ UnknownNo cfg a := by
  unfold UnknownNo lookup
  simp only
  split
  · split
    · split
      · right; rfl
      · split <;> exact .inl ⟨_, rfl⟩
    · exact .inl ⟨_, rfl⟩
  · exact .inl ⟨_, rfl⟩

/-- What one round amounts to: a failure with its message, an item that was read, or an unknown `--no-` option. -/
theorem stepArg_spec (w : Nat) (cfg : Config) (hv : cfg.Valid) (st : State) (pos : Nat) (arg : Str) (next : Option Str) :
    (∃ e, e ≠ [] ∧ stepArg w cfg st pos arg next = .ok (.fail { st with error := e })) ∨
    (∃ it st' pos', Does w cfg st pos it st' pos' ∧ it.args = [arg] ∧ ¬ it.stops cfg ∧ stepArg w cfg st pos arg next = .ok (.next st' pos' false)) ∨
    (∃ it v st' pos', next = some v ∧ Does w cfg st pos it st' pos' ∧ it.args = [arg, v] ∧ ¬ it.stops cfg ∧
      stepArg w cfg st pos arg next = .ok (.next st' pos' true)) ∨
    (∃ it st', Does w cfg st pos it st' pos ∧ it.args = [arg] ∧ it.stops cfg ∧ stepArg w cfg st pos arg next = .ok (.halt st' pos)) ∨
    (UnknownNo cfg arg ∧ stepArg w cfg st pos arg next = .error .nullDeref) := by
  have nonstop : ∀ (it : Item) (i : Nat) (x : Val) (o : Opt), it.gives = some (i, x) → cfg.options[i]? = some o → o.halts = false → ¬ it.stops cfg := by
    rintro it i x o h1 h2 h3 ⟨i', x', o', d, h4, h5, h6⟩
    rw [h1] at h4; cases h4
    rw [h2] at h5; cases h5
    simp [Opt.halts, h6] at h3
  have nogive : ∀ it : Item, it.gives = none → ¬ it.stops cfg := by
    rintro it h ⟨_, _, _, _, h', _⟩
    rw [h] at h'; cases h'
  unfold stepArg
  by_cases h1 : cfg.passthrough = true ∧ arg = [45, 45]
  · rw [if_pos h1]
    obtain ⟨h1, rfl⟩ := h1
    exact .inr (.inl ⟨.dashes, _, _, .dashes h1, rfl, nogive _ rfl, rfl⟩)
  rw [if_neg h1]
  by_cases h2 : st.hasPass = true
  · rw [if_pos h2]
    exact .inr (.inl ⟨.pass arg, _, _, .pass arg h2 (fun h e => h1 ⟨h, e⟩), rfl, nogive _ rfl, rfl⟩)
  rw [if_neg h2]
  have h2' : st.hasPass = false := by simpa using h2
  by_cases h3 : arg[0]? = some 45 ∨ (cfg.slashes = true ∧ arg[0]? = some 47)
  · rw [if_pos h3]
    have hopt : OptionLike cfg arg := h3
    rcases lookup_total cfg arg with ⟨r, hr⟩ | hu
    rotate_left
    · refine .inr (.inr (.inr (.inr ⟨hu, ?_⟩)))
      simp [UnknownNo] at hu; simp [hu, bind, Except.bind]
    cases r with
    | none =>
      left
      refine ⟨msgUnrecognized arg, ?_, by simp [hr, bind, Except.bind]⟩
      unfold msgUnrecognized lit; simp
    | some q =>
      obtain ⟨i, o, v, sep⟩ := q
      obtain ⟨ho, hc⟩ := lookup_some hopt hr
      simp only [hr, bind, Except.bind]
      by_cases hw : willRepeat o (st.cells (.opt i)) = true
      rotate_left
      · left
        refine ⟨msgTwice o, ?_, by simp [hw]⟩
        unfold msgTwice lit; simp
      simp only [hw]
      simp only [Bool.not_true, Bool.false_eq_true, if_false]
      cases hm : o.mustOmit with
      | true =>
        cases sep with
        | some k =>
          left
          refine ⟨msgInvalid o (arg.drop (k + 1)), ?_, by simp⟩
          unfold msgInvalid lit; simp
        | none =>
          rcases hc with ⟨ht, rfl, hs⟩ | ⟨ht, hs, _⟩
          · obtain ⟨x, hx, e⟩ := finish_toggle w st (.opt i) o pos next hm ht
            simp only [e]
            have hok : Item.Ok (codeNum w) cfg (.flag arg i x) := ⟨hopt, o, false, ho, hs, hx⟩
            cases hh : o.halts with
            | true =>
              refine .inr (.inr (.inr (.inl ⟨.flag arg i x, _, .give _ i o x h2' hok rfl ho hw, rfl, ?_, rfl⟩)))
              unfold Opt.halts at hh
              cases hk : o.kind <;> simp [hk] at hh
              exact ⟨i, x, o, _, rfl, ho, hk⟩
            | false =>
              exact .inr (.inl ⟨.flag arg i x, _, _, .give _ i o x h2' hok rfl ho hw, rfl, nonstop _ i x o rfl ho hh, rfl⟩)
          · obtain ⟨neg, rfl, hs'⟩ := hs rfl
            obtain ⟨hx, e⟩ := finish_enable w st (.opt i) o pos neg next ht
            simp only [e]
            have hok : Item.Ok (codeNum w) cfg (.flag arg i (.bool !neg)) := ⟨hopt, o, neg, ho, hs', hx⟩
            exact .inr (.inl ⟨.flag arg i (.bool !neg), _, _, .give _ i o _ h2' hok rfl ho hw, rfl, nonstop _ i _ o rfl ho (takesNo_halts ht).1, rfl⟩)
      | false =>
        have ht : o.takesNo = false := by
          cases h : o.takesNo with
          | false => rfl
          | true => rw [(takesNo_halts h).2.1] at hm; cases hm
        rcases hc with ⟨_, rfl, hs⟩ | ⟨ht', _⟩
        rotate_left
        · rw [ht] at ht'; cases ht'
        have hbool : o.canOmit = true → ∃ d, o.kind = .boolean d := by
          intro h
          unfold Opt.canOmit at h; unfold Opt.mustOmit at hm
          cases hk : o.kind <;> simp [hk] at h hm ⊢
        cases sep with
        | some k =>
          simp only [Option.map_some] at hs
          simp only [Bool.false_eq_true, if_false]
          rcases finish_text w st (.opt i) o pos (arg.drop (k + 1)) next hm with ⟨x, hx, e⟩ | ⟨hx, ⟨hcan, e⟩ | ⟨hcan, e⟩⟩
          · exact .inr (.inl ⟨.attached arg i (arg.drop (k + 1)) x, _, _, .give _ i o x h2' ⟨hopt, o, ho, hs, hx⟩ rfl ho hw, rfl,
              nonstop _ i x o rfl ho (halts_mustOmit hm), e⟩)
          · obtain ⟨d, hd⟩ := hbool hcan
            exact .inr (.inl ⟨.junk arg i (arg.drop (k + 1)), st, pos, .ignore _ h2' ⟨hopt, o, d, ho, hs, hd, hx⟩ rfl, rfl,
              nogive _ rfl, e⟩)
          · left
            refine ⟨msgInvalid o (arg.drop (k + 1)), ?_, e⟩
            unfold msgInvalid lit; simp
        | none =>
          simp only [Option.map_none] at hs
          cases next with
          | none =>
            rcases finish_last w st (.opt i) o pos hm with ⟨hcan, e⟩ | ⟨hcan, x, hx, e⟩
            · left
              refine ⟨msgNeedsValue o, ?_, e⟩
              unfold msgNeedsValue lit; simp
            · exact .inr (.inl ⟨.flag arg i x, _, _, .give _ i o x h2' ⟨hopt, o, false, ho, hs, hx⟩ rfl ho hw, rfl,
                nonstop _ i x o rfl ho (halts_mustOmit hm), e⟩)
          | some v =>
            rcases finish_next w st (.opt i) o pos v hm with ⟨x, hx, e⟩ | ⟨hx, ⟨hcan, e⟩ | ⟨hcan, e⟩⟩
            · exact .inr (.inr (.inl ⟨.separate arg i v x, v, _, _, rfl, .give _ i o x h2' ⟨hopt, o, ho, hs, hx⟩ rfl ho hw, rfl,
                nonstop _ i x o rfl ho (halts_mustOmit hm), e⟩))
            · obtain ⟨d, hd⟩ := hbool hcan
              exact .inr (.inl ⟨.ignored arg i, st, pos, .ignore _ h2' ⟨hopt, o, d, ho, hs, hd⟩ rfl, rfl,
                nogive _ rfl, e⟩)
            · left
              refine ⟨msgInvalid o v, ?_, e⟩
              unfold msgInvalid lit; simp
  · rw [if_neg h3]
    have hopt : ¬ OptionLike cfg arg := h3
    cases hp : cfg.positionals[pos]? with
    | none =>
      cases hcol : cfg.collectExtra with
      | false => left; exact ⟨msgExtra, by unfold msgExtra lit; simp, by simp⟩
      | true =>
        simp only [Bool.not_true, Bool.false_eq_true, if_false]
        exact .inr (.inl ⟨.extra arg, _, _, .extra arg h2' hopt hp hcol, rfl, nogive _ rfl, rfl⟩)
    | some o =>
      simp only
      obtain ⟨hn, hk⟩ := hv.positionals o (List.mem_of_getElem? hp)
      have hm : o.mustOmit = false := by
        unfold Opt.mustOmit
        rcases hk with ⟨d, hk⟩ | ⟨d, hk⟩ | ⟨d, hk⟩ <;> simp [hk]
      have hcan : o.canOmit = false := by
        unfold Opt.canOmit
        rcases hk with ⟨d, hk⟩ | ⟨d, hk⟩ | ⟨d, hk⟩ <;> simp [hk, Option.ne_none_iff_isSome.1 hn]
      rcases finish_text w st (.pos pos) o (pos + 1) arg next hm with ⟨x, hx, e⟩ | ⟨hx, ⟨hcan', e⟩ | ⟨_, e⟩⟩
      · exact .inr (.inl ⟨.positional arg x, _, _, .positional arg x o h2' hopt hp hx, rfl, nogive _ rfl, e⟩)
      · rw [hcan] at hcan'; cases hcan'
      · left
        refine ⟨msgInvalid o arg, ?_, e⟩
        unfold msgInvalid lit; simp

/-! ### The loop -/

/-- A chain of items. -/
inductive Chain (w : Nat) (cfg : Config) : State → Nat → List Item → State → Nat → Prop
  | nil {st : State} {pos : Nat} : Chain w cfg st pos [] st pos
  | cons {st st1 st2 : State} {pos pos1 pos2 : Nat} {it : Item} {items : List Item} : Does w cfg st pos it st1 pos1 → Chain w cfg st1 pos1 items st2 pos2 →
      Chain w cfg st pos (it :: items) st2 pos2

/-- What the loop amounts to. -/
theorem loop_spec (w : Nat) (cfg : Config) (hv : cfg.Valid) : ∀ (n : Nat) (args : List Str), args.length ≤ n → ∀ (st : State) (pos : Nat),
    (∃ st' , st'.error ≠ [] ∧ loop w cfg args false st pos = .ok (none, st')) ∨
    (∃ items st' pos', Chain w cfg st pos items st' pos' ∧ items.flatMap Item.args = args ∧ (∀ it ∈ items, ¬ it.stops cfg) ∧
      loop w cfg args false st pos = .ok (some (false, pos'), st')) ∨
    (∃ items it st' pos', Chain w cfg st pos (items ++ [it]) st' pos' ∧ (items ++ [it]).flatMap Item.args <+: args ∧ it.stops cfg ∧
      (∀ j ∈ items, ¬ j.stops cfg) ∧ loop w cfg args false st pos = .ok (some (true, pos'), st')) ∨
    ((∃ a ∈ args, UnknownNo cfg a) ∧ loop w cfg args false st pos = .error .nullDeref) := by
  intro n
  induction n with
  | zero =>
    intro args hl st pos
    have : args = [] := List.length_eq_zero_iff.1 (by omega)
    subst this
    exact .inr (.inl ⟨[], st, pos, .nil, rfl, by simp, rfl⟩)
  | succ n ih =>
    intro args hl st pos
    cases args with
    | nil => exact .inr (.inl ⟨[], st, pos, .nil, rfl, by simp, rfl⟩)
    | cons a rest =>
      simp only [List.length_cons] at hl
      rcases stepArg_spec w cfg hv st pos a rest.head? with ⟨e, he, hs⟩ | ⟨it, st1, pos1, hd, ha, hns, hs⟩ | ⟨it, v, st1, pos1, hn, hd, ha, hns, hs⟩ | ⟨it, st1, hd, ha, hst, hs⟩ | ⟨hu, hs⟩
      · left; exact ⟨{ st with error := e }, he, by simp [loop, hs, bind, Except.bind]⟩
      · have e : loop w cfg (a :: rest) false st pos = loop w cfg rest false st1 pos1 := by simp [loop, hs, bind, Except.bind]
        rw [e]
        rcases ih rest (by omega) st1 pos1 with ⟨st', h1, h2⟩ | ⟨items, st', pos', h1, h2, h3, h4⟩ | ⟨items, jt, st', pos', h1, h2, h3, h4, h5⟩ | ⟨⟨b, hb, hu⟩, h2⟩
        · exact .inl ⟨st', h1, h2⟩
        · refine .inr (.inl ⟨it :: items, st', pos', .cons hd h1, by simp [ha, h2], ?_, h4⟩)
          intro j hj; rcases List.mem_cons.1 hj with rfl | hj
          · exact hns
          · exact h3 j hj
        · refine .inr (.inr (.inl ⟨it :: items, jt, st', pos', .cons hd h1, ?_, h3, ?_, h5⟩))
          · simp only [List.cons_append, List.flatMap_cons, ha, List.nil_append]
            exact List.prefix_cons_inj a |>.2 h2
          · intro j hj; rcases List.mem_cons.1 hj with rfl | hj
            · exact hns
            · exact h4 j hj
        · exact .inr (.inr (.inr ⟨⟨b, by simp [hb], hu⟩, h2⟩))
      · obtain ⟨rest', rfl⟩ : ∃ r, rest = v :: r := by
          cases rest with
          | nil => cases hn
          | cons x r => simp at hn; exact ⟨r, by rw [hn]⟩
        rw [List.head?_cons] at hs
        have e : loop w cfg (a :: v :: rest') false st pos = loop w cfg rest' false st1 pos1 := by simp [loop, hs, bind, Except.bind]
        rw [e]
        simp only [List.length_cons] at hl
        rcases ih rest' (by omega) st1 pos1 with ⟨st', h1, h2⟩ | ⟨items, st', pos', h1, h2, h3, h4⟩ | ⟨items, jt, st', pos', h1, h2, h3, h4, h5⟩ | ⟨⟨b, hb, hu⟩, h2⟩
        · exact .inl ⟨st', h1, h2⟩
        · refine .inr (.inl ⟨it :: items, st', pos', .cons hd h1, by simp [ha, h2], ?_, h4⟩)
          intro j hj; rcases List.mem_cons.1 hj with rfl | hj
          · exact hns
          · exact h3 j hj
        · refine .inr (.inr (.inl ⟨it :: items, jt, st', pos', .cons hd h1, ?_, h3, ?_, h5⟩))
          · simp only [List.cons_append, List.flatMap_cons, ha, List.nil_append]
            exact List.prefix_cons_inj a |>.2 (List.prefix_cons_inj v |>.2 h2)
          · intro j hj; rcases List.mem_cons.1 hj with rfl | hj
            · exact hns
            · exact h4 j hj
        · exact .inr (.inr (.inr ⟨⟨b, by simp [hb], hu⟩, h2⟩))
      · refine .inr (.inr (.inl ⟨[], it, st1, pos, .cons hd .nil, ?_, hst, by simp, by simp [loop, hs, bind, Except.bind]⟩))
        simp only [List.nil_append, List.flatMap_cons, List.flatMap_nil, List.append_nil, ha]
        exact ⟨rest, rfl⟩
      · exact .inr (.inr (.inr ⟨⟨a, by simp, hu⟩, by simp [loop, hs, bind, Except.bind]⟩))

end Verif.ArgParser
