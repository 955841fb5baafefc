import Verif.ArgParser.SpecLine
import Verif.ArgParser.Props2
/-!
# C88, C89: what the parser accepts
-/
namespace Verif.ArgParser
open Verif

variable {w : Nat} {cfg : Config}

theorem exact_codeNum (hw : 32 ≤ w) (n m : Int) (h : ExactInt n m) : codeNum w n m := by
  obtain ⟨⟨h1, h2⟩, rfl⟩ := h
  have hp : (2 : Int) ^ 31 ≤ 2 ^ (w - 1) := by
    have : (2 : Nat) ^ 31 ≤ 2 ^ (w - 1) := Nat.pow_le_pow_right (by decide) (by omega)
    exact_mod_cast this
  have e : (2 : Int) ^ 31 = 2147483648 := by decide
  unfold codeNum toInt32 clampLong
  generalize (2 : Int) ^ (w - 1) = q at hp
  rw [if_neg (by omega), if_neg (by omega)]
  omega

theorem says_opt {a : Str} {i : Nat} {o : Opt} (h : Says cfg a i o) : cfg.options[i]? = some o := by
  cases h with
  | long h => exact h.opt
  | short _ h => exact h.opt

theorem says_like {a : Str} (t : Str) {i : Nat} {o : Opt} (h : Says cfg a i o) : OptionLike cfg (a ++ t) := by
  cases h with
  | long h => exact .inl rfl
  | short hp h =>
    rcases hp with rfl | ⟨hs, rfl⟩
    · exact .inl rfl
    · exact .inr ⟨hs, rfl⟩

theorem says_like' {a : Str} {i : Nat} {o : Opt} (h : Says cfg a i o) : OptionLike cfg a := by
  have := says_like [] h; rwa [List.append_nil] at this

theorem says_not_dashes (hv : cfg.Valid) {a : Str} (t : Str) {i : Nat} {o : Opt} (h : Says cfg a i o) :
    ¬ (cfg.passthrough = true ∧ a ++ t = [45, 45]) := by
  cases h with
  | long h =>
    have := named_ne hv h
    exact not_dashes_long (cfg := cfg) (by simp [this])
  | short hp h => exact short_not_dashes hv h

theorem says_not_dashes' (hv : cfg.Valid) {a : Str} {i : Nat} {o : Opt} (h : Says cfg a i o) :
    ¬ (cfg.passthrough = true ∧ a = [45, 45]) := by
  have := says_not_dashes hv [] h; rwa [List.append_nil] at this

theorem says_lookup (hv : cfg.Valid) {a : Str} {i : Nat} {o : Opt} (h : Says cfg a i o) :
    lookup cfg a = .ok (some (i, o, foundValue o, none)) := by
  cases h with
  | long h => exact lookup_long h
  | short hp h => exact lookup_short hv h hp

theorem says_lookupValue (hv : cfg.Valid) {a v : Str} {i : Nat} {o : Opt} (h : Says cfg a i o) (hne : v ≠ []) :
    lookup cfg (a ++ 61 :: v) = .ok (some (i, o, foundValue o, some a.length)) := by
  cases h with
  | long h => exact lookup_longValue h (fun _ => hne)
  | short hp h => exact lookup_shortValue hv h hp (fun _ => hne)

theorem says_spells {a : Str} {i : Nat} {o : Opt} (h : Says cfg a i o) : Spells cfg a i none false := by
  cases h with
  | long h => exact .long h.opt h.long
  | short hp h => exact .short hp h.opt h.short

theorem says_spellsValue {a : Str} (v : Str) {i : Nat} {o : Opt} (h : Says cfg a i o) : Spells cfg (a ++ 61 :: v) i (some v) false := by
  cases h with
  | long h => exact .longValue h.opt h.long (.inl rfl)
  | short hp h => exact .shortValue hp h.opt h.short (.inl rfl)

theorem reads_mustOmit {num : Int → Int → Prop} {o : Opt} {v : Str} {x : Val} (h : Reads num o.kind v x) : o.mustOmit = false ∧ o.takesNo = false := by
  unfold Opt.mustOmit Opt.takesNo
  cases hk : o.kind <;> rw [hk] at h <;> first | exact ⟨rfl, rfl⟩ | exact h.elim

theorem reads_unique {k : Kind} {v : Str} {x y : Val} (hx : Reads (codeNum w) k v x) (hy : Reads (codeNum w) k v y) : x = y := by
  have hbool : ∀ x y : Val, ((lowered v = [116, 114, 117, 101] ∧ x = .bool true) ∨ (lowered v = [102, 97, 108, 115, 101] ∧ x = .bool false)) →
      ((lowered v = [116, 114, 117, 101] ∧ y = .bool true) ∨ (lowered v = [102, 97, 108, 115, 101] ∧ y = .bool false)) → x = y := by
    rintro x y (⟨h1, rfl⟩ | ⟨h1, rfl⟩) (⟨h2, rfl⟩ | ⟨h2, rfl⟩)
    · rfl
    · rw [h1] at h2; cases h2
    · rw [h1] at h2; cases h2
    · rfl
  have hint : (∃ n m, Numeral v n ∧ codeNum w n m ∧ x = .int m) → (∃ n m, Numeral v n ∧ codeNum w n m ∧ y = .int m) → x = y := by
    rintro ⟨n, m, h1, h2, rfl⟩ ⟨n', m', h3, h4, rfl⟩
    have : n = n' := by rw [(numeral_iff.1 h1).2.2, (numeral_iff.1 h3).2.2]
    subst this
    rw [h2, h4]
  cases k with
  | boolean d => exact hbool x y hx hy
  | repBool => exact hbool x y hx hy
  | string d => exact hx.2.trans hy.2.symm
  | repString => exact hx.2.trans hy.2.symm
  | int d => exact hint hx hy
  | repInt => exact hint hx hy
  | enable d => exact hx.elim
  | toggle d => exact hx.elim
  | stop d => exact hx.elim

theorem flag_unique {k : Kind} {b : Bool} {x y : Val} (hx : FlagValue k b x) (hy : FlagValue k b y) : x = y := by
  cases k <;> simp only [FlagValue] at hx hy
  all_goals first
    | (rw [hx, hy]; done)
    | (rw [hx.2, hy.2]; done)
    | exact hx.elim

theorem asks_opt {it : Item} {i : Nat} {o : Opt} {x : Val} (h : Asks cfg it i o x) : cfg.options[i]? = some o := by
  cases h with
  | flag h => exact says_opt h
  | no h => exact h.opt
  | attached h => exact says_opt h
  | separate h => exact says_opt h

/-- One option asked for. -/
theorem asks_step (hw : 32 ≤ w) (hv : cfg.Valid) {it : Item} {i : Nat} {o : Opt} {x : Val} (h : Asks cfg it i o x) (st : State) (pos : Nat) (rest : List Str)
    (hp : st.hasPass = false) (hr : willRepeat o (st.cells (.opt i)) = true) :
    cfg.options[i]? = some o ∧ it.gives = some (i, x) ∧
    Does w cfg st pos it (st.setCell (.opt i) (put o (st.cells (.opt i)) x)) pos ∧
    (o.halts = false → loop w cfg (it.args ++ rest) false st pos = loop w cfg rest false (st.setCell (.opt i) (put o (st.cells (.opt i)) x)) pos) ∧
    (o.halts = true → loop w cfg (it.args ++ rest) false st pos = .ok (some (true, pos), st.setCell (.opt i) (put o (st.cells (.opt i)) x))) := by
  cases h with
  | flag hs hnb hf =>
    rename_i a
    have ho := says_opt hs
    have hok : Item.Ok (codeNum w) cfg (.flag a i x) := ⟨says_like' hs, o, false, ho, says_spells hs, hf⟩
    have hst := stepArg_found (w := w) (st := st) (pos := pos) (next := rest.head?) (says_not_dashes' hv hs) hp (says_like' hs) (says_lookup hv hs)
    rw [hr, if_pos rfl] at hst
    refine ⟨ho, rfl, .give _ i o x hp hok rfl ho hr, ?_⟩
    by_cases ht : o.takesNo = true
    · have hx : x = .bool true := by
        have : ∃ d, o.kind = .enable d := by
          unfold Opt.takesNo at ht; cases hk : o.kind <;> rw [hk] at ht <;> first | exact ⟨_, rfl⟩ | cases ht
        obtain ⟨d, hk⟩ := this
        rw [hk] at hf; exact hf
      have he := (finish_enable w st (.opt i) o pos false rest.head? ht).2
      have hv0 : foundValue o = some sTrue := by simp [foundValue, ht]
      rw [hv0] at hst
      simp only [Bool.false_eq_true, if_false, Bool.not_false] at he
      rw [he] at hst
      refine ⟨fun _ => ?_, fun hh => ?_⟩
      · simp only [Item.args, List.cons_append, List.nil_append, loop, hst, bind, Except.bind, hx]
      · rw [(takesNo_halts ht).1] at hh; cases hh
    · have ht' : o.takesNo = false := by simpa using ht
      have hm : o.mustOmit = true := by
        unfold Opt.mustOmit
        cases hk : o.kind with
        | boolean d => exact (hnb d hk).elim
        | enable d => rfl
        | toggle d => rfl
        | stop d => rfl
        | _ => rw [hk] at hf; exact hf.elim
      obtain ⟨y, hy, he⟩ := finish_toggle w st (.opt i) o pos rest.head? hm ht'
      have := flag_unique hy hf; subst this
      have hv0 : foundValue o = none := by simp [foundValue, ht']
      rw [hv0, he] at hst
      refine ⟨fun hh => ?_, fun hh => ?_⟩
      · rw [hh, if_neg (by simp)] at hst
        simp only [Item.args, List.cons_append, List.nil_append, loop, hst, bind, Except.bind]
      · rw [hh, if_pos rfl] at hst
        simp only [Item.args, List.cons_append, List.nil_append, loop, hst, bind, Except.bind]
  | no hn hk hno =>
    rename_i l d
    have ht : o.takesNo = true := by simp [Opt.takesNo, hk]
    have hok : Item.Ok (codeNum w) cfg (.flag ([45, 45, 110, 111, 45] ++ l) i (.bool false)) :=
      ⟨.inl rfl, o, true, hn.opt, .no hn.opt hn.long hk, by rw [hk]; rfl⟩
    have hlk : lookup cfg ([45, 45, 110, 111, 45] ++ l) = .ok (some (i, o, some sFalse, none)) := lookup_no hn ht hno
    have hst := stepArg_found (w := w) (st := st) (pos := pos) (next := rest.head?) (by rintro ⟨_, e⟩; simp at e) hp (.inl rfl) hlk
    rw [hr, if_pos rfl] at hst
    have he := (finish_enable w st (.opt i) o pos true rest.head? ht).2
    simp only [if_true, Bool.not_true] at he
    rw [he] at hst
    refine ⟨hn.opt, rfl, .give _ i o _ hp hok rfl hn.opt hr, fun _ => ?_, fun hh => ?_⟩
    · show loop w cfg (([45, 45, 110, 111, 45] ++ l) :: rest) false st pos = _
      simp only [loop, hst, bind, Except.bind]
    · rw [(takesNo_halts ht).1] at hh; cases hh
  | attached hs hne hx =>
    rename_i a v
    have ho := says_opt hs
    have hx' := reads_mono (exact_codeNum hw) hx
    obtain ⟨hm, ht⟩ := reads_mustOmit hx
    have hok : Item.Ok (codeNum w) cfg (.attached (a ++ 61 :: v) i v x) := ⟨says_like _ hs, o, ho, says_spellsValue v hs, hx'⟩
    have hst := stepArg_foundSep (w := w) (st := st) (pos := pos) (next := rest.head?) (says_not_dashes hv _ hs) hp (says_like _ hs)
      (says_lookupValue hv hs hne)
    have hdrop : (a ++ 61 :: v).drop (a.length + 1) = v := by
      rw [List.drop_append, List.drop_eq_nil_of_le (by omega)]
      simp
    rw [hr, if_pos rfl, hm, if_neg (by simp), hdrop] at hst
    refine ⟨ho, rfl, .give _ i o x hp hok rfl ho hr, fun _ => ?_, fun hh => ?_⟩
    · rcases finish_text w st (.opt i) o pos v rest.head? hm with ⟨y, hy, e⟩ | ⟨hy, _⟩
      · have := reads_unique hy hx'; subst this
        rw [e] at hst
        simp only [Item.args, List.cons_append, List.nil_append, loop, hst, bind, Except.bind]
      · exact (hy x hx').elim
    · rw [halts_mustOmit hm] at hh; cases hh
  | separate hs hx =>
    rename_i a v
    have ho := says_opt hs
    have hx' := reads_mono (exact_codeNum hw) hx
    obtain ⟨hm, ht⟩ := reads_mustOmit hx
    have hok : Item.Ok (codeNum w) cfg (.separate a i v x) := ⟨says_like' hs, o, ho, says_spells hs, hx'⟩
    have hst := stepArg_found (w := w) (st := st) (pos := pos) (next := some v) (says_not_dashes' hv hs) hp (says_like' hs) (says_lookup hv hs)
    have hv0 : foundValue o = none := by simp [foundValue, ht]
    rw [hr, if_pos rfl, hv0] at hst
    refine ⟨ho, rfl, .give _ i o x hp hok rfl ho hr, fun _ => ?_, fun hh => ?_⟩
    · rcases finish_next w st (.opt i) o pos v hm with ⟨y, hy, e⟩ | ⟨hy, _⟩
      · have := reads_unique hy hx'; subst this
        rw [e] at hst
        simp [Item.args, loop, hst, bind, Except.bind]
      · exact (hy x hx').elim
    · rw [halts_mustOmit hm] at hh; cases hh

/-- The options that have not been used hold nothing. -/
def Unused (cfg : Config) (used : List Nat) (st : State) : Prop :=
  ∀ (i : Nat) (o : Opt), cfg.options[i]? = some o → o.kind.repeats = false → i ∉ used → (st.cells (.opt i)).value = none

theorem unused_willRepeat {used : List Nat} {st : State} (h : Unused cfg used st) {i : Nat} {o : Opt} (ho : cfg.options[i]? = some o)
    (hu : o.kind.repeats = false → i ∉ used) : willRepeat o (st.cells (.opt i)) = true := by
  rw [repeats_willRepeat]
  cases hr : o.kind.repeats with
  | true => rfl
  | false => simp [h i o ho hr (hu hr)]

/-- The passthrough tail. -/
theorem tail_loop (hp : cfg.passthrough = true) : ∀ (ts : List Item) (st : State) (pos : Nat), st.hasPass = true →
    (∀ t ∈ ts, t = .dashes ∨ ∃ a, t = .pass a ∧ a ≠ [45, 45]) →
    ∃ st', Chain w cfg st pos ts st' pos ∧ loop w cfg (ts.flatMap Item.args) false st pos = .ok (some (false, pos), st')
  | [], st, pos, _, _ => ⟨st, .nil, rfl⟩
  | t :: ts, st, pos, hs, h => by
    have ht := h t (by simp)
    have h' : ∀ t ∈ ts, t = .dashes ∨ ∃ a, t = .pass a ∧ a ≠ [45, 45] := fun t hm => h t (List.mem_cons_of_mem _ hm)
    rcases ht with rfl | ⟨a, rfl, ha⟩
    · obtain ⟨st', h1, h2⟩ := tail_loop hp ts { st with hasPass := true } pos rfl h'
      refine ⟨st', .cons (.dashes hp) h1, ?_⟩
      simp [Item.args, loop, stepArg, hp, bind, Except.bind, h2]
    · obtain ⟨st', h1, h2⟩ := tail_loop hp ts { st with pass := st.pass ++ [a] } pos hs h'
      refine ⟨st', .cons (.pass a hs (fun _ => ha)) h1, ?_⟩
      simp only [List.flatMap_cons, Item.args, List.cons_append, List.nil_append, loop, stepArg]
      rw [if_neg (by simp [ha]), if_pos hs]
      exact h2

theorem tail_gives {t : Item} (h : t = .dashes ∨ ∃ a, t = .pass a ∧ a ≠ [45, 45]) : t.gives = none := by
  rcases h with rfl | ⟨a, rfl, _⟩ <;> rfl

/-- The whole of a line is read as it is written. -/
theorem line_loop (hw : 32 ≤ w) (hv : cfg.Valid) {all : Bool} {pos : Nat} {used : List Nat} {items : List Item} (h : Line cfg all pos used items) :
    ∀ (st : State) (rest : List Str), st.hasPass = false → Unused cfg used st → (all = true → rest = []) →
    ∃ st' pos', Chain w cfg st pos items st' pos' ∧ loop w cfg (items.flatMap Item.args ++ rest) false st pos = loop w cfg rest false st' pos' ∧
      (all = true → pos' = cfg.positionals.length) ∧ (all = false → st'.hasPass = false) ∧ (∀ it ∈ items, ¬ it.stops cfg) := by
  induction h with
  | done hd =>
    intro st rest hp _ _
    exact ⟨st, _, .nil, rfl, hd, fun _ => hp, by simp⟩
  | option ha hns hu _ ih =>
    rename_i pos used it i o x items _
    intro st rest hp hun hall
    have ho : cfg.options[i]? = some o := asks_opt ha
    obtain ⟨_, hg, hd, hl, _⟩ := asks_step hw hv ha st pos (items.flatMap Item.args ++ rest) hp (unused_willRepeat hun ho hu)
    have hh : o.halts = false := by
      unfold Opt.halts; cases hk : o.kind with
      | stop d => exact (hns d hk).elim
      | _ => rfl
    have hl := hl hh
    obtain ⟨st', pos', h1, h2, h3, h4, h5⟩ := ih (st.setCell (.opt i) (put o (st.cells (.opt i)) x)) rest hp (by
      intro j q hj hr hm
      have hji : j ≠ i := fun e => hm (by simp [e])
      rw [setCell_other _ _ (by simp [hji])]
      exact hun j q hj hr (fun e => hm (by simp [e]))) hall
    refine ⟨st', pos', .cons hd h1, ?_, h3, h4, ?_⟩
    · rw [List.flatMap_cons, List.append_assoc, hl, h2]
    · intro j hj
      rcases List.mem_cons.1 hj with rfl | hj
      · rintro ⟨i', x', o', d, e1, e2, e3⟩
        rw [hg] at e1; injection e1 with e1; injection e1 with e1 _; subst e1
        rw [ho] at e2; injection e2 with e2; subst e2
        exact hns d e3
      · exact h5 j hj
  | boolLast hs hk hu hall hpos =>
    rename_i pos used a i o d
    intro st rest hp hun hr
    have ho := says_opt hs
    have := hr hall; subst this
    have hrep : o.kind.repeats = false := by rw [hk]; rfl
    have hwr : willRepeat o (st.cells (.opt i)) = true := unused_willRepeat hun ho (fun _ => hu)
    have hst := stepArg_found (w := w) (st := st) (pos := pos) (next := none) (says_not_dashes' hv hs) hp (says_like' hs) (says_lookup hv hs)
    have hv0 : foundValue o = none := by simp [foundValue, Opt.takesNo, hk]
    rw [hwr, if_pos rfl, hv0] at hst
    have hf0 : FlagValue o.kind false (.bool true) := by rw [hk]; exact ⟨rfl, rfl⟩
    have hok : Item.Ok (codeNum w) cfg (.flag a i (.bool true)) := ⟨says_like' hs, o, false, ho, says_spells hs, hf0⟩
    rcases finish_last w st (.opt i) o pos (by simp [Opt.mustOmit, hk]) with ⟨hc, _⟩ | ⟨_, x, hx, e⟩
    · have : o.name = none := hv.options o (List.mem_of_getElem? ho)
      simp [Opt.canOmit, hk, this] at hc
    · have := flag_unique hx hf0; subst this
      rw [e] at hst
      refine ⟨_, pos, .cons (.give _ i o _ hp hok rfl ho hwr) .nil, ?_, fun _ => hpos, (fun h => by rw [hall] at h; cases h), ?_⟩
      · simp [Item.args, loop, hst, bind, Except.bind]
      · intro j hj
        simp only [List.mem_singleton] at hj; subst hj
        rintro ⟨i', x', o', d', e1, e2, e3⟩
        injection e1 with e1; injection e1 with e1 _; subst e1
        rw [ho] at e2; injection e2 with e2; subst e2
        rw [hk] at e3; cases e3
  | positional hnl ho hx _ ih =>
    rename_i pos used a x o items _
    intro st rest hp hun hall
    have hx' := reads_mono (exact_codeNum hw) hx
    obtain ⟨hm, ht⟩ := reads_mustOmit hx
    have hst : stepArg w cfg st pos a (items.flatMap Item.args ++ rest).head? = finish w st (.pos pos) o (pos + 1) (some a) (items.flatMap Item.args ++ rest).head? := by
      unfold stepArg
      rw [if_neg (by rintro ⟨_, rfl⟩; exact hnl (.inl rfl)), if_neg (by simp [hp]), if_neg (show ¬ (a[0]? = some 45 ∨ (cfg.slashes = true ∧ a[0]? = some 47)) from hnl), ho]
    obtain ⟨st', pos', h1, h2, h3, h4, h5⟩ := ih (st.setCell (.pos pos) (put o (st.cells (.pos pos)) x)) rest hp (by
      intro j q hj hr hm
      rw [setCell_other _ _ (by simp)]
      exact hun j q hj hr hm) hall
    refine ⟨st', pos', .cons (.positional a x o hp hnl ho hx') h1, ?_, h3, h4, ?_⟩
    · rcases finish_text w st (.pos pos) o (pos + 1) a (items.flatMap Item.args ++ rest).head? hm with ⟨y, hy, e⟩ | ⟨hy, _⟩
      · have := reads_unique hy hx'; subst this
        rw [e] at hst
        rw [← h2]
        simp only [List.flatMap_cons, Item.args, List.cons_append, List.nil_append, loop, hst, bind, Except.bind]
      · exact (hy x hx').elim
    · intro j hj
      rcases List.mem_cons.1 hj with rfl | hj
      · rintro ⟨i', x', o', d, e1, _⟩; cases e1
      · exact h5 j hj
  | extra hnl hc hpos _ ih =>
    rename_i pos used a items _
    intro st rest hp hun hall
    have ho : cfg.positionals[pos]? = none := by rw [hpos]; simp
    have hst : stepArg w cfg st pos a (items.flatMap Item.args ++ rest).head? = .ok (.next { st with extra := st.extra ++ [a] } pos false) := by
      unfold stepArg
      rw [if_neg (by rintro ⟨_, rfl⟩; exact hnl (.inl rfl)), if_neg (by simp [hp]), if_neg (show ¬ (a[0]? = some 45 ∨ (cfg.slashes = true ∧ a[0]? = some 47)) from hnl), ho]
      simp [hc]
    obtain ⟨st', pos', h1, h2, h3, h4, h5⟩ := ih { st with extra := st.extra ++ [a] } rest hp hun hall
    refine ⟨st', pos', .cons (.extra a hp hnl ho hc) h1, ?_, h3, h4, ?_⟩
    · rw [← h2]
      simp only [List.flatMap_cons, Item.args, List.cons_append, List.nil_append, loop, hst, bind, Except.bind]
    · intro j hj
      rcases List.mem_cons.1 hj with rfl | hj
      · rintro ⟨i', x', o', d, e1, _⟩; cases e1
      · exact h5 j hj
  | tail hall hpos hpass hts =>
    rename_i pos used ts
    intro st rest hp hun hr
    have := hr hall; subst this
    obtain ⟨st', h1, h2⟩ := tail_loop (w := w) hpass ts { st with hasPass := true } pos rfl hts
    refine ⟨st', pos, .cons (.dashes hpass) h1, ?_, fun _ => hpos, (fun h => by rw [hall] at h; cases h), ?_⟩
    · simp [Item.args, loop, stepArg, hpass, bind, Except.bind, h2]
    · intro j hj
      rcases List.mem_cons.1 hj with rfl | hj
      · rintro ⟨i', x', o', d, e1, _⟩; cases e1
      · rintro ⟨i', x', o', d, e1, _⟩
        rw [tail_gives (hts j hj)] at e1; cases e1

theorem unused_fresh : Unused cfg [] fresh := fun _ _ _ _ _ => rfl

/-- Items that contain no stop option give none a value. -/
theorem givenTo_stop {items : List Item} (h : ∀ it ∈ items, ¬ it.stops cfg) {i : Nat} {o : Opt} {d : Bool} (ho : cfg.options[i]? = some o)
    (hk : o.kind = .stop d) : givenTo items i = [] := by
  induction items with
  | nil => rfl
  | cons it items ih =>
    rw [givenTo_cons, ih (fun j hj => h j (List.mem_cons_of_mem _ hj)), List.append_nil]
    cases hg : it.gives with
    | none => rfl
    | some p =>
      obtain ⟨j, x⟩ := p
      by_cases hj : j = i
      · subst hj
        exact (h it (by simp) ⟨j, x, o, d, hg, ho, hk⟩).elim
      · simp [hj]

/-- C88: a command line that follows the grammar is accepted, and every option, positional, extra and passthrough argument holds exactly what the line
says. -/
theorem C88_proper_lines_accepted (w : Nat) (cfg : Config) (items : List Item) (hw : 32 ≤ w) (hv : cfg.Valid) (h : Line cfg true 0 [] items) :
    ∃ st', parse w cfg fresh (items.flatMap Item.args) = .ok (true, st') ∧ Effect cfg items st'.cells st'.extra st'.pass ∧ st'.error = [] := by
  obtain ⟨st', pos', h1, h2, h3, -, h5⟩ := line_loop hw hv h fresh [] rfl unused_fresh (fun _ => rfl)
  rw [List.append_nil] at h2
  have hl : loop w cfg (items.flatMap Item.args) false fresh 0 = .ok (some (false, pos'), st') := by rw [h2]; rfl
  have hpos : cfg.positionals[pos']? = none := by rw [h3 rfl]; simp
  obtain ⟨-, hf⟩ := chain_explains hv h1 (.inl rfl) (fun _ _ => hpos)
  refine ⟨st', ?_, hf, chain_error h1⟩
  have hhelp : ¬ (cfg.help = true ∧ flagValue helpOpt (st'.cells (.opt 0)) = true) := by
    rintro ⟨ha, hb⟩
    have ho := hv.help ha
    have : st'.cells (.opt 0) = {} := by
      rw [chain_opt h1 0 helpOpt ho, givenTo_stop h5 ho (d := false) rfl]; rfl
    rw [this] at hb; cases hb
  simp only [parse, hl, bind, Except.bind, hpos]
  simp only [Bool.false_eq_true, if_false, if_neg hhelp]

/-- C89: a stop option ends the parse at once, whatever follows and whether or not the positionals are there; if it is the help option `parse` returns
false without an error message, otherwise true. Everything before it has had its effect, everything after it has none. -/
theorem C89_stop_ends_parse (w : Nat) (cfg : Config) (items : List Item) (it : Item) (i : Nat) (o : Opt) (d : Bool) (rest : List Str) (hw : 32 ≤ w)
    (hv : cfg.Valid) (h : Line cfg false 0 [] items) (ha : Asks cfg it i o (.bool (!d))) (hk : o.kind = .stop d) :
    ∃ st', parse w cfg fresh (items.flatMap Item.args ++ it.args ++ rest) = .ok (decide (¬ (cfg.help = true ∧ i = 0)), st') ∧
      Effect cfg (items ++ [it]) st'.cells st'.extra st'.pass ∧ st'.error = [] := by
  obtain ⟨st1, pos1, h1, h2, -, h4, h5⟩ := line_loop hw hv h fresh (it.args ++ rest) rfl unused_fresh (fun h => by cases h)
  have ho : cfg.options[i]? = some o := asks_opt ha
  have hz : st1.cells (.opt i) = {} := by rw [chain_opt h1 i o ho, givenTo_stop h5 ho hk]; rfl
  have hwr : willRepeat o (st1.cells (.opt i)) = true := by simp [willRepeat, hk, hz]
  obtain ⟨-, hg, hd, -, hl⟩ := asks_step hw hv ha st1 pos1 rest (h4 rfl) hwr
  have hl := hl (by simp [Opt.halts, hk])
  rw [← List.append_assoc] at h2
  rw [hl] at h2
  have hst : it.stops cfg := ⟨i, _, o, d, hg, ho, hk⟩
  have hc : Chain w cfg fresh 0 (items ++ [it]) (st1.setCell (.opt i) (put o (st1.cells (.opt i)) (.bool (!d)))) pos1 := by
    have app : ∀ {s s1 s2 : State} {p p1 p2 : Nat} {l : List Item}, Chain w cfg s p l s1 p1 → Does w cfg s1 p1 it s2 p2 → Chain w cfg s p (l ++ [it]) s2 p2 := by
      intro s s1 s2 p p1 p2 l hc hd
      induction hc with
      | nil => exact .cons hd .nil
      | cons h0 _ ih => exact .cons h0 (ih hd)
    exact app h1 hd
  obtain ⟨-, hf⟩ := chain_explains (args := (items ++ [it]).flatMap Item.args) hv hc (.inl rfl)
    (fun _ hs => (hs it (by simp) hst).elim)
  refine ⟨_, ?_, hf, chain_error hc⟩
  simp only [parse, h2, bind, Except.bind, if_true]
  have key : (cfg.help = true ∧ flagValue helpOpt ((st1.setCell (.opt i) (put o (st1.cells (.opt i)) (.bool (!d)))).cells (.opt 0)) = true) ↔
      (cfg.help = true ∧ i = 0) := by
    constructor
    · rintro ⟨hh, hb⟩
      refine ⟨hh, Classical.byContradiction fun hne => ?_⟩
      have ho0 := hv.help hh
      rw [setCell_other _ _ (by simp; exact fun e => hne e.symm), chain_opt h1 0 helpOpt ho0, givenTo_stop h5 ho0 (d := false) rfl] at hb
      cases hb
    · rintro ⟨hh, rfl⟩
      refine ⟨hh, ?_⟩
      have ho0 := hv.help hh
      rw [ho] at ho0; injection ho0 with ho0; subst ho0
      injection hk with hk; subst hk
      rw [setCell_same]
      rfl
  by_cases hcase : cfg.help = true ∧ i = 0
  · rw [if_pos (key.2 hcase)]; simp [hcase]
  · rw [if_neg (fun h => hcase (key.1 h))]
    simp only [hcase, not_false_eq_true, decide_true]

/-! `-n=7 -I x a.c -I y b.c --no-on -- -n --` follows the grammar, so the theorem gives its effect. -/

theorem demo_num : Named demo 1 { short := some (lit "n"), long := some (lit "num"), name := none, help := [], kind := .int (some 5) } (lit "num") :=
  ⟨rfl, rfl, by intro j q hq hl; match j with
    | 0 => simp [demo] at hq; subst hq; exact absurd hl (by decide)
    | 1 => rfl
    | 2 => simp [demo] at hq; subst hq; exact absurd hl (by decide)
    | 3 => simp [demo] at hq; subst hq; exact absurd hl (by decide)
    | j + 4 => simp [demo] at hq, by decide, by intro h; cases h⟩

theorem demo_I : NamedShort demo 3 { short := some (lit "I"), long := none, name := none, help := [], kind := .repString } (lit "I") :=
  ⟨rfl, rfl, by intro j q hq hl; match j with
    | 0 => simp [demo] at hq; subst hq; exact absurd hl (by decide)
    | 1 => simp [demo] at hq; subst hq; exact absurd hl (by decide)
    | 2 => simp [demo] at hq; subst hq; exact absurd hl (by decide)
    | 3 => rfl
    | j + 4 => simp [demo] at hq, by decide, by intro h; cases h⟩

def demoItems : List Item :=
  [.attached (lit "--num=7") 1 (lit "7") (.int 7), .separate (lit "-I") 3 (lit "x") (.str (lit "x")), .positional (lit "a.c") (.str (lit "a.c")),
   .separate (lit "-I") 3 (lit "y") (.str (lit "y")), .extra (lit "b.c"), .flag (lit "--no-on") 2 (.bool false), .dashes, .pass (lit "-n"), .dashes]

theorem demo_line : Line demo true 0 [] demoItems := by
  refine .option (it := .attached (lit "--num" ++ 61 :: lit "7") 1 (lit "7") (.int 7)) (.attached (.long demo_num) (by decide)
    ⟨7, 7, .plain (.one ⟨by decide, by decide⟩), ⟨⟨by decide, by decide⟩, rfl⟩, rfl⟩) (by intro d h; cases h) (by simp) ?_
  refine .option (.separate (.short (p := 45) (.inl rfl) demo_I) ⟨by decide, rfl⟩) (by intro d h; cases h) (by simp [Kind.repeats]) ?_
  refine .positional (by rintro (h | ⟨h, _⟩) <;> revert h <;> decide) rfl ⟨by decide, rfl⟩ ?_
  refine .option (.separate (.short (p := 45) (.inl rfl) demo_I) ⟨by decide, rfl⟩) (by intro d h; cases h) (by simp [Kind.repeats]) ?_
  refine .extra (by rintro (h | ⟨h, _⟩) <;> revert h <;> decide) rfl rfl ?_
  refine .option (it := .flag ([45, 45, 110, 111, 45] ++ lit "on") 2 (.bool false)) (.no demo_named_on rfl (by decide)) (by intro d h; cases h) (by simp) ?_
  refine .tail rfl rfl rfl ?_
  intro t ht
  simp only [List.mem_cons, List.not_mem_nil, or_false] at ht
  rcases ht with rfl | rfl
  · exact .inr ⟨_, rfl, by decide⟩
  · exact .inl rfl

example : ∃ st', parse 64 demo fresh [lit "--num=7", lit "-I", lit "x", lit "a.c", lit "-I", lit "y", lit "b.c", lit "--no-on", lit "--", lit "-n", lit "--"] = .ok (true, st') ∧
    Effect demo demoItems st'.cells st'.extra st'.pass ∧ st'.error = [] :=
  C88_proper_lines_accepted 64 demo demoItems (by decide) demo_valid demo_line

example (rest : List Str) : ∃ st', parse 64 demoHelp fresh ([lit "x", lit "--help"] ++ rest) = .ok (false, st') ∧ st'.error = [] := by
  have hl : Named demoHelp 0 helpOpt (lit "help") := ⟨rfl, by decide, by
    intro j q hq hl; match j with
    | 0 => rfl
    | 1 => simp [demoHelp, demo] at hq; subst hq; exact absurd hl (by decide)
    | 2 => simp [demoHelp, demo] at hq; subst hq; exact absurd hl (by decide)
    | 3 => simp [demoHelp, demo] at hq; subst hq; exact absurd hl (by decide)
    | 4 => simp [demoHelp, demo] at hq; subst hq; exact absurd hl (by decide)
    | j + 5 => simp [demoHelp, demo] at hq, by decide, by intro h; cases h⟩
  have hline : Line demoHelp false 0 [] [.positional (lit "x") (.str (lit "x"))] :=
    .positional (by rintro (h | ⟨h, _⟩) <;> revert h <;> decide) rfl ⟨by decide, rfl⟩ (.done (by intro h; cases h))
  obtain ⟨st', h1, -, h3⟩ := C89_stop_ends_parse 64 demoHelp _ (.flag (lit "--help") 0 (.bool true)) 0 helpOpt false rest (by decide)
    demoHelp_valid hline (.flag (.long hl) (by intro d h; cases h) ⟨rfl, rfl⟩) rfl
  exact ⟨st', h1, h3⟩

end Verif.ArgParser
