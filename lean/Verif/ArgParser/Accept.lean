import Verif.ArgParser.Spelled
/-! # Lemmas for `am-argparser.h`: accepted command lines -/
namespace Verif.ArgParser
open Verif

variable {w : Nat} {cfg : Config}

theorem ok_stop_value {it : Item} {num : Int → Int → Prop} {i : Nat} {x : Val} {o : Opt} {d : Bool} (hok : it.Ok num cfg) (hg : it.gives = some (i, x))
    (ho : cfg.options[i]? = some o) (hk : o.kind = .stop d) : x = .bool (!d) := by
  cases it with
  | flag a j y =>
    cases hg
    obtain ⟨_, q, neg, h1, _, h2⟩ := hok
    rw [ho] at h1; cases h1
    rw [hk] at h2; exact h2.2
  | attached a j v y =>
    cases hg
    obtain ⟨_, q, h1, _, h2⟩ := hok
    rw [ho] at h1; cases h1
    rw [hk] at h2; exact h2.elim
  | separate a j v y =>
    cases hg
    obtain ⟨_, q, h1, _, h2⟩ := hok
    rw [ho] at h1; cases h1
    rw [hk] at h2; exact h2.elim
  | ignored a j => cases hg
  | junk a j v => cases hg
  | positional a y => cases hg
  | extra a => cases hg
  | dashes => cases hg
  | pass a => cases hg

theorem mem_givenTo {items : List Item} {it : Item} {i : Nat} {x : Val} (h : it ∈ items) (hg : it.gives = some (i, x)) : x ∈ givenTo items i := by
  unfold givenTo
  rw [List.mem_filterMap]
  exact ⟨it, h, by simp [hg]⟩

/-- An accepted command line was read to its end. -/
theorem accepted_loop (hv : cfg.Valid) (hs : OnlyHelpStops cfg) {args : List Str} {st' : State} (h : parse w cfg fresh args = .ok (true, st')) :
    ∃ pos', loop w cfg args false fresh 0 = .ok (some (false, pos'), st') := by
  unfold parse at h
  rcases loop_spec w cfg hv args.length args (Nat.le_refl _) fresh 0 with ⟨st1, h1, h2⟩ | ⟨items, st1, pos', h1, h2, h3, h4⟩ | ⟨items, jt, st1, pos', h1, h2, h3, h4, h5⟩ | ⟨_, h2⟩
  · rw [h2] at h; cases h
  · rw [h4] at h
    simp only [bind, Except.bind] at h
    split at h
    · cases h
    · split at h
      · cases h
      · cases h; exact ⟨pos', h4⟩
  · exfalso
    obtain ⟨i, x, o, d, hg, ho, hk⟩ := h3
    obtain ⟨hh, rfl⟩ := hs i o d ho hk
    have h0 := hv.help hh
    rw [ho] at h0; cases h0
    cases hk
    have hx := ok_stop_value (chain_ok h1 (fun hf => by cases hf) jt (by simp)) hg ho rfl
    have hmem : x ∈ givenTo (items ++ [jt]) 0 := mem_givenTo (by simp) hg
    have hl := (chain_set h1 0 _ ho rfl).1
    have hval : (st1.cells (.opt 0)).value = some x := by
      rw [chain_opt h1 0 _ ho, foldl_put_single rfl hl _ rfl]
      match hq : givenTo (items ++ [jt]) 0, hl, hmem with
      | [y], _, hm => simp at hm; simp [hm]
    rw [h5] at h
    simp only [bind, Except.bind, if_true] at h
    rw [if_pos ⟨hh, by simp [flagValue, hval, hx]⟩] at h
    cases h
  · rw [h2] at h; cases h

/-- ... so it gets past any point between its arguments. -/
theorem accepted_split (hv : cfg.Valid) (hs : OnlyHelpStops cfg) {pre rest : List Str} (hc : Complete cfg pre) {st' : State}
    (h : parse w cfg fresh (pre ++ rest) = .ok (true, st')) :
    ∃ st1 pos1 pos', st1.hasPass = false ∧ loop w cfg rest false st1 pos1 = .ok (some (false, pos'), st') := by
  obtain ⟨pos', hl⟩ := accepted_loop hv hs h
  rcases loop_split (w := w) pre false fresh 0 hc (fun _ => rfl) rfl with ⟨st1, pos1, h1, h2⟩ | ⟨r, hr, h2⟩
  · exact ⟨st1, pos1, pos', h1, by rw [← h2]; exact hl⟩
  · rw [h2] at hl
    subst hl
    rcases hr with ⟨e, he⟩ | ⟨st, he⟩ | ⟨p, st, he⟩ <;> cases he

/-- A single-valued option that has its value keeps it. -/
theorem loop_keeps (hv : cfg.Valid) {args : List Str} {st st' : State} {pos pos' : Nat} (h : loop w cfg args false st pos = .ok (some (false, pos'), st'))
    {i : Nat} {o : Opt} (ho : cfg.options[i]? = some o) (hk : o.kind.repeats = false) (hval : (st.cells (.opt i)).value ≠ none) :
    st'.cells (.opt i) = st.cells (.opt i) := by
  rcases loop_spec w cfg hv args.length args (Nat.le_refl _) st pos with ⟨st1, h1, h2⟩ | ⟨items, st1, p1, h1, h2, h3, h4⟩ | ⟨items, jt, st1, p1, h1, h2, h3, h4, h5⟩ | ⟨_, h2⟩
  · rw [h2] at h; cases h
  · rw [h4] at h; cases h
    rw [chain_opt h1 i o ho, (chain_set h1 i o ho hk).2 hval]; rfl
  · rw [h5] at h; cases h
  · rw [h2] at h; cases h

theorem not_dashes_long {l : Str} (h : l ≠ []) : ¬ (cfg.passthrough = true ∧ (45 :: 45 :: l : Str) = [45, 45]) := by
  rintro ⟨_, e⟩
  injection e with _ e; injection e with _ e; exact h e

/-- One round with an option found and no separator. -/
theorem stepArg_found {st : State} {pos : Nat} {arg : Str} {next : Option Str} {i : Nat} {o : Opt} {v : Option Str}
    (hd : ¬ (cfg.passthrough = true ∧ arg = [45, 45])) (hp : st.hasPass = false) (ho : OptionLike cfg arg)
    (hl : lookup cfg arg = .ok (some (i, o, v, none))) :
    stepArg w cfg st pos arg next =
      if willRepeat o (st.cells (.opt i)) then finish w st (.opt i) o pos v next else .ok (.fail { st with error := msgTwice o }) := by
  unfold stepArg
  unfold OptionLike at ho
  rw [if_neg hd, if_neg (by simp [hp]), if_pos ho]
  simp only [hl, bind, Except.bind]
  cases willRepeat o (st.cells (.opt i)) <;> rfl

theorem stepArg_foundSep {st : State} {pos : Nat} {arg : Str} {next : Option Str} {i : Nat} {o : Opt} {v : Option Str} {k : Nat}
    (hd : ¬ (cfg.passthrough = true ∧ arg = [45, 45])) (hp : st.hasPass = false) (ho : OptionLike cfg arg)
    (hl : lookup cfg arg = .ok (some (i, o, v, some k))) :
    stepArg w cfg st pos arg next =
      if willRepeat o (st.cells (.opt i)) then
        if o.mustOmit then .ok (.fail { st with error := msgInvalid o (arg.drop (k + 1)) }) else finish w st (.opt i) o pos (some (arg.drop (k + 1))) next
      else .ok (.fail { st with error := msgTwice o }) := by
  unfold stepArg
  unfold OptionLike at ho
  rw [if_neg hd, if_neg (by simp [hp]), if_pos ho]
  simp only [hl, bind, Except.bind]
  cases willRepeat o (st.cells (.opt i)) <;> rfl

/-- `--key=val` and `--key val`. -/
theorem loop_same {st : State} {pos : Nat} {a1 a2 v : Str} {rest : List Str} {i : Nat} {o : Opt} {k : Nat}
    (hd1 : ¬ (cfg.passthrough = true ∧ a1 = [45, 45])) (hd2 : ¬ (cfg.passthrough = true ∧ a2 = [45, 45])) (hp : st.hasPass = false)
    (ho1 : OptionLike cfg a1) (ho2 : OptionLike cfg a2) (hm : o.mustOmit = false) (hc : o.canOmit = false)
    (hl1 : lookup cfg a1 = .ok (some (i, o, foundValue o, some k))) (hl2 : lookup cfg a2 = .ok (some (i, o, foundValue o, none)))
    (he : a1.drop (k + 1) = v) :
    loop w cfg (a1 :: rest) false st pos = loop w cfg (a2 :: v :: rest) false st pos := by
  have hf : foundValue o = none := by
    unfold foundValue
    cases ht : o.takesNo with
    | false => rfl
    | true => rw [(takesNo_halts ht).2.1] at hm; cases hm
  simp only [loop, stepArg_foundSep hd1 hp ho1 hl1, stepArg_found hd2 hp ho2 hl2, hm, he, hf, List.head?_cons]
  cases hw : willRepeat o (st.cells (.opt i)) with
  | false => rfl
  | true =>
    simp only [if_true, Bool.false_eq_true, if_false, List.head?_cons]
    rcases consume_text w o v (st.cells (.opt i)) hm with ⟨x, hx, e⟩ | ⟨hx, e⟩
    · simp [finish, e, halts_mustOmit hm, hm, hc, bind, Except.bind, loop]
    · simp [finish, e, hm, hc, bind, Except.bind, loop]

end Verif.ArgParser
