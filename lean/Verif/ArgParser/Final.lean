import Verif.ArgParser.Heads
import Verif.ArgParser.Spec2
/-! # Lemmas for `am-argparser.h`: the whole parse -/
namespace Verif.ArgParser
open Verif

variable {w : Nat} {cfg : Config}

theorem codeNum_intNum (hw : 32 ≤ w) {n m : Int} (h : codeNum w n m) : IntNum n m := by
  unfold codeNum toInt32 clampLong at h
  have h2 : (2 : Int) ^ 31 ≤ 2 ^ (w - 1) := by
    have : 31 ≤ w - 1 := by omega
    exact_mod_cast Nat.pow_le_pow_right (by omega) this
  have e1 : (2 : Int) ^ 31 = 2147483648 := by decide
  have e2 : (2 : Int) ^ 32 = 4294967296 := by decide
  rw [e1] at h2
  rw [e1, e2] at h
  unfold IntNum IsInt
  refine ⟨by split at h <;> (try split at h) <;> omega, ?_⟩
  intro hn
  rw [if_neg (by omega), if_neg (by omega)] at h
  omega

theorem reads_mono {num num' : Int → Int → Prop} (hi : ∀ n m, num n m → num' n m) {k : Kind} {v : Str} {x : Val} (h : Reads num k v x) : Reads num' k v x := by
  unfold Reads at h ⊢
  cases k <;> simp only at h ⊢ <;> first | exact h | (obtain ⟨n, m, h1, h2, h3⟩ := h; exact ⟨n, m, h1, hi n m h2, h3⟩)

theorem ok_mono {num num' : Int → Int → Prop} (hi : ∀ n m, num n m → num' n m) {it : Item} (h : it.Ok num cfg) : it.Ok num' cfg := by
  cases it with
  | flag a i x => exact h
  | attached a i v x => obtain ⟨h0, o, h1, h2, h3⟩ := h; exact ⟨h0, o, h1, h2, reads_mono hi h3⟩
  | separate a i v x => obtain ⟨h0, o, h1, h2, h3⟩ := h; exact ⟨h0, o, h1, h2, reads_mono hi h3⟩
  | ignored a i => exact h
  | junk a i v =>
    obtain ⟨h0, o, d, h1, h2, h3, h4⟩ := h
    refine ⟨h0, o, d, h1, h2, h3, fun x hx => h4 x ?_⟩
    rw [h3] at hx ⊢; exact hx
  | positional a x => exact h
  | extra a => exact h
  | dashes => exact h
  | pass a => exact h

theorem explains_mono {num num' : Int → Int → Prop} (hi : ∀ n m, num n m → num' n m) {args : List Str} {items : List Item}
    (h : Explains num cfg args items) : Explains num' cfg args items where
  covers := h.covers
  each := fun it hit => ok_mono hi (h.each it hit)
  once := h.once
  tail := h.tail
  tailStart := h.tailStart
  plain := h.plain
  positionals := fun k a x hk => by
    obtain ⟨o, h1, h2⟩ := h.positionals k a x hk
    exact ⟨o, h1, reads_mono hi h2⟩
  extras := h.extras
  complete := h.complete

/-- A chain from a new parser explains what it covers. -/
theorem chain_explains (hv : cfg.Valid) {items : List Item} {st' : State} {pos' : Nat} {args : List Str} (h : Chain w cfg fresh 0 items st' pos')
    (hc : items.flatMap Item.args = args ∨ ((items.flatMap Item.args) <+: args ∧ ∃ it, items.getLast? = some it ∧ it.stops cfg))
    (hp : items.flatMap Item.args = args → (∀ it, items.getLast? = some it → ¬ it.stops cfg) → cfg.positionals[pos']? = none) :
    Explains (codeNum w) cfg args items ∧ Effect cfg items st'.cells st'.extra st'.pass := by
  have h1 := chain_pos h
  have h2 := chain_plain h
  have hlen : pos' = (items.filterMap Item.positionalPair).length := by have := h1.1; omega
  refine ⟨{ covers := hc, each := chain_ok h (fun hf => by cases hf), once := chain_once h, tail := (chain_tail h).2.1,
            tailStart := (chain_tail h).2.2 rfl, plain := h2.1, positionals := ?_, extras := ?_, complete := ?_ },
          { single := ?_, repeated := ?_, positional := ?_, extra := ?_, pass := ?_ }⟩
  · intro k a x hk
    obtain ⟨o, h3, h4⟩ := h1.2.2 k a x hk
    rw [Nat.zero_add] at h3
    exact ⟨o, h3, h4⟩
  · intro he
    have := h2.2.2 he
    have := h1.2.1 (Nat.zero_le _)
    omega
  · intro e hs
    have := hp e hs
    rw [List.getElem?_eq_none_iff] at this
    have := h1.2.1 (Nat.zero_le _)
    omega
  · intro i o ho hk
    have hl := (chain_set h i o ho hk).1
    refine ⟨?_, hl⟩
    rw [chain_opt h i o ho]
    exact foldl_put_single hk hl _ rfl
  · intro i o ho hk
    rw [chain_opt h i o ho, foldl_put_repeated hk]
    rfl
  · intro k o ho
    rw [chain_posCells h k, if_neg (by omega), Nat.sub_zero, ho]
    cases hq : (items.filterMap Item.positionalPair)[k]? with
    | none => rfl
    | some p =>
      obtain ⟨a, x⟩ := p
      obtain ⟨o', h3, h4⟩ := h1.2.2 k a x hq
      simp only [Option.map_some]
      rw [Nat.zero_add, ho] at h3; cases h3
      have hr : o.kind.repeats = false := by
        rcases (hv.positionals o (List.mem_of_getElem? ho)).2 with ⟨d, hd⟩ | ⟨d, hd⟩ | ⟨d, hd⟩ <;> rw [hd] <;> rfl
      simp [put, hr]
  · rw [(chain_extra h).1]; rfl
  · rw [(chain_extra h).2]; rfl

/-- The whole parse of a new parser. -/
theorem parse_spec (hv : cfg.Valid) (args : List Str) :
    (∃ st', st'.error ≠ [] ∧ parse w cfg fresh args = .ok (false, st')) ∨
    (∃ items st', Explains (codeNum w) cfg args items ∧ Effect cfg items st'.cells st'.extra st'.pass ∧ st'.error = [] ∧
      (∀ it ∈ items.dropLast, ¬ it.stops cfg) ∧ (∃ pos', Chain w cfg fresh 0 items st' pos') ∧
      parse w cfg fresh args = .ok (!(cfg.help && flagValue helpOpt (st'.cells (.opt 0))), st')) ∨
    ((∃ a ∈ args, NoUnknown cfg a) ∧ parse w cfg fresh args = .error .nullDeref) := by
  have fin : ∀ (st' : State), (if cfg.help = true ∧ flagValue helpOpt (st'.cells (.opt 0)) = true then (Except.ok (false, st') : Exec (Bool × State)) else .ok (true, st'))
      = .ok (!(cfg.help && flagValue helpOpt (st'.cells (.opt 0))), st') := by
    intro st'
    cases cfg.help <;> cases flagValue helpOpt (st'.cells (.opt 0)) <;> rfl
  rcases loop_spec w cfg hv args.length args (Nat.le_refl _) fresh 0 with ⟨st', h1, h2⟩ | ⟨items, st', pos', h1, h2, h3, h4⟩ | ⟨items, jt, st', pos', h1, h2, h3, h4, h5⟩ | ⟨⟨b, hb, hu⟩, h2⟩
  · left; exact ⟨st', h1, by simp [parse, h2, bind, Except.bind]⟩
  · cases hp : cfg.positionals[pos']? with
    | some o =>
      left
      refine ⟨{ st' with error := msgMissing o }, ?_, by simp [parse, h4, hp, bind, Except.bind]⟩
      unfold msgMissing lit; simp
    | none =>
      right; left
      obtain ⟨he, hf⟩ := chain_explains hv h1 (.inl h2) (fun _ _ => hp)
      refine ⟨items, st', he, hf, chain_error h1, fun it hit => h3 it ((List.dropLast_sublist items).subset hit), ⟨pos', h1⟩, ?_⟩
      rw [← fin]
      simp [parse, h4, hp, bind, Except.bind]
  · right; left
    obtain ⟨he, hf⟩ := chain_explains hv h1 (.inr ⟨h2, jt, by simp, h3⟩) (fun _ hs => (hs jt (by simp) h3).elim)
    refine ⟨items ++ [jt], st', he, hf, chain_error h1, by simpa using h4, ⟨pos', h1⟩, ?_⟩
    rw [← fin]
    simp [parse, h5, bind, Except.bind]
  · right; right
    exact ⟨⟨b, hb, (unknownNo_iff b).1 hu⟩, by simp [parse, h2, bind, Except.bind]⟩

end Verif.ArgParser
