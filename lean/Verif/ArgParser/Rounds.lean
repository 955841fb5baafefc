import Verif.ArgParser.Accept
/-! # Lemmas for `am-argparser.h`: rounds of an accepted parse, and parses from different states -/
namespace Verif.ArgParser
open Verif

variable {w : Nat} {cfg : Config}

/-- An option with an attached text on an accepted command line. -/
theorem loop_attached {st st' : State} {pos pos' : Nat} {a : Str} {rest : List Str} {i : Nat} {o : Opt} {v0 : Option Str} {k : Nat}
    (hd : ¬ (cfg.passthrough = true ∧ a = [45, 45])) (hp : st.hasPass = false) (ho : OptionLike cfg a)
    (hl : lookup cfg a = .ok (some (i, o, v0, some k))) (h : loop w cfg (a :: rest) false st pos = .ok (some (false, pos'), st')) :
    o.mustOmit = false ∧
    ((∃ x, Reads (codeNum w) o.kind (a.drop (k + 1)) x ∧
        loop w cfg rest false (st.setCell (.opt i) (put o (st.cells (.opt i)) x)) pos = .ok (some (false, pos'), st')) ∨
     ((∀ x, ¬ Reads (codeNum w) o.kind (a.drop (k + 1)) x) ∧ o.canOmit = true)) := by
  simp only [loop, stepArg_foundSep hd hp ho hl, bind, Except.bind] at h
  cases hw : willRepeat o (st.cells (.opt i)) with
  | false => rw [hw] at h; cases h
  | true =>
    rw [hw] at h
    simp only [if_true] at h
    cases hm : o.mustOmit with
    | true => rw [hm] at h; cases h
    | false =>
      rw [hm] at h
      simp only [Bool.false_eq_true, if_false] at h
      refine ⟨rfl, ?_⟩
      rcases finish_text w st (.opt i) o pos (a.drop (k + 1)) rest.head? hm with ⟨x, hx, e⟩ | ⟨hx, ⟨hc, e⟩ | ⟨hc, e⟩⟩
      · rw [e] at h; exact .inl ⟨x, hx, h⟩
      · exact .inr ⟨hx, hc⟩
      · rw [e] at h; cases h

/-- An enable option. -/
theorem loop_enable {st st' : State} {pos pos' : Nat} {a : Str} {rest : List Str} {i : Nat} {o : Opt} {neg : Bool}
    (hd : ¬ (cfg.passthrough = true ∧ a = [45, 45])) (hp : st.hasPass = false) (ho : OptionLike cfg a) (ht : o.takesNo = true)
    (hl : lookup cfg a = .ok (some (i, o, some (if neg then sFalse else sTrue), none)))
    (h : loop w cfg (a :: rest) false st pos = .ok (some (false, pos'), st')) :
    loop w cfg rest false (st.setCell (.opt i) (put o (st.cells (.opt i)) (.bool (!neg)))) pos = .ok (some (false, pos'), st') := by
  simp only [loop, stepArg_found hd hp ho hl, bind, Except.bind] at h
  cases hw : willRepeat o (st.cells (.opt i)) with
  | false => rw [hw] at h; cases h
  | true =>
    rw [hw] at h
    simp only [if_true] at h
    rw [(finish_enable w st (.opt i) o pos neg rest.head? ht).2] at h
    exact h

/-- A boolean option without an attached value. -/
theorem loop_bool {st st' : State} {pos pos' : Nat} {a : Str} {rest : List Str} {i : Nat} {o : Opt} {d : Option Bool}
    (hd : ¬ (cfg.passthrough = true ∧ a = [45, 45])) (hp : st.hasPass = false) (ho : OptionLike cfg a) (hk : o.kind = .boolean d) (hnm : o.name = none)
    (hl : lookup cfg a = .ok (some (i, o, none, none)))
    (h : loop w cfg (a :: rest) false st pos = .ok (some (false, pos'), st')) :
    (rest = [] → loop w cfg [] false (st.setCell (.opt i) (put o (st.cells (.opt i)) (.bool true))) pos = .ok (some (false, pos'), st')) ∧
    (∀ v r x, rest = v :: r → Reads (codeNum w) o.kind v x →
      loop w cfg r false (st.setCell (.opt i) (put o (st.cells (.opt i)) x)) pos = .ok (some (false, pos'), st')) ∧
    (∀ v r, rest = v :: r → (∀ x, ¬ Reads (codeNum w) o.kind v x) → loop w cfg rest false st pos = .ok (some (false, pos'), st')) := by
  have hm : o.mustOmit = false := by simp [Opt.mustOmit, hk]
  have hc : o.canOmit = true := by simp [Opt.canOmit, hk, hnm]
  simp only [loop, stepArg_found hd hp ho hl, bind, Except.bind] at h
  cases hw : willRepeat o (st.cells (.opt i)) with
  | false => rw [hw] at h; cases h
  | true =>
    rw [hw] at h
    simp only [if_true] at h
    refine ⟨?_, ?_, ?_⟩
    · rintro rfl
      rcases finish_last w st (.opt i) o pos hm with ⟨hc', _⟩ | ⟨_, x, hx, e⟩
      · rw [hc] at hc'; cases hc'
      · rw [hk] at hx
        have := hx.2
        subst this
        simp only [List.head?_nil] at h
        rw [e] at h; exact h
    · rintro v r x rfl hx
      simp only [List.head?_cons] at h
      rcases finish_next w st (.opt i) o pos v hm with ⟨y, hy, e⟩ | ⟨hy, _⟩
      · have : y = x := by
          rw [hk] at hx hy
          rcases hx with ⟨h1, rfl⟩ | ⟨h1, rfl⟩ <;> rcases hy with ⟨h2, rfl⟩ | ⟨h2, rfl⟩ <;> first | rfl | (rw [h1] at h2; exact absurd h2 (by decide))
        subst this
        rw [e] at h; simpa [loop] using h
      · exact (hy x hx).elim
    · rintro v r rfl hx
      simp only [List.head?_cons] at h
      rcases finish_next w st (.opt i) o pos v hm with ⟨y, hy, e⟩ | ⟨_, ⟨_, e⟩ | ⟨hc', _⟩⟩
      · exact (hx y hy).elim
      · rw [e] at h; exact h
      · rw [hc] at hc'; cases hc'

/-! ### The same parse from different states -/

/-- Registered option objects. -/
def Registered (cfg : Config) : Ref → Prop
  | .opt i => i < cfg.options.length
  | .pos i => i < cfg.positionals.length

/-- The states hold the same in the options, and the first has collected `e` and `p` before. -/
structure Alike (cfg : Config) (e p : List Str) (st1 st2 : State) : Prop where
  cells : ∀ r, Registered cfg r → st1.cells r = st2.cells r
  hasPass : st1.hasPass = st2.hasPass
  extra : st1.extra = e ++ st2.extra
  pass : st1.pass = p ++ st2.pass

def AlikeStep (cfg : Config) (e p : List Str) (s1 s2 : Exec Step) : Prop :=
  (∃ f, s1 = .error f ∧ s2 = .error f) ∨
  (∃ a b, s1 = .ok (.fail a) ∧ s2 = .ok (.fail b) ∧ Alike cfg e p a b ∧ a.error = b.error) ∨
  (∃ a b pos, s1 = .ok (.halt a pos) ∧ s2 = .ok (.halt b pos) ∧ Alike cfg e p a b) ∨
  (∃ a b pos t, s1 = .ok (.next a pos t) ∧ s2 = .ok (.next b pos t) ∧ Alike cfg e p a b)

variable {e p : List Str}

theorem Alike.setCell {st1 st2 : State} (h : Alike cfg e p st1 st2) (r : Ref) (c : Cell) : Alike cfg e p (st1.setCell r c) (st2.setCell r c) where
  cells := fun r' hr => by
    unfold State.setCell
    by_cases hq : r' = r
    · simp [hq]
    · simp only [hq, if_false]; exact h.cells r' hr
  hasPass := h.hasPass
  extra := h.extra
  pass := h.pass

theorem finish_alike {st1 st2 : State} (h : Alike cfg e p st1 st2) (r : Ref) (hr : Registered cfg r) (o : Opt) (pos : Nat) (v n : Option Str) :
    AlikeStep cfg e p (finish w st1 r o pos v n) (finish w st2 r o pos v n) := by
  unfold finish
  simp only [h.cells r hr, bind, Except.bind]
  split
  · exact .inr (.inl ⟨_, _, rfl, rfl, ⟨h.cells, h.hasPass, h.extra, h.pass⟩, rfl⟩)
  · generalize consume w o (if (!v.isSome && n.isSome && !o.mustOmit) = true then n else v) (st2.cells r) = q
    cases q with
    | error f => exact .inl ⟨f, rfl, rfl⟩
    | ok q =>
      obtain ⟨ok, c⟩ := q
      simp only
      have h' := h.setCell r c
      split
      · split
        · exact .inl ⟨_, rfl, rfl⟩
        · exact .inr (.inl ⟨_, _, rfl, rfl, ⟨h'.cells, h'.hasPass, h'.extra, h'.pass⟩, rfl⟩)
      · split
        · exact .inr (.inr (.inl ⟨_, _, _, rfl, rfl, h'⟩))
        · exact .inr (.inr (.inr ⟨_, _, _, _, rfl, rfl, h'⟩))

theorem lookup_registered {a : Str} {i : Nat} {o : Opt} {v : Option Str} {sep : Option Nat} (ho : OptionLike cfg a)
    (h : lookup cfg a = .ok (some (i, o, v, sep))) : Registered cfg (.opt i) :=
  (List.getElem?_eq_some_iff.1 (lookup_some ho h).1).1

theorem stepArg_alike {st1 st2 : State} (h : Alike cfg e p st1 st2) (pos : Nat) (a : Str) (n : Option Str) :
    AlikeStep cfg e p (stepArg w cfg st1 pos a n) (stepArg w cfg st2 pos a n) := by
  unfold stepArg
  split
  · exact .inr (.inr (.inr ⟨_, _, _, _, rfl, rfl, ⟨h.cells, rfl, h.extra, h.pass⟩⟩))
  · rw [h.hasPass]
    split
    · refine .inr (.inr (.inr ⟨_, _, _, _, rfl, rfl, ⟨h.cells, ?_, h.extra, ?_⟩⟩))
      · simp [h.hasPass]
      · simp [h.pass]
    · split
      · rename_i ho
        cases hl : lookup cfg a with
        | error f => exact .inl ⟨f, rfl, rfl⟩
        | ok q =>
          cases q with
          | none => exact .inr (.inl ⟨_, _, rfl, rfl, ⟨h.cells, rfl, h.extra, h.pass⟩, rfl⟩)
          | some q =>
            obtain ⟨i, o, v, sep⟩ := q
            have hr := lookup_registered ho hl
            simp only [bind, Except.bind, h.cells _ hr]
            split
            · exact .inr (.inl ⟨_, _, rfl, rfl, ⟨h.cells, rfl, h.extra, h.pass⟩, rfl⟩)
            · split
              · split
                · exact .inr (.inl ⟨_, _, rfl, rfl, ⟨h.cells, rfl, h.extra, h.pass⟩, rfl⟩)
                · exact finish_alike h _ hr _ _ _ _
              · exact finish_alike h _ hr _ _ _ _
      · split
        · split
          · exact .inr (.inl ⟨_, _, rfl, rfl, ⟨h.cells, rfl, h.extra, h.pass⟩, rfl⟩)
          · refine .inr (.inr (.inr ⟨_, _, _, _, rfl, rfl, ⟨h.cells, rfl, ?_, h.pass⟩⟩))
            simp [h.extra]
        · rename_i o hpos
          exact finish_alike h (.pos pos) (List.getElem?_eq_some_iff.1 hpos).1 _ _ _ _

theorem loop_alike : ∀ (args : List Str) (skip : Bool) (st1 st2 : State) (pos : Nat), Alike cfg e p st1 st2 →
    (∃ f, loop w cfg args skip st1 pos = .error f ∧ loop w cfg args skip st2 pos = .error f) ∨
    (∃ r a b, loop w cfg args skip st1 pos = .ok (r, a) ∧ loop w cfg args skip st2 pos = .ok (r, b) ∧ Alike cfg e p a b ∧ (r = none → a.error = b.error)) := by
  intro args
  induction args with
  | nil => intro skip st1 st2 pos h; exact .inr ⟨_, _, _, by rfl, by rfl, h, fun h => by cases h⟩
  | cons x rest ih =>
    intro skip st1 st2 pos h
    cases skip with
    | true => simpa [loop] using ih false st1 st2 pos h
    | false =>
      rcases stepArg_alike (w := w) h pos x rest.head? with ⟨f, h1, h2⟩ | ⟨a, b, h1, h2, h3, h4⟩ | ⟨a, b, q, h1, h2, h3⟩ | ⟨a, b, q, t, h1, h2, h3⟩
      all_goals simp only [loop, h1, h2, bind, Except.bind]
      · exact .inl ⟨f, rfl, rfl⟩
      · exact .inr ⟨_, _, _, rfl, rfl, h3, fun _ => h4⟩
      · exact .inr ⟨_, _, _, rfl, rfl, h3, fun h => by cases h⟩
      · exact ih t a b q h3

/-- Parses from alike states. -/
theorem parse_alike (hv : cfg.Valid) {st1 st2 : State} (h : Alike cfg e p st1 st2) (args : List Str) :
    (∃ f, parse w cfg st1 args = .error f ∧ parse w cfg st2 args = .error f) ∨
    (∃ r a b, parse w cfg st1 args = .ok (r, a) ∧ parse w cfg st2 args = .ok (r, b) ∧ Alike cfg e p a b) := by
  unfold parse
  rcases loop_alike (w := w) args false st1 st2 0 h with ⟨f, h1, h2⟩ | ⟨r, a, b, h1, h2, h3, h4⟩
  · simp only [h1, h2, bind, Except.bind]; exact .inl ⟨f, rfl, rfl⟩
  · simp only [h1, h2, bind, Except.bind]
    right
    cases r with
    | none => exact ⟨_, _, _, rfl, rfl, h3⟩
    | some q =>
      obtain ⟨halted, pos⟩ := q
      simp only
      split
      · exact ⟨_, _, _, rfl, rfl, ⟨h3.cells, h3.hasPass, h3.extra, h3.pass⟩⟩
      · have hc : cfg.help = true → a.cells (.opt 0) = b.cells (.opt 0) := fun hh =>
          h3.cells _ (List.getElem?_eq_some_iff.1 (hv.help hh)).1
        by_cases hh : cfg.help = true
        · rw [hc hh]
          split
          · exact ⟨_, _, _, rfl, rfl, h3⟩
          · exact ⟨_, _, _, rfl, rfl, h3⟩
        · simp only [hh, false_and, if_false]
          exact ⟨_, _, _, rfl, rfl, h3⟩

end Verif.ArgParser
