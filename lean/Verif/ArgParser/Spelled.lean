import Verif.ArgParser.Final
/-! # Lemmas for `am-argparser.h`: what a given spelling does -/
namespace Verif.ArgParser
open Verif

variable {w : Nat} {cfg : Config}

theorem getElem?_inj_opt {l : List Opt} {i j : Nat} {o q : Opt} (h1 : l[i]? = some o) (h2 : l[j]? = some q) (h : i = j) : o = q := by
  subst h; rw [h1] at h2; exact Option.some.inj h2

theorem findLong_named {i : Nat} {o : Opt} {l rest : Str} {n : Nat} (hn : Named cfg i o l) (hl : n = l.length) : findLong cfg (l ++ rest) n = some (i, o) := by
  subst hl
  have := findFrom_eq (p := fun o => formIs o.long (l ++ rest) l.length) (n := 0) hn.opt (by simp [hn.long, formIs]) (by
    intro j hj q hq
    cases hf : formIs q.long (l ++ rest) l.length with
    | false => rfl
    | true =>
      have := formIs_iff hf
      rw [List.take_left] at this
      have := hn.unique j q hq this
      omega)
  rw [Nat.zero_add] at this
  exact this

theorem findShort_named {i : Nat} {o : Opt} {f rest : Str} {n : Nat} (hn : NamedShort cfg i o f) (hl : n = f.length) :
    findShort cfg (f ++ rest) n = some (i, o) := by
  subst hl
  have := findFrom_eq (p := fun o => formIs o.short (f ++ rest) f.length) (n := 0) hn.opt (by simp [hn.short, formIs]) (by
    intro j hj q hq
    cases hf : formIs q.short (f ++ rest) f.length with
    | false => rfl
    | true =>
      have := formIs_iff hf
      rw [List.take_left] at this
      have := hn.unique j q hq this
      omega)
  rw [Nat.zero_add] at this
  exact this

/-- What the lookup gives for an option found directly. -/
def foundValue (o : Opt) : Option Str := if o.takesNo then some sTrue else none

theorem sepOf_whole {a : Str} (h1 : 61 ∉ a) (h2 : cfg.inlineValues = true → 58 ∉ a) : sepOf cfg a = none := by
  have := (head_sep (Head.whole h1 h2)).1
  rwa [if_neg (by omega)] at this

theorem sepOf_equals {n v : Str} (h1 : 61 ∉ n) (h2 : cfg.inlineValues = true → v ≠ []) : sepOf cfg (n ++ 61 :: v) = some n.length := by
  have := (head_sep (Head.equals h1 h2)).1
  rwa [if_pos (by simp)] at this

theorem lookup_long {i : Nat} {o : Opt} {l : Str} (hn : Named cfg i o l) :
    lookup cfg (45 :: 45 :: l) = .ok (some (i, o, foundValue o, none)) := by
  have hs : sepOf cfg (45 :: 45 :: l) = none := sepOf_whole (by simp [hn.noEquals]) (fun h => by simp [hn.noColon h])
  have hf : findLong cfg (l ++ []) (l.length + 2 - 2) = some (i, o) := findLong_named hn (by omega)
  rw [List.append_nil] at hf
  unfold lookup
  simp only [hs, Option.getD_none, List.length_cons, List.getElem?_cons_zero, List.getElem?_cons_succ, and_self, if_true, List.drop_succ_cons, List.drop_zero]
  rw [hf]
  rfl

theorem lookup_longValue {i : Nat} {o : Opt} {l v : Str} (hn : Named cfg i o l) (hv : cfg.inlineValues = true → v ≠ []) :
    lookup cfg (45 :: 45 :: (l ++ 61 :: v)) = .ok (some (i, o, foundValue o, some (l.length + 2))) := by
  have hs : sepOf cfg ((45 :: 45 :: l) ++ 61 :: v) = some (l.length + 2) := sepOf_equals (by simp [hn.noEquals]) hv
  simp only [List.cons_append] at hs
  have hf : findLong cfg (l ++ 61 :: v) (l.length + 2 - 2) = some (i, o) := findLong_named hn (by omega)
  unfold lookup
  simp only [hs, Option.getD_some, List.getElem?_cons_zero, List.getElem?_cons_succ, and_self, if_true, List.drop_succ_cons, List.drop_zero]
  rw [hf]
  rfl

theorem lookup_no {i : Nat} {o : Opt} {l : Str} (hn : Named cfg i o l) (ht : o.takesNo = true)
    (hno : ∀ q ∈ cfg.options, q.long ≠ some ([110, 111, 45] ++ l)) :
    lookup cfg ([45, 45, 110, 111, 45] ++ l) = .ok (some (i, o, some sFalse, none)) := by
  have hs : sepOf cfg ([45, 45, 110, 111, 45] ++ l) = none := sepOf_whole (by simp [hn.noEquals]) (fun h => by simp [hn.noColon h])
  have hf : findLong cfg (l ++ []) (l.length + 5 - 5) = some (i, o) := findLong_named hn (by omega)
  rw [List.append_nil] at hf
  have hf2 : findLong cfg ([110, 111, 45] ++ l) (l.length + 5 - 2) = none := by
    refine findFrom_none.2 fun q hq => (formIs_false (by simp)).2 ?_
    rw [List.take_of_length_le (by simp)]
    exact hno q hq
  unfold lookup
  simp only [hs, Option.getD_none]
  rw [show ([45, 45, 110, 111, 45] ++ l : Str).length = l.length + 5 by simp]
  rw [show ([45, 45, 110, 111, 45] ++ l : Str).drop 2 = [110, 111, 45] ++ l by rfl, show ([45, 45, 110, 111, 45] ++ l : Str).drop 5 = l by rfl]
  have hp : sNo.isPrefixOf ([45, 45, 110, 111, 45] ++ l) = true := by
    rw [List.isPrefixOf_iff_prefix]; exact ⟨l, rfl⟩
  rw [if_pos ⟨rfl, rfl⟩, hf2]
  simp only [hp, if_true, hf, ht]

theorem lookup_short {i : Nat} {o : Opt} {f : Str} {p : UInt8} (hv : cfg.Valid) (hn : NamedShort cfg i o f) (hp : Starts cfg p) :
    lookup cfg (p :: f) = .ok (some (i, o, foundValue o, none)) := by
  have hp61 : (61 : UInt8) ≠ p := by rcases hp with rfl | ⟨_, rfl⟩ <;> decide
  have hp58 : (58 : UInt8) ≠ p := by rcases hp with rfl | ⟨_, rfl⟩ <;> decide
  have hs : sepOf cfg (p :: f) = none := sepOf_whole (by simp [hn.noEquals, hp61]) (fun h => by simp [hn.noColon h, hp58])
  have hf : findShort cfg (f ++ []) (f.length + 1 - 1) = some (i, o) := findShort_named hn (by omega)
  rw [List.append_nil] at hf
  have h45 : f[0]? ≠ some 45 := (hv.short o (List.mem_of_getElem? hn.opt) f hn.short).2
  unfold lookup
  simp only [hs, Option.getD_none, List.length_cons, List.getElem?_cons_zero, List.getElem?_cons_succ, List.drop_succ_cons, List.drop_zero]
  rw [if_neg (fun h => h45 h.2), hf]
  rfl

theorem lookup_shortValue {i : Nat} {o : Opt} {f v : Str} {p : UInt8} (hv : cfg.Valid) (hn : NamedShort cfg i o f) (hp : Starts cfg p)
    (hi : cfg.inlineValues = true → v ≠ []) :
    lookup cfg (p :: (f ++ 61 :: v)) = .ok (some (i, o, foundValue o, some (f.length + 1))) := by
  have hp61 : (61 : UInt8) ≠ p := by rcases hp with rfl | ⟨_, rfl⟩ <;> decide
  have hs : sepOf cfg ((p :: f) ++ 61 :: v) = some (f.length + 1) := sepOf_equals (by simp [hn.noEquals, hp61]) hi
  simp only [List.cons_append] at hs
  have hf : findShort cfg (f ++ 61 :: v) (f.length + 1 - 1) = some (i, o) := findShort_named hn (by omega)
  obtain ⟨hne, h45⟩ := hv.short o (List.mem_of_getElem? hn.opt) f hn.short
  have h45' : (f ++ 61 :: v)[0]? ≠ some 45 := by
    cases f with
    | nil => exact (hne rfl).elim
    | cons c r => simpa using h45
  unfold lookup
  simp only [hs, Option.getD_some, List.getElem?_cons_zero, List.getElem?_cons_succ, List.drop_succ_cons, List.drop_zero]
  rw [if_neg (fun h => h45' h.2), hf]
  rfl

/-! ### Splitting an argument list -/

theorem finish_attached (st : State) (r : Ref) (o : Opt) (pos : Nat) (v : Str) (n1 n2 : Option Str) :
    finish w st r o pos (some v) n1 = finish w st r o pos (some v) n2 := by
  unfold finish; rfl

theorem finish_attached_next {st : State} {r : Ref} {o : Opt} {pos pos' : Nat} {v : Str} {n : Option Str} {st' : State} {took : Bool}
    (h : finish w st r o pos (some v) n = .ok (.next st' pos' took)) : took = false := by
  unfold finish at h
  simp only [Option.isSome_some, Bool.not_true, Bool.false_and, Bool.false_eq_true, if_false, bind, Except.bind] at h
  split at h
  · cases h
  · split at h
    · cases h
    · split at h
      · cases h
      · cases h; rfl

theorem stepArg_plain {arg : Str} (ho : ¬ OptionLike cfg arg) (st : State) (pos : Nat) (n1 n2 : Option Str) :
    stepArg w cfg st pos arg n1 = stepArg w cfg st pos arg n2 ∧
    ∀ st' pos' took, stepArg w cfg st pos arg n1 = .ok (.next st' pos' took) → took = false := by
  have h1 : ¬ (cfg.passthrough = true ∧ arg = [45, 45]) := by rintro ⟨_, rfl⟩; exact ho (.inl rfl)
  unfold stepArg
  unfold OptionLike at ho
  rw [if_neg h1, if_neg h1, if_neg ho, if_neg ho]
  refine ⟨by cases st.hasPass <;> (split <;> rfl), ?_⟩
  intro st' pos' took h
  split at h
  · cases h; rfl
  · split at h
    · split at h
      · cases h
      · cases h; rfl
    · exact finish_attached_next h

/-- What stops the loop. -/
def Final (r : Exec (Option (Bool × Nat) × State)) : Prop := (∃ e, r = .error e) ∨ (∃ st, r = .ok (none, st)) ∨ ∃ pos st, r = .ok (some (true, pos), st)

theorem finish_hasPass {st : State} {r : Ref} {o : Opt} {pos pos' : Nat} {v n : Option Str} {st' : State} {took : Bool}
    (h : finish w st r o pos v n = .ok (.next st' pos' took)) : st'.hasPass = st.hasPass := by
  unfold finish at h
  simp only [bind, Except.bind] at h
  split at h
  · cases h
  · split at h
    · cases h
    · split at h
      · split at h <;> cases h
      · split at h
        · cases h
        · cases h; rfl

theorem stepArg_hasPass {st : State} {pos pos' : Nat} {arg : Str} {n : Option Str} {st' : State} {took : Bool}
    (hn : ¬ (cfg.passthrough = true ∧ arg = [45, 45])) (h : stepArg w cfg st pos arg n = .ok (.next st' pos' took)) : st'.hasPass = st.hasPass := by
  unfold stepArg at h
  rw [if_neg hn] at h
  split at h
  · cases h; rfl
  · split at h
    · simp only [bind, Except.bind] at h
      split at h
      · cases h
      · split at h
        · cases h
        · split at h
          · cases h
          · split at h
            · split at h
              · cases h
              · exact finish_hasPass h
            · exact finish_hasPass h
    · split at h
      · split at h
        · cases h
        · cases h; rfl
      · exact finish_hasPass h

/-- The arguments before a point that is not inside an option do not depend on what comes after. -/
theorem loop_split : ∀ (pre : List Str) (skip : Bool) (st : State) (pos : Nat), Complete cfg pre → (pre = [] → skip = false) → st.hasPass = false →
    (∃ st1 pos1, st1.hasPass = false ∧ ∀ rest, loop w cfg (pre ++ rest) skip st pos = loop w cfg rest false st1 pos1) ∨
    (∃ r, Final r ∧ ∀ rest, loop w cfg (pre ++ rest) skip st pos = r) := by
  intro pre
  induction pre with
  | nil => intro skip st pos _ hs hp; rw [hs rfl]; exact .inl ⟨st, pos, hp, fun _ => rfl⟩
  | cons a pre ih =>
    intro skip st pos hc hs hp
    have hpre : Complete cfg pre := by
      refine ⟨fun x hx => ?_, fun h hm => hc.2 h (List.mem_cons_of_mem _ hm)⟩
      cases pre with
      | nil => cases hx
      | cons y t => exact hc.1 x (by rw [List.getLast?_cons_cons]; exact hx)
    cases skip with
    | true =>
      have := ih false st pos hpre (fun _ => rfl) hp
      simpa [loop] using this
    | false =>
      have hnd : ¬ (cfg.passthrough = true ∧ a = [45, 45]) := by rintro ⟨h1, rfl⟩; exact hc.2 h1 (by simp)
      -- the step does not depend on the rest
      have hstep : ∃ s, (∀ rest, stepArg w cfg st pos a (pre ++ rest).head? = s) ∧ (pre = [] → ∀ st' pos' took, s = .ok (.next st' pos' took) → took = false) := by
        cases pre with
        | nil =>
          have ho := hc.1 a rfl
          exact ⟨_, fun rest => (stepArg_plain ho st pos _ none).1, fun _ => (stepArg_plain ho st pos none none).2⟩
        | cons y t => exact ⟨stepArg w cfg st pos a (some y), fun rest => rfl, fun h => by cases h⟩
      obtain ⟨s, hs1, hs2⟩ := hstep
      simp only [List.cons_append, loop, hs1, bind, Except.bind]
      cases s with
      | error e => exact .inr ⟨_, .inl ⟨e, rfl⟩, fun _ => rfl⟩
      | ok s =>
        cases s with
        | fail st' => exact .inr ⟨_, .inr (.inl ⟨st', rfl⟩), fun _ => rfl⟩
        | halt st' pos' => exact .inr ⟨_, .inr (.inr ⟨pos', st', rfl⟩), fun _ => rfl⟩
        | next st' pos' took =>
          refine ih took st' pos' hpre (fun h => hs2 h _ _ _ rfl) ?_
          rw [← hp]
          exact stepArg_hasPass hnd (hs1 [])

end Verif.ArgParser
