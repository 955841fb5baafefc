import Verif.Maybe.Spec
/-!
# Lemmas about `ke::Maybe`
-/
namespace Verif.Maybe
open Verif

set_option linter.unusedSimpArgs false
set_option linter.unusedSectionVars false

variable {V A : Type} [DecidableEq V]

/-- How a variable is represented. -/
def Rep (m : Mem) (x : Option (Obj A)) : Option (Option A) → Prop
  | none => x = none
  | some none => ∃ o, x = some o ∧ o.init = false
  | some (some a) => ∃ id, x = some { init := true, buf := some (id, a) } ∧ id ∉ m.dead ∧ id < m.next

structure Inv (s : State V A) (e : Env V A) (k : Nat) : Prop where
  rep : ∀ v, Rep s.mem (s.vars v) (e v)
  inj : ∀ v w id a b, s.vars v = some ⟨true, some (id, a)⟩ → s.vars w = some ⟨true, some (id, b)⟩ → v = w
  nodup : s.mem.dead.Nodup
  lt : ∀ id ∈ s.mem.dead, id < s.mem.next
  num : ∃ L : List V, L.Nodup ∧ (∀ v, v ∈ L ↔ holds e v = 1) ∧ s.mem.next = s.mem.dead.length + L.length + k

theorem holds_set_self (e : Env V A) (v : V) (x : Option (Option A)) : holds (e.set v x) v = match x with
    | some (some _) => 1
    | _ => 0 := by
  have h : (e.set v x) v = x := by simp [Env.set]
  unfold holds; rw [h]
  all_goals (rcases x with _ | _ | _ <;> rfl)

theorem holds_set_ne (e : Env V A) {u v : V} (x : Option (Option A)) (h : u ≠ v) : holds (e.set v x) u = holds e u := by
  simp [holds, Env.set, h]

theorem num_clear {e : Env V A} {v : V} {x : Option (Option A)} (hx : ∀ a, x ≠ some (some a)) {L : List V} (hn : L.Nodup)
    (hL : ∀ u, u ∈ L ↔ holds e u = 1) :
    ∃ L' : List V, L'.Nodup ∧ (∀ u, u ∈ L' ↔ holds (e.set v x) u = 1) ∧ L.length = L'.length + holds e v := by
  have h0 : holds (e.set v x) v = 0 := by
    rw [holds_set_self]; split
    · exact (hx _ rfl).elim
    · rfl
  by_cases h : holds e v = 1
  · have hm : v ∈ L := (hL v).2 h
    refine ⟨L.erase v, hn.erase v, ?_, ?_⟩
    · intro u
      rw [hn.mem_erase_iff]
      by_cases huv : u = v
      · subst huv; simp [h0]
      · simp [huv, holds_set_ne e x huv, hL u]
    · rw [h, List.length_erase_of_mem hm]
      have := List.length_pos_of_mem hm
      omega
  · refine ⟨L, hn, ?_, ?_⟩
    · intro u
      by_cases huv : u = v
      · subst huv; rw [h0, hL u]; simp [h]
      · rw [holds_set_ne e x huv, hL u]
    · have : holds e v = 0 := by
        unfold holds at h ⊢; split <;> simp_all
      omega

/-- Forget the value of a variable without destroying it. -/
theorem inv_drop {s : State V A} {e : Env V A} {k : Nat} (hi : Inv s e k) (v : V) (x : Option (Obj A)) (y : Option (Option A))
    (hx : (x = none ∧ y = none) ∨ (∃ o, x = some o ∧ o.init = false ∧ y = some none)) :
    Inv (s.set v x) (e.set v y) (k + holds e v) := by
  have hy : ∀ a, y ≠ some (some a) := by
    rcases hx with ⟨-, h⟩ | ⟨o, -, -, h⟩ <;> rw [h] <;> simp
  have hxo : ∀ id a, x ≠ some ⟨true, some (id, a)⟩ := by
    rcases hx with ⟨h, -⟩ | ⟨o, h, h', -⟩ <;> rw [h]
    · simp
    · intro id a he; injection he with he; rw [he] at h'; cases h'
  refine ⟨?_, ?_, hi.nodup, hi.lt, ?_⟩
  · intro u
    simp only [State.set, Env.set]
    split
    · rcases hx with ⟨h1, h2⟩ | ⟨o, h1, h2, h3⟩
      · rw [h1, h2]; rfl
      · rw [h1, h3]; exact ⟨o, rfl, h2⟩
    · exact hi.rep u
  · intro u w id a b h1 h2
    simp only [State.set] at h1 h2
    split at h1
    · exact (hxo _ _ h1).elim
    · split at h2
      · exact (hxo _ _ h2).elim
      · exact hi.inj u w id a b h1 h2
  · obtain ⟨L, h1, h2, h3⟩ := hi.num
    obtain ⟨L', h4, h5, h6⟩ := num_clear (v := v) hy h1 h2
    exact ⟨L', h4, h5, by show s.mem.next = _; rw [h3]; simp only [State.set]; omega⟩

/-- Construct a value in a variable that holds none. -/
theorem inv_construct {s : State V A} {e : Env V A} {k : Nat} (hi : Inv s e k) (v : V) (hv : holds e v = 0) (a : A) :
    Inv (({ s with mem := (construct s.mem a).2 } : State V A).set v (some (construct s.mem a).1)) (e.set v (some (some a))) k := by
  have hnew : ∀ u b, s.vars u ≠ some ⟨true, some (s.mem.next, b)⟩ := by
    intro u b h
    have := hi.rep u
    cases he : e u with
    | none => rw [he] at this; simp only [Rep] at this; rw [h] at this; cases this
    | some x =>
      rw [he] at this
      cases x with
      | none => obtain ⟨o, h1, h2⟩ := this; rw [h] at h1; injection h1 with h1; rw [← h1] at h2; cases h2
      | some c =>
        obtain ⟨id, h1, -, h2⟩ := this
        rw [h] at h1; injection h1 with h1; injection h1 with _ h1; injection h1 with h1; injection h1 with h1
        omega
  refine ⟨?_, ?_, hi.nodup, ?_, ?_⟩
  · intro u
    simp only [State.set, Env.set]
    split
    · exact ⟨s.mem.next, rfl, fun h => by have := hi.lt _ h; omega, by simp [construct]⟩
    · have := hi.rep u
      cases he : e u with
      | none => rw [he] at this; exact this
      | some x =>
        rw [he] at this
        cases x with
        | none => exact this
        | some c =>
          obtain ⟨id, h1, h2, h3⟩ := this
          exact ⟨id, h1, h2, by simp [construct]; omega⟩
  · intro u w id b c h1 h2
    simp only [State.set] at h1 h2
    split at h1
    · split at h2
      · simp_all
      · simp only [construct, Option.some.injEq, Obj.mk.injEq, Prod.mk.injEq, true_and] at h1
        rw [← h1.1] at h2
        exact (hnew _ _ h2).elim
    · split at h2
      · simp only [construct, Option.some.injEq, Obj.mk.injEq, Prod.mk.injEq, true_and] at h2
        rw [← h2.1] at h1
        exact (hnew _ _ h1).elim
      · exact hi.inj u w id b c h1 h2
  · intro id h
    have := hi.lt id h
    simp only [State.set, construct]; omega
  · obtain ⟨L, h1, h2, h3⟩ := hi.num
    refine ⟨v :: L, List.nodup_cons.2 ⟨?_, h1⟩, ?_, ?_⟩
    · rw [h2 v, hv]; simp
    · intro u
      by_cases huv : u = v
      · subst huv; simp [holds_set_self]
      · simp [huv, holds_set_ne _ _ huv, h2 u]
    · simp only [State.set, construct, List.length_cons]; omega

theorem Inv.present {s : State V A} {e : Env V A} {k : Nat} (hi : Inv s e k) {v : V} (h : e v ≠ none) :
    ∃ o, s.vars v = some o ∧ s.lookup v = .ok o := by
  have := hi.rep v
  cases he : e v with
  | none => exact (h he).elim
  | some x =>
    rw [he] at this
    cases x with
    | none => obtain ⟨o, h1, -⟩ := this; exact ⟨o, h1, by simp [State.lookup, h1]⟩
    | some a => obtain ⟨id, h1, -⟩ := this; exact ⟨_, h1, by simp [State.lookup, h1]⟩

theorem Inv.nothing {s : State V A} {e : Env V A} {k : Nat} (hi : Inv s e k) {v : V} (h : e v = some none) :
    ∃ o, s.vars v = some o ∧ o.init = false ∧ s.lookup v = .ok o := by
  have := hi.rep v
  rw [h] at this
  obtain ⟨o, h1, h2⟩ := this
  exact ⟨o, h1, h2, by simp [State.lookup, h1]⟩

theorem Inv.value {s : State V A} {e : Env V A} {k : Nat} (hi : Inv s e k) {v : V} {a : A} (h : e v = some (some a)) :
    ∃ id, s.vars v = some ⟨true, some (id, a)⟩ ∧ s.lookup v = .ok ⟨true, some (id, a)⟩ ∧ id ∉ s.mem.dead ∧ id < s.mem.next := by
  have := hi.rep v
  rw [h] at this
  obtain ⟨id, h1, h2, h3⟩ := this
  exact ⟨id, h1, by simp [State.lookup, h1], h2, h3⟩

/-- `if (isValid()) ~T()`. -/
theorem inv_clear {s : State V A} {e : Env V A} {k : Nat} (hi : Inv s e k) {v : V} {o : Obj A} (ho : s.vars v = some o) :
    ∃ m, clearFor o s.mem = .ok m ∧ m.next = s.mem.next ∧
      (∀ w a, v ≠ w → e w = some (some a) → ∀ p, s.vars w = some p → readBuf p m = .ok a) ∧
      Inv (({ s with mem := m } : State V A).set v (some ⟨false, none⟩)) (e.set v (some none)) k := by
  have hread : ∀ w a, e w = some (some a) → ∀ p, s.vars w = some p → readBuf p s.mem = .ok a := by
    intro w a hw p hp
    obtain ⟨id, h1, -, h2, -⟩ := hi.value hw
    rw [h1] at hp; injection hp with hp; subst hp
    simp [readBuf, h2]
  cases he : e v with
  | none => have := hi.rep v; rw [he] at this; simp only [Rep] at this; rw [ho] at this; cases this
  | some x =>
    cases x with
    | none =>
      obtain ⟨o', h1, h2, -⟩ := hi.nothing he
      rw [ho] at h1; injection h1 with h1; subst h1
      refine ⟨s.mem, by simp [clearFor, h2], rfl, fun w a _ => hread w a, ?_⟩
      have := inv_drop hi v (some ⟨false, none⟩) (some none) (.inr ⟨_, rfl, rfl, rfl⟩)
      simpa [holds, he] using this
    | some a =>
      obtain ⟨id, h1, -, h2, h3⟩ := hi.value he
      rw [ho] at h1; injection h1 with h1; subst h1
      refine ⟨{ s.mem with dead := id :: s.mem.dead }, by simp [clearFor, destroyBuf, h2], rfl, ?_, ?_⟩
      · intro w b hvw hw p hp
        obtain ⟨id', h4, -, h5, -⟩ := hi.value hw
        rw [h4] at hp; injection hp with hp; subst hp
        have : id' ≠ id := by rintro rfl; exact hvw (hi.inj v w id' a b ho h4)
        simp [readBuf, this, h5]
      · refine ⟨?_, ?_, List.nodup_cons.2 ⟨h2, hi.nodup⟩, ?_, ?_⟩
        · intro u
          simp only [State.set, Env.set]
          split
          · exact ⟨_, rfl, rfl⟩
          · rename_i huv
            have := hi.rep u
            cases heu : e u with
            | none => rw [heu] at this; exact this
            | some x =>
              rw [heu] at this
              cases x with
              | none => exact this
              | some b =>
                obtain ⟨id', h4, h5, h6⟩ := this
                have : id' ≠ id := by rintro rfl; exact huv (hi.inj u v id' b a h4 ho)
                exact ⟨id', h4, by simp [this, h5], h6⟩
        · intro u w i b c h4 h5
          simp only [State.set] at h4 h5
          split at h4
          · simp at h4
          · split at h5
            · simp at h5
            · exact hi.inj u w i b c h4 h5
        · intro i hi'
          rcases List.mem_cons.1 hi' with rfl | h
          · exact h3
          · exact hi.lt i h
        · obtain ⟨L, g1, g2, g3⟩ := hi.num
          obtain ⟨L', g4, g5, g6⟩ := num_clear (v := v) (x := some none) (by simp) g1 g2
          refine ⟨L', g4, g5, ?_⟩
          have : holds e v = 1 := by simp [holds, he]
          simp only [State.set, List.length_cons]; omega

theorem set_set (s : State V A) (m m' : Mem) (v : V) (x y : Option (Obj A)) :
    (({ (({ s with mem := m } : State V A).set v x) with mem := m' } : State V A).set v y) = ({ s with mem := m' } : State V A).set v y := by
  simp only [State.set]
  congr 1
  funext u
  split <;> rfl

theorem env_set_set (e : Env V A) (v : V) (x y : Option (Option A)) : (e.set v x).set v y = e.set v y := by
  funext u; simp only [Env.set]; split <;> rfl

theorem holds_le (e : Env V A) (v : V) : holds e v = 0 ∨ ∃ a, e v = some (some a) := by
  unfold holds; split
  · rename_i a h; exact .inr ⟨a, h⟩
  · exact .inl rfl

/-- `copyFrom` into a variable that holds nothing. -/
theorem inv_copyFrom {s : State V A} {e : Env V A} {k : Nat} (hi : Inv s e k) {v w : V} (hv : e v = some none) (hw : e w ≠ none) :
    ∃ s', copyFrom s v w = .ok s' ∧ Inv s' (e.set v (e w)) k := by
  cases he : e w with
  | none => exact (hw he).elim
  | some x =>
    cases x with
    | none =>
      obtain ⟨o, h1, h2, h3⟩ := hi.nothing he
      refine ⟨s, by simp [copyFrom, h3, h2, bind, Except.bind], ?_⟩
      have : e.set v (some none) = e := by
        funext u; simp only [Env.set]; split
        · rename_i h; rw [h, hv]
        · rfl
      rw [this]; exact hi
    | some a =>
      obtain ⟨id, h1, h2, h3, -⟩ := hi.value he
      refine ⟨_, by simp [copyFrom, h2, bind, Except.bind, readBuf, h3]; rfl, ?_⟩
      exact inv_construct hi v (by simp [holds, hv]) a

theorem inv_moveFrom (moved : A → A) {s : State V A} {e : Env V A} {k : Nat} (hi : Inv s e k) {v w : V} (hv : e v = some none)
    (hw : e w ≠ none) (hvw : v ≠ w) :
    ∃ s', moveFrom moved s v w = .ok s' ∧ Inv s' ((e.set v (e w)).set w (some none)) (k + holds e w) := by
  cases he : e w with
  | none => exact (hw he).elim
  | some x =>
    cases x with
    | none =>
      obtain ⟨o, h1, h2, h3⟩ := hi.nothing he
      refine ⟨s, by simp [moveFrom, h3, h2, bind, Except.bind], ?_⟩
      have : (e.set v (some none)).set w (some none) = e := by
        funext u; simp only [Env.set]; split
        · rename_i h; rw [h, he]
        · split
          · rename_i h; rw [h, hv]
          · rfl
      rw [this]
      simpa [holds, he] using hi
    | some a =>
      obtain ⟨id, h1, h2, h3, -⟩ := hi.value he
      have h4 := inv_construct hi v (by simp [holds, hv]) a
      have h5 := inv_drop h4 w (some { init := false, buf := some (id, moved a) }) (some none) (.inr ⟨_, rfl, rfl, rfl⟩)
      rw [holds_set_ne _ _ hvw.symm] at h5
      refine ⟨_, ?_, h5⟩
      simp [moveFrom, h2, bind, Except.bind, readBuf, h3]

theorem inv_start : Inv (State.start : State V A) (fun _ => none) 0 :=
  ⟨fun _ => rfl, fun v w id a b h => by simp [State.start] at h, by simp [State.start], by simp [State.start],
    ⟨[], by simp, by simp [holds], by simp [State.start]⟩⟩

theorem inv_step (moved : A → A) {s : State V A} {e : Env V A} {k : Nat} (hi : Inv s e k) (o : Op V A) (hl : Legal e o) :
    ∃ s', step moved s o = .ok s' ∧ Inv s' (specStep e o) (k + dropped e o) := by
  cases o with
  | ctorNothing v =>
    refine ⟨_, rfl, ?_⟩
    have := inv_drop hi v (some ⟨false, none⟩) (some none) (.inr ⟨_, rfl, rfl, rfl⟩)
    have hz : holds e v = 0 := by simp only [Legal] at hl; simp [holds, hl]
    rw [hz] at this
    exact this
  | ctorCopy v w =>
    have h1 := inv_drop hi v (some ⟨false, none⟩) (some none) (.inr ⟨_, rfl, rfl, rfl⟩)
    have hz : holds e v = 0 := by simp [holds, hl.1]
    rw [hz] at h1
    have hvw : w ≠ v := by rintro rfl; exact hl.2 hl.1
    have hew : (e.set v (some none)) w = e w := by simp [Env.set, hvw]
    obtain ⟨s', h2, h3⟩ := inv_copyFrom h1 (v := v) (w := w) (by simp [Env.set]) (by rw [hew]; exact hl.2)
    rw [hew, env_set_set] at h3
    exact ⟨s', h2, h3⟩
  | ctorMove v w =>
    have h1 := inv_drop hi v (some ⟨false, none⟩) (some none) (.inr ⟨_, rfl, rfl, rfl⟩)
    have hz : holds e v = 0 := by simp [holds, hl.1]
    rw [hz] at h1
    have hvw : w ≠ v := by rintro rfl; exact hl.2 hl.1
    have hew : (e.set v (some none)) w = e w := by simp [Env.set, hvw]
    obtain ⟨s', h2, h3⟩ := inv_moveFrom moved h1 (v := v) (w := w) (by simp [Env.set]) (by rw [hew]; exact hl.2) hvw.symm
    rw [hew, env_set_set, holds_set_ne _ _ hvw] at h3
    exact ⟨s', h2, h3⟩
  | dtor v =>
    obtain ⟨o, h1, h2⟩ := hi.present hl
    obtain ⟨m, h3, -, -, h4⟩ := inv_clear hi h1
    have h5 := inv_drop h4 v none none (.inl ⟨rfl, rfl⟩)
    rw [holds_set_self, env_set_set] at h5
    have h6 : (({ s with mem := m } : State V A).set v (some ⟨false, none⟩)).set v none = ({ s with mem := m } : State V A).set v none :=
      set_set s m m v _ _
    rw [h6] at h5
    exact ⟨_, by simp only [step, h2, bind, Except.bind, h3], h5⟩
  | init v a =>
    obtain ⟨o, h1, h2⟩ := hi.present hl
    obtain ⟨m, h3, -, -, h4⟩ := inv_clear hi h1
    have h5 := inv_construct h4 v (by simp [holds_set_self]) a
    rw [env_set_set] at h5
    refine ⟨({ s with mem := (construct m a).2 } : State V A).set v (some (construct m a).1), by simp only [step, h2, bind, Except.bind, h3], ?_⟩
    have h6 := set_set s m (construct m a).2 v (some ⟨false, none⟩) (some (construct m a).1)
    rw [← h6]
    exact h5
  | initFrom v w =>
    obtain ⟨o, h1, h2⟩ := hi.present hl.1
    obtain ⟨a, ha⟩ := hl.2.1
    obtain ⟨id, g1, g2, g3, g4⟩ := hi.value ha
    obtain ⟨m, h3, -, hr, h4⟩ := inv_clear hi h1
    have hr := hr w a hl.2.2 ha _ g1
    have h5 := inv_construct h4 v (by simp [holds_set_self]) a
    rw [env_set_set] at h5
    have hget : get (⟨true, some (id, a)⟩ : Obj A) s.mem = .ok a := by simp [get, readBuf, g3]
    refine ⟨({ s with mem := (construct m a).2 } : State V A).set v (some (construct m a).1), by simp only [step, h2, g2, bind, Except.bind, h3, hget, hr], ?_⟩
    have h6 := set_set s m (construct m a).2 v (some ⟨false, none⟩) (some (construct m a).1)
    rw [← h6]
    have h7 : specStep e (.initFrom v w) = e.set v (some (some a)) := by simp [specStep, ha]
    rw [h7]
    exact h5
  | assignCopy v w =>
    obtain ⟨o, g1, g2⟩ := hi.present hl.1
    have h1 := inv_drop hi v (some { o with init := false }) (some none) (.inr ⟨_, rfl, rfl, rfl⟩)
    have hew : (e.set v (some none)) w = e w := by simp [Env.set, hl.2.2.symm]
    obtain ⟨s', h2, h3⟩ := inv_copyFrom h1 (v := v) (w := w) (by simp [Env.set]) (by rw [hew]; exact hl.2.1)
    rw [hew, env_set_set] at h3
    exact ⟨s', by simp only [step, g2, bind, Except.bind]; exact h2, h3⟩
  | assignMove v w =>
    obtain ⟨o, g1, g2⟩ := hi.present hl.1
    have h1 := inv_drop hi v (some { o with init := false }) (some none) (.inr ⟨_, rfl, rfl, rfl⟩)
    have hew : (e.set v (some none)) w = e w := by simp [Env.set, hl.2.2.symm]
    obtain ⟨s', h2, h3⟩ := inv_moveFrom moved h1 (v := v) (w := w) (by simp [Env.set]) (by rw [hew]; exact hl.2.1) hl.2.2
    rw [hew, env_set_set, holds_set_ne _ _ hl.2.2.symm, Nat.add_assoc] at h3
    exact ⟨s', by simp only [step, g2, bind, Except.bind]; exact h2, h3⟩

theorem inv_run (moved : A → A) (os : List (Op V A)) {s : State V A} {e : Env V A} {k : Nat} (hi : Inv s e k) (hl : LegalRun os e) :
    ∃ s', run moved os s = .ok s' ∧ Inv s' (specRun os e) (k + droppedRun os e) := by
  induction os generalizing s e k with
  | nil => exact ⟨s, rfl, hi⟩
  | cons o os ih =>
    obtain ⟨s1, h1, hi1⟩ := inv_step moved hi o hl.1
    obtain ⟨s2, h2, hi2⟩ := ih hi1 hl.2
    refine ⟨s2, by simp only [run, h1]; exact h2, ?_⟩
    rw [Nat.add_assoc] at hi2
    exact hi2

end Verif.Maybe
