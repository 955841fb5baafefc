import Verif.Function.ThrowsSim
import Verif.Function.Props
/-!
# C141: `ke::Function` when callables throw and memory runs out
-/
namespace Verif.Function
open Verif

set_option linter.unusedSimpArgs false
set_option linter.unusedSectionVars false

variable {V C : Type} [DecidableEq V]

/-- What a client sees of one variable: whether it exists, what `operator bool` and `usingInlineStorage()` say, what a call does. -/
def ShowsT (x : Option (Fn C)) (m : Mem) : Option (ValT C) → Prop
  | none => x = none
  | some .empty => ∃ f, x = some f ∧ f.isSet = false
  | some (.fn c i) => ∃ f, x = some f ∧ f.isSet = true ∧ f.inline = i ∧ call f m = .ok c
  | some .hollow => ∃ f, x = some f ∧ f.isSet = true ∧ f.inline = false ∧ call f m = .error .assertFail
  | some (.broken i) => ∃ f, x = some f ∧ f.isSet = true ∧ f.inline = i ∧ call f m = .error .useAfterFree

/-- The result of a call as the specification wants it. -/
def Sim (r : Exec (State V C × Bool)) : Option (EnvT V C × Bool) → Prop
  | some (e', b) => ∃ s', r = .ok (s', b) ∧ InvX s' e'
  | none => ∃ f, r = .error f ∧ (f = .doubleFree ∨ f = .useAfterFree)

theorem br_of (e : EnvT V C) {v : V} {x : ValT C} (h : e v = some x) : e.br v = x.isBroken := by simp [EnvT.br, h]

theorem sim_plain {s : State V C} {e : EnvT V C} (h : InvX s e) (size : C → Nat) (o : Op V C) (hl : LegalT e o) (hb : ∀ u ∈ o.uses, e.br u = false) :
    Sim (do .ok (← step size s o, false)) (some (specN size e o, false)) := by
  obtain ⟨s', h1, h2⟩ := h.plain size o hl hb
  exact ⟨s', by simp only [h1, bind, Except.bind], h2⟩

theorem sim_step {s : State V C} {e : EnvT V C} (h : InvX s e) (size : C → Nat) (torn : C → C) (o : Op V C) (x : Option Exc) (hl : LegalT e o) :
    Sim (stepT size torn s o x) (specT size torn e x o) := by
  have hfit : ∀ c, decide (size c ≤ bufferSize) = fits size c := fun c => rfl
  have habs : ∀ v, e v = none → e.br v = false := fun v hv => by simp [EnvT.br, hv]
  cases o with
  | ctorNull v =>
    have := sim_plain h size (.ctorNull v) hl (by simp only [Op.uses, List.mem_singleton]; rintro u rfl; exact habs u hl)
    cases x <;> exact this
  | ctorCallable v c =>
    have := sim_plain h size (.ctorCallable v c) hl (by simp only [Op.uses, List.mem_singleton]; rintro u rfl; exact habs u hl)
    cases x with
    | none =>
      simp only [specT, reduceCtorEq, false_and, or_false, if_false]
      exact this
    | some x =>
      cases x with
      | callable =>
        simp only [stepT, stepThrow, specT, reduceCtorEq, false_and, if_false, true_or, if_true]
        exact ⟨s, rfl, h⟩
      | alloc =>
        by_cases hc : size c ≤ bufferSize
        · have hf : fits size c = true := by rw [← hfit]; simpa using hc
          simp only [stepT, stepThrow, specT, hc, hf, Option.some.injEq, reduceCtorEq, and_self, if_true, and_false, or_self, if_false, Bool.true_eq_false] at this ⊢
          rw [← hf]
          exact this
        · have hf : fits size c = false := by rw [← hfit]; simpa using hc
          simp only [stepT, stepThrow, specT, hc, hf, and_false, if_false, and_self, or_true, if_true]
          exact ⟨s, rfl, h⟩
  | ctorCopyConst v w =>
    obtain ⟨y, f, h1, h2, h3, h4, h5, h6, h7⟩ := h.look hl.2
    cases hb : y.isBroken with
    | true =>
      simp only [specT, h1, Option.any_some, hb, if_true]
      cases x with
      | none => exact ⟨.useAfterFree, by simp only [stepT, step, h3, bind, Except.bind, (copy_broken (h6 hb) .alloc).2.1], .inr rfl⟩
      | some x => exact ⟨.useAfterFree, by simp only [stepT, stepThrow, h3, bind, Except.bind, (copy_broken (h6 hb) x).1], .inr rfl⟩
    | false =>
      have hp := sim_plain h size (.ctorCopyConst v w) hl (by
        simp only [Op.uses, List.mem_cons, List.not_mem_nil, or_false]
        rintro u (rfl | rfl)
        · exact habs u hl.1
        · rw [br_of e h1, hb])
      simp only [specN, h1] at hp
      obtain ⟨-, h8, h9, -⟩ := h7 hb
      simp only [specT, h1, Option.any_some, hb, Bool.false_eq_true, if_false]
      cases x with
      | none => exact hp
      | some x =>
        simp only [stepT, stepThrow, h3, bind, Except.bind, copyThrow_ok h9 h4 h8 h5 hb x, Option.any_some]
        by_cases ht : throwsCopy x (some y) = true
        · rw [if_pos ht, if_pos ht]
          exact ⟨s, rfl, h⟩
        · rw [if_neg ht, if_neg ht]
          exact hp
  | ctorCopy v w =>
    obtain ⟨y, f, h1, h2, h3, h4, h5, h6, h7⟩ := h.look hl.2
    cases hb : y.isBroken with
    | true =>
      simp only [specT, h1, Option.any_some, hb, if_true]
      cases x with
      | none => exact ⟨.useAfterFree, by simp only [stepT, step, h3, bind, Except.bind, (copy_broken (h6 hb) .alloc).2.2], .inr rfl⟩
      | some x => exact ⟨.useAfterFree, by simp only [stepT, stepThrow, h3, bind, Except.bind, (copy_broken (h6 hb) x).1], .inr rfl⟩
    | false =>
      have hp := sim_plain h size (.ctorCopy v w) hl (by
        simp only [Op.uses, List.mem_cons, List.not_mem_nil, or_false]
        rintro u (rfl | rfl)
        · exact habs u hl.1
        · rw [br_of e h1, hb])
      simp only [specN, h1] at hp
      obtain ⟨-, h8, h9, -⟩ := h7 hb
      simp only [specT, h1, Option.any_some, hb, Bool.false_eq_true, if_false]
      cases x with
      | none => exact hp
      | some x =>
        simp only [stepT, stepThrow, h3, bind, Except.bind, copyThrow_ok h9 h4 h8 h5 hb x, Option.any_some, wrapper_heap, Bool.not_false, Bool.and_true, throwsNC y hb x]
        by_cases ht : throwsCopyNC x (some y) = true
        · rw [if_pos ht, if_pos ht]
          exact ⟨s, rfl, h⟩
        · rw [if_neg ht, if_neg ht]
          exact hp
  | ctorMove v w =>
    obtain ⟨y, f, h1, h2, h3, h4, h5, h6, h7⟩ := h.look hl.2
    have hvw : v ≠ w := by rintro rfl; exact hl.2 hl.1
    cases hb : y.isBroken with
    | true =>
      cases y with
      | broken i =>
        cases i with
        | true =>
          simp only [specT, h1]
          cases x with
          | none => exact ⟨.useAfterFree, by simp only [stepT, step, h3, bind, Except.bind, ((move_broken (h6 hb) h4 torn .alloc).1 h5).2], .inr rfl⟩
          | some x => exact ⟨.useAfterFree, by simp only [stepT, stepThrow, h3, bind, Except.bind, ((move_broken (h6 hb) h4 torn x).1 h5).1], .inr rfl⟩
        | false =>
          have hs : (s.blankX e).own v = [] := own_none (h.base.absent (by simp [EnvT.base, hl.1]))
          have := h.moveBroken hvw h2 h1 hs
          have hst : step size s (.ctorMove v w) = .ok ((s.set v (some f)).set w (some .empty)) := by
            simp only [step, h3, bind, Except.bind, ((move_broken (h6 hb) h4 torn .alloc).2 h5).2]
          simp only [specT, h1]
          cases x with
          | none => exact ⟨_, by simp only [stepT, hst, bind, Except.bind], this⟩
          | some x => exact ⟨_, by simp only [stepT, stepThrow, h3, bind, Except.bind, ((move_broken (h6 hb) h4 torn x).2 h5).1, hst], this⟩
      | empty => cases hb
      | fn c i => cases hb
      | hollow => cases hb
    | false =>
      have hp := sim_plain h size (.ctorMove v w) hl (by
        simp only [Op.uses, List.mem_cons, List.not_mem_nil, or_false]
        rintro u (rfl | rfl)
        · exact habs u hl.1
        · rw [br_of e h1, hb])
      simp only [specN, h1] at hp
      obtain ⟨-, h8, h9, -⟩ := h7 hb
      cases x with
      | none =>
        have : specT size torn e none (.ctorMove v w) = some ((e.set v (some y)).set w (some .empty), false) := by
          simp only [specT, h1]
          cases y with
          | broken i => cases hb
          | empty => rfl
          | hollow => rfl
          | fn c i => cases i <;> rfl
        rw [this]
        exact hp
      | some x =>
        rcases moveThrow_ok h9 h4 h8 h5 hb torn x with ⟨a, id, rfl, rfl, rfl, hm⟩ | ⟨hno, hm⟩
        · simp only [specT, h1, stepT, stepThrow, h3, bind, Except.bind, hm]
          exact ⟨_, rfl, h.torn h2 h1 _⟩
        · have : specT size torn e (some x) (.ctorMove v w) = some ((e.set v (some y)).set w (some .empty), false) := by
            simp only [specT, h1]
            cases y with
            | broken i => cases hb
            | empty => rfl
            | hollow => rfl
            | fn c i =>
              cases i with
              | false => rfl
              | true => cases x with
                | alloc => rfl
                | callable => exact absurd rfl (hno c rfl)
          rw [this]
          simp only [stepT, stepThrow, h3, bind, Except.bind, hm]
          exact hp
  | dtor v =>
    obtain ⟨y, f, h1, h2, h3, h4, h5, h6, h7⟩ := h.look hl
    have hcast : stepT size torn s (.dtor v) x = (do .ok (← step size s (.dtor v), false)) := by cases x <;> rfl
    rw [hcast]
    cases hb : y.isBroken with
    | true =>
      simp only [specT, h1, Option.any_some, hb, if_true]
      exact ⟨.doubleFree, by simp only [step, h3, bind, Except.bind, destroy_broken (h6 hb)], .inl rfl⟩
    | false =>
      simp only [specT, h1, Option.any_some, hb, Bool.false_eq_true, if_false]
      exact sim_plain h size (.dtor v) hl (by simp only [Op.uses, List.mem_singleton]; rintro u rfl; rw [br_of e h1, hb])
  | assignNull v =>
    obtain ⟨y, f, h1, h2, h3, h4, h5, h6, h7⟩ := h.look hl
    have hcast : stepT size torn s (.assignNull v) x = (do .ok (← step size s (.assignNull v), false)) := by cases x <;> rfl
    rw [hcast]
    cases hb : y.isBroken with
    | true =>
      simp only [specT, h1, Option.any_some, hb, if_true]
      exact ⟨.doubleFree, by simp only [step, h3, bind, Except.bind, destroy_broken (h6 hb)], .inl rfl⟩
    | false =>
      simp only [specT, h1, Option.any_some, hb, Bool.false_eq_true, if_false]
      exact sim_plain h size (.assignNull v) hl (by simp only [Op.uses, List.mem_singleton]; rintro u rfl; rw [br_of e h1, hb])
  | assignCallable v c =>
    obtain ⟨y, f, h1, h2, h3, h4, h5, h6, h7⟩ := h.look hl
    cases hb : y.isBroken with
    | true =>
      simp only [specT, h1, Option.any_some, hb, if_true]
      cases x with
      | none => exact ⟨.doubleFree, by simp only [stepT, step, h3, bind, Except.bind, destroy_broken (h6 hb)], .inl rfl⟩
      | some x => exact ⟨.doubleFree, by simp only [stepT, stepThrow, h3, bind, Except.bind, destroy_broken (h6 hb)], .inl rfl⟩
    | false =>
      have hp := sim_plain h size (.assignCallable v c) hl (by simp only [Op.uses, List.mem_singleton]; rintro u rfl; rw [br_of e h1, hb])
      simp only [specN] at hp
      obtain ⟨f', m, g1, g2, g3⟩ := h.stale h1 hb
      rw [h3] at g1; cases g1
      rw [h1] at g3
      simp only [specT, h1, Option.any_some, hb, Bool.false_eq_true, if_false]
      by_cases hc : size c ≤ bufferSize
      · have hf : fits size c = true := by rw [← hfit]; simpa using hc
        rw [hf] at hp ⊢
        simp only [if_true]
        cases x with
        | none => 
          simp only [reduceCtorEq, if_false]
          exact hp
        | some x =>
          simp only [stepT, stepThrow, h3, g2, bind, Except.bind, hc, if_true]
          cases x with
          | alloc => 
            simp only [reduceCtorEq, if_false, Option.some.injEq]
            exact hp
          | callable =>
            simp only [if_true]
            refine ⟨_, rfl, ?_⟩
            have hst : (State.blankX { s with mem := m } (e.set v ((some y).map .stale))).vars v = some .empty ∨ f = .empty := by
              cases y with
              | empty =>
                right
                obtain ⟨-, h8, -⟩ := h7 hb
                cases f with
                | empty => rfl
                | call => cases h8
                | wrap i d f => cases hf : f.abs <;> simp [Fn.abs, Val.copied, ValT.base, hf] at h8
              | fn c i => left; simp [State.blankX, EnvT.br, EnvT.set, ValT.stale, ValT.isBroken]
              | hollow => left; simp [State.blankX, EnvT.br, EnvT.set, ValT.stale, ValT.isBroken]
              | broken i => cases hb
            have hown : (State.blankX { s with mem := m } (e.set v ((some y).map .stale))).own v = [] := by
              rcases hst with hst | rfl
              · rw [own_some hst]; rfl
              · cases hv : (State.blankX { s with mem := m } (e.set v ((some y).map .stale))).vars v with
                | none => exact own_none hv
                | some g =>
                  rw [own_some hv]
                  simp only [State.blankX] at hv
                  split at hv
                  · cases hv; rfl
                  · rw [h2] at hv; cases hv; rfl
            have := g3.upd v (.call true m.next c) (.broken true) { next := m.next + 1, dead := m.next :: m.dead } 1 [m.next] rfl
              (fun i => by
                rw [hown, fresh_split, fresh_zero]
                simp [ValT.isBroken])
              (fun h => nomatch h) trivial rfl (fun _ => by simp [Fn.topDead])
            rw [env_set_set'] at this
            exact this
      · have hf : fits size c = false := by rw [← hfit]; simpa using hc
        rw [hf] at hp ⊢
        simp only [Bool.false_eq_true, if_false]
        cases x with
        | none => 
          simp only [ne_eq, not_true, if_false]
          exact hp
        | some x =>
          simp only [stepT, stepThrow, h3, g2, bind, Except.bind, hc, if_false]
          simp only [ne_eq, reduceCtorEq, not_false_eq_true, if_true]
          exact ⟨_, rfl, g3⟩
  | assignCopyConst v w =>
    obtain ⟨y, f, h1, h2, h3, h4, h5, h6, h7⟩ := h.look hl.1
    cases hb : y.isBroken with
    | true =>
      simp only [specT, h1, Option.any_some, hb, Bool.true_or, if_true]
      cases x with
      | none => exact ⟨.doubleFree, by simp only [stepT, step, h3, bind, Except.bind, destroy_broken (h6 hb)], .inl rfl⟩
      | some x => exact ⟨.doubleFree, by simp only [stepT, stepThrow, h3, bind, Except.bind, destroy_broken (h6 hb)], .inl rfl⟩
    | false =>
      obtain ⟨f', m, g1, g2, g3⟩ := h.stale h1 hb
      rw [h3] at g1; cases g1
      obtain ⟨z, k, k1, k2, k3, k4, k5, k6, k7⟩ := g3.look (w := w) (by simp only [EnvT.set, hl.2.2.symm, if_false]; exact hl.2.1)
      have kw : e w = some z := by simpa only [EnvT.set, hl.2.2.symm, if_false] using k1
      have kg : s.get w = .ok k := State.get_some k2
      rw [h1] at g3
      cases hz : z.isBroken with
      | true =>
        simp only [specT, h1, kw, Option.any_some, hb, hz, Bool.or_true, if_true]
        cases x with
        | none => exact ⟨.useAfterFree, by simp only [stepT, step, h3, kg, g2, bind, Except.bind, (copy_broken (k6 hz) .alloc).2.1], .inr rfl⟩
        | some x => exact ⟨.useAfterFree, by simp only [stepT, stepThrow, h3, kg, g2, bind, Except.bind, (copy_broken (k6 hz) x).1], .inr rfl⟩
      | false =>
        have hp := sim_plain h size (.assignCopyConst v w) hl (by
          simp only [Op.uses, List.mem_cons, List.not_mem_nil, or_false]
          rintro u (rfl | rfl)
          · rw [br_of e h1, hb]
          · rw [br_of e kw, hz])
        simp only [specN, kw] at hp
        obtain ⟨-, k8, k9, -⟩ := k7 hz
        simp only [specT, h1, kw, Option.any_some, hb, hz, Bool.or_self, Bool.false_eq_true, if_false]
        cases x with
        | none => exact hp
        | some x =>
          simp only [stepT, stepThrow, h3, kg, g2, bind, Except.bind, copyThrow_ok k9 k4 k8 k5 hz x, Option.any_some]
          by_cases ht : throwsCopy x (some z) = true
          · rw [if_pos ht, if_pos ht]
            exact ⟨_, rfl, g3⟩
          · rw [if_neg ht, if_neg ht]
            exact hp
  | assignCopy v w =>
    obtain ⟨y, f, h1, h2, h3, h4, h5, h6, h7⟩ := h.look hl.1
    cases hb : y.isBroken with
    | true =>
      simp only [specT, h1, Option.any_some, hb, Bool.true_or, if_true]
      cases x with
      | none => exact ⟨.doubleFree, by simp only [stepT, step, h3, bind, Except.bind, destroy_broken (h6 hb)], .inl rfl⟩
      | some x => exact ⟨.doubleFree, by simp only [stepT, stepThrow, h3, bind, Except.bind, destroy_broken (h6 hb)], .inl rfl⟩
    | false =>
      obtain ⟨f', m, g1, g2, g3⟩ := h.stale h1 hb
      rw [h3] at g1; cases g1
      obtain ⟨z, k, k1, k2, k3, k4, k5, k6, k7⟩ := g3.look (w := w) (by simp only [EnvT.set, hl.2.2.symm, if_false]; exact hl.2.1)
      have kw : e w = some z := by simpa only [EnvT.set, hl.2.2.symm, if_false] using k1
      have kg : s.get w = .ok k := State.get_some k2
      rw [h1] at g3
      cases hz : z.isBroken with
      | true =>
        simp only [specT, h1, kw, Option.any_some, hb, hz, Bool.or_true, if_true]
        cases x with
        | none => exact ⟨.useAfterFree, by simp only [stepT, step, h3, kg, g2, bind, Except.bind, (copy_broken (k6 hz) .alloc).2.2], .inr rfl⟩
        | some x => exact ⟨.useAfterFree, by simp only [stepT, stepThrow, h3, kg, g2, bind, Except.bind, (copy_broken (k6 hz) x).1], .inr rfl⟩
      | false =>
        have hp := sim_plain h size (.assignCopy v w) hl (by
          simp only [Op.uses, List.mem_cons, List.not_mem_nil, or_false]
          rintro u (rfl | rfl)
          · rw [br_of e h1, hb]
          · rw [br_of e kw, hz])
        simp only [specN, kw] at hp
        obtain ⟨-, k8, k9, -⟩ := k7 hz
        simp only [specT, h1, kw, Option.any_some, hb, hz, Bool.or_self, Bool.false_eq_true, if_false]
        cases x with
        | none => exact hp
        | some x =>
          have hwr : ¬ wrapperSize ≤ bufferSize := by decide
          simp only [stepT, stepThrow, h3, kg, g2, bind, Except.bind, copyThrow_ok k9 k4 k8 k5 hz x, Option.any_some, hwr, if_false, throwsNC z hz x]
          by_cases ht : throwsCopyNC x (some z) = true
          · rw [if_pos ht, if_pos ht]
            exact ⟨_, rfl, g3⟩
          · rw [if_neg ht, if_neg ht]
            exact hp
  | assignMove v w =>
    obtain ⟨y, f, h1, h2, h3, h4, h5, h6, h7⟩ := h.look hl.1
    cases hb : y.isBroken with
    | true =>
      simp only [specT, h1, Option.any_some, hb, Bool.true_or, if_true]
      cases x with
      | none => exact ⟨.doubleFree, by simp only [stepT, step, h3, bind, Except.bind, destroy_broken (h6 hb)], .inl rfl⟩
      | some x => exact ⟨.doubleFree, by simp only [stepT, stepThrow, h3, bind, Except.bind, destroy_broken (h6 hb)], .inl rfl⟩
    | false =>
      obtain ⟨f', m, g1, g2, g3⟩ := h.stale h1 hb
      rw [h3] at g1; cases g1
      obtain ⟨z, k, k1, k2, k3, k4, k5, k6, k7⟩ := g3.look (w := w) (by simp only [EnvT.set, hl.2.2.symm, if_false]; exact hl.2.1)
      have kw : e w = some z := by simpa only [EnvT.set, hl.2.2.symm, if_false] using k1
      have kg : s.get w = .ok k := State.get_some k2
      cases hz : z.isBroken with
      | true =>
        cases z with
        | broken i =>
          cases i with
          | true =>
            simp only [specT, h1, kw, Option.any_some, hb, Bool.false_eq_true, if_false]
            cases x with
            | none => exact ⟨.useAfterFree, by simp only [stepT, step, h3, kg, g2, bind, Except.bind, ((move_broken (k6 hz) k4 torn .alloc).1 k5).2], .inr rfl⟩
            | some x => exact ⟨.useAfterFree, by simp only [stepT, stepThrow, h3, kg, g2, bind, Except.bind, ((move_broken (k6 hz) k4 torn x).1 k5).1], .inr rfl⟩
          | false =>
            obtain ⟨s1, i1, i2⟩ := h.plain size (.assignNull v) hl.1 (by simp only [Op.uses, List.mem_singleton]; rintro u rfl; rw [br_of e h1, hb])
            have hs1 : s1 = ({ s with mem := m } : State V C).set v (some .empty) := by
              simp only [step, h3, g2, bind, Except.bind, Except.ok.injEq] at i1
              exact i1.symm
            have hk1 : s1.vars w = some k := by
              rw [hs1]; simp only [State.set, hl.2.2.symm, if_false]; exact k2
            simp only [specN] at i2
            have := i2.moveBroken hl.2.2 hk1 (by simp only [EnvT.set, hl.2.2.symm, if_false]; exact kw) (by
              refine own_some (f := .empty) ?_
              rw [hs1]
              simp [State.blankX, EnvT.br, EnvT.set, ValT.isBroken, State.set])
            rw [hs1, env_set_set'] at this
            have hss : ((({ s with mem := m } : State V C).set v (some .empty)).set v (some k)).set w (some .empty) = (({ s with mem := m } : State V C).set v (some k)).set w (some .empty) := by
              simp only [State.set, State.mk.injEq, and_true]
              funext u
              split
              · rfl
              · split <;> rfl
            rw [hss] at this
            have hst : step size s (.assignMove v w) = .ok ((({ s with mem := m } : State V C).set v (some k)).set w (some .empty)) := by
              simp only [step, h3, kg, g2, bind, Except.bind, ((move_broken (k6 hz) k4 torn .alloc).2 k5).2]
            simp only [specT, h1, kw, Option.any_some, hb, Bool.false_eq_true, if_false]
            cases x with
            | none => exact ⟨_, by simp only [stepT, hst, bind, Except.bind], this⟩
            | some x => exact ⟨_, by simp only [stepT, stepThrow, h3, kg, g2, bind, Except.bind, ((move_broken (k6 hz) k4 torn x).2 k5).1, hst], this⟩
        | empty => cases hz
        | fn c i => cases hz
        | hollow => cases hz
      | false =>
        have hp := sim_plain h size (.assignMove v w) hl (by
          simp only [Op.uses, List.mem_cons, List.not_mem_nil, or_false]
          rintro u (rfl | rfl)
          · rw [br_of e h1, hb]
          · rw [br_of e kw, hz])
        simp only [specN, kw] at hp
        obtain ⟨-, k8, k9, -⟩ := k7 hz
        cases x with
        | none =>
          have : specT size torn e none (.assignMove v w) = some ((e.set v (some z)).set w (some .empty), false) := by
            simp only [specT, h1, kw, Option.any_some, hb, Bool.false_eq_true, if_false]
            cases z with
            | broken i => cases hz
            | empty => rfl
            | hollow => rfl
            | fn c i => cases i <;> rfl
          rw [this]
          exact hp
        | some x =>
          rcases moveThrow_ok k9 k4 k8 k5 hz torn x with ⟨a, id, rfl, rfl, rfl, hm⟩ | ⟨hno, hm⟩
          · have h1' := h1
            simp only [specT, h1, kw, Option.any_some, hb, Bool.false_eq_true, if_false, stepT, stepThrow, h3, kg, g2, bind, Except.bind, hm]
            refine ⟨_, rfl, ?_⟩
            rw [h1] at g3
            exact g3.torn k2 (by simp only [EnvT.set, hl.2.2.symm, if_false]; exact kw) _
          · have : specT size torn e (some x) (.assignMove v w) = some ((e.set v (some z)).set w (some .empty), false) := by
              simp only [specT, h1, kw, Option.any_some, hb, Bool.false_eq_true, if_false]
              cases z with
              | broken i => cases hz
              | empty => rfl
              | hollow => rfl
              | fn c i =>
                cases i with
                | false => rfl
                | true => cases x with
                  | alloc => rfl
                  | callable => exact absurd rfl (hno c rfl)
            rw [this]
            simp only [stepT, stepThrow, h3, kg, g2, bind, Except.bind, hm]
            exact hp

theorem invX_start : InvX (State.start : State V C) (fun _ => none) := by
  refine ⟨?_, (fun v f x h => nomatch h), (fun v h => by simp [EnvT.br] at h)⟩
  have : State.blankX (State.start : State V C) (fun _ => none) = State.start := by
    simp only [State.blankX, State.start, State.mk.injEq, and_true]
    funext u
    simp [EnvT.br]
  rw [this]
  exact inv_start

theorem sim_run (size : C → Nat) (torn : C → C) (os : List (Op V C × Option Exc)) {s : State V C} {e : EnvT V C} (h : InvX s e) (hl : LegalRunT size torn os e) :
    (∀ e' bs, specRunT size torn os e = some (e', bs) → ∃ s', runT size torn os s = .ok (s', bs) ∧ InvX s' e') ∧
    (specRunT size torn os e = none → ∃ f, runT size torn os s = .error f ∧ (f = .doubleFree ∨ f = .useAfterFree)) := by
  induction os generalizing s e with
  | nil => exact ⟨fun e' bs h1 => by cases h1; exact ⟨s, rfl, h⟩, fun h1 => nomatch h1⟩
  | cons o os ih =>
    have hs := sim_step h size torn o.1 o.2 hl.1
    have hl2 := hl.2
    cases he : specT size torn e o.2 o.1 with
    | none =>
      rw [he] at hs
      obtain ⟨f, h1, h2⟩ := hs
      refine ⟨fun e' bs h3 => ?_, fun _ => ⟨f, ?_, h2⟩⟩
      · simp only [specRunT, he] at h3; cases h3
      · simp only [runT, h1, bind, Except.bind]
    | some r =>
      obtain ⟨e1, b⟩ := r
      rw [he] at hs hl2
      obtain ⟨s1, h1, h2⟩ := hs
      obtain ⟨h3, h4⟩ := ih h2 hl2
      refine ⟨fun e' bs h5 => ?_, fun h5 => ?_⟩
      · simp only [specRunT, he, Option.map_eq_some_iff] at h5
        obtain ⟨⟨e2, bs2⟩, h6, h7⟩ := h5
        cases h7
        obtain ⟨s2, h8, h9⟩ := h3 e2 bs2 h6
        exact ⟨s2, by simp only [runT, h1, h8, bind, Except.bind], h9⟩
      · simp only [specRunT, he, Option.map_eq_none_iff] at h5
        obtain ⟨f, h6, h7⟩ := h4 h5
        exact ⟨f, by simp only [runT, h1, h6, bind, Except.bind], h7⟩

theorem showsT_of_inv {s : State V C} {e : EnvT V C} (h : InvX s e) (v : V) : ShowsT (s.vars v) s.mem (e v) := by
  cases he : e v with
  | none =>
    have h1 := h.base.absent (v := v) (by simp [EnvT.base, he])
    have h2 : s.vars v = none := by simpa [State.blankX, EnvT.br, he] using h1
    exact h2
  | some x =>
    obtain ⟨x', f, h1, h2, -, h4, h5, h6, h7⟩ := h.look (w := v) (by simp [he])
    rw [he] at h1; cases h1
    cases x with
    | broken i =>
      obtain ⟨g1, g2⟩ := call_broken (h6 rfl)
      exact ⟨f, h2, g1, h5, g2⟩
    | empty =>
      obtain ⟨-, g1, -⟩ := h7 rfl
      have hs := isSet_abs f
      exact ⟨f, h2, by rw [g1] at hs; simpa [ValT.base] using hs⟩
    | fn c i =>
      obtain ⟨-, g1, g2, -⟩ := h7 rfl
      have hs := isSet_abs f
      exact ⟨f, h2, by rw [g1] at hs; simpa [ValT.base] using hs, h5, by rw [call_ok f _ g2, g1]; rfl⟩
    | hollow =>
      obtain ⟨-, g1, g2, -⟩ := h7 rfl
      have hs := isSet_abs f
      exact ⟨f, h2, by rw [g1] at hs; simpa [ValT.base] using hs, h5, by rw [call_ok f _ g2, g1]; rfl⟩

/-- Every callable that was stored was destroyed exactly once, or it exists and exactly one `Function` that is not broken stores it. -/
def Accounted (s : State V C) (e : EnvT V C) : Prop :=
  ∀ id, id < s.mem.next → s.mem.dead.count id = 1 ∨
    (s.mem.dead.count id = 0 ∧ ∃ v f, s.vars v = some f ∧ f.ids.count id = 1 ∧ (∀ i, e v ≠ some (.broken i)) ∧
      ∀ w g, s.vars w = some g → (∀ i, e w ≠ some (.broken i)) → id ∈ g.ids → w = v)

theorem accounted {s : State V C} {e : EnvT V C} (h : InvX s e) : Accounted s e := by
  intro id hid
  have hbr : ∀ v, e.br v = true ↔ ∃ i, e v = some (.broken i) := by
    intro v
    cases hv : e v with
    | none => simp [EnvT.br, hv]
    | some x => cases x <;> simp [EnvT.br, hv, ValT.isBroken]
  have hvars : ∀ v, (∀ i, e v ≠ some (.broken i)) → (s.blankX e).vars v = s.vars v := by
    intro v hv
    have : ¬ e.br v = true := fun h => by obtain ⟨i, hi⟩ := (hbr v).1 h; exact hv i hi
    simp [State.blankX, this]
  by_cases hd : id ∈ s.mem.dead
  · left
    have := h.base.cnt [] (by simp) id
    have hp := List.count_pos_iff.2 hd
    have h2 : (s.blankX e).mem = s.mem := rfl
    rw [h2, if_pos hid] at this
    simp at this
    omega
  · right
    refine ⟨List.count_eq_zero.2 hd, ?_⟩
    rcases h.base.cover id hid with h1 | ⟨v, hv⟩
    · exact absurd h1 hd
    · have hnb : ∀ i, e v ≠ some (.broken i) := by
        intro i hi
        have : (s.blankX e).vars v = some .empty := by simp [State.blankX, EnvT.br, hi, ValT.isBroken]
        rw [own_some this] at hv
        simp [Fn.ids] at hv
      cases hf : s.vars v with
      | none => rw [own_none (by rw [hvars v hnb, hf])] at hv; simp at hv
      | some f =>
        have hf' : (s.blankX e).vars v = some f := by rw [hvars v hnb, hf]
        rw [own_some hf'] at hv
        refine ⟨v, f, hf, ?_, hnb, fun w g hg hw hm => ?_⟩
        · have := List.count_pos_iff.2 hv
          have := List.nodup_iff_count.1 (h.base.good hf').2.1 id
          omega
        · apply Classical.byContradiction
          intro hne
          have hg' : (s.blankX e).vars w = some g := by rw [hvars w hw, hg]
          have := h.base.cnt [w, v] (by simp [hne]) id
          have h2 : (s.blankX e).mem = s.mem := rfl
          rw [h2, if_pos hid] at this
          simp only [List.flatMap_cons, List.flatMap_nil, List.append_nil, List.count_append, own_some hf', own_some hg'] at this
          have := List.count_pos_iff.2 hv
          have := List.count_pos_iff.2 hm
          omega

/-- C141, exactly what happens in every history with exceptions: either the specification has undefined behaviour, and the code then uses or destroys a callable that does not
exist; or the calls that throw are those of the specification, every `Function` shows what it says, and no callable is leaked or destroyed twice. -/
theorem C141_exact_partial (size : C → Nat) (torn : C → C) (os : List (Op V C × Option Exc)) (hl : LegalRunT size torn os (fun _ => none)) :
    (∀ e bs, specRunT size torn os (fun _ => none) = some (e, bs) →
      ∃ s, runT size torn os State.start = .ok (s, bs) ∧ (∀ v, ShowsT (s.vars v) s.mem (e v)) ∧ Accounted s e) ∧
    (specRunT size torn os (fun _ => none) = none → ∃ f, runT size torn os State.start = .error f ∧ (f = .doubleFree ∨ f = .useAfterFree)) := by
  obtain ⟨h1, h2⟩ := sim_run size torn os invX_start hl
  refine ⟨fun e bs he => ?_, h2⟩
  obtain ⟨s, h3, h4⟩ := h1 e bs he
  exact ⟨s, h3, showsT_of_inv h4, accounted h4⟩

/-- C141: whatever throws, every history that follows the rules of C51 runs without a fault. -/
def ExceptionSafe : Prop :=
  ∀ (size torn : Nat → Nat) (os : List (Op Nat Nat × Option Exc)), LegalRunT size torn os (fun _ => none) → ∃ r, runT size torn os State.start = .ok r

/-- C141 is false: `Function f(a); f = b;` where copying `b` throws; `~Function` then destroys `a` a second time. -/
theorem C141_exception_refuted : ¬ ExceptionSafe := by
  intro h
  obtain ⟨r, hr⟩ := h (fun _ => 40) id [(.ctorCallable 0 1, none), (.assignCallable 0 2, some .callable), (.dtor 0, none)]
    (by simp [LegalRunT, LegalT, specT, EnvT.set, fits, ValT.isBroken, ValT.stale])
  have : (runT (fun _ => 40) id [(.ctorCallable 0 1, none), (.assignCallable 0 2, some .callable), (.dtor 0, none)] (State.start : State Nat Nat)).toOption.isNone = true := by
    decide +kernel
  rw [hr] at this
  cases this

theorem notBroken_step {size : C → Nat} {torn : C → C} {e : EnvT V C} {o : Op V C} {x : Option Exc} (hb : ∀ v i, e v ≠ some (.broken i)) (hh : Harmless size e x o) :
    ∃ e' b, specT size torn e x o = some (e', b) ∧ ∀ v i, e' v ≠ some (.broken i) := by
  have hset : ∀ (e : EnvT V C) (v : V) (y : Option (ValT C)), (∀ v i, e v ≠ some (.broken i)) → (∀ i, y ≠ some (.broken i)) → ∀ u i, (e.set v y) u ≠ some (.broken i) := by
    intro e v y h1 h2 u i
    simp only [EnvT.set]
    split
    · exact h2 i
    · exact h1 u i
  have hbr : ∀ v, (e v).any ValT.isBroken = false := by
    intro v
    cases hv : e v with
    | none => rfl
    | some y =>
      cases y with
      | broken i => exact absurd hv (hb v i)
      | _ => rfl
  have hcop : ∀ (y : Option (ValT C)) i, y.map ValT.copied ≠ some (.broken i) := by
    intro y i
    cases y with
    | none => simp
    | some y => cases y <;> simp [ValT.copied]
  cases o with
  | ctorNull v => exact ⟨_, _, rfl, hset _ _ _ hb (by simp)⟩
  | ctorCallable v c =>
    simp only [specT]
    split
    · exact ⟨_, _, rfl, hb⟩
    · exact ⟨_, _, rfl, hset _ _ _ hb (by simp)⟩
  | ctorCopyConst v w =>
    simp only [specT, hbr, Bool.false_eq_true, if_false]
    split
    · exact ⟨_, _, rfl, hb⟩
    · exact ⟨_, _, rfl, hset _ _ _ hb (hb w)⟩
  | ctorCopy v w =>
    simp only [specT, hbr, Bool.false_eq_true, if_false]
    split
    · exact ⟨_, _, rfl, hb⟩
    · exact ⟨_, _, rfl, hset _ _ _ hb (hcop _)⟩
  | ctorMove v w =>
    simp only [specT]
    split
    · rename_i hw; exact absurd hw (hb w true)
    · exact ⟨_, _, rfl, hset _ _ _ hb (by simp)⟩
    · exact ⟨_, _, rfl, hset _ _ _ (hset _ _ _ hb (hb w)) (by simp)⟩
  | dtor v =>
    simp only [specT, hbr, Bool.false_eq_true, if_false]
    exact ⟨_, _, rfl, hset _ _ _ hb (by simp)⟩
  | assignNull v =>
    simp only [specT, hbr, Bool.false_eq_true, if_false]
    exact ⟨_, _, rfl, hset _ _ _ hb (by simp)⟩
  | assignCallable v c =>
    simp only [specT, hbr, Bool.false_eq_true, if_false]
    simp only [Harmless] at hh
    by_cases hf : fits size c = true
    · rw [if_pos hf] at hh ⊢
      rw [if_neg hh]
      exact ⟨_, _, rfl, hset _ _ _ hb (by simp)⟩
    · rw [if_neg hf] at hh ⊢
      split
      · rename_i hx
        rcases hh with h | h
        · exact absurd h hx
        · rw [h]; exact ⟨_, _, rfl, hset _ _ _ hb (by simp [ValT.stale])⟩
      · exact ⟨_, _, rfl, hset _ _ _ hb (by simp)⟩
  | assignCopyConst v w =>
    simp only [specT, hbr, Bool.or_self, Bool.false_eq_true, if_false]
    simp only [Harmless] at hh
    split
    · rename_i hx
      rcases hh with h | h
      · rw [h] at hx; cases hx
      · rw [h]; exact ⟨_, _, rfl, hset _ _ _ hb (by simp [ValT.stale])⟩
    · exact ⟨_, _, rfl, hset _ _ _ hb (hb w)⟩
  | assignCopy v w =>
    simp only [specT, hbr, Bool.or_self, Bool.false_eq_true, if_false]
    simp only [Harmless] at hh
    split
    · rename_i hx
      rcases hh with h | h
      · rw [h] at hx; cases hx
      · rw [h]; exact ⟨_, _, rfl, hset _ _ _ hb (by simp [ValT.stale])⟩
    · exact ⟨_, _, rfl, hset _ _ _ hb (hcop _)⟩
  | assignMove v w =>
    simp only [specT, hbr, Bool.false_eq_true, if_false]
    simp only [Harmless] at hh
    split
    · rename_i hw; exact absurd hw (hb w true)
    · rename_i c hw
      rcases hh with h | h
      · exact absurd rfl (h c hw)
      · rw [h]; exact ⟨_, _, rfl, hset _ _ _ (hset _ _ _ hb (by simp [ValT.stale])) (by simp)⟩
    · exact ⟨_, _, rfl, hset _ _ _ (hset _ _ _ hb (hb w)) (by simp)⟩

/-- C141, what is safe: if assignments throw only onto an empty `Function`, and not when given a callable that is stored inline, then nothing goes wrong in any history: no call
touches a callable that does not exist, every `Function` is empty or has its callable, and none is leaked or destroyed twice. -/
theorem C141_safe_partial (size : C → Nat) (torn : C → C) (os : List (Op V C × Option Exc)) (hl : LegalRunT size torn os (fun _ => none))
    (hh : HarmlessRun size torn os (fun _ => none)) :
    ∃ e bs s, specRunT size torn os (fun _ => none) = some (e, bs) ∧ runT size torn os State.start = .ok (s, bs) ∧ (∀ v, ShowsT (s.vars v) s.mem (e v)) ∧
      (∀ v i, e v ≠ some (.broken i)) ∧ Accounted s e ∧ ((∀ v, e v = none) → ∀ id, id < s.mem.next → s.mem.dead.count id = 1) := by
  have key : ∀ (os : List (Op V C × Option Exc)) (e : EnvT V C), (∀ v i, e v ≠ some (.broken i)) → HarmlessRun size torn os e →
      ∃ e' bs, specRunT size torn os e = some (e', bs) ∧ ∀ v i, e' v ≠ some (.broken i) := by
    intro os
    induction os with
    | nil => intro e hb _; exact ⟨e, [], rfl, hb⟩
    | cons o os ih =>
      intro e hb hh
      obtain ⟨e1, b, h1, h2⟩ := notBroken_step (torn := torn) hb hh.1
      have hh2 := hh.2
      rw [h1] at hh2
      obtain ⟨e2, bs, h3, h4⟩ := ih e1 h2 hh2
      exact ⟨e2, b :: bs, by simp only [specRunT, h1, h3, Option.map_some], h4⟩
  obtain ⟨e, bs, he, hb⟩ := key os _ (by simp) hh
  obtain ⟨s, h1, h2, h3⟩ := (C141_exact_partial size torn os hl).1 e bs he
  refine ⟨e, bs, s, he, h1, h2, hb, h3, fun hall id hid => ?_⟩
  rcases h3 id hid with h | ⟨-, v, f, hf, -⟩
  · exact h
  · have := h2 v
    rw [hall v] at this
    simp only [ShowsT] at this
    rw [hf] at this
    cases this

-- a history of the last theorem: an inline callable 1 and a heap one 2; six calls throw, among them an assignment to an empty `Function`
def throwOps : List (Op Nat Nat × Option Exc) :=
  [(.ctorCallable 0 1, some .callable), (.ctorCallable 0 1, some .alloc), (.ctorCallable 1 2, some .alloc), (.ctorCallable 1 2, none), (.ctorCopyConst 2 0, some .callable),
   (.ctorCopy 2 1, some .alloc), (.ctorMove 2 0, some .callable), (.ctorNull 3, some .alloc), (.assignCopyConst 3 1, some .callable), (.assignMove 3 1, some .callable)]

example : (specRunT demoSize (· + 10) throwOps (fun _ => none)).map (fun r => ([r.1 0, r.1 1, r.1 2, r.1 3], r.2)) =
    some ([some (.fn 11 true), some .empty, none, some (.fn 2 false)], [true, false, true, false, true, true, true, false, true, false]) := by decide +kernel

example : LegalRunT demoSize (· + 10) throwOps (fun _ => none) ∧ HarmlessRun demoSize (· + 10) throwOps (fun _ => none) := by
  simp [throwOps, LegalRunT, HarmlessRun, LegalT, Harmless, specT, EnvT.set, fits, demoSize, throwsCopy, throwsCopyNC, ValT.isBroken, ValT.stale]

-- and a history after which a `Function` is broken, although nothing has faulted yet
example : (specRunT demoSize (· + 10) [(.ctorCallable 0 2, none), (.assignCallable 0 1, some .callable), (.ctorCallable 1 2, none), (.assignCallable 1 3, some .alloc), (.ctorMove 2 1, none)]
    (fun _ => none : EnvT Nat Nat)).map (fun r => (r.1 0, r.1 1, r.1 2)) = some (some (.broken true), some .empty, some (.broken false)) := by decide +kernel

end Verif.Function
