import Verif.Maybe.SpecThrows
import Verif.Maybe.Props
/-!
# C139: `ke::Maybe` when constructors throw
-/
namespace Verif.Maybe
open Verif

set_option linter.unusedSectionVars false
variable {V A : Type} [DecidableEq V]

/-- What a client sees of one variable: as `Shows`; a broken one says it is valid, and reading it is a use of a destroyed object. -/
def ShowsT (x : Option (Obj A)) (m : Mem) : Option (Val A) → Prop
  | none => x = none
  | some .nothing => ∃ o, x = some o ∧ o.init = false ∧ get o m = .error .assertFail
  | some (.value a) => ∃ o, x = some o ∧ o.init = true ∧ get o m = .ok a
  | some .broken => ∃ o, x = some o ∧ o.init = true ∧ get o m = .error .useAfterFree

def RepT (m : Mem) (x : Option (Obj A)) : Option (Val A) → Prop
  | none => x = none
  | some .nothing => ∃ o, x = some o ∧ o.init = false
  | some (.value a) => ∃ id, x = some { init := true, buf := some (id, a) } ∧ id ∉ m.dead ∧ id < m.next
  | some .broken => ∃ id a, x = some { init := true, buf := some (id, a) } ∧ id ∈ m.dead ∧ id < m.next

structure InvT (s : State V A) (e : EnvT V A) : Prop where
  rep : ∀ v, RepT s.mem (s.vars v) (e v)
  inj : ∀ v w id a b, s.vars v = some ⟨true, some (id, a)⟩ → s.vars w = some ⟨true, some (id, b)⟩ → v = w
  lt : ∀ id ∈ s.mem.dead, id < s.mem.next

theorem InvT.bound {s : State V A} {e : EnvT V A} (h : InvT s e) {v : V} {id : Nat} {a : A} (hv : s.vars v = some ⟨true, some (id, a)⟩) : id < s.mem.next := by
  have := h.rep v
  rw [hv] at this
  cases he : e v with
  | none => rw [he] at this; cases this
  | some x =>
    rw [he] at this
    cases x with
    | nothing => obtain ⟨o, h1, h2⟩ := this; cases h1; cases h2
    | value b => obtain ⟨id', h1, -, h2⟩ := this; cases h1; exact h2
    | broken => obtain ⟨id', b, h1, -, h2⟩ := this; cases h1; exact h2

/-- One variable changes, and at most its old value is destroyed. -/
theorem InvT.upd {s : State V A} {e : EnvT V A} (h : InvT s e) (v : V) (x : Option (Obj A)) (y : Option (Val A)) (m : Mem)
    (hr : RepT m x y) (hn : s.mem.next ≤ m.next) (hlt : ∀ id ∈ m.dead, id < m.next)
    (hd : ∀ id ∈ s.mem.dead, id ∈ m.dead)
    (hd' : ∀ id ∈ m.dead, id ∈ s.mem.dead ∨ ∃ a, s.vars v = some ⟨true, some (id, a)⟩)
    (hx : ∀ id a, x = some ⟨true, some (id, a)⟩ → (∃ b, s.vars v = some ⟨true, some (id, b)⟩) ∨ s.mem.next ≤ id) :
    InvT (({ s with mem := m } : State V A).set v x) (e.set v y) := by
  refine ⟨fun u => ?_, fun u w id a b h1 h2 => ?_, hlt⟩
  · simp only [State.set, EnvT.set]
    split
    · exact hr
    · rename_i hne
      have := h.rep u
      cases he : e u with
      | none => rw [he] at this; exact this
      | some z =>
        rw [he] at this
        cases z with
        | nothing => exact this
        | value b =>
          obtain ⟨id, h1, h2, h3⟩ := this
          refine ⟨id, h1, fun hm => ?_, by omega⟩
          rcases hd' id hm with h4 | ⟨c, h4⟩
          · exact h2 h4
          · exact hne (h.inj u v id b c h1 h4)
        | broken =>
          obtain ⟨id, b, h1, h2, h3⟩ := this
          exact ⟨id, b, h1, hd id h2, by omega⟩
  · simp only [State.set] at h1 h2
    split at h1 <;> split at h2
    · simp_all
    · rename_i hu hw
      rcases hx _ _ h1 with ⟨c, h3⟩ | h3
      · exact absurd (h.inj v w id c b h3 h2).symm hw
      · exact absurd (h.bound h2) (by omega)
    · rename_i hu hw
      rcases hx _ _ h2 with ⟨c, h3⟩ | h3
      · exact absurd (h.inj v u id c a h3 h1).symm hu
      · exact absurd (h.bound h1) (by omega)
    · exact h.inj u w id a b h1 h2

theorem InvT.toNothing {s : State V A} {e : EnvT V A} (h : InvT s e) (v : V) (o : Obj A) (ho : o.init = false) : InvT (s.set v (some o)) (e.set v (some .nothing)) :=
  h.upd v (some o) (some .nothing) s.mem ⟨o, rfl, ho⟩ (Nat.le_refl _) h.lt (fun _ h => h) (fun _ h => .inl h) (by
    intro id a hx
    cases hx
    cases ho)

theorem InvT.toValue {s : State V A} {e : EnvT V A} (h : InvT s e) (v : V) (a : A) :
    InvT (({ s with mem := (construct s.mem a).2 } : State V A).set v (some (construct s.mem a).1)) (e.set v (some (.value a))) :=
  h.upd v _ _ _ ⟨s.mem.next, rfl, fun hm => absurd (h.lt _ hm) (by omega), by simp [construct]⟩ (by simp [construct])
    (fun id hm => by have := h.lt id hm; simp only [construct]; omega) (fun _ h => h) (fun _ h => .inl h) (by
      intro id b hx
      simp only [construct, Option.some.injEq, Obj.mk.injEq, Prod.mk.injEq, true_and] at hx
      exact .inr (by omega))

/-- `clearFor` on a variable that is not broken. -/
theorem InvT.clear {s : State V A} {e : EnvT V A} (h : InvT s e) {v : V} {x : Val A} (hv : e v = some x) :
    ∃ o, s.lookup v = .ok o ∧ s.vars v = some o ∧
      match x with
      | .broken => clearFor o s.mem = .error .doubleFree
      | .nothing => o.init = false ∧ clearFor o s.mem = .ok s.mem
      | .value _ => ∃ m, clearFor o s.mem = .ok m ∧ m.next = s.mem.next ∧ InvT { s with mem := m } (e.set v (some .broken)) := by
  have hr := h.rep v
  rw [hv] at hr
  cases x with
  | nothing =>
    obtain ⟨o, h1, h2⟩ := hr
    exact ⟨o, by simp [State.lookup, h1], h1, h2, by simp [clearFor, h2]⟩
  | broken =>
    obtain ⟨id, a, h1, h2, -⟩ := hr
    exact ⟨_, by simp [State.lookup, h1], h1, by simp [clearFor, destroyBuf, h2]⟩
  | value a =>
    obtain ⟨id, h1, h2, h3⟩ := hr
    refine ⟨_, by simp [State.lookup, h1], h1, { s.mem with dead := id :: s.mem.dead }, by simp [clearFor, destroyBuf, h2], rfl, ?_⟩
    have := h.upd v (s.vars v) (some .broken) { s.mem with dead := id :: s.mem.dead } ⟨id, a, h1, by simp, h3⟩ (Nat.le_refl _)
      (by intro i hi; rcases List.mem_cons.1 hi with rfl | hi <;> first | exact h3 | exact h.lt i hi) (fun i hi => List.mem_cons_of_mem _ hi)
      (by intro i hi; rcases List.mem_cons.1 hi with rfl | hi <;> first | exact .inl hi | exact .inr ⟨a, h1⟩) (fun i b hb => .inl ⟨b, hb⟩)
    have hs : (({ s with mem := { s.mem with dead := id :: s.mem.dead } } : State V A).set v (s.vars v)) = { s with mem := { s.mem with dead := id :: s.mem.dead } } := by
      simp only [State.set]
      congr 1
      funext u
      split
      · rename_i hu; rw [hu]
      · rfl
    rwa [hs] at this

theorem InvT.read {s : State V A} {e : EnvT V A} (h : InvT s e) {v : V} {x : Val A} (hv : e v = some x) :
    ∃ o, s.lookup v = .ok o ∧ s.vars v = some o ∧ o.init = x.valid ∧
      match x with
      | .broken => readBuf o s.mem = .error .useAfterFree
      | .nothing => True
      | .value a => readBuf o s.mem = .ok a ∧ ∃ id, o = ⟨true, some (id, a)⟩ ∧ id ∉ s.mem.dead ∧ id < s.mem.next := by
  have hr := h.rep v
  rw [hv] at hr
  cases x with
  | nothing =>
    obtain ⟨o, h1, h2⟩ := hr
    exact ⟨o, by simp [State.lookup, h1], h1, h2, trivial⟩
  | broken =>
    obtain ⟨id, a, h1, h2, -⟩ := hr
    exact ⟨_, by simp [State.lookup, h1], h1, rfl, by simp [readBuf, h2]⟩
  | value a =>
    obtain ⟨id, h1, h2, h3⟩ := hr
    exact ⟨_, by simp [State.lookup, h1], h1, rfl, by simp [readBuf, h2], id, rfl, h2, h3⟩

theorem lookup_set_ne (s : State V A) {v w : V} (x : Option (Obj A)) (h : w ≠ v) : (s.set v x).lookup w = s.lookup w := by
  simp [State.lookup, State.set, h]

/-- The result of a call as the specification wants it. -/
def Sim (r : Exec (State V A × Bool)) (b : Bool) : Option (EnvT V A) → Prop
  | some e' => ∃ s', r = .ok (s', b) ∧ InvT s' e'
  | none => ∃ f, r = .error f ∧ (f = .doubleFree ∨ f = .useAfterFree)

theorem sim_init {s : State V A} {e : EnvT V A} (h : InvT s e) (moved torn : A → A) (v : V) (a : A) (t : Bool) (hv : e v ≠ none) :
    Sim (stepT moved torn s (.init v a) t) (t && builds e (.init v a)) (specT torn e t (.init v a)) := by
  obtain ⟨x, hx⟩ := Option.ne_none_iff_exists'.1 hv
  obtain ⟨o, h1, h2, h3⟩ := h.clear hx
  cases x with
  | broken =>
    simp only at h3
    cases t <;> simp [stepT, stepThrow, step, h1, h3, bind, Except.bind, specT, hx, Sim]
  | nothing =>
    obtain ⟨h4, h5⟩ := h3
    cases t with
    | true =>
      simp only [stepT, stepThrow, h1, h5, bind, Except.bind, specT, hx, if_true, Sim, builds]
      refine ⟨_, rfl, ?_⟩
      have := h.toNothing v o h4
      have hs : s.set v (some o) = s := by
        simp only [State.set]
        congr 1
        funext u
        split
        · rename_i hu; rw [hu, h2]
        · rfl
      rwa [hs] at this
    | false =>
      simp only [stepT, step, h1, h5, bind, Except.bind, specT, hx, Sim]
      exact ⟨_, rfl, h.toValue v a⟩
  | value b =>
    obtain ⟨m, h4, h5, h6⟩ := h3
    cases t with
    | true =>
      simp only [stepT, stepThrow, h1, h4, bind, Except.bind, specT, hx, if_true, Sim, builds]
      exact ⟨_, rfl, h6⟩
    | false =>
      simp only [stepT, step, h1, h4, bind, Except.bind, specT, hx, Sim]
      refine ⟨_, rfl, ?_⟩
      have := h6.toValue v a
      have he : (e.set v (some .broken)).set v (some (.value a)) = e.set v (some (.value a)) := by
        funext u
        simp only [EnvT.set]
        split <;> rfl
      rwa [he] at this

theorem envT_set_set (e : EnvT V A) (v : V) (x y : Option (Val A)) : (e.set v x).set v y = e.set v y := by
  funext u
  simp only [EnvT.set]
  split <;> rfl

theorem set_eq (s : State V A) {v : V} {o : Obj A} (h : s.vars v = some o) : s.set v (some o) = s := by
  simp only [State.set]
  congr 1
  funext u
  split
  · rename_i hu; rw [hu, h]
  · rfl

theorem sim_initFrom {s : State V A} {e : EnvT V A} (h : InvT s e) (moved torn : A → A) (v w : V) (t : Bool) (hv : e v ≠ none)
    (hw : (e w).any Val.valid = true) (hne : v ≠ w) :
    Sim (stepT moved torn s (.initFrom v w) t) (t && builds e (.initFrom v w)) (specT torn e t (.initFrom v w)) := by
  obtain ⟨x, hx⟩ := Option.ne_none_iff_exists'.1 hv
  obtain ⟨y, hy⟩ : ∃ y, e w = some y := by
    cases hy : e w with
    | none => rw [hy] at hw; cases hw
    | some y => exact ⟨y, rfl⟩
  obtain ⟨o, h1, h2, h3⟩ := h.clear hx
  obtain ⟨p, p1, p2, p3, p4⟩ := h.read hy
  cases y with
  | nothing => rw [hy] at hw; cases hw
  | broken =>
    simp only [Val.valid] at p3
    simp only at p4
    cases t <;> simp [stepT, stepThrow, step, h1, p1, get, p3, p4, bind, Except.bind, specT, hy, Sim]
  | value a =>
    obtain ⟨p5, id, rfl, p6, p7⟩ := p4
    cases x with
    | broken =>
      simp only at h3
      cases t <;> simp [stepT, stepThrow, step, h1, h3, p1, get, p5, bind, Except.bind, specT, hx, hy, Sim]
    | nothing =>
      obtain ⟨h4, h5⟩ := h3
      cases t with
      | true =>
        simp only [stepT, stepThrow, h1, h5, p1, get, p5, bind, Except.bind, specT, hx, hy, if_true, Sim, builds]
        refine ⟨_, rfl, ?_⟩
        have := h.toNothing v o h4
        rwa [set_eq s h2] at this
      | false =>
        simp only [stepT, step, h1, h5, p1, get, p5, bind, Except.bind, specT, hx, hy, Sim, if_true]
        exact ⟨_, rfl, h.toValue v a⟩
    | value b =>
      obtain ⟨m, h4, h5, h6⟩ := h3
      have hy' : (e.set v (some .broken)) w = some (.value a) := by simp only [EnvT.set]; rw [if_neg (Ne.symm hne), hy]
      obtain ⟨q, q1, q2, q3, q4, -⟩ := h6.read hy'
      have hq : q = ⟨true, some (id, a)⟩ := by
        have : s.vars w = some q := q2
        rw [p2] at this
        exact (Option.some.inj this).symm
      subst hq
      simp only at q4
      cases t with
      | true =>
        simp only [stepT, stepThrow, h1, h4, p1, get, p5, q4, bind, Except.bind, specT, hx, hy, if_true, Sim, builds]
        exact ⟨_, rfl, h6⟩
      | false =>
        simp only [stepT, step, h1, h4, p1, get, p5, q4, bind, Except.bind, specT, hx, hy, Sim, if_true]
        refine ⟨_, rfl, ?_⟩
        have := h6.toValue v a
        rwa [envT_set_set] at this

theorem InvT.torn {s : State V A} {e : EnvT V A} (h : InvT s e) {w : V} {id : Nat} {a : A} (hs : s.vars w = some ⟨true, some (id, a)⟩)
    (hd : id ∉ s.mem.dead) (b : A) : InvT (s.set w (some ⟨true, some (id, b)⟩)) (e.set w (some (.value b))) :=
  h.upd w _ _ s.mem ⟨id, rfl, hd, h.bound hs⟩ (Nat.le_refl _) h.lt (fun _ h => h) (fun _ h => .inl h) (by
    intro i c hx
    simp only [Option.some.injEq, Obj.mk.injEq, Prod.mk.injEq, true_and] at hx
    obtain ⟨rfl, rfl⟩ := hx
    exact .inl ⟨a, hs⟩)

/-- `copyFrom` to a variable whose `initialized_` is false. -/
theorem sim_copy {s : State V A} {e : EnvT V A} (h : InvT s e) {v w : V} {y : Val A} (hy : e w = some y) (hv : e v = some .nothing) :
    match y with
    | .nothing => copyFrom s v w = .ok s
    | .broken => copyFrom s v w = .error .useAfterFree
    | .value a => ∃ s', copyFrom s v w = .ok s' ∧ InvT s' (e.set v (some (.value a))) := by
  obtain ⟨p, p1, p2, p3, p4⟩ := h.read hy
  cases y with
  | nothing => simp only [Val.valid] at p3; simp [copyFrom, p1, p3, bind, Except.bind]
  | broken => simp only [Val.valid] at p3; simp only at p4; simp [copyFrom, p1, p3, p4, bind, Except.bind]
  | value a =>
    obtain ⟨p5, id, rfl, p6, p7⟩ := p4
    simp only [copyFrom, p1, p5, bind, Except.bind, if_true]
    exact ⟨_, rfl, h.toValue v a⟩

theorem sim_move {s : State V A} {e : EnvT V A} (h : InvT s e) (moved : A → A) {v w : V} {y : Val A} (hy : e w = some y) (hv : e v = some .nothing) :
    match y with
    | .nothing => moveFrom moved s v w = .ok s
    | .broken => moveFrom moved s v w = .error .useAfterFree
    | .value a => ∃ s', moveFrom moved s v w = .ok s' ∧ InvT s' ((e.set v (some (.value a))).set w (some .nothing)) := by
  obtain ⟨p, p1, p2, p3, p4⟩ := h.read hy
  cases y with
  | nothing => simp only [Val.valid] at p3; simp [moveFrom, p1, p3, bind, Except.bind]
  | broken => simp only [Val.valid] at p3; simp only at p4; simp [moveFrom, p1, p3, p4, bind, Except.bind]
  | value a =>
    obtain ⟨p5, id, rfl, p6, p7⟩ := p4
    simp only [moveFrom, p1, p5, bind, Except.bind, if_true]
    exact ⟨_, rfl, (h.toValue v a).toNothing w _ rfl⟩

theorem sim_step {s : State V A} {e : EnvT V A} (h : InvT s e) (moved torn : A → A) (o : Op V A) (t : Bool) (hl : LegalT e o) :
    Sim (stepT moved torn s o t) (t && builds e o) (specT torn e t o) := by
  cases o with
  | init v a => exact sim_init h moved torn v a t hl
  | initFrom v w => exact sim_initFrom h moved torn v w t hl.1 hl.2.1 hl.2.2
  | ctorNothing v =>
    have := h.toNothing v ⟨false, none⟩ rfl
    cases t <;> exact ⟨_, rfl, this⟩
  | dtor v =>
    obtain ⟨x, hx⟩ := Option.ne_none_iff_exists'.1 hl
    obtain ⟨o, h1, h2, h3⟩ := h.clear hx
    have hdel : ∀ {s : State V A} {e : EnvT V A}, InvT s e → InvT (s.set v none) (e.set v none) := fun {s e} h =>
      h.upd v none none s.mem rfl (Nat.le_refl _) h.lt (fun _ h => h) (fun _ h => .inl h) (by intro id a hx; cases hx)
    cases x with
    | broken => simp only at h3; cases t <;> simp [stepT, stepThrow, step, h1, h3, bind, Except.bind, specT, hx, Sim]
    | nothing =>
      obtain ⟨h4, h5⟩ := h3
      cases t <;> simp only [stepT, stepThrow, step, h1, h5, bind, Except.bind, specT, hx, Sim, builds, if_true, Bool.and_false] <;> exact ⟨_, rfl, hdel h⟩
    | value a =>
      obtain ⟨m, h4, h5, h6⟩ := h3
      have := hdel h6
      rw [envT_set_set] at this
      cases t <;> simp only [stepT, stepThrow, step, h1, h4, bind, Except.bind, specT, hx, Sim, builds, if_true, Bool.and_false] <;> exact ⟨_, rfl, this⟩
  | ctorCopy v w =>
    obtain ⟨y, hy⟩ := Option.ne_none_iff_exists'.1 hl.2
    have hne : w ≠ v := fun hh => by rw [hh, hl.1] at hy; cases hy
    obtain ⟨p, p1, p2, p3, p4⟩ := h.read hy
    have h0 := h.toNothing v ⟨false, none⟩ rfl
    have hy' : (e.set v (some .nothing)) w = some y := by simp only [EnvT.set]; rw [if_neg hne, hy]
    have hs := sim_copy h0 hy' (v := v) (by simp [EnvT.set])
    cases y with
    | broken =>
      simp only [Val.valid] at p3; simp only at p4 hs
      cases t <;> simp [stepT, stepThrow, step, p1, p3, p4, hs, bind, Except.bind, specT, hy, Sim]
    | nothing =>
      simp only [Val.valid] at p3; simp only at hs
      cases t <;> simp only [stepT, stepThrow, step, p1, p3, hs, bind, Except.bind, specT, hy, Sim, builds, if_true, Bool.false_eq_true, if_false, Bool.false_and, Bool.true_and, Option.any_some, Val.valid] <;> exact ⟨_, rfl, h0⟩
    | value a =>
      obtain ⟨p5, id, rfl, p6, p7⟩ := p4
      obtain ⟨s', h5, h6⟩ := hs
      rw [envT_set_set] at h6
      cases t with
      | true =>
        simp only [stepT, stepThrow, p1, p5, bind, Except.bind, specT, hy, Sim, builds, if_true, Bool.true_and, Option.any_some, Val.valid]
        exact ⟨_, rfl, h⟩
      | false =>
        simp only [stepT, step, h5, bind, Except.bind, specT, hy, Sim]
        exact ⟨_, rfl, h6⟩
  | ctorMove v w =>
    obtain ⟨y, hy⟩ := Option.ne_none_iff_exists'.1 hl.2
    have hne : w ≠ v := fun hh => by rw [hh, hl.1] at hy; cases hy
    obtain ⟨p, p1, p2, p3, p4⟩ := h.read hy
    have h0 := h.toNothing v ⟨false, none⟩ rfl
    have hy' : (e.set v (some .nothing)) w = some y := by simp only [EnvT.set]; rw [if_neg hne, hy]
    have hs := sim_move h0 moved hy' (v := v) (by simp [EnvT.set])
    cases y with
    | broken =>
      simp only [Val.valid] at p3; simp only at p4 hs
      cases t <;> simp [stepT, stepThrow, step, p1, p3, p4, hs, bind, Except.bind, specT, hy, Sim]
    | nothing =>
      simp only [Val.valid] at p3; simp only at hs
      cases t <;> simp only [stepT, stepThrow, step, p1, p3, hs, bind, Except.bind, specT, hy, Sim, builds, if_true, Bool.false_eq_true, if_false, Bool.false_and, Bool.true_and, Option.any_some, Val.valid] <;> exact ⟨_, rfl, h0⟩
    | value a =>
      obtain ⟨p5, id, rfl, p6, p7⟩ := p4
      obtain ⟨s', h5, h6⟩ := hs
      rw [envT_set_set] at h6
      cases t with
      | true =>
        simp only [stepT, stepThrow, p1, p5, bind, Except.bind, specT, hy, Sim, builds, if_true, Bool.true_and, Option.any_some, Val.valid]
        exact ⟨_, rfl, h.torn p2 p6 _⟩
      | false =>
        simp only [stepT, step, h5, bind, Except.bind, specT, hy, Sim]
        exact ⟨_, rfl, h6⟩
  | assignCopy v w =>
    obtain ⟨hv, hw, hvw⟩ := hl
    have hne : w ≠ v := Ne.symm hvw
    obtain ⟨x, hx⟩ := Option.ne_none_iff_exists'.1 hv
    obtain ⟨y, hy⟩ := Option.ne_none_iff_exists'.1 hw
    obtain ⟨o, h1, -, -⟩ := h.clear hx
    obtain ⟨p, p1, p2, p3, p4⟩ := h.read hy
    have h0 := h.toNothing v { o with init := false } rfl
    have hy' : (e.set v (some .nothing)) w = some y := by simp only [EnvT.set]; rw [if_neg hne, hy]
    have hs := sim_copy h0 hy' (v := v) (by simp [EnvT.set])
    have hlk : (s.set v (some { o with init := false })).lookup w = .ok p := by rw [lookup_set_ne _ _ hne, p1]
    have hmem : (s.set v (some { o with init := false })).mem = s.mem := rfl
    cases y with
    | broken =>
      simp only [Val.valid] at p3; simp only at p4 hs
      cases t <;> simp [stepT, stepThrow, step, h1, hlk, hmem, p3, p4, hs, bind, Except.bind, specT, hy, Sim]
    | nothing =>
      simp only [Val.valid] at p3; simp only at hs
      cases t <;> simp only [stepT, stepThrow, step, h1, hlk, p3, hs, bind, Except.bind, specT, hy, Sim, builds, if_true, Bool.false_eq_true, if_false, Bool.false_and, Bool.true_and, Option.any_some, Val.valid] <;> exact ⟨_, rfl, h0⟩
    | value a =>
      obtain ⟨p5, id, rfl, p6, p7⟩ := p4
      obtain ⟨s', h5, h6⟩ := hs
      rw [envT_set_set] at h6
      cases t with
      | true =>
        simp only [stepT, stepThrow, h1, hlk, hmem, p5, bind, Except.bind, specT, hy, Sim, builds, if_true, Bool.true_and, Option.any_some, Val.valid]
        exact ⟨_, rfl, h0⟩
      | false =>
        simp only [stepT, step, h1, h5, bind, Except.bind, specT, hy, Sim]
        exact ⟨_, rfl, h6⟩
  | assignMove v w =>
    obtain ⟨hv, hw, hvw⟩ := hl
    have hne : w ≠ v := Ne.symm hvw
    obtain ⟨x, hx⟩ := Option.ne_none_iff_exists'.1 hv
    obtain ⟨y, hy⟩ := Option.ne_none_iff_exists'.1 hw
    obtain ⟨o, h1, -, -⟩ := h.clear hx
    obtain ⟨p, p1, p2, p3, p4⟩ := h.read hy
    have h0 := h.toNothing v { o with init := false } rfl
    have hy' : (e.set v (some .nothing)) w = some y := by simp only [EnvT.set]; rw [if_neg hne, hy]
    have hs := sim_move h0 moved hy' (v := v) (by simp [EnvT.set])
    have hlk : (s.set v (some { o with init := false })).lookup w = .ok p := by rw [lookup_set_ne _ _ hne, p1]
    have hmem : (s.set v (some { o with init := false })).mem = s.mem := rfl
    cases y with
    | broken =>
      simp only [Val.valid] at p3; simp only at p4 hs
      cases t <;> simp [stepT, stepThrow, step, h1, hlk, hmem, p3, p4, hs, bind, Except.bind, specT, hy, Sim]
    | nothing =>
      simp only [Val.valid] at p3; simp only at hs
      cases t <;> simp only [stepT, stepThrow, step, h1, hlk, p3, hs, bind, Except.bind, specT, hy, Sim, builds, if_true, Bool.false_eq_true, if_false, Bool.false_and, Bool.true_and, Option.any_some, Val.valid] <;> exact ⟨_, rfl, h0⟩
    | value a =>
      obtain ⟨p5, id, rfl, p6, p7⟩ := p4
      obtain ⟨s', h5, h6⟩ := hs
      rw [envT_set_set] at h6
      cases t with
      | true =>
        simp only [stepT, stepThrow, h1, hlk, hmem, p5, bind, Except.bind, specT, hy, Sim, builds, if_true, Bool.true_and, Option.any_some, Val.valid]
        refine ⟨_, rfl, h0.torn (w := w) (id := id) (a := a) ?_ p6 _⟩
        simp only [State.set]; rw [if_neg hne, p2]
      | false =>
        simp only [stepT, step, h1, h5, bind, Except.bind, specT, hy, Sim]
        exact ⟨_, rfl, h6⟩

theorem invT_start : InvT (State.start : State V A) (fun _ => none) :=
  ⟨fun _ => rfl, (fun v w id a b h => nomatch h), (fun id h => nomatch h)⟩

theorem showsT_of_inv {s : State V A} {e : EnvT V A} (h : InvT s e) (v : V) : ShowsT (s.vars v) s.mem (e v) := by
  have := h.rep v
  cases he : e v with
  | none => rw [he] at this; exact this
  | some x =>
    rw [he] at this
    cases x with
    | nothing => obtain ⟨o, h1, h2⟩ := this; exact ⟨o, h1, h2, by simp [get, h2]⟩
    | value a => obtain ⟨id, h1, h2, -⟩ := this; exact ⟨_, h1, rfl, by simp [get, readBuf, h2]⟩
    | broken => obtain ⟨id, a, h1, h2, -⟩ := this; exact ⟨_, h1, rfl, by simp [get, readBuf, h2]⟩

theorem sim_run (moved torn : A → A) : ∀ (os : List (Op V A × Bool)) {s : State V A} {e : EnvT V A}, InvT s e → LegalRunT torn os e →
    (∀ e', specRunT torn os e = some e' → ∃ s', runT moved torn os s = .ok (s', threwRun torn os e) ∧ InvT s' e') ∧
    (specRunT torn os e = none → ∃ f, runT moved torn os s = .error f ∧ (f = .doubleFree ∨ f = .useAfterFree)) := by
  intro os
  induction os with
  | nil => intro s e h _; exact ⟨fun e' he => (by cases he; exact ⟨s, rfl, h⟩), fun he => nomatch he⟩
  | cons o os ih =>
    intro s e h hl
    obtain ⟨hl1, hl2⟩ := hl
    have hs := sim_step h moved torn o.1 o.2 hl1
    cases hsp : specT torn e o.2 o.1 with
    | none =>
      rw [hsp] at hs
      obtain ⟨f, h1, h2⟩ := hs
      refine ⟨fun e' he => (by simp only [specRunT, hsp] at he; cases he), fun _ => ⟨f, ?_, h2⟩⟩
      simp only [runT, bind, Except.bind, h1]
    | some e1 =>
      rw [hsp] at hs
      obtain ⟨s1, h1, h2⟩ := hs
      rw [hsp] at hl2
      obtain ⟨h3, h4⟩ := ih h2 hl2
      refine ⟨fun e' he => ?_, fun he => ?_⟩
      · simp only [specRunT, hsp] at he
        obtain ⟨s', h5, h6⟩ := h3 e' he
        exact ⟨s', by simp only [runT, bind, Except.bind, h1, h5, threwRun, hsp], h6⟩
      · simp only [specRunT, hsp] at he
        obtain ⟨f, h5, h6⟩ := h4 he
        exact ⟨f, by simp only [runT, bind, Except.bind, h1, h5], h6⟩

/-- **C139, exactly.** For every history in which any constructor call may throw, the calls throw and leave behind exactly what `specT` says; the program uses or destroys a
destroyed value exactly when it destroys, initialises or reads a `Maybe` on which `init` threw while it held a value. -/
theorem C139_exact_partial (moved torn : A → A) (os : List (Op V A × Bool)) (hl : LegalRunT torn os (fun _ => none)) :
    (∀ e, specRunT torn os (fun _ => none) = some e → ∃ s, runT moved torn os State.start = .ok (s, threwRun torn os (fun _ => none)) ∧ ∀ v, ShowsT (s.vars v) s.mem (e v)) ∧
    (specRunT torn os (fun _ => none) = none → ∃ f, runT moved torn os State.start = .error f ∧ (f = .doubleFree ∨ f = .useAfterFree)) := by
  obtain ⟨h1, h2⟩ := sim_run moved torn os invT_start hl
  refine ⟨fun e he => ?_, h2⟩
  obtain ⟨s, h3, h4⟩ := h1 e he
  exact ⟨s, h3, showsT_of_inv h4⟩

/-- C139: whatever constructors throw, every history that follows the rules of C55 runs without a fault. -/
def ExceptionSafe : Prop := ∀ (moved torn : Nat → Nat) (os : List (Op Nat Nat × Bool)), LegalRunT torn os (fun _ => none) → ∃ r, runT moved torn os State.start = .ok r

/-- C139 is false: `m.init(a)`, then `m.init(b)` throws; `~Maybe` destroys `a` a second time. -/
theorem C139_exception_refuted : ¬ ExceptionSafe := by
  intro h
  obtain ⟨r, hr⟩ := h id id [(.ctorNothing 0, false), (.init 0 5, false), (.init 0 6, true), (.dtor 0, false)]
    (by simp [LegalRunT, LegalT, specT, EnvT.set])
  have : (runT id id [(Op.ctorNothing 0, false), (.init 0 5, false), (.init 0 6, true), (.dtor 0, false)] (State.start : State Nat Nat)).toOption.isNone = true := by decide +kernel
  rw [hr] at this
  cases this

theorem notBroken_step {torn : A → A} {e e' : EnvT V A} {o : Op V A} {t : Bool} (hb : ∀ v, e v ≠ some .broken) (hi : initThrows e (o, t) = false)
    (hs : specT torn e t o = some e') : ∀ v, e' v ≠ some .broken := by
  have hset : ∀ {e : EnvT V A} {v : V} {x : Option (Val A)}, (∀ v, e v ≠ some .broken) → x ≠ some .broken → ∀ u, (e.set v x) u ≠ some .broken := by
    intro e v x h1 h2 u
    simp only [EnvT.set]
    split
    · exact h2
    · exact h1 u
  cases o with
  | ctorNothing v => cases hs; exact hset hb (by simp)
  | dtor v =>
    simp only [specT] at hs
    split at hs <;> cases hs
    exact hset hb (by simp)
  | init v a =>
    simp only [specT] at hs
    split at hs
    · cases hs
    · rename_i b hev
      cases t with
      | true => simp [initThrows, hev, Val.valid] at hi
      | false => cases hs; exact hset hb (by simp)
    · cases hs; cases t <;> exact hset hb (by simp)
  | initFrom v w =>
    simp only [specT] at hs
    split at hs
    · rename_i b c hew hev
      cases t with
      | true => simp [initThrows, hev, Val.valid] at hi
      | false => cases hs; exact hset hb (by simp)
    · cases hs; cases t <;> exact hset hb (by simp)
    · cases hs
  | ctorCopy v w =>
    simp only [specT] at hs
    split at hs
    · cases t <;> cases hs
      · exact hset hb (by simp)
      · exact hb
    · cases hs; exact hset hb (by simp)
    · cases hs
  | ctorMove v w =>
    simp only [specT] at hs
    split at hs
    · cases t <;> cases hs
      · exact hset (hset hb (by simp)) (by simp)
      · exact hset hb (by simp)
    · cases hs; exact hset hb (by simp)
    · cases hs
  | assignCopy v w =>
    simp only [specT] at hs
    split at hs
    · cases t <;> cases hs <;> exact hset hb (by simp)
    · cases hs; exact hset hb (by simp)
    · cases hs
  | assignMove v w =>
    simp only [specT] at hs
    split at hs
    · cases t <;> cases hs <;> exact hset (hset hb (by simp)) (by simp)
    · cases hs; exact hset hb (by simp)
    · cases hs

theorem notBroken_defined {torn : A → A} {e : EnvT V A} {o : Op V A} {t : Bool} (hb : ∀ v, e v ≠ some .broken) (hl : LegalT e o) : ∃ e', specT torn e t o = some e' := by
  have hcase : ∀ v, e v ≠ none → e v = some .nothing ∨ ∃ a, e v = some (.value a) := by
    intro v hv
    obtain ⟨x, hx⟩ := Option.ne_none_iff_exists'.1 hv
    cases x with
    | nothing => exact .inl hx
    | value a => exact .inr ⟨a, hx⟩
    | broken => exact absurd hx (hb v)
  cases o with
  | ctorNothing v => exact ⟨_, rfl⟩
  | dtor v => rcases hcase v hl with h | ⟨a, h⟩ <;> simp [specT, h]
  | init v a => rcases hcase v hl with h | ⟨a, h⟩ <;> simp [specT, h]
  | initFrom v w =>
    obtain ⟨h1, h2, -⟩ := hl
    have hw : e w ≠ none := fun hh => by rw [hh] at h2; cases h2
    rcases hcase w hw with h | ⟨a, h⟩
    · rw [h] at h2; cases h2
    · rcases hcase v h1 with h' | ⟨b, h'⟩ <;> simp [specT, h, h']
  | ctorCopy v w => rcases hcase w hl.2 with h | ⟨a, h⟩ <;> cases t <;> simp [specT, h]
  | ctorMove v w => rcases hcase w hl.2 with h | ⟨a, h⟩ <;> cases t <;> simp [specT, h]
  | assignCopy v w => rcases hcase w hl.2.1 with h | ⟨a, h⟩ <;> cases t <;> simp [specT, h]
  | assignMove v w => rcases hcase w hl.2.1 with h | ⟨a, h⟩ <;> cases t <;> simp [specT, h]

/-- C139: as long as no `init` throws on a `Maybe` that holds a value, every exception is harmless: nothing faults, a `Maybe` whose constructor threw does not exist, one that
was assigned to is `Nothing`, the source keeps its (torn) value. -/
theorem C139_safe_partial (moved torn : A → A) (os : List (Op V A × Bool)) (hl : LegalRunT torn os (fun _ => none)) (hn : NoInitThrows torn os (fun _ => none)) :
    ∃ e s, specRunT torn os (fun _ => none) = some e ∧ runT moved torn os State.start = .ok (s, threwRun torn os (fun _ => none)) ∧
      (∀ v, ShowsT (s.vars v) s.mem (e v)) ∧ ∀ v, e v ≠ some .broken := by
  have key : ∀ (os : List (Op V A × Bool)) (e : EnvT V A), (∀ v, e v ≠ some .broken) → LegalRunT torn os e → NoInitThrows torn os e →
      ∃ e', specRunT torn os e = some e' ∧ ∀ v, e' v ≠ some .broken := by
    intro os
    induction os with
    | nil => intro e hb _ _; exact ⟨e, rfl, hb⟩
    | cons o os ih =>
      intro e hb hl hn
      obtain ⟨e1, he1⟩ := notBroken_defined (t := o.2) (torn := torn) hb hl.1
      have hl2 := hl.2
      have hn2 := hn.2
      rw [he1] at hl2 hn2
      obtain ⟨e', h1, h2⟩ := ih e1 (notBroken_step hb hn.1 he1) hl2 hn2
      exact ⟨e', by simp only [specRunT, he1, h1], h2⟩
  obtain ⟨e, he, hb⟩ := key os _ (by simp) hl hn
  obtain ⟨s, h1, h2⟩ := (C139_exact_partial moved torn os hl).1 e he
  exact ⟨e, s, he, h1, h2, hb⟩

-- a history of the last theorem in which three calls throw
example : let os : List (Op Nat Nat × Bool) := [(.ctorNothing 0, false), (.init 0 5, true), (.init 0 6, false), (.ctorCopy 1 0, true), (.ctorCopy 1 0, false), (.assignMove 1 0, true), (.dtor 0, true), (.dtor 1, false)]
    LegalRunT (· + 100) os (fun _ => none) ∧ NoInitThrows (· + 100) os (fun _ => none) ∧ (threwRun (· + 100) os (fun _ => none)) = [false, true, false, true, false, true, false, false] := by
  refine ⟨?_, ?_, rfl⟩ <;> simp [LegalRunT, LegalT, NoInitThrows, initThrows, specT, EnvT.set, Val.valid]

-- after the exception the broken `Maybe` can be assigned to
example : (runT id id [(Op.ctorNothing 0, false), (.ctorNothing 1, false), (.init 0 5, false), (.init 0 6, true), (.assignCopy 0 1, false), (.dtor 0, false), (.dtor 1, false)]
    (State.start : State Nat Nat)).toOption.isSome = true := by decide +kernel

end Verif.Maybe
