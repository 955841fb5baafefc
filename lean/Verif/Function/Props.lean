import Verif.Function.Lemmas
/-!
# C51-C54: `ke::Function`
-/
namespace Verif.Function
open Verif

variable {V C : Type} [DecidableEq V]

/-- What a client sees of one variable: whether it exists, what `operator bool` says, what a call does. -/
def Shows (x : Option (Fn C)) (m : Mem) : Option (Val C) → Prop
  | none => x = none
  | some .empty => ∃ f, x = some f ∧ f.isSet = false
  | some (.fn c) => ∃ f, x = some f ∧ f.isSet = true ∧ call f m = .ok c
  | some .hollow => ∃ f, x = some f ∧ f.isSet = true ∧ call f m = .error .assertFail

theorem isSet_abs (f : Fn C) : f.isSet = true ↔ f.abs ≠ .empty := by
  cases f with
  | empty => simp [Fn.isSet, Fn.abs]
  | call => simp [Fn.isSet, Fn.abs]
  | wrap i d f => cases h : f.abs <;> simp [Fn.isSet, Fn.abs, Val.copied, h]

theorem shows_of_inv {s : State V C} {e : Env V C} (hi : Inv s e) (v : V) : Shows (s.vars v) s.mem (e v) := by
  cases he : e v with
  | none => exact hi.absent he
  | some x =>
    obtain ⟨f, hf, hx⟩ := hi.present (v := v) (by rw [he]; simp)
    have hc := call_ok f s.mem (hi.good hf).1
    rw [he] at hx; injection hx with hx
    subst hx
    have hs := isSet_abs f
    cases ha : f.abs with
    | empty => exact ⟨f, hf, by rw [ha] at hs; simpa using hs⟩
    | fn c => exact ⟨f, hf, by rw [ha] at hs; simpa using hs, by rw [hc, ha]⟩
    | hollow => exact ⟨f, hf, by rw [ha] at hs; simpa using hs, by rw [hc, ha]⟩

/-- C51 (every history over any number of `Function`s and callables of any size, except self-assignment):
nothing faults, and every variable shows what the specification says: a non-empty one calls exactly the
callable of its most recent source, moved-from ones are empty, others are unaffected.
Partial: a copy made from a non-const empty `Function` is `hollow` (see C53), and self-assignment is
excluded (see C54). -/
theorem C51_last_source_partial (size : C → Nat) (os : List (Op V C)) (hl : LegalRun os (fun _ => none)) :
    ∃ s, run size os State.start = .ok s ∧ ∀ v, Shows (s.vars v) s.mem (specRun os (fun _ => none) v) := by
  obtain ⟨s, h1, h2⟩ := inv_run size os inv_start hl
  exact ⟨s, h1, shows_of_inv h2⟩

theorem no_hollow (os : List (Op V C)) (e : Env V C) (he : ∀ v, e v ≠ some .hollow) (hl : LegalRun os e) (hn : NoEmptyCopy os e) :
    ∀ v, specRun os e v ≠ some .hollow := by
  induction os generalizing e with
  | nil => exact he
  | cons o os ih =>
    refine ih (specStep e o) ?_ hl.2 hn.2
    have hset : ∀ (e : Env V C) v x, (∀ u, e u ≠ some .hollow) → x ≠ some .hollow → ∀ u, e.set v x u ≠ some .hollow := by
      intro e v x h1 h2 u
      simp only [Env.set]; split
      · exact h2
      · exact h1 u
    have hcop : ∀ w, e w ≠ some .empty → (e w).map Val.copied ≠ some .hollow := by
      intro w h
      cases hw : e w with
      | none => simp
      | some x =>
        cases x with
        | empty => exact (h hw).elim
        | fn c => simp [Val.copied]
        | hollow => exact (he w hw).elim
    have hn1 := hn.1
    cases o with
    | ctorNull v => exact hset _ _ _ he (by simp)
    | ctorCallable v c => exact hset _ _ _ he (by simp)
    | ctorCopyConst v w => exact hset _ _ _ he (he w)
    | ctorCopy v w => exact hset _ _ _ he (hcop w hn1)
    | ctorMove v w => exact hset _ _ _ (hset _ _ _ he (he w)) (by simp)
    | dtor v => exact hset _ _ _ he (by simp)
    | assignNull v => exact hset _ _ _ he (by simp)
    | assignCallable v c => exact hset _ _ _ he (by simp)
    | assignCopyConst v w => exact hset _ _ _ he (he w)
    | assignCopy v w => exact hset _ _ _ he (hcop w hn1)
    | assignMove v w => exact hset _ _ _ (hset _ _ _ he (he w)) (by simp)

/-- C51, in the client's terms: in every history without self-assignment in which no empty `Function` is copied through a
non-const lvalue, every `Function` that tests true can be called and runs the callable it was last given. -/
theorem C51_callable_partial (size : C → Nat) (os : List (Op V C)) (hl : LegalRun os (fun _ => none))
    (hn : NoEmptyCopy os (fun _ => none)) :
    ∃ s, run size os State.start = .ok s ∧ ∀ v f, s.vars v = some f → f.isSet = true →
      ∃ c, specRun os (fun _ => none) v = some (.fn c) ∧ call f s.mem = .ok c := by
  obtain ⟨s, h1, h2⟩ := C51_last_source_partial size os hl
  refine ⟨s, h1, fun v f hf hs => ?_⟩
  have h3 := h2 v
  have h4 := no_hollow os (fun _ => none) (by simp) hl hn v
  rw [hf] at h3
  cases he : specRun os (fun _ => none) v with
  | none => rw [he] at h3; cases h3
  | some x =>
    rw [he] at h3
    cases x with
    | empty => obtain ⟨g, hg, h5⟩ := h3; injection hg with hg; subst hg; rw [h5] at hs; cases hs
    | fn c => obtain ⟨g, hg, -, h5⟩ := h3; injection hg with hg; subst hg; exact ⟨c, rfl, h5⟩
    | hollow => exact (h4 he).elim

/-- C52: in every history without self-assignment, every stored callable (holder) ever constructed is either destroyed,
exactly once, or owned by exactly one existing `Function`, in exactly one place, and not destroyed; none is destroyed twice or
used after destruction (those are faults, and the run has none). -/
theorem C52_lifetimes (size : C → Nat) (os : List (Op V C)) (hl : LegalRun os (fun _ => none)) :
    ∃ s, run size os State.start = .ok s ∧ ∀ id, id < s.mem.next →
      (s.mem.dead.count id = 1 ∧ ∀ v f, s.vars v = some f → id ∉ f.ids) ∨
      (s.mem.dead.count id = 0 ∧ ∃ v f, s.vars v = some f ∧ f.ids.count id = 1 ∧
        ∀ w g, s.vars w = some g → id ∈ g.ids → w = v) := by
  obtain ⟨s, h1, hi⟩ := inv_run size os inv_start hl
  refine ⟨s, h1, fun id hid => ?_⟩
  have hown : ∀ v, id ∈ s.own v → ∃ f, s.vars v = some f ∧ id ∈ f.ids := by
    intro v hv
    cases hx : s.vars v with
    | none => simp [State.own, hx] at hv
    | some f => exact ⟨f, rfl, by simpa [State.own, hx] using hv⟩
  by_cases hd : id ∈ s.mem.dead
  · left
    have hp := List.count_pos_iff.2 hd
    refine ⟨?_, ?_⟩
    · have := hi.cnt [] (by simp) id; rw [if_pos hid] at this; simp at this; omega
    · intro v f hf; exact fun h => (hi.good hf).1 id h hd
  · right
    refine ⟨List.count_eq_zero.2 hd, ?_⟩
    rcases hi.cover id hid with h | ⟨v, hv⟩
    · exact (hd h).elim
    · obtain ⟨f, hf, hm⟩ := hown v hv
      refine ⟨v, f, hf, ?_, ?_⟩
      · have := List.count_pos_iff.2 hm
        have := List.nodup_iff_count.1 (hi.good hf).2.1 id
        omega
      · intro w g hg hm'
        apply Classical.byContradiction
        intro hne
        have := hi.cnt [w, v] (by simp [hne]) id
        rw [if_pos hid] at this
        simp only [List.flatMap_cons, List.flatMap_nil, List.append_nil, List.count_append, own_some hf, own_some hg] at this
        have := List.count_pos_iff.2 hm
        have := List.count_pos_iff.2 hm'
        omega

/-- C52: once every `Function` has been destroyed, every callable ever stored has been destroyed exactly once. -/
theorem C52_no_leak (size : C → Nat) (os : List (Op V C)) (hl : LegalRun os (fun _ => none))
    (hall : ∀ v, specRun os (fun _ => none) v = none) :
    ∃ s, run size os (State.start : State V C) = .ok s ∧ ∀ id, id < s.mem.next → s.mem.dead.count id = 1 := by
  obtain ⟨s, h1, h2⟩ := C52_lifetimes size os hl
  obtain ⟨s', h1', h3⟩ := C51_last_source_partial size os hl
  rw [h1] at h1'; injection h1' with h1'; subst h1'
  refine ⟨s, h1, fun id hid => ?_⟩
  rcases h2 id hid with h | ⟨-, v, f, hf, -⟩
  · exact h.1
  · have := h3 v; rw [hall v] at this; simp only [Shows] at this; rw [hf] at this; cases this

/-- C52: a callable given to a `Function` is stored inline exactly when its holder fits three words, and copying (const) and moving
keep the kind of storage. -/
theorem C52_inline (size : C → Nat) (c : C) (m : Mem) :
    (assignCallable size c m).1.inline = true ↔ size c ≤ 3 * 8 := by
  simp only [assignCallable, Fn.inline, bufferSize, decide_eq_true_eq, Nat.mul_comm]

theorem C52_inline_kept (f : Fn C) (m : Mem) (hn : ∀ id ∈ f.ids, id ∉ m.dead) (hd : f.ids.Nodup) (hb : ∀ id ∈ f.ids, id < m.next) :
    (∃ g m', assignConst f m = .ok (g, m') ∧ g.inline = f.inline) ∧
    (∃ g m', moveFn f m = .ok (g, .empty, m') ∧ g.inline = f.inline) := by
  obtain ⟨g, k, h1, -, h2, -⟩ := assignConst_ok f m hn
  obtain ⟨g', k', K, h1', -, h2', -⟩ := moveFn_ok f m hn hd hb
  exact ⟨⟨g, _, h1, h2⟩, ⟨g', _, h1', h2'⟩⟩

/-! Non-vacuity: an inline callable 1 (16 bytes) and a heap one 2 (40 bytes), copied, moved, wrapped, overwritten and destroyed. -/
def demoSize : Nat → Nat := fun c => if c = 1 then 16 else 40

def demoOps : List (Op Nat Nat) :=
  [.ctorCallable 0 1, .ctorCallable 1 2, .ctorCopyConst 2 0, .ctorCopy 3 1, .ctorMove 4 0, .assignMove 0 4,
   .assignCopy 1 3, .assignCopyConst 4 1, .assignNull 3, .ctorMove 5 1, .assignCallable 2 7]

instance (e : Env Nat Nat) (o : Op Nat Nat) : Decidable (Legal e o) := by
  cases o <;> (simp only [Legal]; infer_instance)

instance instDecLegalRun : (os : List (Op Nat Nat)) → (e : Env Nat Nat) → Decidable (LegalRun os e)
  | [], _ => isTrue trivial
  | o :: os, e => @instDecidableAnd _ _ _ (instDecLegalRun os (specStep e o))

example : LegalRun demoOps (fun _ => none) := by decide +kernel

example : NoEmptyCopy demoOps (fun _ => none) := by
  simp [demoOps, NoEmptyCopy, specStep, Env.set, Val.copied]

/-- What the run computes: 0 and its copy call 1, everything wrapped calls 2, moved-from and cleared are empty. -/
example : (run demoSize demoOps State.start).map
    (fun s => decide ((s.get 0).bind (call · s.mem) = .ok 1 ∧ (s.get 4).bind (call · s.mem) = .ok 2
      ∧ (s.get 5).bind (call · s.mem) = .ok 2 ∧ (s.get 2).bind (call · s.mem) = .ok 7
      ∧ (s.get 1).map Fn.isSet = .ok false ∧ (s.get 3).map Fn.isSet = .ok false)) = .ok true := by decide +kernel

example : LegalRun (demoOps ++ [.dtor 0, .dtor 1, .dtor 2, .dtor 3, .dtor 4, .dtor 5]) (fun _ => none) := by decide +kernel

/-- C53: copying an empty `Function`, const or not, gives an empty one. -/
def CopyOfEmptyIsEmpty : Prop :=
  ∀ (size : Nat → Nat) (os : List (Op Nat Nat)) (v w : Nat) (s s' : State Nat Nat), LegalRun os (fun _ => none) →
    run size os State.start = .ok s → s.vars w = some .empty → v ≠ w →
    (∀ o, o ∈ [Op.ctorCopyConst v w, .ctorCopy v w, .assignCopyConst v w, .assignCopy v w] →
      Legal (specRun os (fun _ => none)) o → step size s o = .ok s' → (s'.get v).map Fn.isSet = .ok false)

/-- C53 is false of the code: `Function f; Function g(f); if (g) g();` tests true and the call fails. -/
theorem C53_copy_of_empty_refuted : ¬ CopyOfEmptyIsEmpty := by
  intro h
  have h1 := h (fun _ => 16) [.ctorNull 0] 1 0 (State.start.set 0 (some .empty))
    (({ (State.start.set 0 (some .empty)) with mem := { next := 1, dead := [] } } : State Nat Nat).set 1 (some (.wrap false 0 .empty)))
    (by decide +kernel) rfl rfl (by decide) (.ctorCopy 1 0) (by simp) (by decide +kernel) rfl
  revert h1
  decide +kernel

/-- C51 as one would state it: in every history, a `Function` that tests true can be called, and calling it runs the callable of its most recent
source. -/
def NonEmptyCallsLastSource : Prop :=
  ∀ (size : Nat → Nat) (os : List (Op Nat Nat)) (s : State Nat Nat), LegalRun os (fun _ => none) → run size os State.start = .ok s →
    ∀ v f, s.vars v = some f → f.isSet = true → ∃ c, specRun os (fun _ => none) v = some (.fn c) ∧ call f s.mem = .ok c

/-- C51 in full is false of the code: a copy of an empty `Function` tests true and cannot be called. -/
theorem C51_last_source_refuted : ¬ NonEmptyCallsLastSource := by
  intro h
  obtain ⟨c, -, h2⟩ := h (fun _ => 16) [.ctorNull 0, .ctorCopy 1 0]
    (({ (State.start.set 0 (some .empty)) with mem := { next := 1, dead := [] } } : State Nat Nat).set 1 (some (.wrap false 0 .empty)))
    (by decide +kernel) rfl 1 _ rfl rfl
  cases h2

/-- C53, what holds: a const source gives an empty copy; a non-const one always gives one that tests true and
whose call fails the assertion. -/
theorem C53_copy_of_empty_partial (size : C → Nat) (os : List (Op V C)) (v w : V) (hl : LegalRun os (fun _ => none))
    (hw : specRun os (fun _ => none) w = some .empty) :
    ∃ s, run size os State.start = .ok s ∧
    (∀ o, o = Op.ctorCopyConst v w ∨ o = .assignCopyConst v w → Legal (specRun os (fun _ => none)) o →
      ∃ s', step size s o = .ok s' ∧ ∃ f, s'.vars v = some f ∧ f.isSet = false) ∧
    (∀ o, o = Op.ctorCopy v w ∨ o = .assignCopy v w → Legal (specRun os (fun _ => none)) o →
      ∃ s', step size s o = .ok s' ∧ ∃ f, s'.vars v = some f ∧ f.isSet = true ∧ call f s'.mem = .error .assertFail) := by
  obtain ⟨s, h1, hi⟩ := inv_run size os inv_start hl
  refine ⟨s, h1, ?_, ?_⟩
  · rintro o (rfl | rfl) hlo
    · obtain ⟨s', h2, hi'⟩ := inv_step size hi _ hlo
      have := shows_of_inv hi' v
      simp only [specStep, Env.set, if_pos, hw] at this
      exact ⟨s', h2, this⟩
    · obtain ⟨s', h2, hi'⟩ := inv_step size hi _ hlo
      have := shows_of_inv hi' v
      simp only [specStep, Env.set, if_pos, hw] at this
      exact ⟨s', h2, this⟩
  · rintro o (rfl | rfl) hlo
    · obtain ⟨s', h2, hi'⟩ := inv_step size hi _ hlo
      have := shows_of_inv hi' v
      simp only [specStep, Env.set, if_pos, hw, Option.map_some, Val.copied] at this
      exact ⟨s', h2, this⟩
    · obtain ⟨s', h2, hi'⟩ := inv_step size hi _ hlo
      have := shows_of_inv hi' v
      simp only [specStep, Env.set, if_pos, hw, Option.map_some, Val.copied] at this
      exact ⟨s', h2, this⟩

/-- C54: self-assignment, by copy or by move, leaves a `Function` as it was. -/
def SelfAssignSafe : Prop :=
  ∀ (size : Nat → Nat) (os : List (Op Nat Nat)) (v : Nat) (s : State Nat Nat), LegalRun os (fun _ => none) →
    run size os State.start = .ok s → s.vars v ≠ none →
    ∀ o, o ∈ [Op.assignCopyConst v v, .assignCopy v v, .assignMove v v] →
      ∃ s' f f', step size s o = .ok s' ∧ s.vars v = some f ∧ s'.vars v = some f' ∧ f'.isSet = f.isSet ∧
        call f' s'.mem = call f s.mem

/-- C54 is false of the code: `f = f` uses the destroyed holder. -/
theorem C54_self_assign_refuted : ¬ SelfAssignSafe := by
  intro h
  have h1 := h (fun _ => 16) [.ctorCallable 0 5] 0 _ (by decide +kernel) rfl (by decide +kernel)
    (.assignCopyConst 0 0) (by simp)
  obtain ⟨s', f, f', h2, -⟩ := h1
  cases h2

/-- C54, exactly what self-assignment does, in every reachable state and for each form: an empty `Function`
survives (a non-const self-copy makes it hollow); a non-empty one is used after destruction, except that
self-move of a heap-stored one leaves it empty with its callable destroyed. -/
theorem C54_self_assign_partial (size : C → Nat) (os : List (Op V C)) (v : V) (hl : LegalRun os (fun _ => none)) :
    ∃ s, run size os State.start = .ok s ∧ ∀ f, s.vars v = some f →
      (f.isSet = false → (∃ s', step size s (.assignCopyConst v v) = .ok s' ∧ s'.vars v = some .empty) ∧
        (∃ s', step size s (.assignMove v v) = .ok s' ∧ s'.vars v = some .empty) ∧
        (∃ s' g, step size s (.assignCopy v v) = .ok s' ∧ s'.vars v = some g ∧ g.isSet = true ∧ call g s'.mem = .error .assertFail)) ∧
      (f.isSet = true → step size s (.assignCopyConst v v) = .error .useAfterFree ∧
        step size s (.assignCopy v v) = .error .useAfterFree ∧
        (f.inline = true → step size s (.assignMove v v) = .error .useAfterFree) ∧
        (f.inline = false → ∃ s', step size s (.assignMove v v) = .ok s' ∧ s'.vars v = some .empty ∧
          ∀ id ∈ f.ids, id ∈ s'.mem.dead)) := by
  obtain ⟨s, h1, hi⟩ := inv_run size os inv_start hl
  refine ⟨s, h1, fun f hf => ?_⟩
  obtain ⟨g1, g2, g3⟩ := hi.good hf
  have hd := destroy_ok f s.mem g1 g2
  have hg := State.get_some hf
  constructor
  · intro hs
    have he : f = .empty := by cases f <;> simp_all [Fn.isSet]
    subst he
    refine ⟨⟨s.set v (some .empty), ?_, by simp [State.set]⟩, ⟨(s.set v (some .empty)).set v (some .empty), ?_, by simp [State.set]⟩, ?_⟩
    · simp only [step, hg, bind, Except.bind, destroy, assignConst]
    · simp only [step, hg, bind, Except.bind, destroy, moveFn]
    · refine ⟨({ s with mem := { s.mem with next := s.mem.next + 1 } } : State V C).set v (some (.wrap false s.mem.next .empty)),
        .wrap false s.mem.next .empty, ?_, by simp [State.set], rfl, ?_⟩
      · simp only [step, hg, bind, Except.bind, destroy, assignConst, assignNonConst, wrapperSize, bufferSize]; rfl
      · simp only [call, State.set]
        rw [if_neg]
        intro hmem
        have h5 := hi.cnt [] (by simp) s.mem.next
        have h6 := List.count_pos_iff.2 hmem
        rw [if_neg (Nat.lt_irrefl _)] at h5
        exact absurd h6 (by have := Nat.le_add_right (List.count s.mem.next s.mem.dead) (List.count s.mem.next ([].flatMap s.own)); omega)
  · intro hs
    have hmem : ∀ id ∈ f.ids, id ∈ f.ids ++ s.mem.dead := fun id h => List.mem_append.2 (.inl h)
    refine ⟨?_, ?_, ?_, ?_⟩
    · simp only [step, hg, bind, Except.bind, hd]
      cases f with
      | empty => cases hs
      | call i d c => simp [assignConst, Fn.ids]
      | wrap i d f => simp [assignConst, Fn.ids]
    · simp only [step, hg, bind, Except.bind, hd, assignNonConst]
      cases f with
      | empty => cases hs
      | call i d c => simp [assignConst, Fn.ids]
      | wrap i d f => simp [assignConst, Fn.ids]
    · intro hin
      simp only [step, hg, bind, Except.bind, hd]
      cases f with
      | empty => cases hs
      | call i d c => simp only [Fn.inline] at hin; subst hin; simp [moveFn, Fn.ids]
      | wrap i d f => simp only [Fn.inline] at hin; subst hin; simp [moveFn, Fn.ids]
    · intro hin
      refine ⟨(({ s with mem := { s.mem with dead := f.ids ++ s.mem.dead } } : State V C).set v (some f)).set v (some .empty), ?_,
        by simp [State.set], fun id h => by simp [State.set, h]⟩
      simp only [step, hg, bind, Except.bind, hd]
      cases f with
      | empty => cases hs
      | call i d c => simp only [Fn.inline] at hin; subst hin; rfl
      | wrap i d f => simp only [Fn.inline] at hin; subst hin; rfl

/-- Every case of `C54_self_assign_partial` occurs. -/
example : (run demoSize demoOps State.start).map (fun s => ((s.get 0).map Fn.inline, (s.get 4).map Fn.inline, (s.get 1).map Fn.isSet))
    = .ok (.ok true, .ok false, .ok false) := by decide +kernel

end Verif.Function
