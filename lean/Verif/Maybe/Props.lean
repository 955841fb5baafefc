import Verif.Maybe.Lemmas
/-!
# C55-C57, C84: `ke::Maybe`
-/
namespace Verif.Maybe
open Verif

variable {V A : Type} [DecidableEq V]

/-- What a client sees of one variable: `isValid()` and `get()`. -/
def Shows (x : Option (Obj A)) (m : Mem) : Option (Option A) → Prop
  | none => x = none
  | some none => ∃ o, x = some o ∧ o.init = false ∧ get o m = .error .assertFail
  | some (some a) => ∃ o, x = some o ∧ o.init = true ∧ get o m = .ok a

theorem shows_of_inv {s : State V A} {e : Env V A} {k : Nat} (hi : Inv s e k) (v : V) : Shows (s.vars v) s.mem (e v) := by
  have := hi.rep v
  cases he : e v with
  | none => rw [he] at this; exact this
  | some x =>
    rw [he] at this
    cases x with
    | none => obtain ⟨o, h1, h2⟩ := this; exact ⟨o, h1, h2, by simp [get, h2]⟩
    | some a => obtain ⟨id, h1, h2, -⟩ := this; exact ⟨_, h1, rfl, by simp [get, readBuf, h2]⟩

/-- C55: after any history of construction, `init`, copy, move, assignment between distinct `Maybe`s and
destruction, nothing has faulted, and `isValid()`/`get()` of every `Maybe` report the value most recently stored in it, `Nothing` after
being moved from; other variables are unaffected. -/
theorem C55_value_semantics (moved : A → A) (os : List (Op V A)) (hl : LegalRun os (fun _ => none)) :
    ∃ s, run moved os State.start = .ok s ∧ ∀ v, Shows (s.vars v) s.mem (specRun os (fun _ => none) v) := by
  obtain ⟨s, h1, h2⟩ := inv_run moved os inv_start hl
  exact ⟨s, h1, shows_of_inv h2⟩

/-- C56: once every `Maybe` is gone, every value ever constructed in one has been destroyed exactly once. -/
def DestroysValues : Prop :=
  ∀ (moved : Nat → Nat) (os : List (Op Nat Nat)) (s : State Nat Nat), LegalRun os (fun _ => none) →
    run moved os State.start = .ok s → (∀ v, specRun os (fun _ => none) v = none) →
    ∀ id, id < s.mem.next → s.mem.dead.count id = 1

instance (e : Env Nat Nat) (o : Op Nat Nat) : Decidable (Legal e o) := by
  cases o with
  | initFrom v w =>
    have : Decidable (∃ a, e w = some (some a)) :=
      match h : e w with
      | some (some a) => isTrue ⟨a, rfl⟩
      | some none => isFalse (by simp)
      | none => isFalse (by simp)
    simp only [Legal]; infer_instance
  | _ => simp only [Legal]; infer_instance

instance instDecLegalRun : (os : List (Op Nat Nat)) → (e : Env Nat Nat) → Decidable (LegalRun os e)
  | [], _ => isTrue trivial
  | o :: os, e => @instDecidableAnd _ _ _ (instDecLegalRun os (specStep e o))

/-- C56 is false of the code: `Maybe<T> a, b; a.init(1); a = b;` never destroys the first value. -/
theorem C56_destroys_refuted : ¬ DestroysValues := by
  intro h
  have h1 := h id [.ctorNothing 0, .ctorNothing 1, .init 0 5, .assignCopy 0 1, .dtor 0, .dtor 1]
    { vars := fun u => if u = 1 then none else if u = 0 then none else if u = 0 then some { init := false, buf := some (0, 5) } else if u = 0 then some ⟨true, some (0, 5)⟩ else if u = 1 then some ⟨false, none⟩ else if u = 0 then some ⟨false, none⟩ else none,
      mem := ⟨1, []⟩ } (by decide +kernel) rfl (by
        intro v
        simp only [specRun, specStep, Env.set]
        split
        · rfl
        · split <;> simp_all) 0 (by decide)
  revert h1
  decide

/-- C56, what holds for every history: nothing is destroyed twice, what a valid `Maybe` holds is not destroyed and is
in no other `Maybe`, and the values constructed are exactly those destroyed, those still held (by the variables `L`), and
those dropped undestroyed, one for each value overwritten by an assignment and each value moved from. -/
theorem C56_ledger_partial (moved : A → A) (os : List (Op V A)) (hl : LegalRun os (fun _ => none)) :
    ∃ s, run moved os State.start = .ok s ∧ s.mem.dead.Nodup ∧ (∀ id ∈ s.mem.dead, id < s.mem.next) ∧
      ∃ L : List V, L.Nodup ∧ (∀ v, v ∈ L ↔ ∃ a, specRun os (fun _ => none) v = some (some a)) ∧
        s.mem.next = s.mem.dead.length + L.length + droppedRun os (fun _ => none) := by
  obtain ⟨s, h1, h2⟩ := inv_run moved os inv_start hl
  obtain ⟨L, h3, h4, h5⟩ := h2.num
  refine ⟨s, h1, h2.nodup, h2.lt, L, h3, ?_, by omega⟩
  intro v
  rw [h4 v]
  unfold holds
  split
  · rename_i a h; rw [h]; simp
  · rename_i h
    constructor
    · intro h; cases h
    · rintro ⟨a, ha⟩; exact (h a ha).elim

/-- C56 for the histories that never assign to a valid `Maybe` nor move from one: exactly once. -/
theorem C56_destroys_partial (moved : A → A) (os : List (Op V A)) (hl : LegalRun os (fun _ => none))
    (hd : droppedRun os (fun _ => none : Env V A) = 0) (hall : ∀ v, specRun os (fun _ => none) v = none) :
    ∃ s, run moved os (State.start : State V A) = .ok s ∧ ∀ id, id < s.mem.next → s.mem.dead.count id = 1 := by
  obtain ⟨s, h1, h2, h3, L, h4, h5, h6⟩ := C56_ledger_partial moved os hl
  refine ⟨s, h1, fun id hid => ?_⟩
  have hL : L = [] := by
    cases L with
    | nil => rfl
    | cons v L => obtain ⟨a, ha⟩ := (h5 v).1 (by simp); rw [hall v] at ha; cases ha
  subst hL
  rw [hd] at h6
  simp only [List.length_nil, Nat.add_zero] at h6
  have hsub : ∀ x ∈ List.range s.mem.next, x ∈ s.mem.dead := by
    have hp : s.mem.dead ⊆ List.range s.mem.next := fun x hx => List.mem_range.2 (h3 x hx)
    intro x hx
    apply Classical.byContradiction
    intro hn
    have h7 : (x :: s.mem.dead).Nodup := List.nodup_cons.2 ⟨hn, h2⟩
    have h8 := List.Nodup.length_le_of_subset h7 (l₂ := List.range s.mem.next) (by
      intro y hy
      rcases List.mem_cons.1 hy with rfl | hy
      · exact hx
      · exact hp hy)
    simp at h8
    omega
  have hm := hsub id (List.mem_range.2 hid)
  have := List.count_pos_iff.2 hm
  have := List.nodup_iff_count.1 h2 id
  omega

/-! Non-vacuity: copies, moves, assignments; and a history with nothing dropped. -/
def demoOps : List (Op Nat Nat) :=
  [.ctorNothing 0, .init 0 5, .ctorCopy 1 0, .init 0 6, .ctorMove 2 0, .assignCopy 0 1, .assignMove 1 2, .initFrom 2 1]

example : LegalRun demoOps (fun _ => none) := by decide +kernel

example : (run id demoOps State.start).map (fun s => ((s.lookup 0).bind (get · s.mem), (s.lookup 1).bind (get · s.mem),
    (s.lookup 2).bind (get · s.mem))) = .ok (.ok 5, .ok 6, .ok 6) := by decide +kernel

example : droppedRun demoOps (fun _ => none) = 3 := by decide +kernel

example : LegalRun ([.ctorNothing 0, .init 0 5, .ctorCopy 1 0, .init 0 6, .ctorNothing 2, .assignCopy 2 1, .dtor 0, .dtor 1, .dtor 2] : List (Op Nat Nat))
    (fun _ => none) := by decide +kernel

example : droppedRun ([.ctorNothing 0, .init 0 5, .ctorCopy 1 0, .init 0 6, .ctorNothing 2, .assignCopy 2 1, .dtor 0, .dtor 1, .dtor 2] : List (Op Nat Nat))
    (fun _ => none) = 0 := by decide +kernel

/-- C57: `m = m` and `m = std::move(m)` leave `m` as it was. -/
def SelfAssignKeeps : Prop :=
  ∀ (moved : Nat → Nat) (os : List (Op Nat Nat)) (v : Nat) (s : State Nat Nat), LegalRun os (fun _ => none) →
    run moved os State.start = .ok s → specRun os (fun _ => none) v ≠ none →
    ∀ o, o ∈ [Op.assignCopy v v, .assignMove v v] → ∃ s', step moved s o = .ok s' ∧
      Shows (s'.vars v) s'.mem (specRun os (fun _ => none) v)

/-- C57 is false of the code: the value is lost. -/
theorem C57_self_assign_refuted : ¬ SelfAssignKeeps := by
  intro h
  obtain ⟨s', h1, h2⟩ := h id [.ctorNothing 0, .init 0 5] 0 _ (by decide +kernel) rfl (by decide +kernel)
    (.assignCopy 0 0) (by simp)
  cases h1
  obtain ⟨o, h3, h4, -⟩ := h2
  simp only [State.set, if_pos, Option.some.injEq] at h3
  rw [← h3] at h4
  cases h4

/-- C57, what self-assignment does in every reachable state: it never faults, every other variable is
untouched, and the `Maybe` becomes `Nothing` (its value, if it had one, is neither kept nor destroyed). -/
theorem C57_self_assign_partial (moved : A → A) (os : List (Op V A)) (v : V) (hl : LegalRun os (fun _ => none))
    (hv : specRun os (fun _ => none) v ≠ none) :
    ∃ s, run moved os State.start = .ok s ∧ ∀ o, o = Op.assignCopy v v ∨ o = .assignMove v v →
      ∃ s', step moved s o = .ok s' ∧ Shows (s'.vars v) s'.mem (some none) ∧ s'.mem = s.mem ∧
        ∀ u, u ≠ v → s'.vars u = s.vars u := by
  obtain ⟨s, h1, hi⟩ := inv_run moved os inv_start hl
  obtain ⟨o, h2, h3⟩ := hi.present hv
  refine ⟨s, h1, ?_⟩
  rintro op (rfl | rfl)
  · refine ⟨s.set v (some { o with init := false }), ?_, ⟨{ o with init := false }, by simp [State.set], rfl, by simp [get]⟩, rfl, fun u hu => by simp [State.set, hu]⟩
    simp only [step, h3, bind, Except.bind, copyFrom]
    simp [State.lookup, State.set]
  · refine ⟨s.set v (some { o with init := false }), ?_, ⟨{ o with init := false }, by simp [State.set], rfl, by simp [get]⟩, rfl, fun u hu => by simp [State.set, hu]⟩
    simp only [step, h3, bind, Except.bind, moveFrom]
    simp [State.lookup, State.set]

/-- C84: `m.init(m.get())` keeps the value. -/
def InitOwnValue : Prop :=
  ∀ (moved : Nat → Nat) (os : List (Op Nat Nat)) (v : Nat) (s : State Nat Nat), LegalRun os (fun _ => none) →
    run moved os State.start = .ok s → (∃ a, specRun os (fun _ => none) v = some (some a)) →
    ∃ s', step moved s (.initFrom v v) = .ok s' ∧ Shows (s'.vars v) s'.mem (specRun os (fun _ => none) v)

/-- C84 is false of the code: the old value is destroyed before the new one is built from it. -/
theorem C84_init_alias_refuted : ¬ InitOwnValue := by
  intro h
  obtain ⟨s', h1, -⟩ := h id [.ctorNothing 0, .init 0 5] 0 _ (by decide +kernel) rfl ⟨5, by decide +kernel⟩
  cases h1

/-- C84: it always is a use of the destroyed value; from another `Maybe` `init` is fine (C55). -/
theorem C84_init_alias_partial (moved : A → A) (os : List (Op V A)) (v : V) (a : A) (hl : LegalRun os (fun _ => none))
    (hv : specRun os (fun _ => none) v = some (some a)) :
    ∃ s, run moved os State.start = .ok s ∧ step moved s (.initFrom v v) = .error .useAfterFree ∧
      ∀ w, w ≠ v → specRun os (fun _ => none) w ≠ none → ∃ s', step moved s (.initFrom w v) = .ok s' ∧
        Shows (s'.vars w) s'.mem (some (some a)) := by
  obtain ⟨s, h1, hi⟩ := inv_run moved os inv_start hl
  obtain ⟨id, h2, h3, h4, -⟩ := hi.value hv
  refine ⟨s, h1, ?_, ?_⟩
  · simp [step, h3, bind, Except.bind, get, readBuf, h4, clearFor, destroyBuf]
  · intro w hwv hw
    obtain ⟨s', h5, h6⟩ := inv_step moved hi (.initFrom w v) ⟨hw, ⟨a, hv⟩, hwv⟩
    refine ⟨s', h5, ?_⟩
    have := shows_of_inv h6 w
    simpa [specStep, Env.set, hv] using this

end Verif.Maybe
