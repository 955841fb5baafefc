import Verif.Alloc.Spec
/-!
# C109-C111: allocation policies
-/
namespace Verif.Alloc
open Verif

set_option linter.unusedSimpArgs false
set_option linter.unusedSectionVars false

variable {V A : Type} [DecidableEq V]

/-- What the invariant says about one variable. -/
def Rep (w : Want V A) (v : V) : Option (Box A) → Prop
  | none => w.pol v = none
  | some (.table t) => w.pol v = some t.pol ∧ w.wrapper v = false ∧ (if w.holds v then t.buf = some t.pol else t.buf = none)
  | some (.wrapper _ t) => w.pol v = some t.pol ∧ w.wrapper v = true ∧ (if w.holds v then t.buf = some t.pol else t.buf = none)

def Inv (w : Want V A) (s : State V A) : Prop := ∀ v, Rep w v (s.vars v)

theorem Rep.tab {w : Want V A} {v : V} {x : Box A} (h : Rep w v (some x)) :
    w.pol v = some x.tab.pol ∧ (if w.holds v then x.tab.buf = some x.tab.pol else x.tab.buf = none) := by
  cases x with
  | table t => exact ⟨h.1, h.2.2⟩
  | wrapper b t => exact ⟨h.1, h.2.2⟩

theorem Rep.congr {w w' : Want V A} {v : V} {o : Option (Box A)} (h : Rep w v o) (h1 : w'.pol v = w.pol v) (h2 : w'.holds v = w.holds v)
    (h3 : w'.wrapper v = w.wrapper v) : Rep w' v o := by
  cases o with
  | none => exact h1.trans h
  | some x => cases x <;> (simp only [Rep, h1, h2, h3]; exact h)

theorem freed_expected {w : Want V A} {v : V} {x : Box A} (h : Rep w v (some x)) :
    freed v x.tab = if w.holds v then [.free v x.tab.pol x.tab.pol] else [] := by
  obtain ⟨-, h2⟩ := h.tab
  unfold freed
  split at h2
  · rename_i hh; rw [h2, if_pos hh]
  · rename_i hh; rw [h2, if_neg hh]

theorem step_obtain (dflt : Nat → A) {s : State V A} {v : V} {x : Box A} (hx : s.vars v = some x) :
    step dflt s (.obtain v) = .ok { s.set v (some (x.setTab { x.tab with buf := some x.tab.pol })) with
      log := freed v x.tab ++ .alloc v x.tab.pol :: s.log } := by simp only [step, hx]

theorem step_move_table (dflt : Nat → A) {s : State V A} {v u : V} {t : Tab A} (hx : s.vars u = some (.table t)) :
    step dflt s (.move v u) = .ok ((s.set u (some (.table { t with buf := none }))).set v (some (.table t))) := by
  simp only [step, hx, Box.tab, Box.setTab]

theorem step_move_wrapper (dflt : Nat → A) {s : State V A} {v u : V} {b : A} {t : Tab A} (hx : s.vars u = some (.wrapper b t)) :
    step dflt s (.move v u) = .ok { (s.set u (some (.wrapper b { t with buf := none }))).set v (some (.wrapper (dflt s.made) t)) with
      made := s.made + 1 } := by
  simp only [step, hx, Box.tab, Box.setTab, State.set]

theorem step_set_table (dflt : Nat → A) {s : State V A} {v : V} {a : A} {t : Tab A} (hx : s.vars v = some (.table t)) :
    step dflt s (.setPolicy v a) = .ok (s.set v (some (.table { t with pol := a }))) := by simp only [step, hx]

theorem step_set_wrapper (dflt : Nat → A) {s : State V A} {v : V} {a b : A} {t : Tab A} (hx : s.vars v = some (.wrapper b t)) :
    step dflt s (.setPolicy v a) = .ok (s.set v (some (.wrapper a t))) := by simp only [step, hx]

theorem step_destroy (dflt : Nat → A) {s : State V A} {v : V} {x : Box A} (hx : s.vars v = some x) :
    step dflt s (.destroy v) = .ok { s.set v none with log := freed v x.tab ++ s.log } := by simp only [step, hx]

theorem step_inv (dflt : Nat → A) {w : Want V A} {s : State V A} (hi : Inv w s) (o : Op V A) (hl : Legal w o)
    (hk : ∀ v a, o = .setPolicy v a → w.wrapper v = false) :
    ∃ s', step dflt s o = .ok s' ∧ Inv (after w o) s' ∧ s'.log = expected w o ++ s.log := by
  cases o with
  | newTable v ap =>
    refine ⟨_, rfl, fun k => ?_, rfl⟩
    by_cases h : k = v
    · subst h; simp [State.set, Rep, after, put]
    · simpa [State.set, h] using (hi k).congr (by simp [after, put, h]) (by simp [after, put, h]) (by simp [after, put, h])
  | newWrapper v ap =>
    refine ⟨_, rfl, fun k => ?_, rfl⟩
    by_cases h : k = v
    · subst h; simp [State.set, Rep, after, put]
    · simpa [State.set, h] using (hi k).congr (by simp [after, put, h]) (by simp [after, put, h]) (by simp [after, put, h])
  | obtain v =>
    have hv := hi v
    cases hx : s.vars v with
    | none => rw [hx] at hv; exact absurd hv hl
    | some x =>
      rw [hx] at hv
      refine ⟨_, step_obtain dflt hx, fun k => ?_, ?_⟩
      · by_cases h : k = v
        · subst h
          cases x <;> simp [State.set, Rep, after, put, Box.setTab, Box.tab] at hv ⊢ <;> simp [hv]
        · simpa [State.set, h] using (hi k).congr (by simp [after, put, h]) (by simp [after, put, h]) (by simp [after, put, h])
      · simp only [expected, hv.tab.1, freed_expected hv]
        simp
  | move v u =>
    have hu := hi u
    have hvu : v ≠ u := by rintro rfl; exact hl.2 hl.1
    cases hx : s.vars u with
    | none => rw [hx] at hu; exact absurd hu hl.2
    | some x =>
      rw [hx] at hu
      cases x with
      | table t =>
        refine ⟨_, step_move_table dflt hx, fun k => ?_, rfl⟩
        by_cases h : k = v
        · subst h
          simp [State.set, Rep, after, put, Box.setTab, Box.tab] at hu ⊢
          exact hu
        · by_cases h' : k = u
          · subst h'
            simp [State.set, Rep, after, put, Box.setTab, Box.tab, h] at hu ⊢
            simp [hu]
          · simpa [State.set, h, h'] using (hi k).congr (by simp [after, put, h, h']) (by simp [after, put, h, h']) (by simp [after, put, h, h'])
      | wrapper b t =>
        refine ⟨_, step_move_wrapper dflt hx, fun k => ?_, rfl⟩
        by_cases h : k = v
        · subst h
          simp [State.set, Rep, after, put, Box.setTab, Box.tab] at hu ⊢
          exact hu
        · by_cases h' : k = u
          · subst h'
            simp [State.set, Rep, after, put, Box.setTab, Box.tab, h] at hu ⊢
            simp [hu]
          · simpa [State.set, h, h'] using (hi k).congr (by simp [after, put, h, h']) (by simp [after, put, h, h']) (by simp [after, put, h, h'])
  | setPolicy v a =>
    have hv := hi v
    cases hx : s.vars v with
    | none => rw [hx] at hv; exact absurd hv hl.1
    | some x =>
      rw [hx] at hv
      cases x with
      | wrapper b t => exact absurd (hv.2.1.symm.trans (hk v a rfl)) (by simp)
      | table t =>
        refine ⟨_, step_set_table dflt hx, fun k => ?_, rfl⟩
        by_cases h : k = v
        · subst h
          have hh := hl.2
          simp [State.set, Rep, after, put, hh] at hv ⊢
          exact ⟨hv.2.1, hv.2.2⟩
        · simpa [State.set, h] using (hi k).congr (by simp [after, put, h]) (by simp [after, put, h]) (by simp [after, put, h])
  | destroy v =>
    have hv := hi v
    cases hx : s.vars v with
    | none => rw [hx] at hv; exact absurd hv hl
    | some x =>
      rw [hx] at hv
      refine ⟨_, step_destroy dflt hx, fun k => ?_, ?_⟩
      · by_cases h : k = v
        · subst h; simp [State.set, Rep, after, put]
        · simpa [State.set, h] using (hi k).congr (by simp [after, put, h]) (by simp [after, put, h]) (by simp [after, put, h])
      · simp only [expected, hv.tab.1, freed_expected hv]

theorem run_inv (dflt : Nat → A) : ∀ (os : List (Op V A)) (w : Want V A) (s : State V A), Inv w s → LegalAll w os → WrappersKept w os →
    ∃ s', run dflt s os = .ok s' ∧ Inv (afterAll w os) s' ∧ s'.log = expectedAll w os ++ s.log := by
  intro os
  induction os with
  | nil => intro w s hi _ _; exact ⟨s, rfl, hi, rfl⟩
  | cons o os ih =>
    intro w s hi hl hk
    obtain ⟨s1, h1, hi1, hlog⟩ := step_inv dflt hi o hl.1 hk.1
    obtain ⟨s2, h2, hi2, hlog2⟩ := ih _ s1 hi1 hl.2 hk.2
    exact ⟨s2, by simp only [run, h1, h2, bind, Except.bind], hi2, by rw [hlog2, hlog, expectedAll, List.append_assoc]⟩

theorem inv_start : Inv (Want.new : Want V A) State.new := fun _ => rfl

/-- C109: in every history of hash containers (in which `allocPolicy()` is used to replace policies of `HashTable`s only, and not while they hold
memory), whatever policies the wrappers' own constructors make, the calls of the policies are exactly those expected: every container asks
the policy it was given, gives memory back to the policy it came from, also after moves; and `HashTable::allocPolicy()` is
that policy. -/
theorem C109_policies (dflt : Nat → A) (os : List (Op V A)) (hl : LegalAll Want.new os) (hk : WrappersKept Want.new os) :
    ∃ s, run dflt State.new os = .ok s ∧ s.log = expectedAll Want.new os ∧
      ∀ v t, s.vars v = some (.table t) → some (Box.table t).allocPolicy = (afterAll Want.new os).pol v := by
  obtain ⟨s, h1, h2, h3⟩ := run_inv dflt os _ _ inv_start hl hk
  refine ⟨s, h1, by simpa [State.new] using h3, fun v t hv => ?_⟩
  have := h2 v
  rw [hv] at this
  exact this.1.symm

theorem expected_returned (w : Want V A) (o : Op V A) : Returned (expected w o) := by
  intro v a b h
  cases o <;> simp only [expected, List.not_mem_nil] at h
  · split at h
    · cases h
    · split at h <;> simp at h
      rw [h.2.1, h.2.2]
  · split at h
    · cases h
    · split at h <;> simp at h
      rw [h.2.1, h.2.2]

theorem expectedAll_returned : ∀ (os : List (Op V A)) (w : Want V A), Returned (expectedAll w os) := by
  intro os
  induction os with
  | nil => intro w v a b h; cases h
  | cons o os ih =>
    intro w v a b h
    rcases List.mem_append.1 h with h | h
    · exact ih _ v a b h
    · exact expected_returned w o v a b h

/-- C109, in particular: no memory is given to a policy it does not come from. -/
theorem C109_returned (dflt : Nat → A) (os : List (Op V A)) (hl : LegalAll Want.new os) (hk : WrappersKept Want.new os) (s : State V A)
    (hr : run dflt State.new os = .ok s) : Returned s.log := by
  obtain ⟨s', h1, h2, -⟩ := C109_policies dflt os hl hk
  rw [hr] at h1; cases h1
  rw [h2]
  exact expectedAll_returned os _

/-! ### C110 -/

/-- The full claim for `HashMap` and `HashSet`: `allocPolicy()` is the policy the container uses, so that what it was given is found there,
and what is put there is used from then on. -/
def WrapperPolicy : Prop :=
  ∀ (dflt : Nat → Nat) (os : List (Op Nat Nat)), LegalAll Want.new os → ∀ s, run dflt State.new os = .ok s →
    s.log = expectedAll Want.new os ∧ ∀ v x, s.vars v = some x → some x.allocPolicy = (afterAll Want.new os).pol v

/-- C110 is false: `allocPolicy()` of a `HashMap` or `HashSet` is another policy, made by `AllocPolicy()`. -/
theorem C110_wrapper_policy_refuted : ¬ WrapperPolicy := by
  intro h
  have := (h (fun _ => 0) [.newWrapper 0 7] (by simp [LegalAll, Legal, Want.new]) _ rfl).2 0 _ rfl
  simp [Box.allocPolicy, afterAll, after, put] at this

/-- C110 is false for changes as well: what is put into `allocPolicy()` is not used. -/
theorem C110_change_ignored_refuted : ¬ ∀ (dflt : Nat → Nat) (os : List (Op Nat Nat)), LegalAll Want.new os →
    ∀ s, run dflt State.new os = .ok s → s.log = expectedAll Want.new os := by
  intro h
  have := h (fun _ => 0) [.newWrapper 0 7, .setPolicy 0 8, .obtain 0] (by simp [LegalAll, Legal, Want.new, after, put]) _ rfl
  simp [expectedAll, expected, after, put, State.set, Box.tab, Box.setTab, freed, State.new] at this

/-- The history without the changes made to the policies of `HashMap`s and `HashSet`s. -/
def ignoring (w : Want V A) : List (Op V A) → List (Op V A)
  | [] => []
  | .setPolicy v a :: os => if w.wrapper v then ignoring w os else .setPolicy v a :: ignoring (after w (.setPolicy v a)) os
  | o :: os => o :: ignoring (after w o) os

/-- `w` differs from `w'` at most in which policies wrappers have. -/
def Near (w w' : Want V A) : Prop :=
  ∀ v, (w.pol v = none ↔ w'.pol v = none) ∧ w.holds v = w'.holds v ∧ w.wrapper v = w'.wrapper v

theorem near_after {w w' : Want V A} (h : Near w w') (o : Op V A) : Near (after w o) (after w' o) := by
  intro k
  cases o with
  | move v u =>
    simp only [after, put]
    refine ⟨?_, ?_, ?_⟩
    · split
      · exact (h u).1
      · exact (h k).1
    · split
      · exact (h u).2.1
      · split
        · rfl
        · exact (h k).2.1
    · split
      · exact (h u).2.2
      · exact (h k).2.2
  | _ =>
    simp only [after, put]
    refine ⟨?_, ?_, ?_⟩ <;> (try split) <;> first | exact (h k).1 | exact (h k).2.1 | exact (h k).2.2 | simp

theorem near_legal {w w' : Want V A} (h : Near w w') (o : Op V A) (hl : Legal w' o) : Legal w o := by
  cases o with
  | newTable v _ => exact (h v).1.2 hl
  | newWrapper v _ => exact (h v).1.2 hl
  | obtain v => exact fun e => hl ((h v).1.1 e)
  | destroy v => exact fun e => hl ((h v).1.1 e)
  | move v u => exact ⟨(h v).1.2 hl.1, fun e => hl.2 ((h u).1.1 e)⟩
  | setPolicy v _ => exact ⟨fun e => hl.1 ((h v).1.1 e), (h v).2.1.trans hl.2⟩

theorem run_near (dflt : Nat → A) : ∀ (os : List (Op V A)) (w w' : Want V A) (s : State V A), Inv w s → Near w w' → LegalAll w' os →
    ∃ s', run dflt s os = .ok s' ∧ Inv (afterAll w (ignoring w os)) s' ∧ Near (afterAll w (ignoring w os)) (afterAll w' os) ∧
      s'.log = expectedAll w (ignoring w os) ++ s.log := by
  intro os
  induction os with
  | nil => intro w w' s hi hn _; exact ⟨s, rfl, hi, hn, rfl⟩
  | cons o os ih =>
    intro w w' s hi hn hl
    have keep (hk : ∀ v a, o = .setPolicy v a → w.wrapper v = false) (he : ignoring w (o :: os) = o :: ignoring (after w o) os) :
        ∃ s', run dflt s (o :: os) = .ok s' ∧ Inv (afterAll w (ignoring w (o :: os))) s' ∧
          Near (afterAll w (ignoring w (o :: os))) (afterAll w' (o :: os)) ∧ s'.log = expectedAll w (ignoring w (o :: os)) ++ s.log := by
      obtain ⟨s1, h1, hi1, hlog⟩ := step_inv dflt hi o (near_legal hn o hl.1) hk
      obtain ⟨s2, h2, hi2, hn2, hlog2⟩ := ih _ _ s1 hi1 (near_after hn o) hl.2
      rw [he]
      exact ⟨s2, by simp only [run, h1, h2, bind, Except.bind], hi2, hn2, by rw [hlog2, hlog, expectedAll, List.append_assoc]⟩
    cases o with
    | setPolicy v a =>
      cases hw : w.wrapper v with
      | false =>
        refine keep (fun v' a' e => ?_) (by simp [ignoring, hw])
        cases e; exact hw
      | true =>
        have hv := hi v
        have hl1 := near_legal hn _ hl.1
        cases hx : s.vars v with
        | none => rw [hx] at hv; exact absurd hv hl1.1
        | some x =>
          rw [hx] at hv
          cases x with
          | table t => exact absurd (hv.2.1.symm.trans hw) (by simp)
          | wrapper b t =>
            have hi1 : Inv w (s.set v (some (.wrapper a t))) := by
              intro k
              by_cases h : k = v
              · subst h; simpa [State.set, Rep] using hv
              · simpa [State.set, h] using hi k
            have hn1 : Near w (after w' (.setPolicy v a)) := by
              intro k
              refine ⟨?_, (hn k).2.1, (hn k).2.2⟩
              simp only [after, put]
              split
              · rename_i h; subst h
                simp only [reduceCtorEq, iff_false]
                exact hl1.1
              · exact (hn k).1
            obtain ⟨s2, h2, hi2, hn2, hlog2⟩ := ih w _ _ hi1 hn1 hl.2
            have he : ignoring w (.setPolicy v a :: os) = ignoring w os := by simp [ignoring, hw]
            rw [he]
            exact ⟨s2, by simp only [run, step_set_wrapper dflt hx, h2, bind, Except.bind], hi2, hn2, hlog2⟩
    | newTable v ap => exact keep (by intro _ _ e; cases e) rfl
    | newWrapper v ap => exact keep (by intro _ _ e; cases e) rfl
    | obtain v => exact keep (by intro _ _ e; cases e) rfl
    | move v u => exact keep (by intro _ _ e; cases e) rfl
    | destroy v => exact keep (by intro _ _ e; cases e) rfl

theorem near_refl (w : Want V A) : Near w w := fun _ => ⟨Iff.rfl, rfl, rfl⟩

/-- C110, what does hold, in every history: changes made through `allocPolicy()` of a `HashMap` or `HashSet` have no effect on where memory comes
from, the calls of the policies are exactly those expected of the history without them. So memory is asked for from the policy the
constructor was given, and given back to where it came from. -/
theorem C110_exact_partial (dflt : Nat → A) (os : List (Op V A)) (hl : LegalAll Want.new os) :
    ∃ s, run dflt State.new os = .ok s ∧ s.log = expectedAll Want.new (ignoring Want.new os) ∧ Returned s.log := by
  obtain ⟨s, h1, -, -, h3⟩ := run_near dflt os _ _ _ inv_start (near_refl _) hl
  refine ⟨s, h1, by simpa [State.new] using h3, ?_⟩
  rw [show s.log = expectedAll Want.new (ignoring Want.new os) by simpa [State.new] using h3]
  exact expectedAll_returned _ _

/-- C110 holds in full for policies without state (such as `SystemAllocatorPolicy`), of which all objects are the same. -/
theorem C110_stateless_partial [Subsingleton A] (dflt : Nat → A) (os : List (Op V A)) (hl : LegalAll Want.new os) :
    ∃ s, run dflt State.new os = .ok s ∧
      ∀ v x, s.vars v = some x → some x.allocPolicy = (afterAll Want.new os).pol v := by
  obtain ⟨s, h1, h2, hn, -⟩ := run_near dflt os _ _ _ inv_start (near_refl _) hl
  refine ⟨s, h1, fun v x hv => ?_⟩
  have hr := h2 v
  rw [hv] at hr
  have := (hn v).1
  rw [hr.tab.1] at this
  cases hp : (afterAll Want.new os).pol v with
  | none => rw [hp] at this; simp at this
  | some a => rw [Subsingleton.elim a]

/-- Non-vacuity: two tables and a map in two arenas, growth, a move, a policy replaced, and all destroyed. -/
def demo : List (Op Nat Nat) :=
  [.newTable 0 7, .newWrapper 1 8, .obtain 0, .obtain 1, .obtain 0, .move 2 1, .setPolicy 1 9, .newTable 3 5, .setPolicy 3 6, .obtain 3,
    .destroy 1, .obtain 2, .destroy 2, .destroy 3, .destroy 0]

example : LegalAll Want.new demo := by simp [demo, LegalAll, Legal, Want.new, after, put]
example : LegalAll Want.new (ignoring Want.new demo) ∧ WrappersKept Want.new (ignoring Want.new demo) := by
  simp [demo, ignoring, WrappersKept, LegalAll, Legal, Want.new, after, put]
example : expectedAll Want.new (ignoring Want.new demo) =
    [.free 0 7 7, .free 3 6 6, .free 2 8 8, .free 2 8 8, .alloc 2 8, .alloc 3 6, .free 0 7 7, .alloc 0 7, .alloc 1 8, .alloc 0 7] := rfl

/-! ### C111: `FixedArray` -/

/-- The full claim: an array asks the policy it was given, and gives memory back to where it came from. -/
def FixedArrayPolicy : Prop :=
  ∀ (d : Nat) (os : List (FOp Nat Nat)), FLegalAll (fun _ => false) os → ∀ s, frun (fun _ => d) FState.new os = .ok s →
    asked s.log = fexpected d (fun _ => none) os ∧ Returned s.log

/-- C111 is false: the policy given to the constructor is not used. -/
theorem C111_policy_ignored_refuted : ¬ FixedArrayPolicy := by
  intro h
  have := (h 0 [.ctorSize 0 7] (by simp [FLegalAll, FLegal]) _ rfl).1
  simp [asked, fexpected, fasks, FState.new, FState.set] at this

/-- C111 is false in its second half as well, when policies made by `AllocPolicy()` differ: a moved array's memory is given to the policy of the
array it was moved to. -/
theorem C111_returned_refuted : ¬ ∀ (dflt : Nat → Nat) (os : List (FOp Nat Nat)), FLegalAll (fun _ => false) os →
    ∀ s, frun dflt FState.new os = .ok s → Returned s.log := by
  intro h
  have := h id [.ctorSize 0 7, .ctorMove 1 0, .dtor 1] (by simp [FLegalAll, FLegal, fexists, put]) _ rfl 1 1 0
    (by simp [FState.set, freed, FState.new])
  cases this

/-- The history with the default policy given to every constructor. -/
def FOp.plain (d : A) : FOp V A → FOp V A
  | .ctorSize v _ => .ctorSize v d
  | o => o

/-- No array is moved. -/
def FOp.notMove : FOp V A → Prop
  | .ctorMove .. | .assignMove .. => False
  | _ => True

/-- The arrays that exist; each one's policy, and the arena of its memory, satisfy `p`. -/
def FInv (p : A → Option A → Prop) (w : V → Bool) (s : FState V A) : Prop :=
  ∀ v, match s.vars v with
    | none => w v = false
    | some t => w v = true ∧ p t.pol t.buf

theorem FInv.get {p : A → Option A → Prop} {w : V → Bool} {s : FState V A} (hi : FInv p w s) {v : V} (h : w v = true) :
    ∃ t, s.vars v = some t ∧ p t.pol t.buf := by
  have := hi v
  cases hx : s.vars v with
  | none => rw [hx] at this; simp only at this; rw [h] at this; cases this
  | some t => rw [hx] at this; exact ⟨t, rfl, this.2⟩

theorem FInv.put_some {p : A → Option A → Prop} {w : V → Bool} {s : FState V A} (hi : FInv p w s) (v : V) (t : Tab A) (h : p t.pol t.buf) :
    FInv p (put w v true) (s.set v (some t)) := by
  intro k
  by_cases hk : k = v
  · subst hk; simp [FState.set, put, h]
  · have := hi k; simp only [FState.set, put, hk, if_false]; exact this

theorem FInv.put_none {p : A → Option A → Prop} {w : V → Bool} {s : FState V A} (hi : FInv p w s) (v : V) :
    FInv p (put w v false) (s.set v none) := by
  intro k
  by_cases hk : k = v
  · subst hk; simp [FState.set, put]
  · have := hi k; simp only [FState.set, put, hk, if_false]; exact this

theorem put_same {w : V → Bool} {v : V} {b : Bool} (h : w v = b) : put w v b = w := by
  funext k; simp only [put]; split
  · rename_i e; rw [e, h]
  · rfl

theorem returned_nil : Returned ([] : List (Event V A)) := by intro _ _ _ h; cases h

theorem returned_append {l l' : List (Event V A)} (h : Returned l) (h' : Returned l') : Returned (l ++ l') := by
  intro v a b hm
  rcases List.mem_append.1 hm with hm | hm
  · exact h v a b hm
  · exact h' v a b hm

theorem returned_alloc {l : List (Event V A)} (v : V) (a : A) (h : Returned l) : Returned (.alloc v a :: l) := by
  intro u x y hm
  rcases List.mem_cons.1 hm with hm | hm
  · cases hm
  · exact h u x y hm

theorem returned_freed {v : V} {t : Tab A} (h : ∀ b, t.buf = some b → t.pol = b) : Returned (freed v t) := by
  unfold freed
  cases hb : t.buf with
  | none => exact returned_nil
  | some b =>
    intro u x y hm
    rcases List.mem_singleton.1 hm with hm
    cases hm
    exact h b hb

theorem asked_freed (v : V) (t : Tab A) (l : List (Event V A)) : asked (freed v t ++ l) = asked l := by
  unfold freed
  cases t.buf <;> simp [asked]

/-- With one policy `d` for all: its invariant. -/
def Only (d : A) (p : A) (b : Option A) : Prop := p = d ∧ ∀ x, b = some x → x = d

theorem frun_only (d : A) : ∀ (os : List (FOp V A)) (w : V → Bool) (u : V → Option A) (s : FState V A),
    FInv (Only d) w s → (∀ v, u v = if w v then some d else none) → Returned s.log → FLegalAll w os →
    ∃ s', frun (fun _ => d) s os = .ok s' ∧ asked s'.log = fexpected d u (os.map (FOp.plain d)) ++ asked s.log ∧ Returned s'.log := by
  intro os
  induction os with
  | nil => intro w u s _ _ hr _; exact ⟨s, rfl, rfl, hr⟩
  | cons o os ih =>
    intro w u s hi hu hr hl
    have go (s1 : FState V A) (h1 : fstep (fun _ => d) s o = .ok s1) (hi1 : FInv (Only d) (fexists w o) s1)
        (hu1 : ∀ v, fafter d u (o.plain d) v = if fexists w o v then some d else none) (hr1 : Returned s1.log)
        (ha : asked s1.log = fasks u (o.plain d) ++ asked s.log) :
        ∃ s', frun (fun _ => d) s (o :: os) = .ok s' ∧ asked s'.log = fexpected d u ((o :: os).map (FOp.plain d)) ++ asked s.log ∧
          Returned s'.log := by
      obtain ⟨s2, h2, ha2, hr2⟩ := ih _ _ s1 hi1 hu1 hr1 hl.2
      refine ⟨s2, by simp only [frun, h1, h2, bind, Except.bind], ?_, hr2⟩
      rw [ha2, ha, List.map_cons, fexpected, List.append_assoc]
    cases o with
    | ctor v =>
      refine go _ rfl (hi.put_some v _ ⟨rfl, by simp⟩) (fun k => ?_) hr rfl
      simp only [FOp.plain, fafter, fexists, put]; split <;> simp [hu]
    | ctorSize v ap =>
      refine go _ rfl (hi.put_some v _ ⟨rfl, by simp⟩) (fun k => ?_) (returned_alloc v _ hr) rfl
      simp only [FOp.plain, fafter, fexists, put]; split <;> simp [hu]
    | ctorMove v x =>
      obtain ⟨t, hx, ht⟩ := hi.get hl.1.2
      have hs : fstep (fun _ => d) s (.ctorMove v x) = .ok { (s.set x (some { t with buf := none })).set v (some { pol := d, buf := t.buf }) with
        made := s.made + 1 } := by simp only [fstep, hx]
      refine go _ hs ?_ (fun k => ?_) hr rfl
      · have h1 := hi.put_some x { t with buf := none } ⟨ht.1, by simp⟩
        rw [put_same hl.1.2] at h1
        exact h1.put_some v { pol := d, buf := t.buf } ⟨rfl, ht.2⟩
      · simp only [FOp.plain, fafter, fexists, put, hu, hl.1.2]; split <;> simp
    | assignCopy v =>
      obtain ⟨t, hx, ht⟩ := hi.get hl.1
      have hs : fstep (fun _ => d) s (.assignCopy v) = .ok { s.set v (some { t with buf := some t.pol }) with
        log := .alloc v t.pol :: freed v t ++ s.log } := by simp only [fstep, hx]
      refine go _ hs ?_ hu (returned_append (l := .alloc v t.pol :: freed v t) (returned_alloc v _ (returned_freed fun b hb => ?_)) hr) ?_
      · have h1 := hi.put_some v { t with buf := some t.pol } ⟨ht.1, fun x hx => by cases hx; exact ht.1⟩
        rw [put_same hl.1] at h1
        exact h1
      · rw [ht.1, ht.2 b hb]
      · simp only [FOp.plain, fasks, hu v, show w v = true from hl.1, if_true]
        have := asked_freed v t s.log
        simp only [asked, List.cons_append, List.filterMap_cons] at this ⊢
        rw [this, ht.1]; rfl
    | assignMove v x =>
      obtain ⟨tv, hv, htv⟩ := hi.get hl.1.1
      obtain ⟨tx, hx, htx⟩ := hi.get hl.1.2
      have hs : fstep (fun _ => d) s (.assignMove v x) = .ok ((s.set v (some { tv with buf := tx.buf })).set x
        (some { (if x = v then { tv with buf := tx.buf } else tx) with buf := none })) := by simp only [fstep, hv, hx]
      refine go _ hs ?_ (fun k => ?_) hr rfl
      · have h1 := hi.put_some v { tv with buf := tx.buf } ⟨htv.1, htx.2⟩
        rw [put_same hl.1.1] at h1
        have h2 := h1.put_some x { (if x = v then { tv with buf := tx.buf } else tx) with buf := none } ⟨by split <;> first | exact htv.1 | exact htx.1, by simp⟩
        rw [put_same hl.1.2] at h2
        exact h2
      · simp only [FOp.plain, fafter, fexists, put, hu, hl.1.2]
        split
        · rename_i e; have := hl.1.1; simp [e, fexists, this]
        · rfl
    | dtor v =>
      obtain ⟨t, hx, ht⟩ := hi.get hl.1
      have hs : fstep (fun _ => d) s (.dtor v) = .ok { s.set v none with log := freed v t ++ s.log } := by simp only [fstep, hx]
      refine go _ hs (hi.put_none v) (fun k => ?_) (returned_append (returned_freed fun b hb => ?_) hr) (asked_freed v t s.log)
      · simp only [FOp.plain, fafter, fexists, put, hu]; split <;> simp
      · rw [ht.1, ht.2 b hb]

/-- C111, what holds when all policies made by `AllocPolicy()` are for the same arena `d`: in every history, moves included, the requests are
exactly those expected if every constructor had been given `d`, and memory is given back to where it came from. In particular the full
claim holds when the constructors are given `d`. -/
theorem C111_default_partial (d : A) (os : List (FOp V A)) (hl : FLegalAll (fun _ => false) os) :
    ∃ s, frun (fun _ => d) FState.new os = .ok s ∧ asked s.log = fexpected d (fun _ => none) (os.map (FOp.plain d)) ∧ Returned s.log := by
  obtain ⟨s, h1, h2, h3⟩ := frun_only d os (fun _ => false) (fun _ => none) FState.new (fun _ => rfl) (fun _ => rfl) returned_nil hl
  exact ⟨s, h1, by simpa [FState.new, asked] using h2, h3⟩

/-- Memory, if any, came from the array's own policy. -/
def Own (p : A) (b : Option A) : Prop := ∀ x, b = some x → p = x

theorem frun_own (dflt : Nat → A) : ∀ (os : List (FOp V A)) (w : V → Bool) (s : FState V A),
    FInv Own w s → Returned s.log → FLegalAll w os → (∀ o ∈ os, o.notMove) → ∃ s', frun dflt s os = .ok s' ∧ Returned s'.log := by
  intro os
  induction os with
  | nil => intro w s _ hr _ _; exact ⟨s, rfl, hr⟩
  | cons o os ih =>
    intro w s hi hr hl hm
    have go (s1 : FState V A) (h1 : fstep dflt s o = .ok s1) (hi1 : FInv Own (fexists w o) s1) (hr1 : Returned s1.log) :
        ∃ s', frun dflt s (o :: os) = .ok s' ∧ Returned s'.log := by
      obtain ⟨s2, h2, hr2⟩ := ih _ s1 hi1 hr1 hl.2 fun o ho => hm o (List.mem_cons_of_mem _ ho)
      exact ⟨s2, by simp only [frun, h1, h2, bind, Except.bind], hr2⟩
    have hm0 := hm o List.mem_cons_self
    cases o with
    | ctor v => exact go _ rfl (hi.put_some v _ (by intro x hx; cases hx)) hr
    | ctorSize v ap => exact go _ rfl (hi.put_some v _ (by intro x hx; cases hx; rfl)) (returned_alloc v _ hr)
    | ctorMove v x => cases hm0
    | assignMove v x => cases hm0
    | assignCopy v =>
      obtain ⟨t, hx, ht⟩ := hi.get hl.1
      have hs : fstep dflt s (.assignCopy v) = .ok { s.set v (some { t with buf := some t.pol }) with
        log := .alloc v t.pol :: freed v t ++ s.log } := by simp only [fstep, hx]
      refine go _ hs ?_ (returned_append (l := .alloc v t.pol :: freed v t) (returned_alloc v _ (returned_freed ht)) hr)
      have h1 := hi.put_some v { t with buf := some t.pol } (by intro x hx; cases hx; rfl)
      rw [put_same hl.1] at h1
      exact h1
    | dtor v =>
      obtain ⟨t, hx, ht⟩ := hi.get hl.1
      have hs : fstep dflt s (.dtor v) = .ok { s.set v none with log := freed v t ++ s.log } := by simp only [fstep, hx]
      exact go _ hs (hi.put_none v) (returned_append (returned_freed ht) hr)

/-- C111, what holds whatever policies `AllocPolicy()` makes: without moves, memory is given back to where it came from. -/
theorem C111_returned_partial (dflt : Nat → A) (os : List (FOp V A)) (hl : FLegalAll (fun _ => false) os) (hm : ∀ o ∈ os, o.notMove) :
    ∃ s, frun dflt FState.new os = .ok s ∧ Returned s.log :=
  frun_own dflt os (fun _ => false) FState.new (fun _ => rfl) returned_nil hl hm

/-- Non-vacuity: arrays made, copied, moved and destroyed. -/
def fdemo : List (FOp Nat Nat) := [.ctorSize 0 7, .ctor 1, .assignCopy 1, .ctorMove 2 0, .assignMove 0 2, .dtor 2, .assignCopy 0, .dtor 0, .dtor 1]

example : FLegalAll (fun _ => false) fdemo := by simp [fdemo, FLegalAll, FLegal, fexists, put]
example : (frun (fun _ => 5) FState.new fdemo).toOption.map FState.log =
    some [.free 1 5 5, .free 0 5 5, .alloc 0 5, .free 0 5 5, .alloc 1 5, .alloc 0 5] := rfl
example : FLegalAll (fun _ => false) (fdemo.filter (fun | .ctorMove .. | .assignMove .. | .dtor 2 => false | _ => true)) := by
  simp [fdemo, FLegalAll, FLegal, fexists, put]

end Verif.Alloc
