import Verif.Raii.Ref
/-!
# C107, C108: what a guard remembers
-/
namespace Verif.Raii
open Verif

/-! ## C107 -/
section ref
variable {V G C : Type} [DecidableEq V] [DecidableEq G]

/-- The operation creates, moves, cancels or destroys the guard `g`. -/
def ROp.touches (g : G) : ROp V G C → Prop
  | .makeTemp k _ | .makeMove k _ | .makeRef k _ | .cancel k | .destroy k => k = g
  | .move k h => k = g ∨ h = g
  | _ => False

/-- The operation gives `v` another value, moves from it or ends it. -/
def ROp.changes (v : V) : ROp V G C → Prop
  | .declare w _ | .assign w _ | .endVar w | .makeMove _ w => w = v
  | _ => False

theorem step_guard {s s' : RState V G C} {o : ROp V G C} {g : G} (hn : ¬ o.touches g) (h : s.step o = .ok s') :
    s'.guards g = s.guards g := by
  cases o with
  | declare v c => cases h; rfl
  | assign v c =>
    simp only [RState.step] at h
    split at h <;> cases h
    rfl
  | endVar v => cases h; rfl
  | makeTemp k c => cases h; simp only [ROp.touches] at hn; simp [RState.setG, Ne.symm hn]
  | makeMove k v =>
    simp only [RState.step] at h
    split at h <;> cases h
    simp only [ROp.touches] at hn; simp [RState.setG, RState.setV, Ne.symm hn]
  | makeRef k v => cases h; simp only [ROp.touches] at hn; simp [RState.setG, Ne.symm hn]
  | move k j =>
    simp only [ROp.touches, not_or] at hn
    simp only [RState.step] at h
    split at h
    · cases h
    · split at h
      · cases h
      · cases h; simp [RState.setG, Ne.symm hn.1, Ne.symm hn.2]
  | cancel k =>
    simp only [ROp.touches] at hn
    simp only [RState.step] at h
    split at h <;> cases h
    simp [RState.setG, Ne.symm hn]
  | destroy k =>
    simp only [ROp.touches] at hn
    simp only [RState.step] at h
    split at h
    · cases h
    · split at h
      · simp only [bind, Except.bind] at h
        split at h
        · cases h
        · cases h; simp [RState.setG, Ne.symm hn]
      · cases h; simp [RState.setG, Ne.symm hn]

theorem step_var {s s' : RState V G C} {o : ROp V G C} {v : V} (hn : ¬ o.changes v) (h : s.step o = .ok s') : s'.vars v = s.vars v := by
  cases o with
  | declare w c => cases h; simp only [ROp.changes] at hn; simp [RState.setV, Ne.symm hn]
  | assign w c =>
    simp only [ROp.changes] at hn
    simp only [RState.step] at h
    split at h <;> cases h
    simp [RState.setV, Ne.symm hn]
  | endVar w => cases h; simp only [ROp.changes] at hn; simp [RState.setV, Ne.symm hn]
  | makeTemp k c => cases h; rfl
  | makeMove k w =>
    simp only [ROp.changes] at hn
    simp only [RState.step] at h
    split at h <;> cases h
    simp [RState.setV, RState.setG, Ne.symm hn]
  | makeRef k w => cases h; rfl
  | move k j =>
    simp only [RState.step] at h
    split at h
    · cases h
    · split at h
      · cases h
      · cases h; rfl
  | cancel k =>
    simp only [RState.step] at h
    split at h <;> cases h
    rfl
  | destroy k =>
    simp only [RState.step] at h
    split at h
    · cases h
    · split at h
      · simp only [bind, Except.bind] at h
        split at h <;> cases h
        rfl
      · cases h; rfl

theorem run_guard {g : G} : ∀ {os : List (ROp V G C)} {s s' : RState V G C}, (∀ o ∈ os, ¬ o.touches g) → s.run os = .ok s' →
    s'.guards g = s.guards g := by
  intro os
  induction os with
  | nil => intro s s' _ h; cases h; rfl
  | cons o os ih =>
    intro s s' hn h
    simp only [RState.run, bind, Except.bind] at h
    split at h
    · cases h
    · rename_i t ht
      rw [ih (fun o ho => hn o (by simp [ho])) h, step_guard (hn o (by simp)) ht]

theorem run_var {v : V} : ∀ {os : List (ROp V G C)} {s s' : RState V G C}, (∀ o ∈ os, ¬ o.changes v) → s.run os = .ok s' →
    s'.vars v = s.vars v := by
  intro os
  induction os with
  | nil => intro s s' _ h; cases h; rfl
  | cons o os ih =>
    intro s s' hn h
    simp only [RState.run, bind, Except.bind] at h
    split at h
    · cases h
    · rename_i t ht
      rw [ih (fun o ho => hn o (by simp [ho])) h, step_var (hn o (by simp)) ht]

/-- The full claim: a guard made from a callable, in whichever way, runs what the callable was when the guard was made, whatever
the program does in between without touching the guard. -/
def RunsWhatItWasGiven : Prop :=
  ∀ (pre : List (ROp Nat Nat Nat)) (s : RState Nat Nat Nat), RState.start.run pre = .ok s → ∀ v g c : Nat, s.vars v = some (some c) → s.guards g = none →
    ∀ mk ∈ [ROp.makeTemp g c, .makeMove g v, .makeRef g v], ∀ (os : List (ROp Nat Nat Nat)), (∀ o ∈ os, ¬ o.touches g) →
      ∀ s1 s2, s.step mk = .ok s1 → s1.run os = .ok s2 → ∃ s3, s2.step (.destroy g) = .ok s3 ∧ s3.fired = c :: s2.fired

/-- C107 is false: `MakeScopeGuard(v)` keeps a reference to `v`. If `v` is given another value, that is what runs. -/
theorem C107_runs_what_it_was_given_refuted : ¬ RunsWhatItWasGiven := by
  intro h
  obtain ⟨s3, h1, h2⟩ := h [.declare 0 5] _ rfl 0 0 5 rfl rfl (.makeRef 0 0) (by simp) [.assign 0 6]
    (by simp [ROp.touches]) _ _ rfl rfl
  cases h1
  simp [RState.start, RState.setV, RState.setG] at h2

/-- C107, what holds for guards made from a temporary: whatever happens in between (which does not touch the guard), its destructor
calls exactly the callable it was given, once, and nothing else. Missing: guards made from a variable without `std::move`. -/
theorem C107_temp_partial (s s1 s2 : RState V G C) (g : G) (c : C) (os : List (ROp V G C)) (hn : ∀ o ∈ os, ¬ o.touches g)
    (h1 : s.step (.makeTemp g c) = .ok s1) (h2 : s1.run os = .ok s2) :
    ∃ s3, s2.step (.destroy g) = .ok s3 ∧ s3.fired = c :: s2.fired ∧ s3.vars = s2.vars ∧ s3.guards g = none := by
  cases h1
  have hg := run_guard hn h2
  simp only [RState.setG, if_true] at hg
  exact ⟨{ s2.setG g none with fired := c :: s2.fired }, by simp [RState.step, hg, RState.call, bind, Except.bind], rfl, rfl, by simp [RState.setG]⟩

/-- C107, the same for `MakeScopeGuard(std::move(v))`; `v` is moved from. -/
theorem C107_move_partial (s s1 s2 : RState V G C) (v : V) (g : G) (c : C) (hv : s.vars v = some (some c)) (os : List (ROp V G C))
    (hn : ∀ o ∈ os, ¬ o.touches g) (h1 : s.step (.makeMove g v) = .ok s1) (h2 : s1.run os = .ok s2) :
    s1.vars v = some none ∧ ∃ s3, s2.step (.destroy g) = .ok s3 ∧ s3.fired = c :: s2.fired ∧ s3.vars = s2.vars ∧ s3.guards g = none := by
  simp only [RState.step, hv] at h1
  cases h1
  have hg := run_guard hn h2
  simp only [RState.setG, RState.setV, if_true] at hg
  exact ⟨by simp [RState.setV], { s2.setG g none with fired := c :: s2.fired }, by simp [RState.step, hg, RState.call, bind, Except.bind], rfl, rfl, by simp [RState.setG]⟩

/-- C107, what happens for `MakeScopeGuard(v)`, exactly: the destructor calls what `v` holds by then. If `v` is out of scope, a
dangling reference is used; if it was moved from, an empty callable is called. -/
theorem C107_ref_exact (s s1 s2 : RState V G C) (v : V) (g : G) (os : List (ROp V G C))
    (hn : ∀ o ∈ os, ¬ o.touches g) (h1 : s.step (.makeRef g v) = .ok s1) (h2 : s1.run os = .ok s2) :
    match s2.vars v with
    | none => s2.step (.destroy g) = .error .useAfterFree
    | some none => s2.step (.destroy g) = .error .nullDeref
    | some (some c) => ∃ s3, s2.step (.destroy g) = .ok s3 ∧ s3.fired = c :: s2.fired := by
  cases h1
  have hg := run_guard hn h2
  simp only [RState.setG, if_true] at hg
  split <;> rename_i hv
  · simp [RState.step, hg, RState.call, hv, bind, Except.bind]
  · simp [RState.step, hg, RState.call, hv, bind, Except.bind]
  · rename_i c
    exact ⟨{ s2.setG g none with fired := c :: s2.fired }, by simp [RState.step, hg, RState.call, hv, bind, Except.bind], rfl⟩

/-- C107, what holds for `MakeScopeGuard(v)`: if `v` is neither changed, moved from nor ended until then, the destructor calls what
the guard was given. Missing: programs that change `v`. -/
theorem C107_ref_partial (s s1 s2 : RState V G C) (v : V) (g : G) (c : C) (hv : s.vars v = some (some c)) (os : List (ROp V G C))
    (hn : ∀ o ∈ os, ¬ o.touches g) (hc : ∀ o ∈ os, ¬ o.changes v) (h1 : s.step (.makeRef g v) = .ok s1) (h2 : s1.run os = .ok s2) :
    ∃ s3, s2.step (.destroy g) = .ok s3 ∧ s3.fired = c :: s2.fired := by
  have h := C107_ref_exact s s1 s2 v g os hn h1 h2
  have hv2 : s2.vars v = some (some c) := by
    rw [run_var hc h2]
    cases h1
    exact hv
  rw [hv2] at h
  exact h

/-- C107 for moved guards: the guard moved to runs what the original was given, and the original runs nothing, whatever happens between these
steps without touching the guard in question, and in whichever order the two are destroyed (`os2` may destroy the original, and vice versa). -/
theorem C107_moved_partial (s s1 s2 s3 : RState V G C) (g k : G) (c : C) (hgk : g ≠ k) (os : List (ROp V G C)) (hn : ∀ o ∈ os, ¬ o.touches g)
    (h1 : s.step (.makeTemp g c) = .ok s1) (h2 : s1.run os = .ok s2) (h3 : s2.step (.move k g) = .ok s3) :
    (∀ os2 s4, (∀ o ∈ os2, ¬ o.touches k) → s3.run os2 = .ok s4 → ∃ s5, s4.step (.destroy k) = .ok s5 ∧ s5.fired = c :: s4.fired ∧ s5.vars = s4.vars) ∧
    (∀ os2 s4, (∀ o ∈ os2, ¬ o.touches g) → s3.run os2 = .ok s4 → ∃ s5, s4.step (.destroy g) = .ok s5 ∧ s5.fired = s4.fired ∧ s5.vars = s4.vars) := by
  cases h1
  have hg := run_guard hn h2
  simp only [RState.setG, if_true] at hg
  simp only [RState.step, hg] at h3
  cases h3
  refine ⟨fun os2 s4 hn2 h4 => ?_, fun os2 s4 hn2 h4 => ?_⟩
  · have hk := run_guard hn2 h4
    simp only [RState.setG, Ne.symm hgk, if_true, if_false] at hk
    exact ⟨{ s4.setG k none with fired := c :: s4.fired }, by simp [RState.step, hk, RState.call, bind, Except.bind], rfl, rfl⟩
  · have hk := run_guard hn2 h4
    simp only [RState.setG, if_true] at hk
    exact ⟨s4.setG g none, by simp [RState.step, hk], rfl, rfl⟩

/-- C107 for cancelled guards, however they were made (any guard that exists in `s`): the destructor runs nothing. And a guard moved from a
cancelled one runs nothing either. -/
theorem C107_cancelled_partial (s s1 s2 : RState V G C) (g : G) (os : List (ROp V G C)) (hn : ∀ o ∈ os, ¬ o.touches g)
    (h1 : s.step (.cancel g) = .ok s1) (h2 : s1.run os = .ok s2) :
    (∃ s3, s2.step (.destroy g) = .ok s3 ∧ s3.fired = s2.fired ∧ s3.vars = s2.vars ∧ s3.guards g = none) ∧
    (∀ k s3, k ≠ g → s2.step (.move k g) = .ok s3 → ∀ os2 s4, (∀ o ∈ os2, ¬ o.touches k) → s3.run os2 = .ok s4 →
      ∃ s5, s4.step (.destroy k) = .ok s5 ∧ s5.fired = s4.fired) := by
  simp only [RState.step] at h1
  split at h1
  · cases h1
  · rename_i x hx
    cases h1
    have hg := run_guard hn h2
    simp only [RState.setG, if_true] at hg
    refine ⟨⟨s2.setG g none, by simp [RState.step, hg], rfl, rfl, by simp [RState.setG]⟩, fun k s3 hkg h3 os2 s4 hn2 h4 => ?_⟩
    simp only [RState.step, hg] at h3
    cases hc : x.callback with
    | ref v => simp only [hc] at h3; cases h3
    | val c =>
      simp only [hc] at h3
      cases h3
      have hk := run_guard hn2 h4
      simp only [RState.setG, hkg, if_true, if_false] at hk
      exact ⟨s4.setG k none, by simp [RState.step, hk], rfl⟩

/-- Two variables, guards of all three kinds, moved and reassigned: the reference sees the new value. -/
def rsample : List (ROp Nat Nat Nat) :=
  [.declare 0 5, .declare 1 6, .makeRef 0 0, .makeMove 1 1, .makeTemp 2 7, .assign 0 8, .move 3 1, .destroy 2, .destroy 3, .destroy 1, .destroy 0]

example : (RState.start.run rsample).toOption.map RState.fired = some [8, 6, 7] := by decide +kernel
/-- A guard returned from the function whose variable it refers to. -/
example : (RState.start.run (V := Nat) (G := Nat) (C := Nat) [.declare 0 5, .makeRef 0 0, .endVar 0, .destroy 0]) = .error .useAfterFree := by rfl

end ref

/-! ## C108 -/
section save
variable {L A G : Type} [DecidableEq L] [DecidableEq G]

/-- The operation constructs or destroys the guard `g`. -/
def COp.touches (g : G) : COp L A G → Prop
  | .ctor k _ _ | .copy k _ | .dtor k => k = g
  | .write _ _ => False

theorem cstep_guard {s s' : CState L A G} {o : COp L A G} {g : G} (hn : ¬ o.touches g) (h : s.step o = .ok s') : s'.guards g = s.guards g := by
  cases o with
  | ctor k l a => cases h; simp only [COp.touches] at hn; simp [CState.set, Ne.symm hn]
  | copy k j =>
    simp only [COp.touches] at hn
    simp only [CState.step] at h
    split at h <;> cases h
    simp [CState.set, Ne.symm hn]
  | dtor k =>
    simp only [COp.touches] at hn
    simp only [CState.step] at h
    split at h <;> cases h
    simp [CState.set, Ne.symm hn]
  | write l a => cases h; rfl

theorem crun_guard {g : G} : ∀ {os : List (COp L A G)} {s s' : CState L A G}, (∀ o ∈ os, ¬ o.touches g) → s.run os = .ok s' →
    s'.guards g = s.guards g := by
  intro os
  induction os with
  | nil => intro s s' _ h; cases h; rfl
  | cons o os ih =>
    intro s s' hn h
    simp only [CState.run, bind, Except.bind] at h
    split at h
    · cases h
    · rename_i t ht
      rw [ih (fun o ho => hn o (by simp [ho])) h, cstep_guard (hn o (by simp)) ht]

/-- C108: whatever happens between the construction of a guard and its destruction - other guards on the same location created and
destroyed in any order, not necessarily nested, and writes - its destructor puts back what the location held when the
guard was constructed, and changes no other location. -/
theorem C108_restores_partial (s s1 s2 : CState L A G) (g : G) (l : L) (a : A) (os : List (COp L A G)) (hn : ∀ o ∈ os, ¬ o.touches g)
    (h1 : s.step (.ctor g l a) = .ok s1) (h2 : s1.run os = .ok s2) :
    s1.mem l = a ∧ (∀ k, k ≠ l → s1.mem k = s.mem k) ∧
    ∃ s3, s2.step (.dtor g) = .ok s3 ∧ s3.mem l = s.mem l ∧ (∀ k, k ≠ l → s3.mem k = s2.mem k) ∧ s3.guards g = none := by
  cases h1
  have hg := crun_guard hn h2
  simp only [CState.set, Guard.ctor, if_true] at hg
  refine ⟨by simp [Guard.ctor, store], fun k hk => by simp [Guard.ctor, store, hk], { s2.set g none with mem := store s2.mem l (s.mem l) },
    by simp [CState.step, hg, Guard.dtor], by simp [store], fun k hk => by simp [store, hk], by simp [CState.set]⟩

/-- The full claim for copies: when the copy of a guard is destroyed, the location has the value it had when the copy was made. -/
def CopyRestores : Prop :=
  ∀ (m : Nat → Nat) (pre : List (COp Nat Nat Nat)) (s s1 s2 : CState Nat Nat Nat) (g h : Nat) (x : Guard Nat Nat) (os : List (COp Nat Nat Nat)),
    CState.run pre { mem := m, guards := fun _ => none } = .ok s → s.guards g = some x → s.guards h = none →
    (∀ o ∈ os, ¬ o.touches h) → s.step (.copy h g) = .ok s1 → s1.run os = .ok s2 →
    ∃ s3, s2.step (.dtor h) = .ok s3 ∧ s3.mem x.location = s.mem x.location

/-- C108 is false for copies: the copy undoes the original guard's assignment although the original is still in scope. -/
theorem C108_copy_restores_refuted : ¬ CopyRestores := by
  intro h
  obtain ⟨s3, h1, h2⟩ := h (fun _ => 0) [.ctor 0 0 1] _ _ _ 0 1 ⟨0, 0⟩ [] rfl rfl rfl (by simp) rfl rfl
  cases h1
  simp [Guard.dtor, Guard.ctor, store] at h2

/-- C108, what copies do: the destructor of a copy puts back what the location held when the original guard was constructed, also
if the original has been destroyed in the meantime. -/
theorem C108_copy_partial (s s1 s2 s3 s4 : CState L A G) (g h : G) (l : L) (a : A) (os os' : List (COp L A G))
    (hn : ∀ o ∈ os, ¬ o.touches g) (hn' : ∀ o ∈ os', ¬ o.touches h)
    (h1 : s.step (.ctor g l a) = .ok s1) (h2 : s1.run os = .ok s2) (h3 : s2.step (.copy h g) = .ok s3) (h4 : s3.run os' = .ok s4) :
    s3.mem = s2.mem ∧ ∃ s5, s4.step (.dtor h) = .ok s5 ∧ s5.mem l = s.mem l ∧ ∀ k, k ≠ l → s5.mem k = s4.mem k := by
  cases h1
  have hg := crun_guard hn h2
  simp only [CState.set, Guard.ctor, if_true] at hg
  simp only [CState.step, hg] at h3
  cases h3
  have hh := crun_guard hn' h4
  simp only [CState.set, if_true] at hh
  exact ⟨rfl, { s4.set h none with mem := store s4.mem l (s.mem l) }, by simp [CState.step, hh, Guard.dtor], by simp [store],
    fun k hk => by simp [store, hk]⟩

/-- What one might expect of guards that are not nested (members of objects, on the heap): once all guards on a location are gone, and the
program has not written it otherwise, it has the value it had in the beginning. -/
def AllGoneRestored : Prop :=
  ∀ (s s' : CState Nat Nat Nat) (os : List (COp Nat Nat Nat)), (∀ g, s.guards g = none) → (∀ l a, COp.write l a ∉ os) →
    s.run os = .ok s' → (∀ g, s'.guards g = none) → s'.mem = s.mem

/-- C108: that is false; the order of destruction matters. -/
theorem C108_any_order_refuted : ¬ AllGoneRestored := by
  intro h
  have := h { mem := fun _ => 0, guards := fun _ => none } _ [.ctor 0 0 1, .ctor 1 0 2, .dtor 0, .dtor 1] (fun _ => rfl) (by simp) rfl
    (by
      intro g
      by_cases h0 : g = 0
      · subst h0; rfl
      · by_cases h1 : g = 1
        · subst h1; rfl
        · simp [CState.set, h0, h1])
  have h0 := congrFun this 0
  simp [Guard.dtor, store] at h0

/-- Guards on the same location destroyed in the order of their creation, and a copy. -/
example : (CState.run (L := Nat) (A := Nat) (G := Nat) [.ctor 0 0 1, .ctor 1 0 2, .dtor 0] { mem := fun _ => 9, guards := fun _ => none }).toOption.map
    (fun s => s.mem 0) = some 9 := by decide
example : (CState.run (L := Nat) (A := Nat) (G := Nat) [.ctor 0 0 1, .write 0 5, .copy 1 0, .dtor 0, .write 0 6, .dtor 1]
    { mem := fun _ => 9, guards := fun _ => none }).toOption.map (fun s => s.mem 0) = some 9 := by decide

end save

/-- C108, `ReturnAndVoid`: returns what the place held, leaves `T()` in it, and touches nothing else. -/
theorem C108_returnAndVoid {L A : Type} [DecidableEq L] (dflt : A) (m : L → A) (t : L) :
    (returnAndVoid dflt m t).1 = m t ∧ (returnAndVoid dflt m t).2 t = dflt ∧ ∀ k, k ≠ t → (returnAndVoid dflt m t).2 k = m k :=
  ⟨rfl, by simp [returnAndVoid, store], fun k hk => by simp [returnAndVoid, store, hk]⟩

end Verif.Raii
