import Verif.ThreadLocal.Lemmas
/-!
# C66, C67: `ke::ThreadLocal`
-/
namespace Verif.ThreadLocal
open Verif

set_option linter.unusedSimpArgs false

variable {T A : Type} [DecidableEq T]

/-! ## C66 -/

/-- C66 in full: with any threads and any interleaving, if the system does not run out of keys, no call goes wrong and every `get`
returns what its thread last set. -/
def IsolatesThreads : Prop :=
  ∀ as : List (Act Nat Nat), ∃ s, run (fun _ => true) 0 as (State.start 0) = .ok s ∧ Isolated 0 s.log

/-- C66 is false of the code: thread 0 claims the object in `set`; before it has created the key, thread 1 sees `allocated_` set and
reads the uninitialised `key_`. -/
theorem C66_isolation_refuted : ¬ IsolatesThreads := by
  intro h
  obtain ⟨s, h1, -⟩ := h [.begin 0 (.set 5), .cont 0, .begin 1 .get, .cont 1]
  have h2 : run (fun _ => true) 0 [.begin 0 (.set 5), .cont 0, .begin 1 .get, .cont 1] (State.start 0 : State Nat Nat) = .error .uninitialised := rfl
  rw [h2] at h1
  cases h1

/-- C66, what holds for every interleaving from the start: as long as nothing faults, every `get` returned what its own thread
last set, or `T()`. -/
theorem C66_isolated_partial (create : Nat → Bool) (dflt : A) (as : List (Act T A)) (s : State T A)
    (h : run create dflt as (State.start dflt) = .ok s) : Isolated dflt s.log :=
  (inv_run as (inv_start dflt) h).isolated

/-- Every `allocated_` object has a key, or some thread is creating it, or a creation failed. -/
def Window (create : Nat → Bool) (s : State T A) : Prop :=
  s.allocated = true → s.key = none → (∃ u, (s.pc u).creating = true) ∨ ∃ j, create j = false

theorem window_step {create : Nat → Bool} {dflt : A} {s s' : State T A} (hi : Inv dflt s) (hw : Window create s) (a : Act T A)
    (h : step create dflt s a = .ok s') : Window create s' := by
  have key : ∀ (r : State T A) (t : T), r.allocated = s.allocated → r.key = s.key → (s.pc t).creating = false → (∀ u, u ≠ t → r.pc u = s.pc u) → Window create r := by
    intro r t h1 h2 h3 h4 g1 g2
    rw [h1] at g1; rw [h2] at g2
    refine (hw g1 g2).imp ?_ id
    rintro ⟨u, hu⟩
    refine ⟨u, ?_⟩
    have : u ≠ t := by rintro rfl; rw [h3] at hu; cases hu
    rw [h4 u this]; exact hu
  cases a with
  | begin t o =>
    simp only [step] at h; injection h with h; subst h
    unfold State.begin
    cases hp : s.pc t <;> simp only <;> try exact hw
    have hnc : (s.pc t).creating = false := by rw [hp]; rfl
    cases o with
    | get => simp only
             split
             · exact key _ t rfl rfl hnc (fun u hu => by simp [State.done, State.goto, hu])
             · exact key _ t rfl rfl hnc (fun u hu => by simp [State.done, State.goto, hu])
    | set a => simp only
               split
               · exact key _ t rfl rfl hnc (fun u hu => by simp [State.done, State.goto, hu])
               · exact key _ t rfl rfl hnc (fun u hu => by simp [State.done, State.goto, hu])
    | allocate =>
      simp only
      split
      · exact key _ t rfl rfl hnc (fun u hu => by simp [State.done, State.goto, hu])
      · exact fun _ _ => .inl ⟨t, by simp [State.goto, Pc.creating]⟩
  | cont t =>
    simp only [step] at h
    unfold State.cont at h
    cases hp : s.pc t with
    | idle => rw [hp] at h; injection h with h; rw [← h]; exact hw
    | getUse =>
      rw [hp] at h
      have hnc : (s.pc t).creating = false := by rw [hp]; rfl
      cases hk : s.key with
      | none => simp only [hk] at h; cases h
      | some k => simp only [hk] at h; injection h with h; rw [← h]; exact key _ t rfl rfl hnc (fun u hu => by simp [State.done, State.goto, hu])
    | setCas a =>
      rw [hp] at h
      have hnc : (s.pc t).creating = false := by rw [hp]; rfl
      cases ha : s.allocated with
      | false => simp only [ha, Bool.false_eq_true, if_false] at h; injection h with h; rw [← h]; exact fun _ _ => .inl ⟨t, by simp [State.goto, Pc.creating]⟩
      | true => simp only [ha, if_true] at h; injection h with h; rw [← h]; exact key _ t rfl rfl hnc (fun u hu => by simp [State.done, State.goto, hu])
    | setCreate a =>
      rw [hp] at h
      rcases inv_create (create := create) hi t (by rw [hp]; rfl) with ⟨s1, h1, -, ⟨k, hk⟩, -⟩ | ⟨s1, h1, -⟩
      · simp only [h1] at h; injection h with h; rw [← h]
        intro _ hn; simp only [State.goto] at hn; rw [hk] at hn; cases hn
      · simp only [h1] at h; cases h
    | setUse a =>
      rw [hp] at h
      cases hk : s.key with
      | none => simp only [hk] at h; cases h
      | some k =>
        simp only [hk] at h; injection h with h; rw [← h]
        intro _ hn; simp only [State.done, State.goto] at hn; rw [hk] at hn; cases hn
    | allocCreate =>
      rw [hp] at h
      rcases inv_create (create := create) hi t (by rw [hp]; rfl) with ⟨s1, h1, -, ⟨k, hk⟩, -⟩ | ⟨s1, h1, -, -, -, hc, -⟩
      · simp only [h1] at h; injection h with h; rw [← h]
        intro _ hn; simp only [State.done, State.goto] at hn; rw [hk] at hn; cases hn
      · exact fun _ _ => .inr ⟨_, hc⟩

theorem window_run {create : Nat → Bool} {dflt : A} (as : List (Act T A)) {s s' : State T A} (hi : Inv dflt s) (hw : Window create s)
    (h : run create dflt as s = .ok s') : Window create s' := by
  induction as generalizing s with
  | nil => simp only [run] at h; injection h with h; rw [← h]; exact hw
  | cons a as ih =>
    simp only [run, bind, Except.bind] at h
    cases h1 : step create dflt s a with
    | error f => rw [h1] at h; cases h
    | ok s1 => rw [h1] at h; exact ih (inv_step hi a h1) (window_step hi hw a h1) h

/-- C66, exactly when something goes wrong: a step after any interleaving faults only by using the key while another thread is between
claiming the object and creating the key, or when a key creation failed. -/
theorem C66_only_in_window_partial (create : Nat → Bool) (dflt : A) (as : List (Act T A)) (s : State T A)
    (h : run create dflt as (State.start dflt) = .ok s) (a : Act T A) (f : Fault) (hf : step create dflt s a = .error f) :
    (f = .uninitialised ∧ ∃ u, s.pc u = .allocCreate ∨ ∃ x, s.pc u = .setCreate x) ∨ ∃ j, create j = false := by
  have hi := inv_run as (inv_start dflt) h
  have hw := window_run as (inv_start dflt) (fun h => by simp [State.start] at h) h
  have hcr : ∀ u, (s.pc u).creating = true → s.pc u = .allocCreate ∨ ∃ x, s.pc u = .setCreate x := by
    intro u hu
    cases hp : s.pc u <;> rw [hp] at hu <;> first | exact .inl rfl | exact .inr ⟨_, rfl⟩ | cases hu
  have halloc : ∀ t, (s.pc t).using = true → s.allocated = true := by
    intro t ht
    cases ha : s.allocated with
    | true => rfl
    | false => rw [((hi.fresh ha).2 t).2] at ht; cases ht
  cases a with
  | begin t o => simp only [step] at hf; cases hf
  | cont t =>
    simp only [step] at hf
    unfold State.cont at hf
    cases hp : s.pc t with
    | idle => rw [hp] at hf; cases hf
    | getUse =>
      rw [hp] at hf
      cases hk : s.key with
      | some k => simp only [hk] at hf; cases hf
      | none =>
        simp only [hk] at hf; injection hf with hf
        rcases hw (halloc t (by rw [hp]; rfl)) hk with ⟨u, hu⟩ | hj
        · exact .inl ⟨hf.symm, u, hcr u hu⟩
        · exact .inr hj
    | setUse a =>
      rw [hp] at hf
      cases hk : s.key with
      | some k => simp only [hk] at hf; cases hf
      | none =>
        simp only [hk] at hf; injection hf with hf
        rcases hw (halloc t (by rw [hp]; rfl)) hk with ⟨u, hu⟩ | hj
        · exact .inl ⟨hf.symm, u, hcr u hu⟩
        · exact .inr hj
    | setCas a =>
      rw [hp] at hf
      simp only at hf
      split at hf <;> cases hf
    | setCreate a =>
      rw [hp] at hf
      rcases inv_create (create := create) hi t (by rw [hp]; rfl) with ⟨s1, h1, -⟩ | ⟨s1, h1, -, -, -, hc, -⟩
      · simp only [h1] at hf; cases hf
      · exact .inr ⟨_, hc⟩
    | allocCreate =>
      rw [hp] at hf
      simp only at hf
      cases hf

/-- C66, the safe way to use it: if some thread completes `allocate()` successfully before any other call, then for every
further interleaving of any threads nothing faults and every `get` returns what its thread last set. -/
theorem C66_preallocated_partial (create : Nat → Bool) (dflt : A) (t : T) (hc : create 0 = true) (as : List (Act T A)) :
    ∃ s, run create dflt (.begin t .allocate :: .cont t :: as) (State.start dflt) = .ok s ∧ Isolated dflt s.log := by
  have h1 : ∃ s1, run create dflt [.begin t .allocate, .cont t] (State.start dflt : State T A) = .ok s1 ∧ Ready s1 := by
    refine ⟨State.done { (State.start dflt : State T A).goto t .allocCreate with allocated := true, key := some 0, nextKey := 1, attempts := 1, tls := fun k u => if k = 0 then dflt else dflt }
      t (.allocated t true), ?_, rfl, ⟨0, rfl⟩, fun u => ?_⟩
    · simp [run, step, State.begin, State.start, State.cont, State.goto, State.createKey, State.done, hc, bind, Except.bind]
    · simp only [State.done, State.goto, State.start]
      split <;> rfl
  obtain ⟨s1, h2, h3⟩ := h1
  obtain ⟨s2, h4, -⟩ := ready_run (create := create) (dflt := dflt) as h3
  have h5 : run create dflt (.begin t .allocate :: .cont t :: as) (State.start dflt) = .ok s2 := by
    rw [show (Act.begin t .allocate :: .cont t :: as : List (Act T A)) = [.begin t .allocate, .cont t] ++ as from rfl, run_append, h2]
    exact h4
  exact ⟨s2, h5, C66_isolated_partial create dflt _ s2 h5⟩

/-- Two threads with different values. -/
example : (match run (fun _ => true) 0 [.begin 0 .allocate, .cont 0, .begin 1 (.set 7), .begin 0 (.set 5), .cont 1, .begin 1 .get, .cont 0, .begin 0 .get, .cont 1, .cont 0,
      .begin 2 .get, .cont 2] (State.start 0 : State Nat Nat) with
    | .ok s => decide (s.log = [.got 2 0, .got 0 5, .got 1 7, .didSet 0 5, .didSet 1 7, .allocated 0 true])
    | .error _ => false) = true := by decide +kernel

/-! ## C67 -/

/-- C67 in full: when no call is under way and some `allocate()` has returned true, storage exists. -/
def AllocateHonest : Prop :=
  ∀ (create : Nat → Bool) (as : List (Act Nat Nat)) (s : State Nat Nat), run create 0 as (State.start 0) = .ok s →
    (∀ t, s.pc t = .idle) → ∀ t, .allocated t true ∈ s.log → ∃ k, s.key = some k

/-- C67 is false of the code: after a failed `allocate()`, a second one returns true. -/
theorem C67_retry_refuted : ¬ AllocateHonest := by
  intro h
  have h1 : run (fun _ => false) 0 [.begin 0 .allocate, .cont 0, .begin 0 .allocate] (State.start 0 : State Nat Nat) =
      .ok { allocated := true, key := none, tls := fun _ _ => 0, nextKey := 0, attempts := 1,
            pc := fun u => if u = 0 then .idle else if u = 0 then .idle else if u = 0 then .allocCreate else .idle,
            log := [.allocated 0 true, .allocated 0 false] } := rfl
  obtain ⟨k, hk⟩ := h _ _ _ h1 (by intro t; simp only; split <;> first | rfl | (split <;> first | rfl | (split <;> simp_all))) 0 (by simp)
  cases hk

/-- `allocate()` returns only after `allocated_` was set, and nothing clears it. -/
def Claimed (s : State T A) : Prop := ∀ t b, .allocated t b ∈ s.log → s.allocated = true

theorem claimed_step {create : Nat → Bool} {dflt : A} {s s' : State T A} (hi : Inv dflt s) (hc : Claimed s) (a : Act T A) (h : step create dflt s a = .ok s') :
    Claimed s' := by
  cases ha : s.allocated with
  | true =>
    have : s'.allocated = true := by
      cases a with
      | begin u o =>
        simp only [step] at h; injection h with h; subst h
        unfold State.begin
        cases s.pc u <;> simp only <;> try exact ha
        cases o <;> simp only [ha, Bool.not_true, Bool.false_eq_true, if_false, if_true] <;> exact ha
      | cont u =>
        simp only [step] at h
        unfold State.cont at h
        cases hp : s.pc u <;> rw [hp] at h <;> simp only [State.createKey, ha, if_true] at h
        · injection h with h; rw [← h]; exact ha
        · split at h
          · cases h
          · injection h with h; rw [← h]; exact ha
        · injection h with h; rw [← h]; exact ha
        · by_cases hcr : create s.attempts = true
          · simp only [hcr, if_true] at h; injection h with h; rw [← h]; rfl
          · simp only [hcr, if_false] at h; cases h
        · split at h
          · cases h
          · injection h with h; rw [← h]; exact ha
        · by_cases hcr : create s.attempts = true
          · simp only [hcr, if_true] at h; injection h with h; rw [← h]; rfl
          · simp only [hcr, if_false] at h; injection h with h; rw [← h]; rfl
    exact fun _ _ _ => this
  | false =>
    -- nothing is logged by allocate before the object is claimed
    intro t b hm
    have hnone : ∀ t b, .allocated t b ∉ s.log := fun t b hm => by have := hc t b hm; rw [ha] at this; cases this
    exfalso
    cases a with
    | begin u o =>
      simp only [step] at h; injection h with h; subst h
      revert hm
      unfold State.begin
      cases s.pc u <;> simp only <;> try exact hnone t b
      cases o <;> simp only [ha, Bool.not_false, Bool.false_eq_true, if_false, if_true] <;> simp [State.done, State.goto, hnone t b]
    | cont u =>
      simp only [step] at h
      unfold State.cont at h
      obtain ⟨hf, hpc⟩ := hi.fresh ha
      cases hp : s.pc u with
      | idle => rw [hp] at h; injection h with h; rw [← h] at hm; exact hnone t b hm
      | getUse => have := (hpc u).2; rw [hp] at this; cases this
      | setUse a => have := (hpc u).2; rw [hp] at this; cases this
      | setCreate a => have := (hpc u).1; rw [hp] at this; cases this
      | allocCreate => have := (hpc u).1; rw [hp] at this; cases this
      | setCas a =>
        rw [hp] at h; simp only [ha, Bool.false_eq_true, if_false] at h
        injection h with h; rw [← h] at hm; exact hnone t b hm

theorem claimed_run' {create : Nat → Bool} {dflt : A} (as : List (Act T A)) {s s' : State T A} (hi : Inv dflt s) (hc : Claimed s)
    (h : run create dflt as s = .ok s') : Claimed s' := by
  induction as generalizing s with
  | nil => simp only [run] at h; injection h with h; rw [← h]; exact hc
  | cons a as ih =>
    simp only [run, bind, Except.bind] at h
    cases h1 : step create dflt s a with
    | error f => rw [h1] at h; cases h
    | ok s1 => rw [h1] at h; exact ih (inv_step hi a h1) (claimed_step hi hc a h1) h

theorem claimed_run {create : Nat → Bool} {dflt : A} (as : List (Act T A)) {s' : State T A} (hc : Claimed (State.start dflt : State T A))
    (h : run create dflt as (State.start dflt) = .ok s') : Claimed s' := claimed_run' as (inv_start dflt) hc h

/-- C67, what holds: as long as no key creation fails, when no call is under way and `allocate()` has returned true, storage exists. -/
theorem C67_honest_partial (create : Nat → Bool) (hc : ∀ j, create j = true) (dflt : A) (as : List (Act T A)) (s : State T A)
    (h : run create dflt as (State.start dflt) = .ok s) (hp : ∀ t, s.pc t = .idle) (t : T) (ht : .allocated t true ∈ s.log) :
    ∃ k, s.key = some k := by
  have ha : s.allocated = true := claimed_run as (fun t b h => by simp [State.start] at h) h t true ht
  have hw := window_run as (inv_start dflt) (fun h => by simp [State.start] at h) h ha
  cases hk : s.key with
  | some k => exact ⟨k, rfl⟩
  | none =>
    rcases hw hk with ⟨u, hu⟩ | ⟨j, hj⟩
    · rw [hp u] at hu; cases hu
    · rw [hc j] at hj; cases hj

/-- `allocated_` is set, there is no key and nobody is creating it. -/
def Stuck (s : State T A) : Prop := s.allocated = true ∧ s.key = none ∧ ∀ t, (s.pc t).creating = false

theorem stuck_step {create : Nat → Bool} {dflt : A} {s s' : State T A} (hs : Stuck s) (a : Act T A) (h : step create dflt s a = .ok s') :
    Stuck s' := by
  obtain ⟨ha, hk, hc⟩ := hs
  have hgoto : ∀ (t : T) (p : Pc A), p.creating = false → Stuck (s.goto t p) := by
    intro t p hp
    refine ⟨ha, hk, fun u => ?_⟩
    simp only [State.goto]; split
    · exact hp
    · exact hc u
  cases a with
  | begin t o =>
    simp only [step] at h; injection h with h; subst h
    unfold State.begin
    cases hp : s.pc t <;> simp only <;> try exact ⟨ha, hk, hc⟩
    cases o with
    | get => simp only [ha, Bool.not_true, Bool.false_eq_true, if_false]; exact hgoto t _ rfl
    | set a => simp only [ha, Bool.not_true, Bool.false_eq_true, if_false]; exact hgoto t _ rfl
    | allocate => simp only [ha, if_true]; exact hgoto t .idle rfl
  | cont t =>
    simp only [step] at h
    unfold State.cont at h
    cases hp : s.pc t with
    | idle => rw [hp] at h; injection h with h; rw [← h]; exact ⟨ha, hk, hc⟩
    | getUse => rw [hp] at h; simp only [hk] at h; cases h
    | setCas a => rw [hp] at h; simp only [ha, if_true] at h; injection h with h; rw [← h]; exact hgoto t _ rfl
    | setCreate a => have := hc t; rw [hp] at this; cases this
    | setUse a => rw [hp] at h; simp only [hk] at h; cases h
    | allocCreate => have := hc t; rw [hp] at this; cases this

theorem stuck_run {create : Nat → Bool} {dflt : A} (as : List (Act T A)) {s s' : State T A} (hs : Stuck s) (h : run create dflt as s = .ok s') : Stuck s' := by
  induction as generalizing s with
  | nil => simp only [run] at h; injection h with h; rw [← h]; exact hs
  | cons a as ih =>
    simp only [run, bind, Except.bind] at h
    cases h1 : step create dflt s a with
    | error f => rw [h1] at h; cases h
    | ok s1 => rw [h1] at h; exact ih (stuck_step hs a h1) h

/-- C67, exactly what happens: once an `allocate()` has failed, whatever is done afterwards there is never a key, every later `allocate()` returns true, and every later
`get` and `set` uses the uninitialised key. -/
theorem C67_after_failure_partial (create : Nat → Bool) (dflt : A) (as bs : List (Act T A)) (s0 s : State T A) (t0 t : T)
    (h0 : run create dflt as (State.start dflt) = .ok s0) (hp0 : s0.pc t0 = .allocCreate) (hc : create s0.attempts = false)
    (h : run create dflt (as ++ [.cont t0] ++ bs) (State.start dflt) = .ok s) (hp : s.pc t = .idle) :
    s.key = none ∧ (∃ s1, step create dflt s (.begin t .allocate) = .ok s1 ∧ s1.log = .allocated t true :: s.log) ∧
    run create dflt [.begin t .get, .cont t] s = .error .uninitialised ∧
    ∀ a, run create dflt [.begin t (.set a), .cont t] s = .error .uninitialised := by
  have hi := inv_run as (inv_start dflt) h0
  have hst : Stuck s := by
    rw [run_append, run_append, h0] at h
    simp only [Except.bind, run, bind] at h
    rcases inv_create (create := create) hi t0 (by rw [hp0]; rfl) with ⟨s1, h1, -⟩ | ⟨s1, h1, hl, hk, ha, -, hiv⟩
    · exfalso
      unfold State.createKey at h1
      simp [hc] at h1
    · have h2 : step create dflt s0 (.cont t0) = .ok (s1.done t0 (.allocated t0 false)) := by
        simp only [step, State.cont, hp0, h1]
      rw [h2] at h
      replace h : run create dflt bs (s1.done t0 (.allocated t0 false)) = .ok s := h
      refine stuck_run bs (s := s1.done t0 (.allocated t0 false)) ⟨ha, hk, fun u => ?_⟩ h
      have hu := (hi.creating t0 (by rw [hp0]; rfl)).2.2 u
      have hpc : s1.pc = s0.pc := by
        unfold State.createKey at h1
        simp only [hc, Bool.false_eq_true, if_false, Prod.mk.injEq, true_and] at h1
        rw [← h1]
      simp only [State.done, State.goto]
      split
      · rfl
      · rename_i hne
        rw [hpc]
        cases hcr : (s0.pc u).creating with
        | false => rfl
        | true => exact (hne (hu hcr)).elim
  obtain ⟨ha, hk, -⟩ := hst
  refine ⟨hk, ⟨s.done t (.allocated t true), ?_, rfl⟩, ?_, fun a => ?_⟩
  · simp only [step, State.begin, hp, ha, if_true]
  · simp [run, step, State.begin, hp, ha, State.cont, State.goto, hk, bind, Except.bind]
  · simp [run, step, State.begin, hp, ha, State.cont, State.goto, hk, bind, Except.bind]

/-- A failing first creation, then another thread at work. -/
example : (match run (fun _ => false) 0 ([.begin 0 .allocate] ++ [.cont 0] ++ [.begin 1 .allocate]) (State.start 0 : State Nat Nat) with
    | .ok s => decide (s.log = [.allocated 1 true, .allocated 0 false] ∧ s.key = none) | .error _ => false) = true := by decide +kernel

/-- C67: `allocate()` returns false only if creating a key failed. -/
theorem C67_false_means_failed (create : Nat → Bool) (hc : ∀ j, create j = true) (dflt : A) (as : List (Act T A)) (s : State T A)
    (h : run create dflt as (State.start dflt) = .ok s) (t : T) : .allocated t false ∉ s.log := by
  have key : ∀ (as : List (Act T A)) (s s' : State T A), .allocated t false ∉ s.log → run create dflt as s = .ok s' → .allocated t false ∉ s'.log := by
    intro as
    induction as with
    | nil => intro s s' h1 h2; simp only [run] at h2; injection h2 with h2; rw [← h2]; exact h1
    | cons a as ih =>
      intro s s' h1 h2
      simp only [run, bind, Except.bind] at h2
      cases h3 : step create dflt s a with
      | error f => rw [h3] at h2; cases h2
      | ok s1 =>
        rw [h3] at h2
        refine ih s1 s' ?_ h2
        cases a with
        | begin u o =>
          simp only [step] at h3; injection h3 with h3; subst h3
          unfold State.begin
          cases s.pc u <;> simp only <;> try exact h1
          cases o <;> simp only <;> split <;> simp [State.done, State.goto, h1]
        | cont u =>
          simp only [step] at h3
          unfold State.cont at h3
          cases hp : s.pc u <;> rw [hp] at h3 <;> simp only [State.createKey, hc, if_true] at h3
          · injection h3 with h3; rw [← h3]; exact h1
          · split at h3
            · cases h3
            · injection h3 with h3; rw [← h3]; simp [State.done, State.goto, h1]
          · split at h3 <;> (injection h3 with h3; rw [← h3]; simp [State.done, State.goto, h1])
          · injection h3 with h3; rw [← h3]; simp [State.done, State.goto, h1]
          · split at h3
            · cases h3
            · injection h3 with h3; rw [← h3]; simp [State.done, State.goto, h1]
          · injection h3 with h3; rw [← h3]; simp [State.done, State.goto, h1]
  exact key as _ s (by simp [State.start]) h

end Verif.ThreadLocal
