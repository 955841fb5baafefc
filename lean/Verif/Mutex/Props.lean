import Verif.Mutex.Spec
/-!
# C68: `ke::Mutex`
-/
namespace Verif.Mutex
open Verif

set_option linter.unusedSimpArgs false

variable {T : Type} [DecidableEq T]

/-- C68 in full: whatever the threads do, as long as they unlock only what they hold, the ownership assertion succeeds exactly for the thread
that holds the mutex. -/
def AssertExact : Prop :=
  ∀ (as : List (Act Nat)) (s : State Nat), LegalRun as State.start → run as State.start = some s → Exact Holds s.log

/-- C68 is false of the code: after a successful `try_lock()` the assertion fails. -/
theorem C68_try_lock_refuted : ¬ AssertExact := by
  intro h
  have := h [.tryLock 0, .check 0] { held := true, owner := none, pc := fun _ => .idle, log := [.asserted 0 false, .tried 0 true] }
    ⟨trivial, fun s' _ => ⟨trivial, fun _ _ => trivial⟩⟩ rfl
  simp [Exact, Holds] at this

/-- The states reachable. -/
inductive Inv (s : State T) : Prop where
  | free : s.held = false → s.owner = none → (∀ u, s.pc u = .idle) → (∀ u, Holds u s.log = false) → (∀ u, HoldsByLock u s.log = false) →
      Exact HoldsByLock s.log → Inv s
  | locking (t : T) : s.held = true → s.owner = none → s.pc t = .lockOwner → (∀ u, u ≠ t → s.pc u = .idle) → (∀ u, Holds u s.log = false) →
      (∀ u, HoldsByLock u s.log = false) → Exact HoldsByLock s.log → Inv s
  | locked (t : T) : s.held = true → s.owner = some t → (∀ u, s.pc u = .idle) → (∀ u, Holds u s.log = decide (u = t)) →
      (∀ u, HoldsByLock u s.log = decide (u = t)) → Exact HoldsByLock s.log → Inv s
  | tried (t : T) : s.held = true → s.owner = none → (∀ u, s.pc u = .idle) → (∀ u, Holds u s.log = decide (u = t)) →
      (∀ u, HoldsByLock u s.log = false) → Exact HoldsByLock s.log → Inv s
  | unlocking (t : T) : s.held = true → s.owner = none → s.pc t = .unlockBase → (∀ u, u ≠ t → s.pc u = .idle) →
      (∀ u, Holds u s.log = decide (u = t)) → (∀ u, u ≠ t → HoldsByLock u s.log = false) → Exact HoldsByLock s.log → Inv s

theorem inv_start : Inv (State.start : State T) := .free rfl rfl (fun _ => rfl) (fun _ => rfl) (fun _ => rfl) trivial

theorem inv_step {s s' : State T} (hi : Inv s) (a : Act T) (hl : Legal s a) (h : step s a = some s') : Inv s' := by
  cases a with
  | lock t =>
    simp only [step] at h
    split at h
    · rename_i hc
      injection h with h; subst h
      cases hi with
      | free h1 h2 h3 h4 h5 h6 =>
        exact .locking t rfl h2 (by simp [State.goto]) (fun u hu => by simp [State.goto, hu, h3]) h4 h5 h6
      | locking t' h1 => rw [h1] at hc; cases hc.2
      | locked t' h1 => rw [h1] at hc; cases hc.2
      | tried t' h1 => rw [h1] at hc; cases hc.2
      | unlocking t' h1 => rw [h1] at hc; cases hc.2
    · cases h
  | tryLock t =>
    simp only [step] at h
    split at h
    · split at h
      · injection h with h; subst h
        have e1 : ∀ u, Holds u (s.emit (.tried t false)).log = Holds u s.log := fun u => by simp [State.emit, Holds]
        have e2 : ∀ u, HoldsByLock u (s.emit (.tried t false)).log = HoldsByLock u s.log := fun u => by simp [State.emit, HoldsByLock]
        cases hi with
        | free h1 h2 h3 h4 h5 h6 => exact .free h1 h2 h3 (fun u => by rw [e1, h4]) (fun u => by rw [e2, h5]) h6
        | locking t' h1 h2 h3 h4 h5 h6 h7 => exact .locking t' h1 h2 h3 h4 (fun u => by rw [e1, h5]) (fun u => by rw [e2, h6]) h7
        | locked t' h1 h2 h3 h4 h5 h6 => exact .locked t' h1 h2 h3 (fun u => by rw [e1, h4]) (fun u => by rw [e2, h5]) h6
        | tried t' h1 h2 h3 h4 h5 h6 => exact .tried t' h1 h2 h3 (fun u => by rw [e1, h4]) (fun u => by rw [e2, h5]) h6
        | unlocking t' h1 h2 h3 h4 h5 h6 h7 => exact .unlocking t' h1 h2 h3 h4 (fun u => by rw [e1, h5]) (fun u hu => by rw [e2, h6 u hu]) h7
      · rename_i hh
        injection h with h; subst h
        cases hi with
        | free h1 h2 h3 h4 h5 h6 =>
          refine .tried t rfl h2 h3 (fun u => ?_) (fun u => ?_) h6
          · simp only [State.emit, Holds, and_true, h4 u]
            by_cases hu : t = u
            · subst hu; simp
            · have : ¬ u = t := fun e => hu e.symm
              simp [hu, this]
          · simp only [State.emit, HoldsByLock, and_true, h5 u]
            split <;> rfl
        | locking t' h1 => exact (hh h1).elim
        | locked t' h1 => exact (hh h1).elim
        | tried t' h1 => exact (hh h1).elim
        | unlocking t' h1 => exact (hh h1).elim
    · cases h
  | unlock t =>
    have hl : Holds t s.log = true := hl
    simp only [step] at h
    split at h
    · rename_i hp
      injection h with h; subst h
      cases hi with
      | free h1 h2 h3 h4 => rw [h4 t] at hl; cases hl
      | locking t' h1 h2 h3 h4 h5 => rw [h5 t] at hl; cases hl
      | locked t' h1 h2 h3 h4 h5 h6 =>
        rw [h4 t] at hl
        have : t = t' := by simpa using hl
        subst this
        exact .unlocking t h1 rfl (by simp [State.goto]) (fun u hu => by simp [State.goto, hu, h3]) h4 (fun u hu => by
          show HoldsByLock u s.log = false; rw [h5 u]; simp [hu]) h6
      | tried t' h1 h2 h3 h4 h5 h6 =>
        rw [h4 t] at hl
        have : t = t' := by simpa using hl
        subst this
        exact .unlocking t h1 rfl (by simp [State.goto]) (fun u hu => by simp [State.goto, hu, h3]) h4 (fun u _ => h5 u) h6
      | unlocking t' h1 h2 h3 h4 h5 h6 h7 =>
        rw [h5 t] at hl
        have : t = t' := by simpa using hl
        subst this
        rw [hp] at h3; cases h3
    · cases h
  | check t =>
    simp only [step] at h
    split at h
    · rename_i hp
      injection h with h; subst h
      cases hi with
      | free h1 h2 h3 h4 h5 h6 => exact .free h1 h2 h3 h4 h5 ⟨by rw [h5]; simp [h2], h6⟩
      | locking t' h1 h2 h3 h4 h5 h6 h7 => exact .locking t' h1 h2 h3 h4 h5 h6 ⟨by rw [h6]; simp [h2], h7⟩
      | locked t' h1 h2 h3 h4 h5 h6 =>
        refine .locked t' h1 h2 h3 h4 h5 ⟨?_, h6⟩
        rw [h5]; simp only [h2, Option.some.injEq]
        by_cases h : t = t'
        · subst h; simp
        · have : ¬ t' = t := fun e => h e.symm
          simp [h, this]
      | tried t' h1 h2 h3 h4 h5 h6 => exact .tried t' h1 h2 h3 h4 h5 ⟨by rw [h5]; simp [h2], h6⟩
      | unlocking t' h1 h2 h3 h4 h5 h6 h7 =>
        refine .unlocking t' h1 h2 h3 h4 h5 h6 ⟨?_, h7⟩
        have hne : t ≠ t' := by rintro rfl; rw [hp] at h3; cases h3
        rw [h6 t hne]; simp [h2]
    · cases h
  | cont t =>
    simp only [step] at h
    cases hp : s.pc t with
    | idle => rw [hp] at h; cases h
    | lockOwner =>
      rw [hp] at h; injection h with h; subst h
      cases hi with
      | free h1 h2 h3 => rw [h3 t] at hp; cases hp
      | locked t' h1 h2 h3 => rw [h3 t] at hp; cases hp
      | tried t' h1 h2 h3 => rw [h3 t] at hp; cases hp
      | unlocking t' h1 h2 h3 h4 =>
        by_cases he : t = t'
        · subst he; rw [h3] at hp; cases hp
        · rw [h4 t he] at hp; cases hp
      | locking t' h1 h2 h3 h4 h5 h6 h7 =>
        have he : t = t' := by
          apply Classical.byContradiction
          intro he; rw [h4 t he] at hp; cases hp
        subst he
        refine .locked t h1 rfl (fun u => ?_) (fun u => ?_) (fun u => ?_) h7
        · simp only [State.emit, State.goto]
          split
          · rfl
          · rename_i hu; exact h4 u hu
        · simp only [State.emit, State.goto, Holds, h5 u]
          by_cases hu : t = u
          · subst hu; simp
          · have : ¬ u = t := fun e => hu e.symm
            simp [hu, this]
        · simp only [State.emit, State.goto, HoldsByLock, h6 u]
          by_cases hu : t = u
          · subst hu; simp
          · have : ¬ u = t := fun e => hu e.symm
            simp [hu, this]
    | unlockBase =>
      rw [hp] at h; injection h with h; subst h
      cases hi with
      | free h1 h2 h3 => rw [h3 t] at hp; cases hp
      | locked t' h1 h2 h3 => rw [h3 t] at hp; cases hp
      | tried t' h1 h2 h3 => rw [h3 t] at hp; cases hp
      | locking t' h1 h2 h3 h4 =>
        by_cases he : t = t'
        · subst he; rw [h3] at hp; cases hp
        · rw [h4 t he] at hp; cases hp
      | unlocking t' h1 h2 h3 h4 h5 h6 h7 =>
        have he : t = t' := by
          apply Classical.byContradiction
          intro he; rw [h4 t he] at hp; cases hp
        subst he
        refine .free rfl h2 (fun u => ?_) (fun u => ?_) (fun u => ?_) h7
        · simp only [State.emit, State.goto]
          split
          · rfl
          · rename_i hu; exact h4 u hu
        · simp only [State.emit, State.goto, Holds, h5 u]
          by_cases hu : t = u
          · subst hu; simp
          · have : ¬ u = t := fun e => hu e.symm
            simp [hu, this]
        · simp only [State.emit, State.goto, HoldsByLock]
          by_cases hu : t = u
          · subst hu; simp
          · have : u ≠ t := fun e => hu e.symm
            simp [hu, h6 u this]

theorem inv_run (as : List (Act T)) {s s' : State T} (hi : Inv s) (hl : LegalRun as s) (h : run as s = some s') : Inv s' := by
  induction as generalizing s with
  | nil => simp only [run] at h; injection h with h; rw [← h]; exact hi
  | cons a as ih =>
    simp only [run] at h
    cases h1 : step s a with
    | none => rw [h1] at h; cases h
    | some s1 => rw [h1] at h; exact ih (inv_step hi a hl.1 h1) (hl.2 s1 h1) h

/-- C68, exactly what holds, for any threads and interleaving: the assertion succeeds exactly for the thread that holds the mutex by `lock()`;
at most one thread holds the mutex. -/
theorem C68_assert_partial (as : List (Act T)) (s : State T) (hl : LegalRun as State.start) (h : run as State.start = some s) :
    Exact HoldsByLock s.log ∧ ∀ t u, Holds t s.log = true → Holds u s.log = true → t = u := by
  have hi := inv_run as inv_start hl h
  constructor
  · cases hi <;> assumption
  · intro t u ht hu
    cases hi with
    | free h1 h2 h3 h4 => rw [h4 t] at ht; cases ht
    | locking t' h1 h2 h3 h4 h5 => rw [h5 t] at ht; cases ht
    | locked t' h1 h2 h3 h4 => rw [h4 t] at ht; rw [h4 u] at hu; simp at ht hu; rw [ht, hu]
    | tried t' h1 h2 h3 h4 => rw [h4 t] at ht; rw [h4 u] at hu; simp at ht hu; rw [ht, hu]
    | unlocking t' h1 h2 h3 h4 h5 => rw [h5 t] at ht; rw [h5 u] at hu; simp at ht hu; rw [ht, hu]

/-- Without a successful `try_lock`, holding is holding by `lock()`. -/
theorem holds_eq_byLock (t : T) (l : List (Event T)) (h : ∀ u, .tried u true ∉ l) : Holds t l = HoldsByLock t l := by
  induction l with
  | nil => rfl
  | cons e l ih =>
    have ih := ih (fun u hu => h u (List.mem_cons_of_mem _ hu))
    cases e with
    | locked u => simp only [Holds, HoldsByLock, ih]
    | tried u ok =>
      have : ok = false := by
        cases ok with
        | false => rfl
        | true => exact (h u (by simp)).elim
      subst this
      simp only [Holds, HoldsByLock, ih]; simp
    | unlocked u => simp only [Holds, HoldsByLock, ih]
    | asserted u ok => simp only [Holds, HoldsByLock, ih]

theorem exact_congr (f g : T → List (Event T) → Bool) (l : List (Event T)) (h : ∀ k t, f t (l.drop k) = g t (l.drop k)) (hf : Exact f l) : Exact g l := by
  induction l with
  | nil => trivial
  | cons e l ih =>
    have h' : ∀ k t, f t (l.drop k) = g t (l.drop k) := fun k t => by simpa using h (k + 1) t
    cases e with
    | asserted t ok => exact ⟨by rw [hf.1]; exact h' 0 t, ih h' hf.2⟩
    | locked t => exact ih h' hf
    | tried t ok => exact ih h' hf
    | unlocked t => exact ih h' hf

/-- C68, for programs in which no `try_lock()` succeeds: the assertion is exact. -/
theorem C68_no_try_lock_partial (as : List (Act T)) (s : State T) (hl : LegalRun as State.start) (h : run as State.start = some s)
    (hn : ∀ u, .tried u true ∉ s.log) : Exact Holds s.log :=
  exact_congr HoldsByLock Holds s.log (fun k t => (holds_eq_byLock t _ (fun u hu => hn u (List.mem_of_mem_drop hu))).symm) (C68_assert_partial as s hl h).1

/-- Two threads: 0 locks, both check, 1 fails to get it, 0 unlocks, 1 locks, both check. -/
example : (run [.lock 0, .cont 0, .check 0, .check 1, .tryLock 1, .unlock 0, .check 1, .cont 0, .lock 1, .check 0, .cont 1, .check 1, .check 0] (State.start : State Nat)).map State.log =
    some [.asserted 0 false, .asserted 1 true, .locked 1, .asserted 0 false, .unlocked 0, .asserted 1 false, .tried 1 false, .asserted 1 false, .asserted 0 true, .locked 0] := by
  decide

end Verif.Mutex
