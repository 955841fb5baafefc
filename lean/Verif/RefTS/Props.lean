import Verif.RefTS.Model
/-!
# Properties C47, C48: thread-safe reference counts
-/
namespace Verif.RefTS
open Verif

variable {T : Type} [DecidableEq T]

structure Inv (s : State T) : Prop where
  cnt : s.cnt = s.tok.length
  used : s.tok ≠ [] → s.alive = true ∧ ∀ t, s.pc t = .idle
  flag : s.alive = true → s.destroying = false
  del : s.deleted = if s.alive then 0 else 1
  ends : s.tok = [] → s.alive = true → ∃ t, s.pc t ≠ .idle ∧ ∀ u, s.pc u ≠ .idle → u = t
  dead : s.alive = false → ∀ t, s.pc t = .idle

theorem inv_step {s s' : State T} {a : Act T} (hi : Inv s) (h : step .plain s a = some (.ok s')) : Inv s' := by
  cases a with
  | addRef t =>
    simp only [step] at h
    split at h
    · rename_i hc
      have hne : s.tok ≠ [] := List.ne_nil_of_mem hc.2
      obtain ⟨ha, hp⟩ := hi.used hne
      rw [if_neg (by simp [ha]), if_neg (by simp)] at h
      injection h with h; injection h with h
      subst h
      exact ⟨by simp [hi.cnt], fun _ => ⟨ha, hp⟩, hi.flag, hi.del, by simp, hi.dead⟩
    · cases h
  | release t =>
    simp only [step] at h
    split at h
    · rename_i hc
      have hne : s.tok ≠ [] := List.ne_nil_of_mem hc.2
      obtain ⟨ha, hp⟩ := hi.used hne
      have hlen := List.length_erase_of_mem hc.2
      have hpos : 0 < s.tok.length := List.length_pos_of_mem hc.2
      rw [if_neg (by simp [ha])] at h
      injection h with h; injection h with h
      subst h
      refine ⟨by simp [setPc, hi.cnt, hlen], ?_, hi.flag, hi.del, ?_, fun h => by simp [setPc, ha] at h⟩
      · intro hne'
        refine ⟨ha, fun u => ?_⟩
        have : s.cnt ≠ 1 := by
          intro h1
          apply hne'
          simp only [setPc]
          exact List.eq_nil_of_length_eq_zero (by rw [hlen, ← hi.cnt, h1])
        simp only [setPc, hp]
        split
        · exact if_neg this
        · rfl
      · intro he _
        have h1 : s.cnt = 1 := by
          simp only [setPc] at he
          rw [he] at hlen
          simp only [List.length_nil] at hlen
          have := hi.cnt
          omega
        refine ⟨t, by simp [setPc, h1, Kind.last], fun u hu => ?_⟩
        by_cases hut : u = t
        · exact hut
        · simp [setPc, hut, hp] at hu
    · cases h
  | cont t =>
    simp only [step] at h
    cases hpc : s.pc t with
    | idle => simp [hpc] at h
    | check =>
      have he : s.tok = [] := Decidable.by_contra fun hne => by
        have := (hi.used hne).2 t
        rw [hpc] at this; cases this
      have ha : s.alive = true := by
        cases h : s.alive with
        | true => rfl
        | false => have := hi.dead h t; rw [hpc] at this; cases this
      have h0 : s.cnt = 0 := by rw [hi.cnt, he]; rfl
      simp only [hpc, ha, h0, ne_eq, not_true_eq_false, reduceCtorEq, if_false, Option.some.injEq, Except.ok.injEq] at h
      subst h
      obtain ⟨w, -, hw2⟩ := hi.ends he ha
      refine ⟨hi.cnt, fun hne => (hne he).elim, hi.flag, hi.del, fun _ _ => ⟨t, by simp [setPc], fun u hu => ?_⟩, fun h => by simp [setPc, ha] at h⟩
      by_cases hut : u = t
      · exact hut
      · simp only [setPc, if_neg hut] at hu
        rw [hw2 u hu, hw2 t (by rw [hpc]; simp)]
    | del =>
      have he : s.tok = [] := Decidable.by_contra fun hne => by
        have := (hi.used hne).2 t
        rw [hpc] at this; cases this
      have ha : s.alive = true := by
        cases h : s.alive with
        | true => rfl
        | false => have := hi.dead h t; rw [hpc] at this; cases this
      simp only [hpc, ha, reduceCtorEq, if_false, Option.some.injEq, Except.ok.injEq] at h
      subst h
      obtain ⟨w, -, hw2⟩ := hi.ends he ha
      have hd := hi.del
      rw [ha] at hd
      refine ⟨hi.cnt, fun hne => (hne he).elim, by simp [setPc], by simp [setPc, hd], by simp [setPc], fun _ u => ?_⟩
      by_cases hut : u = t
      · simp [setPc, hut]
      · simp only [setPc, if_neg hut]
        cases hu : s.pc u with
        | idle => rfl
        | check => exact (hut (by rw [hw2 u (by rw [hu]; simp), hw2 t (by rw [hpc]; simp)])).elim
        | del => exact (hut (by rw [hw2 u (by rw [hu]; simp), hw2 t (by rw [hpc]; simp)])).elim
  | send t u =>
    simp only [step] at h
    split at h
    · rename_i hc
      have hne : s.tok ≠ [] := List.ne_nil_of_mem hc.2
      obtain ⟨ha, hp⟩ := hi.used hne
      have hlen := List.length_erase_of_mem hc.2
      have hpos : 0 < s.tok.length := List.length_pos_of_mem hc.2
      simp only [Option.some.injEq, Except.ok.injEq] at h
      subst h
      exact ⟨by simp [hi.cnt, hlen]; omega, fun _ => ⟨ha, hp⟩, hi.flag, hi.del, by simp, hi.dead⟩
    · cases h
  | use t =>
    simp only [step] at h
    split at h
    · rename_i hc
      rw [if_neg (by simp [(hi.used (List.ne_nil_of_mem hc.2)).1])] at h
      injection h with h; injection h with h
      subst h
      exact hi
    · cases h

theorem inv_reachable {t0 : T} {s : State T} (h : Reachable .plain t0 s) : Inv s := by
  induction h with
  | start => exact ⟨rfl, fun _ => ⟨rfl, fun _ => rfl⟩, fun _ => rfl, rfl, fun h => by simp [State.start] at h, fun h => by simp [State.start] at h⟩
  | step _ h ih => exact inv_step ih h

/-- C47: with `RefcountedThreadsafe`, whatever the number of threads and the interleaving:
no step touches a destroyed object, fails the assertion or deletes twice; the object is alive as long as
anyone owns a reference, is destroyed at most once, and when all references are gone and no thread is inside
`Release`, it has been destroyed exactly once. -/
theorem C47_destroyed_once (t0 : T) (s : State T) (h : Reachable .plain t0 s) :
    (∀ a e, step .plain s a ≠ some (.error e)) ∧
    (s.tok ≠ [] → s.alive = true) ∧ s.deleted ≤ 1 ∧ (s.alive = true ↔ s.deleted = 0) ∧
    (s.tok = [] → (∀ t, s.pc t = .idle) → s.deleted = 1) := by
  have hi := inv_reachable h
  refine ⟨?_, fun h => (hi.used h).1, by rw [hi.del]; split <;> omega, by rw [hi.del]; cases s.alive <;> simp, ?_⟩
  · intro a e hs
    cases a with
    | addRef t =>
      simp only [step] at hs
      split at hs
      · rename_i hc
        obtain ⟨ha, -⟩ := hi.used (List.ne_nil_of_mem hc.2)
        simp [ha] at hs
      · cases hs
    | release t =>
      simp only [step] at hs
      split at hs
      · rename_i hc
        obtain ⟨ha, -⟩ := hi.used (List.ne_nil_of_mem hc.2)
        simp [ha] at hs
      · cases hs
    | cont t =>
      simp only [step] at hs
      cases hpc : s.pc t with
      | idle => simp [hpc] at hs
      | check =>
        have he : s.tok = [] := Decidable.by_contra fun hne => by
          have := (hi.used hne).2 t
          rw [hpc] at this; cases this
        have ha : s.alive = true := by
          cases h : s.alive with
          | true => rfl
          | false => have := hi.dead h t; rw [hpc] at this; cases this
        have h0 : s.cnt = 0 := by rw [hi.cnt, he]; rfl
        simp [hpc, ha, h0] at hs
      | del =>
        have ha : s.alive = true := by
          cases h : s.alive with
          | true => rfl
          | false => have := hi.dead h t; rw [hpc] at this; cases this
        simp [hpc, ha] at hs
    | send t u =>
      simp only [step] at hs
      split at hs <;> simp at hs
    | use t =>
      simp only [step] at hs
      split at hs
      · rename_i hc
        simp [(hi.used (List.ne_nil_of_mem hc.2)).1] at hs
      · cases hs
  · intro he hp
    rw [hi.del]
    cases ha : s.alive with
    | false => simp
    | true =>
      obtain ⟨t, ht, -⟩ := hi.ends he ha
      exact (ht (hp t)).elim

/-- C47, progress: as long as the object is not destroyed, either some thread owns a reference or some
thread is inside `Release` and its next step succeeds; at most two such steps are left. -/
theorem C47_progress (t0 : T) (s : State T) (h : Reachable .plain t0 s) (ha : s.alive = true) (he : s.tok = []) :
    ∃ t s', step .plain s (.cont t) = some (.ok s') ∧
      (s'.deleted = 1 ∨ ∃ s'', step .plain s' (.cont t) = some (.ok s'') ∧ s''.deleted = 1) := by
  have hi := inv_reachable h
  obtain ⟨t, ht, -⟩ := hi.ends he ha
  have h0 : s.cnt = 0 := by rw [hi.cnt, he]; rfl
  have hd := hi.del
  rw [ha] at hd
  cases hpc : s.pc t with
  | idle => exact (ht hpc).elim
  | check =>
    refine ⟨t, setPc s t .del, by simp [step, hpc, ha, h0], .inr ⟨_, by simp [step, setPc, ha]; rfl, ?_⟩⟩
    simp [hd]
  | del =>
    exact ⟨t, _, by simp [step, hpc, ha]; rfl, .inl (by simp [setPc, hd])⟩

/-- C48, full statement: when all references to a `VirtualRefcountedThreadsafe` object are gone and no
thread is inside `Release`, it has been destroyed. -/
def VirtualDestroys : Prop :=
  ∀ (t0 : Nat) (s : State Nat), Reachable .virtual t0 s → s.tok = [] → (∀ t, s.pc t = .idle) → s.deleted = 1

/-- C48 is false: `Release` compares the old count with 0 instead of 1. -/
theorem C48_virtual_refuted : ¬ VirtualDestroys := by
  intro h
  have hr : Reachable .virtual 0 (setPc { State.start 0 with cnt := 0, tok := [] } (0 : Nat) .idle) :=
    .step (a := .release 0) .start rfl
  have := h 0 _ hr rfl (fun t => by simp [setPc, State.start])
  simp [setPc, State.start] at this

/-- C48, how bad it is: in no execution that respects ownership is the object ever destroyed (it always
leaks); and what little holds: no such execution faults. -/
theorem C48_virtual_leaks_partial (t0 : T) (s : State T) (h : Reachable .virtual t0 s) :
    s.alive = true ∧ s.deleted = 0 ∧ ∀ a e, step .virtual s a ≠ some (.error e) := by
  have hinv : s.alive = true ∧ s.deleted = 0 ∧ s.destroying = false ∧ s.cnt = s.tok.length ∧ ∀ t, s.pc t = .idle := by
    induction h with
    | start => exact ⟨rfl, rfl, rfl, rfl, fun _ => rfl⟩
    | @step s s' a _ h ih =>
      obtain ⟨ha, hd, hf, hc, hp⟩ := ih
      cases a with
      | addRef t =>
        simp only [step] at h
        split at h
        · simp only [ha, hf, reduceCtorEq, Bool.false_eq_true, and_false, if_false, Option.some.injEq, Except.ok.injEq] at h
          subst h
          exact ⟨rfl, hd, rfl, by simp [hc], hp⟩
        · cases h
      | release t =>
        simp only [step] at h
        split at h
        · rename_i hm
          have hlen := List.length_erase_of_mem hm.2
          have hpos : 0 < s.tok.length := List.length_pos_of_mem hm.2
          have h0 : s.cnt ≠ 0 := by omega
          simp only [ha, reduceCtorEq, if_false, Option.some.injEq, Except.ok.injEq, Kind.last, h0] at h
          subst h
          refine ⟨rfl, hd, hf, by simp [setPc, hc, hlen], fun u => ?_⟩
          simp only [setPc]; split
          · rfl
          · exact hp u
        · cases h
      | cont t => simp [step, hp] at h
      | send t u =>
        simp only [step] at h
        split at h
        · rename_i hm
          have hlen := List.length_erase_of_mem hm.2
          have hpos : 0 < s.tok.length := List.length_pos_of_mem hm.2
          simp only [Option.some.injEq, Except.ok.injEq] at h
          subst h
          exact ⟨ha, hd, hf, by simp [hc, hlen]; omega, hp⟩
        · cases h
      | use t =>
        simp only [step] at h
        split at h
        · simp only [ha, reduceCtorEq, if_false, Option.some.injEq, Except.ok.injEq] at h
          subst h
          exact ⟨ha, hd, hf, hc, hp⟩
        · cases h
  obtain ⟨ha, hd, hf, hc, hp⟩ := hinv
  refine ⟨ha, hd, fun a e hs => ?_⟩
  cases a <;> simp [step, ha, hf, hp] at hs

/-! ### Non-vacuity: two threads; the second one ends up deleting -/

def sched (k : Kind) : State Nat → List (Act Nat) → Option (State Nat)
  | s, [] => some s
  | s, a :: as => match step k s a with
    | some (.ok s') => sched k s' as
    | _ => none

theorem sched_reachable {k : Kind} {t0 : Nat} : ∀ (as : List (Act Nat)) (s s' : State Nat), Reachable k t0 s →
    sched k s as = some s' → Reachable k t0 s'
  | [], s, s', h, he => by simp only [sched, Option.some.injEq] at he; exact he ▸ h
  | a :: as, s, s', h, he => by
    simp only [sched] at he
    split at he
    · rename_i s1 h1; exact sched_reachable as s1 s' (.step h h1) he
    · cases he

example : ∃ s : State Nat, Reachable .plain 0 s ∧ s.tok = [] ∧ s.deleted = 1 := by
  refine ⟨_, sched_reachable [.addRef 0, .send 0 1, .addRef 1, .release 1, .release 0, .release 1, .cont 1, .cont 1] _ _ .start rfl, rfl, rfl⟩

end Verif.RefTS
