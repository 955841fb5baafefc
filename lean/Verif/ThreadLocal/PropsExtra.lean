import Verif.ThreadLocal.Extra
import Verif.ThreadLocal.Props
/-!
# The key of a ThreadLocal is given back (C101), values survive storage (C102)
-/
namespace Verif.ThreadLocal
open Verif

set_option linter.unusedSimpArgs false
set_option linter.unusedSectionVars false

variable {T A : Type} [DecidableEq T]

/-- C101, the full statement: whatever the calls and their interleaving, when all have returned and the object is destroyed, exactly the keys that were
obtained from the system (numbers `0, ..., nextKey - 1`) are given back to it, and nothing else is. -/
def GivesKeysBack : Prop := ∀ (create : Nat → Bool) (as : List (Act Nat Nat)) (s : State Nat Nat), run create 0 as (State.start 0) = .ok s →
  (∀ t, s.pc t = .idle) → ∃ k, s.destroy = .ok k ∧ k.toList = List.range s.nextKey

/-- C101 fails: after an `allocate()` that the system refused, the destructor deletes an uninitialised key. -/
theorem C101_destroy_refuted : ¬ GivesKeysBack := by
  intro h
  have h1 : run (fun _ => false) 0 [.begin 0 .allocate, .cont 0] (State.start 0 : State Nat Nat) =
      .ok { allocated := true, key := none, tls := fun _ _ => 0, nextKey := 0, attempts := 1,
            pc := fun u => if u = 0 then .idle else if u = 0 then .allocCreate else .idle, log := [.allocated 0 false] } := rfl
  obtain ⟨k, hk, -⟩ := h _ _ _ h1 (by intro t; simp only; split <;> first | rfl | (split <;> simp_all))
  simp [State.destroy] at hk

/-- The key is created by the first thread that sets `allocated_`, and never again. -/
def Keyed (create : Nat → Bool) (s : State T A) : Prop :=
  (s.attempts = 0 ∧ s.nextKey = 0 ∧ s.key = none ∧ (s.allocated = true → ∃ u, (s.pc u).creating = true)) ∨
  (s.attempts = 1 ∧ s.allocated = true ∧ (∀ u, (s.pc u).creating = false) ∧
    ((create 0 = true ∧ s.key = some 0 ∧ s.nextKey = 1) ∨ (create 0 = false ∧ s.key = none ∧ s.nextKey = 0)))

theorem keyed_goto {create : Nat → Bool} {s : State T A} (hk : Keyed create s) (t : T) (p : Pc A) (h : (s.pc t).creating = false) (hp : p.creating = false) :
    Keyed create (s.goto t p) := by
  rcases hk with ⟨h1, h2, h3, h4⟩ | ⟨h1, h2, h3, h4⟩
  · refine .inl ⟨h1, h2, h3, fun ha => ?_⟩
    obtain ⟨u, hu⟩ := h4 ha
    refine ⟨u, ?_⟩
    have : u ≠ t := by rintro rfl; rw [h] at hu; cases hu
    simp only [State.goto, this, if_false]; exact hu
  · refine .inr ⟨h1, h2, fun u => ?_, h4⟩
    simp only [State.goto]; split
    · exact hp
    · exact h3 u

theorem keyed_claim {create : Nat → Bool} {s : State T A} (hk : Keyed create s) (t : T) (p : Pc A) (ha : s.allocated = false) (hp : p.creating = true) :
    Keyed create (({ s with allocated := true }).goto t p) := by
  rcases hk with ⟨h1, h2, h3, h4⟩ | ⟨h1, h2, h3, h4⟩
  · exact .inl ⟨h1, h2, h3, fun _ => ⟨t, by simp [State.goto, hp]⟩⟩
  · rw [ha] at h2; cases h2

theorem keyed_create {create : Nat → Bool} {dflt : A} {s : State T A} (hi : Inv dflt s) (hk : Keyed create s) (t : T) (hc : (s.pc t).creating = true) (p : Pc A)
    (hp : p.creating = false) : Keyed create ((s.createKey create dflt).2.goto t p) := by
  rcases hk with ⟨h1, h2, h3, h4⟩ | ⟨h1, h2, h3, h4⟩
  · have hu := (hi.creating t hc).2.2
    have hno : ∀ u, (if u = t then p else s.pc u).creating = false := by
      intro u
      by_cases e : u = t
      · rw [if_pos e]; exact hp
      · rw [if_neg e]
        cases h : (s.pc u).creating with
        | false => rfl
        | true => exact (e (hu u h)).elim
    unfold State.createKey
    rw [h1]
    cases h0 : create 0 with
    | true => exact .inr ⟨rfl, (hi.creating t hc).1, hno, .inl ⟨h0, by simp [State.goto, h2], by simp [State.goto, h2]⟩⟩
    | false => exact .inr ⟨rfl, (hi.creating t hc).1, hno, .inr ⟨h0, by simp [State.goto, h3], by simp [State.goto, h2]⟩⟩
  · rw [h3 t] at hc; cases hc

theorem keyed_log {create : Nat → Bool} {s : State T A} (hk : Keyed create s) (l : List (Event T A)) : Keyed create { s with log := l } := hk

theorem keyed_step {create : Nat → Bool} {dflt : A} {s s' : State T A} (hi : Inv dflt s) (hk : Keyed create s) (a : Act T A)
    (h : step create dflt s a = .ok s') : Keyed create s' := by
  cases a with
  | begin t o =>
    simp only [step] at h; injection h with h; subst h
    unfold State.begin
    cases hp : s.pc t <;> simp only <;> try exact hk
    have hn : (s.pc t).creating = false := by rw [hp]; rfl
    cases o with
    | get => simp only; split
             · exact keyed_log (keyed_goto hk t .idle hn rfl) _
             · exact keyed_goto hk t .getUse hn rfl
    | set a => simp only; split
               · exact keyed_goto hk t _ hn rfl
               · exact keyed_goto hk t _ hn rfl
    | allocate =>
      simp only; split
      · exact keyed_log (keyed_goto hk t .idle hn rfl) _
      · rename_i ha; exact keyed_claim hk t _ (by simpa using ha) rfl
  | cont t =>
    simp only [step] at h
    unfold State.cont at h
    cases hp : s.pc t with
    | idle => rw [hp] at h; injection h with h; subst h; exact hk
    | getUse =>
      rw [hp] at h; simp only at h
      split at h <;> cases h
      exact keyed_log (keyed_goto hk t .idle (by rw [hp]; rfl) rfl) _
    | setCas a =>
      rw [hp] at h; simp only at h
      split at h
      · cases h; exact keyed_goto hk t _ (by rw [hp]; rfl) rfl
      · rename_i ha; cases h; exact keyed_claim hk t _ (by simpa using ha) rfl
    | setCreate a =>
      rw [hp] at h; simp only at h
      have := keyed_create (dflt := dflt) hi hk t (by rw [hp]; rfl) (.setUse a) rfl
      split at h
      · rename_i s1 e; cases h; rw [e] at this; exact this
      · cases h
    | setUse a =>
      rw [hp] at h; simp only at h
      split at h <;> cases h
      exact keyed_goto hk t .idle (by rw [hp]; rfl) rfl
    | allocCreate =>
      rw [hp] at h; simp only at h
      have := keyed_create (dflt := dflt) hi hk t (by rw [hp]; rfl) .idle rfl
      injection h with h; subst h
      exact this

theorem keyed_run {create : Nat → Bool} {dflt : A} (as : List (Act T A)) {s s' : State T A} (hi : Inv dflt s) (hk : Keyed create s)
    (h : run create dflt as s = .ok s') : Keyed create s' := by
  induction as generalizing s with
  | nil => simp only [run] at h; injection h with h; rw [← h]; exact hk
  | cons a as ih =>
    simp only [run, bind, Except.bind] at h
    cases h1 : step create dflt s a with
    | error f => rw [h1] at h; cases h
    | ok s1 => rw [h1] at h; exact ih (inv_step hi a h1) (keyed_step hi hk a h1) h

theorem keyed_start (create : Nat → Bool) (dflt : A) : Keyed create (State.start dflt : State T A) :=
  .inl ⟨rfl, rfl, rfl, fun h => by cases h⟩

/-- C101, what holds for every interleaving of any threads (missing: the system refuses the first key): if the system grants the first request for a
key, the destructor gives back exactly the keys obtained: none if there was no request, otherwise the one. -/
theorem C101_destroy_partial (create : Nat → Bool) (hc : create 0 = true) (dflt : A) (as : List (Act T A)) (s : State T A)
    (h : run create dflt as (State.start dflt) = .ok s) (hp : ∀ t, s.pc t = .idle) : ∃ k, s.destroy = .ok k ∧ k.toList = List.range s.nextKey := by
  rcases keyed_run as (inv_start dflt) (keyed_start create dflt) h with ⟨h1, h2, h3, h4⟩ | ⟨h1, h2, h3, h4⟩
  · have ha : s.allocated = false := by
      cases ha : s.allocated with
      | false => rfl
      | true => obtain ⟨u, hu⟩ := h4 ha; rw [hp u] at hu; cases hu
    exact ⟨none, by simp [State.destroy, ha], by rw [h2]; rfl⟩
  · rcases h4 with ⟨-, h5, h6⟩ | ⟨h5, -⟩
    · exact ⟨some 0, by simp [State.destroy, h2, h5], by rw [h6]; rfl⟩
    · rw [hc] at h5; cases h5

/-- C101: at most one key is ever requested, however many threads call `set` and `allocate` at the same time. -/
theorem C101_one_request (create : Nat → Bool) (dflt : A) (as : List (Act T A)) (s : State T A)
    (h : run create dflt as (State.start dflt) = .ok s) : s.attempts ≤ 1 ∧ s.nextKey ≤ 1 := by
  rcases keyed_run as (inv_start dflt) (keyed_start create dflt) h with ⟨h1, h2, -, -⟩ | ⟨h1, h2, h3, ⟨-, -, h4⟩ | ⟨-, -, h4⟩⟩ <;> omega

/-- C101, exactly when it goes wrong: the destructor deletes an uninitialised key if and only if the one request was made and refused. -/
theorem C101_destroy_faults_iff (create : Nat → Bool) (dflt : A) (as : List (Act T A)) (s : State T A)
    (h : run create dflt as (State.start dflt) = .ok s) (hp : ∀ t, s.pc t = .idle) :
    s.destroy = .error .uninitialised ↔ s.attempts = 1 ∧ create 0 = false := by
  rcases keyed_run as (inv_start dflt) (keyed_start create dflt) h with ⟨h1, h2, h3, h4⟩ | ⟨h1, h2, h3, h4⟩
  · have ha : s.allocated = false := by
      cases ha : s.allocated with
      | false => rfl
      | true => obtain ⟨u, hu⟩ := h4 ha; rw [hp u] at hu; cases hu
    simp [State.destroy, ha, h1]
  · rcases h4 with ⟨h4, h5, h6⟩ | ⟨h4, h5, h6⟩
    · simp [State.destroy, h2, h5, h4]
    · simp [State.destroy, h2, h5, h4, h1]

/-- Two threads set at the same time: one key, given back. -/
example : ∃ s, run (fun _ => true) 0 [.begin 0 (.set 5), .begin 1 (.set 6), .cont 0, .cont 0, .cont 1, .cont 0, .cont 1] (State.start 0 : State (Fin 2) Nat) = .ok s ∧
    (∀ t, s.pc t = .idle) ∧ s.nextKey = 1 ∧ s.destroy = .ok (some 0) ∧ s.log = [.didSet 1 6, .didSet 0 5] := by
  refine ⟨_, rfl, ?_, rfl, rfl, rfl⟩
  intro t
  match t with
  | 0 => rfl
  | 1 => rfl

/-! ## C102 -/

/-- C102: a value of an integer type survives storage and retrieval, for every value, exactly if the type is no wider than a pointer. -/
theorem C102_roundtrip_iff (p w : Nat) (signed : Bool) : (∀ v : BitVec w, castOut w (castIn p signed v) = v) ↔ w ≤ p := by
  constructor
  · intro h
    apply Classical.byContradiction
    intro hn
    have h1 := h (BitVec.twoPow w p)
    have h2 := congrArg (fun x => BitVec.getLsbD x p) h1
    have hp : p < w := by omega
    cases signed <;> simp [castOut, castIn, BitVec.getLsbD_setWidth, BitVec.getLsbD_signExtend, BitVec.getLsbD_twoPow, hp] at h2
  · intro h v
    apply BitVec.eq_of_getLsbD_eq
    intro i hi
    have : i < p := by omega
    cases signed <;> simp only [castOut, castIn, if_true, Bool.false_eq_true, if_false, BitVec.getLsbD_setWidth, BitVec.getLsbD_signExtend, hi, this, decide_true, Bool.true_and]

/-- C102: the null pointer a new key holds in every thread reads as `T()`, and only zero is stored as null if the type is no wider than a pointer. -/
theorem C102_default (p w : Nat) (signed : Bool) : castOut w (0 : BitVec p) = 0 ∧
    (w ≤ p → ∀ v : BitVec w, castIn p signed v = 0 → v = 0) := by
  have h0 : castOut w (0 : BitVec p) = 0 := by simp [castOut]
  refine ⟨h0, fun h v hv => ?_⟩
  have := (C102_roundtrip_iff p w signed).2 h v
  rw [hv, h0] at this
  exact this.symm

example : castOut 32 (castIn 64 true (0xFFFFFFFE : BitVec 32)) = 0xFFFFFFFE ∧ castIn 64 true (0xFFFFFFFE : BitVec 32) = 0xFFFFFFFFFFFFFFFE ∧
    castOut 64 (castIn 32 false (0x100000001 : BitVec 64)) = 1 := by decide

/-- C102: in single-threaded builds every `get` returns what was last set, or `T()`, `allocate` never fails, and the values left are those last set. -/
theorem C102_single (t : T) (dflt : A) (os : List (Op A)) :
    Isolated dflt (Single.calls t os (Single.start dflt, [])).2 ∧ (Single.calls t os (Single.start dflt, [])).1.t_ = lastSet dflt t (Single.calls t os (Single.start dflt, [])).2 ∧
    Event.allocated t false ∉ (Single.calls t os (Single.start dflt, [])).2 ∧ (Single.calls t os (Single.start dflt, [])).2.length = os.length := by
  have key : ∀ (os : List (Op A)) (r : Single A × List (Event T A)), Isolated dflt r.2 → r.1.t_ = lastSet dflt t r.2 → Event.allocated t false ∉ r.2 →
      Isolated dflt (Single.calls t os r).2 ∧ (Single.calls t os r).1.t_ = lastSet dflt t (Single.calls t os r).2 ∧
      Event.allocated t false ∉ (Single.calls t os r).2 ∧ (Single.calls t os r).2.length = os.length + r.2.length := by
    intro os
    induction os with
    | nil => intro r h1 h2 h3; exact ⟨h1, h2, h3, by simp [Single.calls]⟩
    | cons o os ih =>
      intro r h1 h2 h3
      simp only [Single.calls]
      have := ih ((r.1.call t o).1, (r.1.call t o).2 :: r.2) ?_ ?_ ?_
      · refine ⟨this.1, this.2.1, this.2.2.1, by rw [this.2.2.2]; simp only [List.length_cons]; omega⟩
      · cases o with
        | get => exact ⟨h2, h1⟩
        | set a => exact h1
        | allocate => exact h1
      · cases o with
        | get => exact h2
        | set a => simp [Single.call, lastSet]
        | allocate => exact h2
      · cases o <;> simp [Single.call, h3]
  have := key os (Single.start dflt, []) trivial rfl (by simp)
  simpa using this

example : (Single.calls (0 : Nat) [.get, .set 5, .allocate, .get] (Single.start 0, [])).2 = [.got 0 5, .allocated 0 true, .didSet 0 5, .got 0 0] := rfl

end Verif.ThreadLocal
