import Verif.ThreadLocal.WeakLemmas
/-!
# C148: publication of a `ThreadLocal` between threads

`allocated_` and `key_` are not atomics, and `key_` is written after the flag that guards it. Under sequential consistency it is enough that `allocate()` has returned
(C66_preallocated_partial); under the memory model it is not.
-/
namespace Verif.ThreadLocal
open Verif
set_option linter.unusedSimpArgs false
variable {T A : Type} [DecidableEq T]

/-- False of the code: `allocate()` has returned in thread 0; thread 1 sees the flag but still the uninitialised `key_`. -/
theorem C148_published_refuted : ¬ PublishedByReturn := by
  intro h
  obtain ⟨w, h1, -⟩ := h [.begin 1 .get false, .cont 1 true]
  have h2 : wrun (fun _ => true) 0 (opening 0 false none ++ [.begin 1 .get false, .cont 1 true]) (WState.start 0 : WState Nat Nat) = .error .uninitialised := rfl
  rw [h2] at h1
  cases h1

theorem opening_safe (create : Nat → Bool) (dflt : A) (t : T) (hc : create 0 = true) (stale : Bool) (first : Option A) :
    ∃ w, wrun create dflt (opening t stale first) (WState.start dflt) = .ok w ∧ Safe [t] w ∧
      run create dflt ((opening t stale first).flatMap WAct.sc) (State.start dflt) = .ok w.base := by
  cases first with
  | none =>
    refine ⟨{ base := State.done { (State.start dflt : State T A).goto t .allocCreate with allocated := true, key := some 0, nextKey := 1, attempts := 1, tls := fun k u => if k = 0 then dflt else dflt } t (.allocated t true), flag := fun u => if u = t then true else false, keyk := fun u => if u = t then true else false }, ?_, ⟨⟨rfl, ⟨0, rfl⟩, fun u => ?_⟩, fun u hu => ?_, fun u hu => ?_⟩, ?_⟩
    · simp [opening, wrun, wstep, WState.begin, WState.start, WState.cont, WState.learnFlag, WState.learnKey, State.start, State.goto, State.createKey, State.done, hc, bind, Except.bind]
    · simp only [State.done, State.goto, State.start]
      split <;> rfl
    · simp at hu; simp [hu]
    · simp at hu; simp [State.done, State.goto, State.start, hu]
    · simp [opening, WAct.sc, run, step, State.begin, State.start, State.cont, State.goto, State.createKey, State.done, hc, bind, Except.bind]
  | some a =>
    let s0 : State T A := { (State.start dflt : State T A) with allocated := true, key := some 0, nextKey := 1, attempts := 1, tls := fun j u => if j = 0 ∧ u = t then a else if j = 0 then dflt else dflt }
    let s1 : State T A := { s0.done t (.didSet t a) with pc := fun u => if u = t then .idle else if u = t then .setUse a else if u = t then .setCreate a else if u = t then .setCas a else .idle }
    refine ⟨{ base := s1, flag := fun u => if u = t then true else false, keyk := fun u => if u = t then true else false }, ?_, ⟨⟨rfl, ⟨0, rfl⟩, fun u => ?_⟩, fun u hu => ?_, fun u hu => ?_⟩, ?_⟩
    · simp [s0, s1, opening, wrun, wstep, WState.begin, WState.readFlag, WState.readKey, WState.start, WState.cont, WState.learnFlag, WState.learnKey, State.start, State.goto, State.createKey, State.done, hc, bind, Except.bind]
    · by_cases e : u = t <;> simp [s0, s1, State.done, State.goto, State.start, e, Pc.creating]
    · simp at hu; simp [hu]
    · simp at hu; simp [s0, s1, State.done, State.goto, State.start, hu]
    · simp [s0, s1, opening, WAct.sc, run, step, State.begin, State.start, State.cont, State.goto, State.createKey, State.done, hc, bind, Except.bind]

/-- If one thread makes the object usable and every other thread's calls are ordered after that by the client, then nothing goes wrong in any execution, every `get`
returns what its thread last set, and what happens is exactly what happens under sequential consistency. -/
theorem C148_ordered_partial (create : Nat → Bool) (dflt : A) (t : T) (hc : create 0 = true) (stale : Bool) (first : Option A) (as : List (WAct T A))
    (ho : Ordered [t] as) :
    ∃ w, wrun create dflt (opening t stale first ++ as) (WState.start dflt) = .ok w ∧ Isolated dflt w.base.log ∧
      run create dflt ((opening t stale first ++ as).flatMap WAct.sc) (State.start dflt) = .ok w.base := by
  obtain ⟨w1, h1, h2, h3⟩ := opening_safe create dflt t hc stale first
  obtain ⟨w2, h4, h5⟩ := safe_run (create := create) (dflt := dflt) as h2 ho
  have h6 : wrun create dflt (opening t stale first ++ as) (WState.start dflt) = .ok w2 := by rw [wrun_append, h1]; exact h4
  refine ⟨w2, h6, (wrun_inv _ (inv_start dflt) (know_start create dflt) h6).1.isolated, ?_⟩
  rw [List.flatMap_append, run_append, h3]
  exact h5

/-- Whatever the threads read, as long as nothing goes wrong every `get` returned what its own thread last set, or `T()`: an old `allocated_` does no harm. -/
theorem C148_isolated_partial (create : Nat → Bool) (dflt : A) (as : List (WAct T A)) (w : WState T A)
    (h : wrun create dflt as (WState.start dflt) = .ok w) : Isolated dflt w.base.log :=
  (wrun_inv as (inv_start dflt) (know_start create dflt) h).1.isolated

/-- Exactly when it goes wrong: in any execution a thread about to use the key may read it uninitialised if and only if it is not ordered after the write of `key_`
(when the system does not run out of keys). -/
theorem C148_use_may_fault_iff (create : Nat → Bool) (hc : ∀ j, create j = true) (dflt : A) (as : List (WAct T A)) (w : WState T A)
    (h : wrun create dflt as (WState.start dflt) = .ok w) (t : T) (hu : w.base.pc t = .getUse ∨ ∃ a, w.base.pc t = .setUse a) :
    (∃ stale, wstep create dflt w (.cont t stale) = .error .uninitialised) ↔ w.keyk t = false := by
  have hk := (wrun_inv as (inv_start dflt) (know_start create dflt) h).2
  constructor
  · rintro ⟨stale, hf⟩
    cases hkk : w.keyk t with
    | false => rfl
    | true =>
      rcases hk.key t hkk with h1 | ⟨j, hj⟩
      · cases hk2 : w.base.key with
        | none => exact (h1 hk2).elim
        | some k =>
          have hr : w.readKey t stale = some k := by simp [WState.readKey, hkk, hk2]
          simp only [wstep, WState.cont] at hf
          rcases hu with hu | ⟨a, hu⟩ <;> · rw [hu] at hf; simp only [hr] at hf; cases hf
      · rw [hc j] at hj; cases hj
  · intro hkk
    have hr : w.readKey t true = none := by simp [WState.readKey, hkk]
    refine ⟨true, ?_⟩
    simp only [wstep, WState.cont]
    rcases hu with hu | ⟨a, hu⟩ <;> rw [hu] <;> simp only [hr]

/-- So the order is needed: after any execution in which the object has been claimed, a thread that is not ordered after the write of `key_` and calls `get` may fault. -/
theorem C148_order_needed (create : Nat → Bool) (dflt : A) (as : List (WAct T A)) (w : WState T A)
    (h : wrun create dflt as (WState.start dflt) = .ok w) (t : T) (hp : w.base.pc t = .idle) (ha : w.base.allocated = true) (hk : w.keyk t = false) :
    wrun create dflt (as ++ [.begin t .get false, .cont t true]) (WState.start dflt) = .error .uninitialised := by
  rw [wrun_append, h]
  simp [Except.bind, wrun, wstep, WState.begin, hp, WState.readFlag, ha, WState.cont, State.goto, WState.readKey, WState.learnFlag, hk, bind]

/-- Thread 0 sets 5 and starts threads 1 and 2, thread 2 starts thread 3; all of them use the object at once, offered old values everywhere. -/
example : Ordered [0] ([.sync 0 1, .sync 0 2, .begin 1 (.set 7) true, .begin 0 .get true, .sync 2 3, .begin 3 .get true, .cont 1 true, .cont 0 true, .cont 3 true,
      .begin 1 .get true, .cont 1 true] : List (WAct Nat Nat)) ∧
    (match wrun (fun _ => true) 0 (opening 0 true (some 5) ++ [.sync 0 1, .sync 0 2, .begin 1 (.set 7) true, .begin 0 .get true, .sync 2 3, .begin 3 .get true, .cont 1 true,
      .cont 0 true, .cont 3 true, .begin 1 .get true, .cont 1 true]) (WState.start 0 : WState Nat Nat) with
    | .ok w => decide (w.base.log = [.got 1 7, .got 3 0, .got 0 5, .didSet 1 7, .didSet 0 5])
    | .error _ => false) = true := by
  constructor
  · simp [Ordered]
  · decide +kernel

/-- An old `allocated_`: thread 1 does not see that thread 0 has set the object up, sets a value all the same and reads it. -/
example : (match wrun (fun _ => true) 0 (opening 0 false (some 5) ++ [.begin 1 .get true, .begin 1 (.set 8) true, .cont 1 false, .cont 1 false, .begin 1 .get true, .cont 1 false])
      (WState.start 0 : WState Nat Nat) with
    | .ok w => decide (w.base.log = [.got 1 8, .didSet 1 8, .got 1 0, .didSet 0 5])
    | .error _ => false) = true := by decide +kernel

end Verif.ThreadLocal
