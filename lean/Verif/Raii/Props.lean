import Verif.Raii.Lemmas
/-!
# C61-C63: the helpers of am-raii.h
-/
namespace Verif.Raii
open Verif

/-! ## C61 -/
section save
variable {L A : Type} [DecidableEq L]

/-- C61: whatever properly nested program runs in the scope of a `SaveAndSet` on `l`, the scope starts with `a` in `l`, and when it ends `l`
has the value it had when the guard was created; every other location has the value the scope's body left in it. -/
theorem C61_restores (l : L) (a : A) (body : Prog L A) (s : SState L A) :
    ∃ s0 s1 s2, s.step (.enter l a) = .ok s0 ∧ s0.mem l = a ∧ (∀ k, k ≠ l → s0.mem k = s.mem k) ∧
      SState.run body.trace s0 = .ok s1 ∧ s1.step .leave = .ok s2 ∧ s2.mem l = s.mem l ∧ (∀ k, k ≠ l → s2.mem k = s1.mem k) ∧
      s2.live = s.live := by
  refine ⟨{ mem := store s.mem l a, live := ⟨l, s.mem l⟩ :: s.live },
    { mem := fun k => (body.leaves k).getD (store s.mem l a k), live := ⟨l, s.mem l⟩ :: s.live },
    { mem := store (fun k => (body.leaves k).getD (store s.mem l a k)) l (s.mem l), live := s.live }, rfl, by simp [store],
    fun k hk => by simp [store, hk], srun_prog body _, rfl, by simp [store], fun k hk => by simp [store, hk], rfl⟩

/-- C61, for whole programs: a properly nested program runs without fault, and each location ends up with its last write outside of
the scopes guarding that location, or unchanged if there is none. -/
theorem C61_nested (p : Prog L A) (s : SState L A) :
    ∃ s', SState.run p.trace s = .ok s' ∧ s'.live = s.live ∧ ∀ k, s'.mem k = (p.leaves k).getD (s.mem k) :=
  ⟨_, srun_prog p s, rfl, fun _ => rfl⟩

/-- Two guards on location 0, one on 1, writes in between. -/
example : let p : Prog Nat Nat := .scope 0 5 (.write 0 6 (.write 2 9 (.scope 0 7 (.scope 1 8 (.write 0 4 .done) .done) .done))) (.write 3 1 .done)
    [0, 1, 2, 3].map p.leaves = [none, none, some 9, some 1] := by decide
end save

/-! ## C62 -/
section stack
variable {P N : Type} [DecidableEq P] [DecidableEq N]

/-- C62: after any history in which objects are destroyed innermost first on their list, no assertion has failed, each head pointer
points to the innermost live object of its list, and following `prev_` from it visits exactly the live objects, innermost first. -/
theorem C62_stack (os : List (LOp P N)) (hl : LLegalRun os (fun _ => [])) :
    ∃ s, LState.start.run os = .ok s ∧ ∀ p, s.head p = (lspecRun os (fun _ => []) p).head? ∧
      s.walk (lspecRun os (fun _ => []) p).length (s.head p) = some (lspecRun os (fun _ => []) p) := by
  obtain ⟨s, h1, h2⟩ := linv_run os linv_start hl
  exact ⟨s, h1, fun p => ⟨(h2.chain p).head, walk_chain s (h2.chain p)⟩⟩

/-- C62: destroying a live object that is not the innermost of its list trips the assertion. -/
theorem C62_misuse_detected (os : List (LOp P N)) (hl : LLegalRun os (fun _ => [])) (n : N) (p : P)
    (hn : n ∈ lspecRun os (fun _ => []) p) (hh : (lspecRun os (fun _ => []) p).head? ≠ some n) :
    LState.start.run (os ++ [.dtor n]) = .error .assertFail := by
  obtain ⟨s, h1, h2⟩ := linv_run os linv_start hl
  obtain ⟨x, h3, h4⟩ := (h2.chain p).mem hn
  have hap : ∀ (os qs : List (LOp P N)) (s : LState P N), LState.run (os ++ qs) s = (LState.run os s).bind (LState.run qs) := by
    intro os qs
    induction os with
    | nil => intro s; rfl
    | cons o os ih =>
      intro s
      simp only [List.cons_append, LState.run, bind, Except.bind]
      cases h : s.step o with
      | error f => rfl
      | ok s1 => simp only [ih]; rfl
  rw [hap, h1]
  have hne : ¬ s.head x.prevp = some n := by rw [h4, (h2.chain p).head]; exact hh
  simp only [Except.bind, LState.run, LState.step, LState.dtor, h3, bind]
  rw [if_neg hne]

/-- Two lists, interleaved. -/
example : LLegalRun (P := Bool) (N := Nat) [.ctor 1 true, .ctor 2 false, .ctor 3 true, .dtor 2, .dtor 3, .ctor 4 true] (fun _ => []) := by
  refine ⟨by simp [LLegal], by simp [LLegal, lspecStep], by simp [LLegal, lspecStep], ⟨false, rfl⟩, ⟨true, rfl⟩, ?_, trivial⟩
  intro q; cases q <;> decide
example : lspecRun (P := Bool) (N := Nat) [.ctor 1 true, .ctor 2 false, .ctor 3 true, .dtor 2, .dtor 3, .ctor 4 true] (fun _ => []) true = [4, 1] := by
  decide
end stack

/-! ## C63 -/
section guard
variable {G C : Type} [DecidableEq G]

/-- C63: after any history of creation, moves, cancellations and destructions, nothing has faulted (in particular no moved-from callback
was invoked), and the callbacks invoked, in order, are exactly those that belonged to a guard, not cancelled since, when it was destroyed. -/
theorem C63_fires (os : List (GOp G C)) (hl : GLegalRun os GSpec.start) :
    ∃ s, GState.start.run os = .ok s ∧ s.fired = (gspecRun os GSpec.start).ran := by
  obtain ⟨s, h1, h2⟩ := ginv_run os ginv_start hl
  exact ⟨s, h1, h2.log⟩

/-- C63: if the callbacks given to guards are distinct, none is invoked twice, only those given are invoked, and one that some guard
is still responsible for has not been invoked and has only that one owner. -/
theorem C63_at_most_once [DecidableEq C] (os : List (GOp G C)) (hl : GLegalRun os GSpec.start) (hn : (created os).Nodup) :
    ∃ s, GState.start.run os = .ok s ∧ s.fired.Nodup ∧ (∀ c ∈ s.fired, c ∈ created os) ∧
      (∀ g c, s.guards g = some ⟨some c, false⟩ → c ∉ s.fired ∧ ∀ h, s.guards h = some ⟨some c, false⟩ → h = g) := by
  obtain ⟨s, h1, h2⟩ := ginv_run os ginv_start hl
  obtain ⟨seen, h3, h4⟩ := sinv_run os (e := GSpec.start) (seen := []) ⟨List.nodup_nil, by simp [GSpec.start], by simp [GSpec.start], by simp [GSpec.start]⟩ hl hn (by simp)
  have own : ∀ g c, s.guards g = some ⟨some c, false⟩ → (gspecRun os GSpec.start).owns g = some (some c) := by
    intro g c hg
    have := h2.rep g
    rw [hg] at this
    match ho : (gspecRun os GSpec.start).owns g with
    | none => rw [ho] at this; cases this
    | some none => rw [ho] at this; obtain ⟨y, g1, g2⟩ := this; injection g1 with g1; rw [← g1] at g2; cases g2
    | some (some d) => rw [ho] at this; injection this with this; injection this with this; rw [this]
  refine ⟨s, h1, by rw [h2.log]; exact h4.nodup, ?_, ?_⟩
  · intro c hc
    rw [h2.log] at hc
    simpa using (h3 c).1 (h4.ranSeen c hc)
  · intro g c hg
    have h5 := own g c hg
    exact ⟨by rw [h2.log]; exact (h4.ownSeen g c h5).2, fun h hh => h4.inj _ _ _ (own h c hh) h5⟩

/-- C63: if the callbacks are distinct, no guard was cancelled and all guards are gone, every callback was invoked exactly once. -/
theorem C63_exactly_once [DecidableEq C] (os : List (GOp G C)) (hl : GLegalRun os GSpec.start) (hn : (created os).Nodup)
    (hc : ∀ g, GOp.cancel g ∉ os) (s : GState G C) (hr : GState.start.run os = .ok s) (hg : ∀ g, s.guards g = none) :
    ∀ c, s.fired.count c = if c ∈ created os then 1 else 0 := by
  obtain ⟨s', h1, h2⟩ := ginv_run os ginv_start hl
  rw [hr] at h1; injection h1 with h1; subst h1
  obtain ⟨s', h1, h3, h4, -⟩ := C63_at_most_once os hl hn
  rw [hr] at h1; injection h1 with h1; subst h1
  intro c
  rw [h3.count]
  have : c ∈ s.fired ↔ c ∈ created os := by
    refine ⟨h4 c, fun h => ?_⟩
    rcases kept_run os hl hc c (.inl h) with h5 | ⟨g, h5⟩
    · rw [h2.log]; exact h5
    · have := h2.rep g
      rw [h5, hg g] at this
      cases this
  simp only [this]

/-- C63: a callback whose guard was cancelled is not invoked by destroying that guard or the one it was moved to. -/
theorem C63_cancelled (s : GState G C) (g h : G) (x : SG C) (hx : s.guards g = some x) (hne : h ≠ g) :
    ∃ s', s.run [.cancel g, .move h g, .destroy h, .destroy g] = .ok s' ∧ s'.fired = s.fired := by
  have hne' : g ≠ h := fun e => hne e.symm
  simp [GState.run, GState.step, GState.set, hx, hne, hne', bind, Except.bind]

/-- Create, move twice, cancel one, destroy all. -/
def gsample : List (GOp Nat Nat) :=
  [.create 0 10, .create 1 11, .move 2 0, .move 3 2, .cancel 1, .destroy 0, .destroy 3, .destroy 2, .destroy 1]

example : (gspecRun gsample GSpec.start).ran = [10] ∧ (created gsample).Nodup := by decide
example : GLegalRun gsample GSpec.start := by
  simp [gsample, GLegalRun, GLegal, gspecStep, gset, GSpec.start]
end guard

end Verif.Raii
