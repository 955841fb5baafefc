import Verif.ThreadLocal.Spec
/-!
# Lemmas about `ke::ThreadLocal`
-/
namespace Verif.ThreadLocal
open Verif

set_option linter.unusedSimpArgs false

variable {T A : Type} [DecidableEq T]

def Pc.creating : Pc A → Bool
  | .setCreate _ => true
  | .allocCreate => true
  | _ => false

def Pc.using : Pc A → Bool
  | .getUse => true
  | .setUse _ => true
  | _ => false

structure Inv (dflt : A) (s : State T A) : Prop where
  isolated : Isolated dflt s.log
  /-- the table holds what each thread last set -/
  values : ∀ t, (match s.key with | some k => s.tls k t | none => dflt) = lastSet dflt t s.log
  fresh : s.allocated = false → s.key = none ∧ ∀ t, (s.pc t).creating = false ∧ (s.pc t).using = false
  creating : ∀ t, (s.pc t).creating = true → s.allocated = true ∧ s.key = none ∧ ∀ u, (s.pc u).creating = true → u = t

theorem inv_start (dflt : A) : Inv dflt (State.start dflt : State T A) :=
  ⟨trivial, fun _ => rfl, fun _ => ⟨rfl, fun _ => ⟨rfl, rfl⟩⟩, fun t h => by simp [State.start, Pc.creating] at h⟩

/-- A thread moves to a point that neither creates nor (unless allocated) uses the key. -/
theorem inv_goto {dflt : A} {s : State T A} (hi : Inv dflt s) (t : T) (p : Pc A) (h1 : p.creating = false)
    (h2 : s.allocated = false → p.using = false) : Inv dflt (s.goto t p) := by
  refine ⟨hi.isolated, hi.values, ?_, ?_⟩
  · intro h
    refine ⟨(hi.fresh h).1, fun u => ?_⟩
    simp only [State.goto]
    split
    · exact ⟨h1, h2 h⟩
    · exact (hi.fresh h).2 u
  · intro u hu
    simp only [State.goto] at hu
    split at hu
    · rw [h1] at hu; cases hu
    · obtain ⟨g1, g2, g3⟩ := hi.creating u hu
      refine ⟨g1, g2, fun v hv => ?_⟩
      simp only [State.goto] at hv
      split at hv
      · rw [h1] at hv; cases hv
      · exact g3 v hv

/-- A call completes without having set anything. -/
theorem inv_done {dflt : A} {s : State T A} (hi : Inv dflt s) (t : T) (ev : Event T A)
    (hl : ∀ u, lastSet dflt u (ev :: s.log) = lastSet dflt u s.log) (hs : Isolated dflt (ev :: s.log)) : Inv dflt (s.done t ev) := by
  have := inv_goto hi t .idle rfl (fun _ => rfl)
  exact ⟨hs, fun u => by rw [show (s.done t ev).log = ev :: s.log from rfl, hl u]; exact hi.values u, this.fresh, this.creating⟩

theorem inv_done' {dflt : A} {s : State T A} (t : T) (b : Bool) (hi : Inv dflt (s.goto t .idle)) : Inv dflt (s.done t (.allocated t b)) :=
  ⟨hi.isolated, hi.values, hi.fresh, hi.creating⟩

/-- A thread wins the compare-and-swap. -/
theorem inv_claim {dflt : A} {s : State T A} (hi : Inv dflt s) (t : T) (p : Pc A) (ha : s.allocated = false) :
    Inv dflt (({ s with allocated := true }).goto t p) := by
  obtain ⟨hk, hp⟩ := hi.fresh ha
  refine ⟨hi.isolated, hi.values, fun h => by simp [State.goto] at h, ?_⟩
  intro u hu
  simp only [State.goto] at hu ⊢
  split at hu
  · rename_i hut
    refine ⟨trivial, hk, fun v hv => ?_⟩
    split at hv
    · rename_i hvt; rw [hvt, hut]
    · rw [(hp v).1] at hv; cases hv
  · rw [(hp u).1] at hu; cases hu

theorem inv_create {create : Nat → Bool} {dflt : A} {s : State T A} (hi : Inv dflt s) (t : T) (ht : (s.pc t).creating = true) :
    (∃ s1, s.createKey create dflt = (true, s1) ∧ s1.log = s.log ∧ (∃ k, s1.key = some k) ∧
      ∀ p : Pc A, p.creating = false → Inv dflt (s1.goto t p)) ∨
    (∃ s1, s.createKey create dflt = (false, s1) ∧ s1.log = s.log ∧ s1.key = none ∧ s1.allocated = true ∧ create s.attempts = false ∧
      ∀ p : Pc A, p.creating = false → Inv dflt (s1.goto t p)) := by
  obtain ⟨ha, hk, hu⟩ := hi.creating t ht
  have hvals : ∀ u, dflt = lastSet dflt u s.log := by
    intro u; have := hi.values u; rw [hk] at this; exact this
  unfold State.createKey
  by_cases hc : create s.attempts = true
  · left
    refine ⟨{ s with key := some s.nextKey, nextKey := s.nextKey + 1, attempts := s.attempts + 1, tls := fun k t => if k = s.nextKey then dflt else s.tls k t },
      by simp only [hc, if_true], rfl, ⟨_, rfl⟩, fun p hp => ?_⟩
    refine ⟨hi.isolated, fun u => ?_, fun h => ?_, fun u h => ?_⟩
    · simp only [State.goto, if_true]; exact hvals u
    · simp only [State.goto] at h; rw [ha] at h; cases h
    · simp only [State.goto] at h
      split at h
      · rw [hp] at h; cases h
      · rename_i hne; exact (hne (hu u h)).elim
  · right
    have hc' : create s.attempts = false := by simpa using hc
    refine ⟨{ s with attempts := s.attempts + 1 }, by simp only [hc', Bool.false_eq_true, if_false], rfl, hk, ha, hc', fun p hp => ?_⟩
    refine ⟨hi.isolated, hi.values, fun h => ?_, fun u h => ?_⟩
    · simp only [State.goto] at h; rw [ha] at h; cases h
    · simp only [State.goto] at h
      split at h
      · rw [hp] at h; cases h
      · rename_i hne; exact (hne (hu u h)).elim

theorem inv_begin {dflt : A} {s : State T A} (hi : Inv dflt s) (t : T) (o : Op A) : Inv dflt (s.begin dflt t o) := by
  unfold State.begin
  cases hp : s.pc t <;> simp only <;> try exact hi
  cases o with
  | get =>
    cases ha : s.allocated with
    | false =>
      simp only [Bool.not_false, if_true]
      refine inv_done hi t _ (fun u => rfl) ⟨?_, hi.isolated⟩
      have := hi.values t
      rw [(hi.fresh ha).1] at this; exact this
    | true => simp only [Bool.not_true, Bool.false_eq_true, if_false]; exact inv_goto hi t _ rfl (fun h => by rw [ha] at h; cases h)
  | set a =>
    cases ha : s.allocated with
    | false => simp only [Bool.not_false, if_true]; exact inv_goto hi t _ rfl (fun _ => rfl)
    | true => simp only [Bool.not_true, Bool.false_eq_true, if_false]; exact inv_goto hi t _ rfl (fun h => by rw [ha] at h; cases h)
  | allocate =>
    cases ha : s.allocated with
    | false => simp only [Bool.false_eq_true, if_false]; exact inv_claim hi t _ ha
    | true => simp only [if_true]; exact inv_done hi t _ (fun u => rfl) hi.isolated

theorem inv_cont {create : Nat → Bool} {dflt : A} {s s' : State T A} (hi : Inv dflt s) (t : T) (h : s.cont create dflt t = .ok s') :
    Inv dflt s' := by
  unfold State.cont at h
  cases hp : s.pc t with
  | idle => rw [hp] at h; injection h with h; rw [← h]; exact hi
  | getUse =>
    rw [hp] at h
    cases hk : s.key with
    | none => simp only [hk] at h; cases h
    | some k =>
      simp only [hk] at h
      injection h with h
      rw [← h]
      refine inv_done hi t _ (fun u => rfl) ⟨?_, hi.isolated⟩
      have := hi.values t
      rw [hk] at this; exact this
  | setCas a =>
    rw [hp] at h
    cases ha : s.allocated with
    | false => simp only [ha, Bool.false_eq_true, if_false] at h; injection h with h; rw [← h]; exact inv_claim hi t _ ha
    | true => simp only [ha, if_true] at h; injection h with h; rw [← h]; exact inv_goto hi t _ rfl (fun h => by rw [ha] at h; cases h)
  | setCreate a =>
    rw [hp] at h
    rcases inv_create (create := create) hi t (by rw [hp]; rfl) with ⟨s1, h1, -, -, h4⟩ | ⟨s1, h1, -⟩
    · simp only [h1] at h
      injection h with h
      rw [← h]; exact h4 _ rfl
    · simp only [h1] at h; cases h
  | setUse a =>
    rw [hp] at h
    cases hk : s.key with
    | none => simp only [hk] at h; cases h
    | some k =>
      simp only [hk] at h
      injection h with h
      rw [← h]
      have hg := inv_goto hi t .idle rfl (fun _ => rfl)
      refine ⟨hi.isolated, fun u => ?_, fun ha => ?_, hg.creating⟩
      · simp only [State.done, State.goto, hk, lastSet]
        by_cases hu : t = u
        · subst hu; simp
        · have hu' : ¬ u = t := fun e => hu e.symm
          simp only [hu, hu', and_false, if_false]
          have := hi.values u
          rw [hk] at this; exact this
      · exact hg.fresh ha
  | allocCreate =>
    rw [hp] at h
    rcases inv_create (create := create) hi t (by rw [hp]; rfl) with ⟨s1, h1, hl, -, h4⟩ | ⟨s1, h1, hl, -, -, -, h4⟩ <;>
    · simp only [h1] at h
      injection h with h
      rw [← h]
      exact inv_done' t _ (h4 .idle rfl)

theorem inv_step {create : Nat → Bool} {dflt : A} {s s' : State T A} (hi : Inv dflt s) (a : Act T A) (h : step create dflt s a = .ok s') : Inv dflt s' := by
  cases a with
  | begin t o => simp only [step] at h; injection h with h; rw [← h]; exact inv_begin hi t o
  | cont t => exact inv_cont hi t h

theorem inv_run {create : Nat → Bool} {dflt : A} (as : List (Act T A)) {s s' : State T A} (hi : Inv dflt s) (h : run create dflt as s = .ok s') :
    Inv dflt s' := by
  induction as generalizing s with
  | nil => simp only [run] at h; injection h with h; rw [← h]; exact hi
  | cons a as ih =>
    simp only [run, bind, Except.bind] at h
    cases h1 : step create dflt s a with
    | error f => rw [h1] at h; cases h
    | ok s1 => rw [h1] at h; exact ih (inv_step hi a h1) h

/-- Once the key exists nothing goes wrong. -/
def Ready (s : State T A) : Prop := s.allocated = true ∧ (∃ k, s.key = some k) ∧ ∀ t, (s.pc t).creating = false

theorem ready_step {create : Nat → Bool} {dflt : A} {s : State T A} (hr : Ready s) (a : Act T A) : ∃ s', step create dflt s a = .ok s' ∧ Ready s' := by
  obtain ⟨ha, ⟨k, hk⟩, hc⟩ := hr
  have hgoto : ∀ (t : T) (p : Pc A), p.creating = false → Ready (s.goto t p) := by
    intro t p hp
    refine ⟨ha, ⟨k, hk⟩, fun u => ?_⟩
    simp only [State.goto]; split
    · exact hp
    · exact hc u
  cases a with
  | begin t o =>
    refine ⟨s.begin dflt t o, rfl, ?_⟩
    unfold State.begin
    cases hp : s.pc t <;> simp only <;> try exact ⟨ha, ⟨k, hk⟩, hc⟩
    cases o with
    | get => simp only [ha, Bool.not_true, Bool.false_eq_true, if_false]; exact hgoto t _ rfl
    | set a => simp only [ha, Bool.not_true, Bool.false_eq_true, if_false]; exact hgoto t _ rfl
    | allocate => simp only [ha, if_true]; exact hgoto t .idle rfl
  | cont t =>
    simp only [step]
    unfold State.cont
    cases hp : s.pc t with
    | idle => exact ⟨s, rfl, ha, ⟨k, hk⟩, hc⟩
    | getUse => simp only [hk]; exact ⟨_, rfl, hgoto t .idle rfl⟩
    | setCas a => simp only [ha, if_true]; exact ⟨_, rfl, hgoto t _ rfl⟩
    | setCreate a => have := hc t; rw [hp] at this; cases this
    | setUse a =>
      simp only [hk]
      refine ⟨_, rfl, ?_⟩
      have := hgoto t .idle rfl
      refine ⟨this.1, ⟨k, ?_⟩, this.2.2⟩
      exact hk
    | allocCreate => have := hc t; rw [hp] at this; cases this

theorem ready_run {create : Nat → Bool} {dflt : A} (as : List (Act T A)) {s : State T A} (hr : Ready s) : ∃ s', run create dflt as s = .ok s' ∧ Ready s' := by
  induction as generalizing s with
  | nil => exact ⟨s, rfl, hr⟩
  | cons a as ih =>
    obtain ⟨s1, h1, h2⟩ := ready_step (create := create) (dflt := dflt) hr a
    obtain ⟨s2, h3, h4⟩ := ih h2
    exact ⟨s2, by simp only [run, h1, bind, Except.bind]; exact h3, h4⟩

theorem run_append (create : Nat → Bool) (dflt : A) (as bs : List (Act T A)) (s : State T A) :
    run create dflt (as ++ bs) s = (run create dflt as s).bind (run create dflt bs) := by
  induction as generalizing s with
  | nil => rfl
  | cons a as ih =>
    simp only [List.cons_append, run, bind, Except.bind]
    cases step create dflt s a with
    | error f => rfl
    | ok s1 => simp only [ih]; rfl

end Verif.ThreadLocal
