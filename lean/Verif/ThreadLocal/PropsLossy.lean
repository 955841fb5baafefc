import Verif.ThreadLocal.SpecLossy
import Verif.ThreadLocal.PropsExtra
/-!
# C136: what is assigned to a ThreadLocal is stored, or the program is aborted
-/
namespace Verif.ThreadLocal
open Verif

set_option linter.unusedSimpArgs false
set_option linter.unusedSectionVars false

variable {T A : Type} [DecidableEq T]

/-- C136 in full, for a single thread (no race is involved): whatever the system refuses, a run that is not aborted has every `get` return what was last set. -/
def StoredOrAborted : Prop :=
  ∀ (create : Nat → Bool) (as : List (LAct Unit Nat)) (s : LState Unit Nat), lrun create 0 as (LState.start 0) = .ok s →
    Isolated 0 (s.calls.map Prod.fst)

/-- C136 is false of the code: the system has no memory for the value 5 in `set`, which returns all the same; `get` gives 0. -/
theorem C136_stored_refuted : ¬ StoredOrAborted := by
  intro h
  have h1 : ∃ s, lrun (fun _ => true) 0 [.act (.begin () (.set 5)), .act (.cont ()), .act (.cont ()), .noMemory (), .act (.begin () .get), .act (.cont ())]
      (LState.start 0 : LState Unit Nat) = .ok s ∧ s.calls = [(.got () 0, false), (.didSet () 5, true)] := ⟨_, rfl, rfl⟩
  obtain ⟨s, h2, h3⟩ := h1
  have := h _ _ _ h2
  rw [h3] at this
  exact absurd this.1 (by decide)

/-- The state's own log holds the calls that were not lost. -/
structure LInv (dflt : A) (s : LState T A) : Prop where
  inv : Inv dflt s.st
  log : s.st.log = (s.calls.filter (fun e => !e.2)).map Prod.fst
  lost : ∀ e ∈ s.calls, e.2 = true → ∃ t a, e.1 = .didSet t a

theorem lastKept_eq (dflt : A) (t : T) (cs : List (Event T A × Bool)) :
    lastKept dflt t cs = lastSet dflt t ((cs.filter (fun e => !e.2)).map Prod.fst) := by
  induction cs with
  | nil => rfl
  | cons e cs ih =>
    obtain ⟨e, b⟩ := e
    cases e <;> cases b <;> simp [lastKept, lastSet, ih]

theorem isolatedKept_iff (dflt : A) (cs : List (Event T A × Bool)) (h : ∀ e ∈ cs, e.2 = true → ∃ t a, e.1 = .didSet t a) :
    IsolatedKept dflt cs ↔ Isolated dflt ((cs.filter (fun e => !e.2)).map Prod.fst) := by
  induction cs with
  | nil => exact Iff.rfl
  | cons e cs ih =>
    have ih := ih (fun e he => h e (List.mem_cons_of_mem _ he))
    have h0 := h e (by simp)
    obtain ⟨e, b⟩ := e
    cases b with
    | true =>
      obtain ⟨t, a, he⟩ := h0 rfl
      simp only at he; subst he
      simpa [IsolatedKept, Isolated] using ih
    | false => cases e <;> simp [IsolatedKept, Isolated, ih, lastKept_eq]

/-- A step adds to the log, at its head. -/
theorem step_log {create : Nat → Bool} {dflt : A} {s s' : State T A} (a : Act T A) (h : step create dflt s a = .ok s') :
    s'.log = completed s s' ++ s.log := by
  have key : ∀ evs : List (Event T A), s'.log = evs ++ s.log → s'.log = completed s s' ++ s.log := by
    intro evs he
    have : completed s s' = evs := by simp [completed, he]
    rw [this, he]
  have hck : (s.createKey create dflt).2.log = s.log := by
    unfold State.createKey; split <;> rfl
  cases a with
  | begin t o =>
    simp only [step] at h; injection h with h
    unfold State.begin at h
    cases hp : s.pc t <;> rw [hp] at h <;> simp only at h <;> try exact key [] (by rw [← h]; rfl)
    cases o with
    | get => simp only at h; split at h
             · exact key [.got t dflt] (by rw [← h]; rfl)
             · exact key [] (by rw [← h]; rfl)
    | set a => simp only at h; split at h <;> exact key [] (by rw [← h]; rfl)
    | allocate => simp only at h; split at h
                  · exact key [.allocated t true] (by rw [← h]; rfl)
                  · exact key [] (by rw [← h]; rfl)
  | cont t =>
    simp only [step] at h
    unfold State.cont at h
    cases hp : s.pc t with
    | idle => rw [hp] at h; injection h with h; exact key [] (by rw [← h]; rfl)
    | getUse => rw [hp] at h; simp only at h; split at h <;> cases h; exact key [_] rfl
    | setCas a => rw [hp] at h; simp only at h; split at h <;> cases h <;> exact key [] rfl
    | setCreate a =>
      rw [hp] at h; simp only at h; split at h
      · rename_i s1 e; cases h; rw [e] at hck; exact key [] (by simpa [State.goto] using hck)
      · cases h
    | setUse a => rw [hp] at h; simp only at h; split at h <;> cases h; exact key [_] rfl
    | allocCreate =>
      rw [hp] at h; simp only at h; injection h with h
      exact key [.allocated t (s.createKey create dflt).1] (by rw [← h]; simp [State.done, State.goto, hck])

theorem linv_step {create : Nat → Bool} {dflt : A} {s s' : LState T A} (hi : LInv dflt s) (a : LAct T A) (h : lstep create dflt s a = .ok s') : LInv dflt s' := by
  cases a with
  | act a =>
    simp only [lstep, bind, Except.bind] at h
    cases h1 : step create dflt s.st a with
    | error f => rw [h1] at h; cases h
    | ok st =>
      rw [h1] at h; cases h
      refine ⟨inv_step hi.inv a h1, ?_, ?_⟩
      · simp only [step_log a h1, hi.log, List.filter_append, List.map_append]
        congr 1
        rw [List.filter_eq_self.2 (by simp), List.map_map]
        exact (List.map_id _).symm
      · intro e he hb
        rcases List.mem_append.1 he with h2 | h2
        · obtain ⟨x, -, rfl⟩ := List.mem_map.1 h2; cases hb
        · exact hi.lost e h2 hb
  | noMemory t =>
    simp only [lstep] at h
    split at h
    · split at h
      · cases h
      · cases h
        refine ⟨inv_goto hi.inv t .idle rfl (fun _ => rfl), ?_, ?_⟩
        · simp [State.goto, hi.log]
        · intro e he hb
          rcases List.mem_cons.1 he with rfl | h2
          · exact ⟨_, _, rfl⟩
          · exact hi.lost e h2 hb
    · cases h; exact hi

theorem linv_run {create : Nat → Bool} {dflt : A} (as : List (LAct T A)) {s s' : LState T A} (hi : LInv dflt s) (h : lrun create dflt as s = .ok s') : LInv dflt s' := by
  induction as generalizing s with
  | nil => cases h; exact hi
  | cons a as ih =>
    simp only [lrun, bind, Except.bind] at h
    cases h1 : lstep create dflt s a with
    | error f => rw [h1] at h; cases h
    | ok s1 => rw [h1] at h; exact ih (linv_step hi a h1) h

theorem linv_start (dflt : A) : LInv dflt (LState.start dflt : LState T A) := ⟨inv_start dflt, rfl, by simp [LState.start]⟩

/-- C136, what holds for all threads, interleavings and failures (missing: that a value the system could not store is not forgotten silently): as long as nothing faults,
every `get` returned the value its own thread last set and the system kept, and only calls of `set` are ever lost. -/
theorem C136_kept_partial (create : Nat → Bool) (dflt : A) (as : List (LAct T A)) (s : LState T A) (h : lrun create dflt as (LState.start dflt) = .ok s) :
    IsolatedKept dflt s.calls ∧ ∀ e ∈ s.calls, e.2 = true → ∃ t a, e.1 = .didSet t a := by
  have hi := linv_run as (linv_start dflt) h
  exact ⟨(isolatedKept_iff dflt _ hi.lost).2 (hi.log ▸ hi.inv.isolated), hi.lost⟩

/-- C136: when the system always has memory for values, every `get` returned what its own thread last set. -/
theorem C136_memory (create : Nat → Bool) (dflt : A) (as : List (LAct T A)) (s : LState T A) (hm : ∀ t, LAct.noMemory t ∉ as)
    (h : lrun create dflt as (LState.start dflt) = .ok s) : Isolated dflt (s.calls.map Prod.fst) := by
  have key : ∀ (as : List (LAct T A)) (s s' : LState T A), (∀ t, LAct.noMemory t ∉ as) → (∀ e ∈ s.calls, e.2 = false) → lrun create dflt as s = .ok s' →
      ∀ e ∈ s'.calls, e.2 = false := by
    intro as
    induction as with
    | nil => intro s s' _ hs h; cases h; exact hs
    | cons a as ih =>
      intro s s' hm hs h
      simp only [lrun, bind, Except.bind] at h
      cases h1 : lstep create dflt s a with
      | error f => rw [h1] at h; cases h
      | ok s1 =>
        rw [h1] at h
        refine ih s1 s' (fun t ht => hm t (List.mem_cons_of_mem _ ht)) ?_ h
        cases a with
        | noMemory t => exact (hm t (by simp)).elim
        | act a =>
          simp only [lstep, bind, Except.bind] at h1
          cases h2 : step create dflt s.st a with
          | error f => rw [h2] at h1; cases h1
          | ok st =>
            rw [h2] at h1; cases h1
            intro e he
            rcases List.mem_append.1 he with h3 | h3
            · obtain ⟨x, -, rfl⟩ := List.mem_map.1 h3; rfl
            · exact hs e h3
  have hall := key as _ _ hm (by simp [LState.start]) h
  have hi := linv_run as (linv_start dflt) h
  have hf : s.calls.filter (fun e => !e.2) = s.calls := List.filter_eq_self.2 (fun e he => by rw [hall e he]; rfl)
  have := hi.inv.isolated
  rw [hi.log, hf] at this
  exact this

/-- On Windows no thread is ever in `allocate` by itself, and a refused key ends the program. -/
def WinInv (create : Nat → Bool) (s : State T A) : Prop := Keyed create s ∧ (∀ t, s.pc t ≠ .allocCreate) ∧ (s.attempts = 1 → create 0 = true)

theorem win_step {create : Nat → Bool} {dflt : A} {s s' : LState T A} (hi : LInv dflt s) (hw : WinInv create s.st) (a : LAct T A) (ha : a.windows = true)
    (h : lstep create dflt s a = .ok s') : WinInv create s'.st := by
  obtain ⟨hk, hn, hc⟩ := hw
  have pcs : ∀ (r : State T A) (t : T) (p : Pc A), p ≠ .allocCreate → (∀ u, r.pc u = if u = t then p else s.st.pc u) → ∀ u, r.pc u ≠ .allocCreate := by
    intro r t p hp hr u
    rw [hr u]; split
    · exact hp
    · exact hn u
  cases a with
  | noMemory t =>
    simp only [lstep] at h
    split at h
    · rename_i a hp
      split at h
      · cases h
      · cases h
        exact ⟨keyed_goto hk t .idle (by rw [hp]; rfl) rfl, pcs _ t .idle (by simp) (fun u => rfl), hc⟩
    · cases h; exact ⟨hk, hn, hc⟩
  | act a =>
    simp only [lstep, bind, Except.bind] at h
    cases h1 : step create dflt s.st a with
    | error f => rw [h1] at h; cases h
    | ok st =>
      rw [h1] at h; cases h
      refine ⟨keyed_step hi.inv hk a h1, ?_⟩
      show (∀ t, st.pc t ≠ .allocCreate) ∧ (st.attempts = 1 → create 0 = true)
      cases a with
      | begin t o =>
        simp only [step] at h1; injection h1 with h1; subst h1
        unfold State.begin
        cases hp : s.st.pc t <;> simp only <;> try exact ⟨hn, hc⟩
        cases o with
        | get => simp only; split
                 · exact ⟨pcs _ t .idle (by simp) (fun u => rfl), hc⟩
                 · exact ⟨pcs _ t .getUse (by simp) (fun u => rfl), hc⟩
        | set a => simp only; split
                   · exact ⟨pcs _ t (.setCas a) (by simp) (fun u => rfl), hc⟩
                   · exact ⟨pcs _ t (.setUse a) (by simp) (fun u => rfl), hc⟩
        | allocate => cases ha
      | cont t =>
        simp only [step] at h1
        unfold State.cont at h1
        cases hp : s.st.pc t with
        | idle => rw [hp] at h1; injection h1 with h1; subst h1; exact ⟨hn, hc⟩
        | getUse => rw [hp] at h1; simp only at h1; split at h1 <;> cases h1; exact ⟨pcs _ t .idle (by simp) (fun u => rfl), hc⟩
        | setCas a =>
          rw [hp] at h1; simp only at h1
          split at h1 <;> cases h1
          · exact ⟨pcs _ t (.setUse a) (by simp) (fun u => rfl), hc⟩
          · exact ⟨pcs _ t (.setCreate a) (by simp) (fun u => rfl), hc⟩
        | setCreate a =>
          rw [hp] at h1; simp only at h1
          rcases hk with ⟨g1, -⟩ | ⟨-, -, g3, -⟩
          · unfold State.createKey at h1
            rw [g1] at h1
            cases h0 : create 0 with
            | true =>
              simp only [h0, if_true] at h1; cases h1
              exact ⟨pcs _ t (.setUse a) (by simp) (fun u => rfl), fun _ => rfl⟩
            | false => simp only [h0, Bool.false_eq_true, if_false] at h1; cases h1
          · have := g3 t; rw [hp] at this; cases this
        | setUse a => rw [hp] at h1; simp only at h1; split at h1 <;> cases h1; exact ⟨pcs _ t .idle (by simp) (fun u => rfl), hc⟩
        | allocCreate => exact (hn t hp).elim

theorem win_run {create : Nat → Bool} {dflt : A} (as : List (LAct T A)) {s s' : LState T A} (hi : LInv dflt s) (hw : WinInv create s.st)
    (ha : ∀ a ∈ as, a.windows = true) (h : lrun create dflt as s = .ok s') : WinInv create s'.st := by
  induction as generalizing s with
  | nil => cases h; exact hw
  | cons a as ih =>
    simp only [lrun, bind, Except.bind] at h
    cases h1 : lstep create dflt s a with
    | error f => rw [h1] at h; cases h
    | ok s1 => rw [h1] at h; exact ih (linv_step hi a h1) (win_step hi hw a (ha a (by simp)) h1) (fun b hb => ha b (List.mem_cons_of_mem _ hb)) h

/-- C136, on Windows, where `allocate` cannot be called: in every run that is not aborted, however the system refuses keys and memory, an object that is claimed and that
no thread is just setting up has a key, and the destructor gives back exactly the keys obtained. (On POSIX both fail after a refused `allocate()`: C67, C101.) -/
theorem C136_windows (create : Nat → Bool) (dflt : A) (as : List (LAct T A)) (hw : ∀ t, LAct.act (.begin t .allocate) ∉ as) (s : LState T A)
    (h : lrun create dflt as (LState.start dflt) = .ok s) :
    (s.st.allocated = true → (∃ k, s.st.key = some k) ∨ ∃ u x, s.st.pc u = .setCreate x) ∧
    ((∀ t, s.st.pc t = .idle) → ∃ k, s.st.destroy = .ok k ∧ k.toList = List.range s.st.nextKey) := by
  have hw : ∀ a ∈ as, a.windows = true := by
    intro a ha
    unfold LAct.windows
    split
    · exact (hw _ ha).elim
    · rfl
  obtain ⟨hk, hn, hc⟩ := win_run as (linv_start dflt) ⟨keyed_start create dflt, fun t => by simp [LState.start, State.start], fun h => by cases h⟩ hw h
  rcases hk with ⟨h1, h2, h3, h4⟩ | ⟨h1, h2, h3, h4⟩
  · have hcr : s.st.allocated = true → ∃ u x, s.st.pc u = .setCreate x := by
      intro ha
      obtain ⟨u, hu⟩ := h4 ha
      refine ⟨u, ?_⟩
      cases hp : s.st.pc u with
      | setCreate x => exact ⟨x, rfl⟩
      | allocCreate => exact (hn u hp).elim
      | _ => rw [hp] at hu; cases hu
    refine ⟨fun ha => .inr (hcr ha), fun hp => ?_⟩
    have ha : s.st.allocated = false := by
      cases ha : s.st.allocated with
      | false => rfl
      | true => obtain ⟨u, x, hu⟩ := hcr ha; rw [hp u] at hu; cases hu
    exact ⟨none, by simp [State.destroy, ha], by rw [h2]; rfl⟩
  · rcases h4 with ⟨-, h5, h6⟩ | ⟨h5, -⟩
    · exact ⟨fun _ => .inl ⟨0, h5⟩, fun _ => ⟨some 0, by simp [State.destroy, h2, h5], by rw [h6]; rfl⟩⟩
    · rw [hc h1] at h5; cases h5

/-- Two threads; the second one's first value is lost, a later one is not. -/
example : ∃ s, lrun (fun _ => true) 0 [.act (.begin 0 (.set 5)), .act (.cont 0), .act (.cont 0), .act (.cont 0), .act (.begin 1 (.set 6)), .noMemory 1, .act (.begin 1 .get), .act (.cont 1),
      .act (.begin 1 (.set 7)), .act (.cont 1), .act (.begin 1 .get), .act (.cont 1), .act (.begin 0 .get), .act (.cont 0)] (LState.start 0 : LState (Fin 2) Nat) = .ok s ∧
    s.calls = [(.got 0 5, false), (.got 1 7, false), (.didSet 1 7, false), (.got 1 0, false), (.didSet 1 6, true), (.didSet 0 5, false)] ∧ (∀ t, s.st.pc t = .idle) ∧
    s.st.destroy = .ok (some 0) := by
  refine ⟨_, rfl, rfl, ?_, rfl⟩
  intro t
  match t with
  | 0 => rfl
  | 1 => rfl

end Verif.ThreadLocal
