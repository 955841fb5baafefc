import Verif.AtomicRef.SpecProgress
/-!
# C134: calls on an `AtomicRef` keep completing
-/
namespace Verif.AtomicRef
open Verif

set_option linter.unusedSectionVars false
set_option linter.unusedSimpArgs false

variable {T : Type} [DecidableEq T]

theorem inv_infinite {s : Nat → State T} {a : Nat → Act T} (h : Infinite s a) : ∀ i, Inv (s i)
  | 0 => inv_reachable h.start
  | i + 1 => by
    obtain ⟨s', e, hi⟩ := inv_step (inv_infinite h i) (h.next i).1 (h.next i).2
    injection e with e; rw [e]; exact hi

/-- A step is either the thread's own next step or leaves it where it is if it is inside a call. -/
theorem own_or_same {s s' : State T} {act : Act T} (h : step s act = some (.ok s')) {t : T} (hp : s.pc t ≠ .idle) :
    act.moves t ∨ s'.pc t = s.pc t := by
  have key : ∀ (x : State T) (u : T) (p : PC), x.pc = s.pc → u ≠ t → (setPc x u p).pc t = s.pc t := by
    intro x u p hx hu; simp [setPc, Ne.symm hu, hx]
  have ne : ∀ u, s.pc u = .idle → u ≠ t := by rintro u hu rfl; exact hp hu
  cases act with
  | make u n =>
    simp only [step] at h
    split at h
    rotate_left; · cases h
    injection h with h
    simp only [make] at h
    repeat' split at h
    all_goals cases h
    all_goals exact .inr rfl
  | destroy u =>
    simp only [step] at h
    split at h
    rotate_left; · cases h
    rename_i hc
    injection h with h
    simp only [destroy] at h
    repeat' split at h
    all_goals cases h
    · exact .inr rfl
    · exact .inr (key _ _ _ rfl (ne u hc.1))
  | get u => simp only [step] at h; split at h <;> cases h; rename_i hc; exact .inr (key _ _ _ rfl (ne u hc.1))
  | set u n => simp only [step] at h; split at h <;> cases h; rename_i hc; exact .inr (key _ _ _ rfl (ne u hc.1))
  | release u b => simp only [step] at h; split at h <;> cases h; rename_i hc; exact .inr (key _ _ _ rfl (ne u hc.1))
  | addRef u b =>
    simp only [step] at h; split at h
    rotate_left; · cases h
    injection h with h
    simp only [incr] at h; split at h <;> cases h
    exact .inr rfl
  | use u b =>
    simp only [step] at h; split at h
    rotate_left; · cases h
    injection h with h
    split at h <;> cases h
    exact .inr rfl
  | send u w b => simp only [step] at h; split at h <;> cases h; exact .inr rfl
  | create u b => simp only [step] at h; split at h <;> cases h; exact .inr rfl
  | stale u w =>
    by_cases hu : u = t
    · exact .inl hu
    · simp only [step] at h
      refine .inr ?_
      cases hpu : s.pc u <;> rw [hpu] at h <;> simp only [stale] at h <;> try cases h
      · exact key _ _ _ rfl hu
      · split at h <;> cases h; exact key _ _ _ rfl hu
  | cont u =>
    by_cases hu : u = t
    · exact .inl hu
    · simp only [step] at h
      refine .inr ?_
      cases hpu : s.pc u with
      | idle => rw [hpu] at h; cases h
      | load j => rw [hpu] at h; cases h; exact key _ _ _ rfl hu
      | cas j old =>
        rw [hpu] at h; simp only [cont, Option.some.injEq] at h
        split at h <;> cases h <;> exact key _ _ _ rfl hu
      | add j v =>
        rw [hpu] at h; simp only [cont, Option.some.injEq] at h
        split at h
        · cases h; exact key _ _ _ rfl hu
        · simp only [incr] at h; split at h <;> cases h; exact key _ _ _ rfl hu
      | chk1 j v => rw [hpu] at h; cases h; exact key _ _ _ rfl hu
      | chk2 j v w =>
        rw [hpu] at h; simp only [cont, Option.some.injEq] at h
        split at h; cases h
        split at h <;> cases h; exact key _ _ _ rfl hu
      | store j v =>
        rw [hpu] at h
        cases j with
        | get => cases h; exact key _ _ _ rfl hu
        | set n =>
          simp only [cont, Option.some.injEq, Except.ok.injEq] at h
          split at h <;> subst h <;> exact key _ _ _ rfl hu
      | rel b => rw [hpu] at h; simp only [cont, Option.some.injEq] at h; split at h <;> cases h; exact key _ _ _ rfl hu
      | relCheck b =>
        rw [hpu] at h; simp only [cont, Option.some.injEq] at h
        split at h; cases h
        split at h <;> cases h; exact key _ _ _ rfl hu
      | relDelete b => rw [hpu] at h; simp only [cont, Option.some.injEq] at h; split at h <;> cases h; exact key _ _ _ rfl hu

/-- The thread's next own step finds it where it was. -/
theorem next_own {s : Nat → State T} {a : Nat → Act T} (h : Infinite s a) (hf : Fair s a) {i : Nat} {t : T}
    (hp : (s i).pc t ≠ .idle) : ∃ j, i ≤ j ∧ (a j).moves t ∧ (s j).pc t = (s i).pc t ∧ ∀ m, i ≤ m → m < j → ¬ (a m).moves t := by
  obtain ⟨j, hij, hj⟩ := hf i t hp
  obtain ⟨d, rfl⟩ := Nat.le.dest hij
  clear hij
  induction d generalizing i with
  | zero => exact ⟨i, Nat.le_refl _, hj, rfl, fun m h1 h2 => absurd h1 (by omega)⟩
  | succ d ih =>
    by_cases hm : (a i).moves t
    · exact ⟨i, Nat.le_refl _, hm, rfl, fun m h1 h2 => absurd h1 (by omega)⟩
    · have he := (own_or_same (h.next i).2 hp).resolve_left hm
      obtain ⟨j, h1, h2, h3, h4⟩ := ih (i := i + 1) (by rw [he]; exact hp) (by rw [show i + 1 + d = i + (d + 1) by omega]; exact hj)
      refine ⟨j, by omega, h2, h3.trans he, ?_⟩
      intro m hm1 hm2
      by_cases e : m = i
      · rw [e]; exact hm
      · exact h4 m (by omega) hm2

/-- Own steps left, once the lock is held or not needed. -/
def left : PC → Nat
  | .add .. => 7
  | .chk1 .. => 6
  | .chk2 .. => 5
  | .store .. => 4
  | .rel .. => 3
  | .relCheck .. => 2
  | .relDelete .. => 1
  | _ => 0

/-- Thread `t` is inside a call but not on its way into the lock. -/
def Past (p : PC) : Prop := p ≠ .idle ∧ (∀ j, p ≠ .load j) ∧ ∀ j old, p ≠ .cas j old

theorem left_pos {p : PC} (h : Past p) : 0 < left p := by
  cases p <;> simp only [left] <;> first | omega | skip
  · exact (h.1 rfl).elim
  · exact (h.2.1 _ rfl).elim
  · exact (h.2.2 _ _ rfl).elim

/-- One own step of such a thread. -/
theorem past_step {s s' : State T} {act : Act T} {t : T} (hp : Past (s.pc t)) (hm : act.moves t) (h : step s act = some (.ok s')) :
    act = .cont t ∧ left (s'.pc t) < left (s.pc t) ∧ (Past (s'.pc t) ∨ s'.pc t = .idle) ∧
    ((s.pc t).crit = true → (s'.pc t).crit = true ∨ ∃ e, s'.log = e :: s.log) := by
  have key : ∀ (x : State T) (p : PC), (setPc x t p).pc t = p := by intro x p; simp [setPc]
  cases act with
  | stale u w =>
    cases hm
    simp only [step] at h
    cases hc : s.pc t <;> rw [hc] at h <;> simp only [stale] at h <;> try cases h
    · exact (hp.2.1 _ hc).elim
    · exact (hp.2.2 _ _ hc).elim
  | cont u =>
    cases hm
    refine ⟨rfl, ?_⟩
    simp only [step] at h
    cases hc : s.pc t with
    | idle => exact (hp.1 hc).elim
    | load j => exact (hp.2.1 _ hc).elim
    | cas j old => exact (hp.2.2 _ _ hc).elim
    | add j v =>
      rw [hc] at h; simp only [cont, Option.some.injEq] at h
      have : s'.pc t = .chk1 j v := by
        split at h
        · cases h; exact key _ _
        · simp only [incr] at h; split at h <;> cases h; exact key _ _
      rw [this]
      exact ⟨by simp [left], .inl ⟨by simp, by simp, by simp⟩, fun _ => .inl rfl⟩
    | chk1 j v =>
      rw [hc] at h; cases h; rw [key]
      exact ⟨by simp [left], .inl ⟨by simp, by simp, by simp⟩, fun _ => .inl rfl⟩
    | chk2 j v w =>
      rw [hc] at h; simp only [cont, Option.some.injEq] at h
      split at h; cases h
      split at h <;> cases h
      rw [key]
      exact ⟨by simp [left], .inl ⟨by simp, by simp, by simp⟩, fun _ => .inl rfl⟩
    | store j v =>
      rw [hc] at h
      cases j with
      | get =>
        cases h; rw [key]
        exact ⟨by simp [left], .inr rfl, fun _ => .inr ⟨_, rfl⟩⟩
      | set n =>
        simp only [cont, Option.some.injEq, Except.ok.injEq] at h
        split at h <;> subst h <;> rw [key]
        · exact ⟨by simp [left], .inr rfl, fun _ => .inr ⟨_, rfl⟩⟩
        · exact ⟨by simp [left], .inl ⟨by simp, by simp, by simp⟩, fun _ => .inr ⟨_, rfl⟩⟩
    | rel b =>
      rw [hc] at h; simp only [cont, Option.some.injEq] at h; split at h <;> cases h
      rw [key]
      split
      · exact ⟨by simp [left], .inl ⟨by simp, by simp, by simp⟩, fun h => by cases h⟩
      · exact ⟨by simp [left], .inr rfl, fun h => by cases h⟩
    | relCheck b =>
      rw [hc] at h; simp only [cont, Option.some.injEq] at h
      split at h; cases h
      split at h <;> cases h
      rw [key]
      exact ⟨by simp [left], .inl ⟨by simp, by simp, by simp⟩, fun h => by cases h⟩
    | relDelete b =>
      rw [hc] at h; simp only [cont, Option.some.injEq] at h; split at h <;> cases h
      rw [key]
      exact ⟨by simp [left], .inr rfl, fun h => by cases h⟩
  | _ => cases hm

theorem ownSteps_zero {t : T} {a : Nat → Act T} {i : Nat} : ∀ {n : Nat}, (∀ m, i ≤ m → m < i + n → ¬ (a m).moves t) → ownSteps t a i n = 0
  | 0, _ => rfl
  | n + 1, h => by
    have h1 := ownSteps_zero (n := n) (fun m h1 h2 => h m h1 (by omega))
    have h2 := h (i + n) (by omega) (by omega)
    simp only [ownSteps, h1]
    cases ha : a (i + n) <;> simp only [ha, Act.moves] at h2 ⊢ <;> simp [h2]

theorem ownSteps_add (t : T) (a : Nat → Act T) (i n : Nat) : ∀ m, ownSteps t a i (n + m) = ownSteps t a i n + ownSteps t a (i + n) m
  | 0 => by simp [ownSteps]
  | m + 1 => by
    rw [← Nat.add_assoc, ownSteps, ownSteps, ownSteps_add t a i n m, Nat.add_assoc i n m]; omega

theorem ownSteps_one {t : T} {a : Nat → Act T} {i : Nat} (h : a i = .cont t) : ownSteps t a i 1 = 1 := by
  simp [ownSteps, h]

theorem past_ends {s : Nat → State T} {a : Nat → Act T} (h : Infinite s a) (hf : Fair s a) (t : T) :
    ∀ (n i : Nat), left ((s i).pc t) = n → Past ((s i).pc t) →
      ∃ d, (s (i + d)).pc t = .idle ∧ ownSteps t a i d ≤ n := by
  intro n
  induction n using Nat.strongRecOn with
  | _ n ih =>
    intro i hn hp
    obtain ⟨j, hij, hm, hj, hq⟩ := next_own h hf hp.1
    obtain ⟨d, rfl⟩ := Nat.le.dest hij
    have hst := past_step (by rw [hj]; exact hp) hm (h.next (i + d)).2
    have h0 : ownSteps t a i d = 0 := ownSteps_zero hq
    have h1 : ownSteps t a i (d + 1) = 1 := by
      rw [ownSteps_add, h0, ownSteps_one hst.1]
    rcases hst.2.2.1 with h2 | h2
    · rw [hj, hn] at hst
      obtain ⟨d', h3, h4⟩ := ih _ hst.2.1 (i + d + 1) rfl h2
      refine ⟨d + 1 + d', ?_, ?_⟩
      · rw [show i + (d + 1 + d') = i + d + 1 + d' by omega]; exact h3
      · rw [ownSteps_add, h1, show i + (d + 1) = i + d + 1 by omega]
        omega
    · refine ⟨d + 1, h2, ?_⟩
      rw [h1, ← hn]; exact left_pos hp

/-- C134: nobody waits once the lock is taken or not needed. A thread that holds the lock, or is inside `Release`, ends
its call after at most seven steps of its own, whatever the others do meanwhile and however stale their loads are. -/
theorem C134_holder_ends (s : Nat → State T) (a : Nat → Act T) (h : Infinite s a) (hf : Fair s a) (i : Nat) (t : T)
    (hp : (s i).pc t ≠ .idle) (hl : ∀ j, (s i).pc t ≠ .load j) (hc : ∀ j old, (s i).pc t ≠ .cas j old) :
    ∃ n, (s (i + n)).pc t = .idle ∧ ownSteps t a i n ≤ 7 := by
  obtain ⟨d, h1, h2⟩ := past_ends h hf t _ i rfl ⟨hp, hl, hc⟩
  refine ⟨d, h1, Nat.le_trans h2 ?_⟩
  cases (s i).pc t <;> simp [left]

/-- Whoever is in the critical section ends it with an effect. -/
theorem crit_effect {s : Nat → State T} {a : Nat → Act T} (h : Infinite s a) (hf : Fair s a) (t : T) :
    ∀ (n i : Nat), left ((s i).pc t) = n → ((s i).pc t).crit = true → ∃ j, i ≤ j ∧ TakesEffect s a j := by
  intro n
  induction n using Nat.strongRecOn with
  | _ n ih =>
    intro i hn hc
    have hp : Past ((s i).pc t) := by
      cases e : (s i).pc t <;> rw [e] at hc <;> first | (cases hc; done) | exact ⟨by simp, by simp, by simp⟩
    obtain ⟨j, hij, hm, hj, -⟩ := next_own h hf hp.1
    have hst := past_step (by rw [hj]; exact hp) hm (h.next j).2
    rcases hst.2.2.2 (by rw [hj]; exact hc) with h1 | ⟨e, h1⟩
    · rw [hj, hn] at hst
      obtain ⟨j', h2, h3⟩ := ih _ hst.2.1 (j + 1) rfl h1
      exact ⟨j', by omega, h3⟩
    · exact ⟨j, hij, t, e, hst.1, h1⟩

/-- While a thread is inside a call and nobody takes the lock, the word stays as it is. -/
theorem word_same {s s' : State T} {act : Act T} (hi : Inv s) (ha : Allowed s act) (h : step s act = some (.ok s')) {t : T}
    (ht : (s.pc t).uses = true) (hc : ∀ u, (s.pc u).crit = false) (hc' : ∀ u, (s'.pc u).crit = false) : s'.word = s.word := by
  have hmade := hi.usem t ht
  cases act with
  | make u n =>
    simp only [step] at h; split at h
    · rename_i hx; rw [hmade] at hx; cases hx.2.1
    · cases h
  | destroy u => exact absurd (ha t) (by rw [ht]; simp)
  | get u => simp only [step] at h; split at h <;> cases h; rfl
  | set u n => simp only [step] at h; split at h <;> cases h; rfl
  | release u b => simp only [step] at h; split at h <;> cases h; rfl
  | addRef u b =>
    simp only [step] at h; split at h
    rotate_left; · cases h
    injection h with h
    simp only [incr] at h; split at h <;> cases h
    rfl
  | use u b =>
    simp only [step] at h; split at h
    rotate_left; · cases h
    injection h with h
    split at h <;> cases h
    rfl
  | send u w b => simp only [step] at h; split at h <;> cases h; rfl
  | create u b => simp only [step] at h; split at h <;> cases h; rfl
  | stale u w =>
    simp only [step] at h
    cases hpu : s.pc u <;> rw [hpu] at h <;> simp only [stale] at h <;> try cases h
    · rfl
    · split at h <;> cases h; rfl
  | cont u =>
    simp only [step] at h
    have hcu := hc u
    have hcu' := hc' u
    cases hpu : s.pc u with
    | idle => rw [hpu] at h; cases h
    | load j => rw [hpu] at h; cases h; rfl
    | cas j old =>
      rw [hpu] at h; simp only [cont, Option.some.injEq] at h
      split at h <;> cases h
      · simp [setPc, PC.crit] at hcu'
      · rfl
    | rel b => rw [hpu] at h; simp only [cont, Option.some.injEq] at h; split at h <;> cases h; rfl
    | relCheck b =>
      rw [hpu] at h; simp only [cont, Option.some.injEq] at h
      split at h; cases h
      split at h <;> cases h; rfl
    | relDelete b => rw [hpu] at h; simp only [cont, Option.some.injEq] at h; split at h <;> cases h; rfl
    | _ => rw [hpu] at hcu; cases hcu

/-- C134: progress. If a thread is inside `get` or `operator=` and has not finished with the `AtomicRef`, then, under a
fair schedule in which loads do not stay stale for ever, some `get` or `operator=` takes effect later on. So calls never
block each other for good: while anybody wants the `AtomicRef`, calls on it keep completing. -/
theorem C134_progress_partial (s : Nat → State T) (a : Nat → Act T) (h : Infinite s a) (hf : Fair s a) (hs : EventuallyFresh a)
    (i : Nat) (t : T) (ht : ((s i).pc t).uses = true) : ∃ j, i ≤ j ∧ TakesEffect s a j := by
  apply Classical.byContradiction
  intro hno
  have hcrit : ∀ j, i ≤ j → ∀ u, ((s j).pc u).crit = false := by
    intro j hj u
    cases hc : ((s j).pc u).crit with
    | false => rfl
    | true =>
      obtain ⟨j', h1, h2⟩ := crit_effect h hf u _ j rfl hc
      exact (hno ⟨j', by omega, h2⟩).elim
  -- the thread is at the entrance for ever
  have hspin : ∀ d, (∃ jb, (s (i + d)).pc t = .load jb) ∨ ∃ jb old, (s (i + d)).pc t = .cas jb old := by
    intro d
    induction d with
    | zero =>
      have hc := hcrit i (Nat.le_refl _) t
      show (∃ jb, (s i).pc t = .load jb) ∨ ∃ jb old, (s i).pc t = .cas jb old
      cases e : (s i).pc t <;> rw [e] at ht hc <;> first | (cases ht; done) | (cases hc; done) | skip
      · exact .inl ⟨_, rfl⟩
      · exact .inr ⟨_, _, rfl⟩
    | succ d ih =>
      have hne : (s (i + d)).pc t ≠ .idle := by
        rcases ih with ⟨_, e⟩ | ⟨_, _, e⟩ <;> rw [e] <;> simp
      have hcr := hcrit (i + d + 1) (by omega) t
      rcases own_or_same (h.next (i + d)).2 hne with hm | he
      · have hst := (h.next (i + d)).2
        show (∃ jb, (s (i + d + 1)).pc t = .load jb) ∨ ∃ jb old, (s (i + d + 1)).pc t = .cas jb old
        have key : ∀ (x : State T) (p : PC), (setPc x t p).pc t = p := by intro x p; simp [setPc]
        cases hact : a (i + d) with
        | cont u =>
          rw [hact] at hm hst; cases hm
          simp only [step] at hst
          rcases ih with ⟨jb, e⟩ | ⟨jb, old, e⟩ <;> rw [e] at hst
          · simp only [cont, Option.some.injEq, Except.ok.injEq] at hst
            rw [← hst, key]; exact .inr ⟨_, _, rfl⟩
          · simp only [cont, Option.some.injEq] at hst
            split at hst
            · injection hst with hst
              rw [← hst, key] at hcr; cases hcr
            · injection hst with hst
              rw [← hst, key]; exact .inl ⟨_, rfl⟩
        | stale u w =>
          rw [hact] at hm hst; cases hm
          simp only [step] at hst
          rcases ih with ⟨jb, e⟩ | ⟨jb, old, e⟩ <;> rw [e] at hst
          · simp only [stale, Option.some.injEq, Except.ok.injEq] at hst
            rw [← hst, key]; exact .inr ⟨_, _, rfl⟩
          · simp only [stale] at hst
            split at hst
            · cases hst
            · simp only [Option.some.injEq, Except.ok.injEq] at hst
              rw [← hst, key]; exact .inl ⟨_, rfl⟩
        | _ => rw [hact] at hm; cases hm
      · show (∃ jb, (s (i + d + 1)).pc t = .load jb) ∨ ∃ jb old, (s (i + d + 1)).pc t = .cas jb old
        rw [he]; exact ih
  have huses : ∀ j, i ≤ j → ((s j).pc t).uses = true := by
    intro j hj
    obtain ⟨d, rfl⟩ := Nat.le.dest hj
    rcases hspin d with ⟨_, e⟩ | ⟨_, _, e⟩ <;> rw [e] <;> rfl
  have hidle : ∀ j, i ≤ j → (s j).pc t ≠ .idle := by
    intro j hj e
    have := huses j hj
    rw [e] at this; cases this
  -- the word does not change any more
  have hword : ∀ d, (s (i + d)).word = (s i).word := by
    intro d
    induction d with
    | zero => rfl
    | succ d ih =>
      exact (word_same (inv_infinite h (i + d)) (h.next (i + d)).1 (h.next (i + d)).2 (huses (i + d) (by omega))
        (hcrit (i + d) (by omega)) (hcrit (i + d + 1) (by omega))).trans ih
  have hword' : ∀ j, i ≤ j → (s j).word = (s i).word := by
    intro j hj; obtain ⟨d, rfl⟩ := Nat.le.dest hj; exact hword d
  have hun : untagged (s i).word = (s i).word := (inv_infinite h i).lock (hcrit i (Nat.le_refl _))
  obtain ⟨N, hN⟩ := hs
  have key : ∀ (x : State T) (p : PC), (setPc x t p).pc t = p := by intro x p; simp [setPc]
  have fresh : ∀ j, N ≤ j → (a j).moves t → a j = .cont t := by
    intro j hj hm
    cases e : a j with
    | cont u => rw [e] at hm; cases hm; rfl
    | stale u w => exact (hN j hj u w e).elim
    | _ => rw [e] at hm; cases hm
  -- a load succeeds in the next CAS
  have loaded : ∀ j jb, i ≤ j → N ≤ j → (s j).pc t = .load jb → False := by
    intro j jb hij hNj he
    obtain ⟨j1, h1, h2, h3, -⟩ := next_own h hf (hidle j hij)
    have hst := (h.next j1).2
    rw [fresh j1 (by omega) h2] at hst
    simp only [step, h3, he, cont, Option.some.injEq, Except.ok.injEq] at hst
    have hp1 : (s (j1 + 1)).pc t = .cas jb (s i).word := by
      rw [← hst, key, hword' j1 (by omega), hun]
    obtain ⟨j2, h4, h5, h6, -⟩ := next_own h hf (hidle (j1 + 1) (by omega))
    have hst2 := (h.next j2).2
    rw [fresh j2 (by omega) h5] at hst2
    simp only [step, h6, hp1, cont, Option.some.injEq] at hst2
    rw [if_pos (hword' j2 (by omega))] at hst2
    injection hst2 with hst2
    have hcr := hcrit (j2 + 1) (by omega) t
    rw [← hst2, key] at hcr
    cases hcr
  obtain ⟨j0, hj0i, hj0N⟩ : ∃ j0, i ≤ j0 ∧ N ≤ j0 := ⟨i + N, by omega, by omega⟩
  obtain ⟨d, rfl⟩ := Nat.le.dest hj0i
  rcases hspin d with ⟨jb, e⟩ | ⟨jb, old, e⟩
  · exact loaded _ jb hj0i hj0N e
  · obtain ⟨j1, h1, h2, h3, -⟩ := next_own h hf (hidle (i + d) hj0i)
    have hst := (h.next j1).2
    rw [fresh j1 (by omega) h2] at hst
    simp only [step, h3, e, cont, Option.some.injEq] at hst
    have hcr := hcrit (j1 + 1) (by omega) t
    split at hst
    · injection hst with hst
      rw [← hst, key] at hcr; cases hcr
    · injection hst with hst
      exact loaded (j1 + 1) jb (by omega) (by omega) (by rw [← hst, key])

/-- The stronger claim one might hope for: under a fair schedule of fresh reads every single call ends. -/
def EveryCallEnds : Prop :=
  ∀ (s : Nat → State (Fin 2)) (a : Nat → Act (Fin 2)), Infinite s a → Fair s a → EventuallyFresh a →
    ∀ i t, (s i).pc t ≠ .idle → ∃ j, i ≤ j ∧ (s j).pc t = .idle

/-! Thread 1 calls `get` again and again; thread 0 always looks while thread 1 has the lock. -/

/-- What happens in round `r` of nine. -/
def starveAct : Nat → Act (Fin 2)
  | 0 => .get 1
  | 1 | 2 => .cont 1
  | 3 | 4 => .cont 0
  | _ => .cont 1

/-- Where thread 1 is before round `r`. -/
def starvePc : Nat → PC
  | 0 => .idle
  | 1 => .load .get
  | 2 => .cas .get 0
  | 3 | 4 | 5 => .add .get 0
  | 6 => .chk1 .get 0
  | 7 => .chk2 .get 0 1
  | _ => .store .get 0

def starveState (l : List (Event (Fin 2))) (r : Nat) : State (Fin 2) :=
  { State.start with made := true, word := if r < 3 then 0 else 1, log := l
                     pc := fun t => if t = 1 then starvePc r else if r = 4 then .cas .get 0 else .load .get }

theorem pc_two {f g : Fin 2 → PC} (h0 : f 0 = g 0) (h1 : f 1 = g 1) : f = g := by
  funext u
  match u with
  | 0 => exact h0
  | 1 => exact h1

theorem starve_step (l : List (Event (Fin 2))) : ∀ r, r < 9 → step (starveState l r) (starveAct r) =
    some (.ok (starveState (if r = 8 then .got 1 0 :: l else l) ((r + 1) % 9)))
  | 0, _ | 1, _ | 2, _ | 3, _ | 4, _ | 5, _ | 6, _ | 7, _ | 8, _ => by
    simp only [starveAct, step, starveState, starvePc, State.start]
    first
      | (simp [cont, setPc, Job.newval, untagged, tagged]; exact pc_two rfl rfl)
      | (simp [cont, setPc, Job.newval, untagged, tagged])
  | n + 9, h => by omega

def starveLog (i : Nat) : List (Event (Fin 2)) := List.replicate (i / 9) (.got 1 0) ++ [.put 0 0]

theorem starve_infinite : Infinite (fun i => starveState (starveLog i) (i % 9)) (fun i => starveAct (i % 9)) := by
  refine ⟨?_, ?_⟩
  · refine ⟨[.get 0, .make 0 0], .step (.step .start trivial rfl) trivial ?_⟩
    simp only [step, setPc, State.start]
    rw [if_pos (by simp)]
    congr 3
    exact pc_two rfl rfl
  · intro i
    refine ⟨?_, ?_⟩
    · have : ∀ r, Allowed (starveState (starveLog i) (i % 9)) (starveAct r) := by
        intro r
        unfold starveAct
        split <;> exact trivial
      exact this _
    · show step (starveState (starveLog i) (i % 9)) (starveAct (i % 9)) = _
      rw [starve_step _ _ (Nat.mod_lt _ (by omega))]
      congr 2
      · have : (i % 9 + 1) % 9 = (i + 1) % 9 := by omega
        rw [this]
        congr 1
        unfold starveLog
        by_cases h : i % 9 = 8
        · rw [if_pos h, show (i + 1) / 9 = i / 9 + 1 by omega, List.replicate_succ]; rfl
        · rw [if_neg h, show (i + 1) / 9 = i / 9 by omega]

/-- C134, refuted for single calls: a `get` can starve. Under a fair schedule with fresh reads thread 0's `get` never
returns, although thread 1 completes one `get` after the other. -/
theorem C134_every_call_ends_refuted : ¬ EveryCallEnds := by
  intro h
  have hf : Fair (fun i => starveState (starveLog i) (i % 9)) (fun i => starveAct (i % 9)) := by
    intro i t _
    match t with
    | 0 =>
      refine ⟨9 * i + 3, by omega, ?_⟩
      show (starveAct ((9 * i + 3) % 9)).moves 0
      rw [show (9 * i + 3) % 9 = 3 by omega]; rfl
    | 1 =>
      refine ⟨9 * i + 1, by omega, ?_⟩
      show (starveAct ((9 * i + 1) % 9)).moves 1
      rw [show (9 * i + 1) % 9 = 1 by omega]; rfl
  have hs : EventuallyFresh (fun i => starveAct (i % 9)) := by
    refine ⟨0, fun j _ t w => ?_⟩
    show starveAct (j % 9) ≠ _
    unfold starveAct
    split <;> simp
  obtain ⟨j, -, hj⟩ := h _ _ starve_infinite hf hs 0 0 (by simp [starveState])
  have hj : (if (0 : Fin 2) = 1 then starvePc (j % 9) else if j % 9 = 4 then PC.cas .get 0 else .load .get) = .idle := hj
  rw [if_neg (by decide)] at hj
  split at hj <;> cases hj

/-- The same execution meets the hypotheses of `C134_progress_partial` and `C134_holder_ends`: thread 0 wants the `AtomicRef` at
every moment and calls complete for ever; in round 3 thread 1 holds the lock. -/
example : ∃ j, 100 ≤ j ∧ TakesEffect (fun i => starveState (starveLog i) (i % 9)) (fun i => starveAct (i % 9)) j := by
  refine ⟨107, by omega, 1, .got 1 0, rfl, rfl⟩

example : (starveState (starveLog 102) (102 % 9)).pc 1 = .add .get 0 ∧ (starveState (starveLog 108) (108 % 9)).pc 1 = .idle ∧
    ownSteps (1 : Fin 2) (fun i => starveAct (i % 9)) 102 6 = 4 := by decide

end Verif.AtomicRef
