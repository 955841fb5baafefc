import Verif.AtomicRef.Lemmas
/-!
# C49: `AtomicRef` under every schedule
-/
namespace Verif.AtomicRef
open Verif

set_option linter.unusedSectionVars false

variable {T : Type} [DecidableEq T]

/-- C49: whatever the number of threads and the interleaving of the individual atomic steps, no step
touches or deletes a destroyed object and no assertion fails, from construction to destruction of the `AtomicRef`,
as long as it is not destroyed while a thread is inside a call on it. -/
theorem C49_safe (s : State T) (h : Reachable s) (a : Act T) (ha : Allowed s a) (f : Fault) : step s a ≠ some (.error f) := by
  intro hs
  obtain ⟨s', e, -⟩ := inv_step (inv_reachable h) ha hs
  cases e

/-- C49: the `AtomicRef` behaves as an atomic register. Every completed `get` and `operator=` takes effect at
one step inside the call (the one that appends its event to the log), every `get` returned the value
that was current there, and the pointer the word holds is the last one assigned. -/
theorem C49_register (s : State T) (h : Reachable s) : Register s.log ∧ untagged s.word = current s.log :=
  ⟨(inv_reachable h).reg, (inv_reachable h).cur⟩

/-- C49: when a call of `get` returns a non-null pointer, the object is alive and the caller owns a
reference to it. -/
theorem C49_get_owned (s s' : State T) (h : Reachable s) (t : T) (v : Word)
    (hs : step s (.cont t) = some (.ok s')) (hl : s'.log = .got t v :: s.log) (hv : v ≠ 0) :
    (t, v) ∈ s'.tok ∧ s'.alive v = true ∧ v = current s.log ∧ s'.pc t = .idle := by
  have hi' : Inv s' := by
    obtain ⟨s'', e, hi'⟩ := inv_step (inv_reachable h) (a := .cont t) trivial hs
    injection e with e; rw [e]; exact hi'
  have hlen : s'.log ≠ s.log := by intro e; rw [hl] at e; exact List.cons_ne_self _ _ e
  have hi := inv_reachable h
  have ho := hi.ok t
  have hreg := hi'.reg
  rw [hl] at hreg
  simp only [step] at hs
  cases hp : s.pc t with
  | store j w =>
    rw [hp] at hs ho
    cases j with
    | get =>
      simp only [cont, Option.some.injEq, Except.ok.injEq] at hs
      subst hs
      injection hl with hl _
      injection hl with _ hl
      subst hl
      have hm := ho.2.2.resolve_left hv
      exact ⟨hm, hi.alive_tok hm, hreg.1, by simp [setPc]⟩
    | set n =>
      simp only [cont, Option.some.injEq, Except.ok.injEq] at hs
      split at hs <;> subst hs <;> · injection hl with hl _; cases hl
  | add j w =>
    rw [hp] at hs
    simp only [cont, Option.some.injEq] at hs
    split at hs
    · injection hs with hs; subst hs; exact (hlen rfl).elim
    · simp only [incr] at hs
      split at hs
      · cases hs
      · injection hs with hs; subst hs; exact (hlen rfl).elim
  | _ =>
    rw [hp] at hs
    simp only [cont, Option.some.injEq, reduceCtorEq] at hs
    repeat' split at hs
    all_goals first
      | (injection hs with hs; subst hs; exact (hlen rfl).elim)
      | (cases hs; done)

/-- C49: counts stay balanced. At every moment the count of a live object is the number of references to it
(those owned by threads plus the one of the `AtomicRef`), everything referenced is alive, and once no
thread is inside a call, the live objects are exactly the referenced ones (nothing leaks). -/
theorem C49_balanced (s : State T) (h : Reachable s) :
    (∀ a, s.alive a = true → s.cnt a = refs s a) ∧
    (∀ t a, (t, a) ∈ s.tok → s.alive a = true) ∧
    (untagged s.word ≠ 0 → s.alive (untagged s.word) = true) ∧
    ((∀ t, s.pc t = .idle) → ∀ a, a ≠ 0 → (s.alive a = true ↔ 0 < refs s a)) := by
  have hi := inv_reachable h
  refine ⟨hi.cnt, fun t a => hi.alive_tok, fun h0 => hi.live _ h0 (by simp [refs]), ?_⟩
  intro hidle a h0
  refine ⟨fun ha => ?_, hi.live a h0⟩
  rcases Nat.eq_zero_or_pos (refs s a) with hz | hz
  · obtain ⟨t, ht⟩ := hi.ends a ha hz
    rw [hidle t] at ht; cases ht
  · exact hz

/-- References in flight inside the call `p`. -/
def pend (a : Word) : PC → Int
  | .chk1 j v | .chk2 j v _ | .store j v => if j.newval v = a then 1 else 0
  | .rel b => if b = a then 1 else 0
  | _ => 0

theorem count_cons_int (l : List (T × Word)) (x y : T × Word) :
    ((x :: l).count y : Int) = (if x = y then 1 else 0) + (l.count y : Int) := by
  rw [List.count_cons]; by_cases h : x = y <;> simp [h] ; omega

theorem count_erase_int {l : List (T × Word)} {x : T × Word} (hm : x ∈ l) (y : T × Word) :
    ((l.erase x).count y : Int) = (l.count y : Int) - (if x = y then 1 else 0) := by
  have := count_cons_int (l.erase x) x y
  rw [← (List.perm_cons_erase hm).count_eq] at this
  omega

/-- The books balance: the references a thread owns are those of its books plus those in flight in its call. -/
theorem accounts {as : List (Act T)} {s : State T} (h : Run as s) (u : T) (a : Word) (h0 : a ≠ 0) :
    (s.tok.count (u, a) : Int) = booked u a as + gotten u a s.log + pend a (s.pc u) := by
  induction h with
  | start => simp [State.start, booked, gotten, pend]
  | step hr ha hs ih =>
    rename_i as s s' act
    have hi := inv_run hr
    have h0' : ¬ (0#64 = a) := fun e => h0 e.symm
    cases act with
    | make t n =>
      simp only [step] at hs
      split at hs
      rotate_left; · cases hs
      rename_i hp
      injection hs with hx
      simp only [make] at hx
      repeat' split at hx
      all_goals cases hx
      all_goals simpa [booked, gotten] using ih
    | destroy t =>
      simp only [step] at hs
      split at hs
      rotate_left; · cases hs
      rename_i hp
      injection hs with hx
      simp only [destroy] at hx
      repeat' split at hx
      all_goals cases hx
      · simpa [booked, gotten] using ih
      · simp only [setPc, booked, gotten, count_cons_int]
        by_cases hu : u = t
        · subst hu; rw [hp.1] at ih; simp [pend] at ih ⊢; omega
        · simp [hu, Ne.symm hu]; exact ih
    | get t =>
      simp only [step] at hs
      split at hs <;> cases hs
      rename_i hp
      simp only [setPc, booked]
      by_cases hu : u = t
      · subst hu; rw [hp.1] at ih; simpa [pend] using ih
      · simpa [hu] using ih
    | set t n =>
      simp only [step] at hs
      split at hs <;> cases hs
      rename_i hp
      simp only [setPc, booked]
      by_cases hu : u = t
      · subst hu; rw [hp.1] at ih; simpa [pend] using ih
      · simpa [hu] using ih
    | release t b =>
      simp only [step] at hs
      split at hs <;> cases hs
      rename_i hp
      simp only [setPc, booked]
      by_cases hu : u = t
      · subst hu; rw [hp.1] at ih; simp [pend] at ih ⊢; omega
      · simp [hu, Ne.symm hu]; exact ih
    | addRef t b =>
      simp only [step] at hs
      split at hs
      rotate_left; · cases hs
      injection hs with hx
      simp only [incr] at hx
      split at hx <;> cases hx
      simp only [booked, count_cons_int]
      omega
    | use t b =>
      simp only [step] at hs
      split at hs
      rotate_left; · cases hs
      injection hs with hx
      split at hx <;> cases hx
      simpa only [booked] using ih
    | send t w b =>
      simp only [step] at hs
      split at hs <;> cases hs
      rename_i hp
      simp only [booked, count_cons_int, count_erase_int hp.2]
      omega
    | create t b =>
      simp only [step] at hs
      split at hs <;> cases hs
      simp only [booked, count_cons_int]
      omega
    | stale t w =>
      simp only [step] at hs
      simp only [booked]
      cases hp : s.pc t <;> rw [hp] at hs <;> simp only [stale] at hs <;> try cases hs
      · simp only [setPc]
        by_cases hu : u = t
        · subst hu; rw [hp] at ih; simpa [pend] using ih
        · simpa [hu] using ih
      · split at hs <;> cases hs
        simp only [setPc]
        by_cases hu : u = t
        · subst hu; rw [hp] at ih; simpa [pend] using ih
        · simpa [hu] using ih
    | cont t =>
      simp only [step] at hs
      simp only [booked]
      have ho := hi.ok t
      cases hp : s.pc t with
      | idle => rw [hp] at hs; cases hs
      | load j =>
        rw [hp] at hs; cases hs
        simp only [setPc]
        by_cases hu : u = t
        · subst hu; rw [hp] at ih; simpa [pend] using ih
        · simpa [hu] using ih
      | cas j old =>
        rw [hp] at hs; simp only [cont, Option.some.injEq] at hs
        split at hs <;> cases hs <;> simp only [setPc]
        all_goals
          by_cases hu : u = t
          · subst hu; rw [hp] at ih; simpa [pend] using ih
          · simpa [hu] using ih
      | add j v =>
        rw [hp] at hs; simp only [cont, Option.some.injEq] at hs
        split at hs
        · rename_i hz
          cases hs; simp only [setPc]
          by_cases hu : u = t
          · subst hu; rw [hp] at ih; simpa [pend, hz, h0'] using ih
          · simpa [hu] using ih
        · simp only [incr] at hs
          split at hs <;> cases hs
          simp only [setPc, count_cons_int]
          by_cases hu : u = t
          · subst hu; rw [hp] at ih; simp [pend] at ih ⊢; omega
          · simp [hu, Ne.symm hu]; exact ih
      | chk1 j v =>
        rw [hp] at hs; cases hs
        simp only [setPc]
        by_cases hu : u = t
        · subst hu; rw [hp] at ih; simpa [pend] using ih
        · simpa [hu] using ih
      | chk2 j v w =>
        rw [hp] at hs; simp only [cont, Option.some.injEq] at hs
        split at hs; cases hs
        split at hs <;> cases hs; simp only [setPc]
        by_cases hu : u = t
        · subst hu; rw [hp] at ih; simpa [pend] using ih
        · simpa [hu] using ih
      | store j v =>
        rw [hp] at ho hs
        cases j with
        | get =>
          cases hs
          simp only [setPc, gotten]
          by_cases hu : u = t
          · subst hu; rw [hp] at ih; simp only [pend, Job.newval, if_true, Prod.mk.injEq, true_and] at ih ⊢; by_cases e : v = a <;> simp [e] at ih ⊢ <;> omega
          · simp [hu, Ne.symm hu]; exact ih
        | set n =>
          have hm : n = 0 ∨ (t, n) ∈ s.tok := ho.2.2
          have hc : (((if n = 0 then s.tok else s.tok.erase (t, n)).count (u, a) : Nat) : Int)
              = (s.tok.count (u, a) : Int) - (if (t, n) = (u, a) then 1 else 0) := by
            by_cases hn : n = 0
            · rw [if_pos hn]; subst hn; simp [h0']
            · rw [if_neg hn, count_erase_int (hm.resolve_left hn)]
          simp only [cont, Option.some.injEq, Except.ok.injEq] at hs
          split at hs <;> cases hs
          · simp only [setPc, gotten, hc]
            by_cases hu : u = t
            · subst hu; rw [hp] at ih; simp only [pend, Job.newval, if_true, Prod.mk.injEq, true_and] at ih ⊢; by_cases e : n = a <;> simp [e] at ih ⊢ <;> omega
            · simp [hu, Ne.symm hu]; exact ih
          · simp only [setPc, gotten, count_cons_int, hc]
            by_cases hu : u = t
            · subst hu; rw [hp] at ih; simp only [pend, Job.newval, if_true, Prod.mk.injEq, true_and] at ih ⊢; by_cases e : n = a <;> simp [e] at ih ⊢ <;> omega
            · simp [hu, Ne.symm hu]; exact ih
      | rel b =>
        rw [hp] at ho hs; simp only [cont, Option.some.injEq] at hs
        split at hs <;> cases hs
        simp only [setPc, count_erase_int ho]
        by_cases hu : u = t
        · subst hu; rw [hp] at ih
          have : pend a (if s.cnt b = 1 then PC.relCheck b else PC.idle) = 0 := by split <;> rfl
          simp only [if_true, this]
          simp only [pend, Prod.mk.injEq, true_and] at ih ⊢
          omega
        · simp [hu, Ne.symm hu]; exact ih
      | relCheck b =>
        rw [hp] at hs; simp only [cont, Option.some.injEq] at hs
        split at hs; cases hs
        split at hs <;> cases hs; simp only [setPc]
        by_cases hu : u = t
        · subst hu; rw [hp] at ih; simpa [pend] using ih
        · simpa [hu] using ih
      | relDelete b =>
        rw [hp] at hs; simp only [cont, Option.some.injEq] at hs
        split at hs <;> cases hs; simp only [setPc]
        by_cases hu : u = t
        · subst hu; rw [hp] at ih; simpa [pend] using ih
        · simpa [hu] using ih

theorem countP_threads (ts : List T) (hn : ts.Nodup) (ha : ∀ t, t ∈ ts) (a : Word) (l : List (T × Word)) :
    (l.countP (fun p => decide (p.2 = a)) : Int) = (ts.map fun t => (l.count (t, a) : Int)).sum := by
  induction l with
  | nil =>
    have : ∀ l : List T, (l.map fun _ => (0 : Int)).sum = 0 := by
      intro l; induction l with
      | nil => rfl
      | cons t l ih => simp [ih]
    simpa using (this ts).symm
  | cons x l ih =>
    have key : ∀ (f : T → Int) (ts : List T), ts.Nodup →
        (ts.map fun t => ((if x = (t, a) then 1 else 0 : Int) + f t)).sum
          = (if x.2 = a ∧ x.1 ∈ ts then 1 else 0) + (ts.map f).sum := by
      intro f ts
      induction ts with
      | nil => simp
      | cons t ts ih =>
        intro hn
        have hn' := List.nodup_cons.1 hn
        simp only [List.map_cons, List.sum_cons, ih hn'.2, List.mem_cons]
        obtain ⟨x1, x2⟩ := x
        by_cases h2 : x2 = a
        · by_cases h1 : x1 = t
          · subst h1; simp [h2, hn'.1]; omega
          · simp [h1, h2]; omega
        · simp [h2]
    simp only [count_cons_int]
    rw [key _ ts hn, List.countP_cons, ← ih]
    by_cases h : x.2 = a <;> simp [h, ha] ; omega

/-- C49: a call gives and takes exactly the references it should. Between calls, the references a thread owns to an
object are those in its own books (created, `AddRef`ed, received, less handed over and released), plus one for every
time `get` returned the object to it: constructing, assigning and destroying the `AtomicRef` leave a thread's references
as they were. -/
theorem C49_accounts (as : List (Act T)) (s : State T) (h : Run as s) (t : T) (a : Word) (h0 : a ≠ 0) (hp : s.pc t = .idle) :
    (s.tok.count (t, a) : Int) = booked t a as + gotten t a s.log := by
  have := accounts h t a h0
  rw [hp] at this
  simpa [pend] using this

/-- C49: the same without ghosts. Once no thread is inside a call, an object's count is the number of references in the
books of all threads, plus one if the `AtomicRef` holds the object, and the object is alive exactly if that is not 0. -/
theorem C49_count (as : List (Act T)) (s : State T) (h : Run as s) (ts : List T) (hn : ts.Nodup) (hall : ∀ t, t ∈ ts)
    (hidle : ∀ t, s.pc t = .idle) (a : Word) (h0 : a ≠ 0) :
    (s.alive a = true → (s.cnt a : Int) = (ts.map fun t => booked t a as + gotten t a s.log).sum
      + if current s.log = a then 1 else 0) ∧
    (s.alive a = true ↔ 0 < (ts.map fun t => booked t a as + gotten t a s.log).sum + if current s.log = a then 1 else 0) := by
  have hb := C49_balanced s ⟨as, h⟩
  have hi := inv_run h
  have e : (refs s a : Int) = (ts.map fun t => booked t a as + gotten t a s.log).sum + if current s.log = a then 1 else 0 := by
    have h1 := countP_threads ts hn hall a s.tok
    have h2 : (ts.map fun t => (s.tok.count (t, a) : Int)) = ts.map fun t => booked t a as + gotten t a s.log :=
      List.map_congr_left (fun t _ => C49_accounts as s h t a h0 (hidle t))
    rw [h2] at h1
    rw [← h1, refs, hi.cur]
    by_cases hc : current s.log = a <;> simp [hc]
  refine ⟨fun ha => ?_, ?_⟩
  · rw [← e, hb.1 a ha]
  · rw [← e, hb.2.2.2 hidle a h0]; omega

/-- `n` steps of thread `t` lead from `s` to `s'`. -/
inductive Alone (t : T) : Nat → State T → State T → Prop where
  | done (s) : Alone t 0 s s
  | step {n s s' s''} : step s (.cont t) = some (.ok s') → Alone t n s' s'' → Alone t (n + 1) s s''

theorem alone_store {s : State T} (t : T) (j : Job) (v : Word) (hi : Inv s) (hp : s.pc t = .store j v) :
    ∃ s', Alone t 1 s s' ∧ untagged s'.word = s'.word := by
  have ho := hi.ok t
  rw [hp] at ho
  cases j with
  | get =>
    exact ⟨_, .step (by simp [step, hp, cont]; rfl) (.done _), ho.2.1⟩
  | set n =>
    obtain ⟨s', e1, e2⟩ := inv_storeSet hi hp
    refine ⟨s', .step (by simp [step, hp, e1]) (.done _), ?_⟩
    have : s'.word = n := by
      simp only [cont, Option.some.injEq, Except.ok.injEq] at e1
      rw [← e1]; split <;> rfl
    rw [this]
    exact newval_untagged hi ho.2.2

theorem alone_chk2 {s : State T} (t : T) (j : Job) (v w : Word) (hi : Inv s) (hp : s.pc t = .chk2 j v w) :
    ∃ s', Alone t 2 s s' ∧ untagged s'.word = s'.word := by
  have hs : ∃ r, step s (.cont t) = some r := by simp [step, hp, cont]
  obtain ⟨r, hr⟩ := hs
  obtain ⟨s1, e, hi1⟩ := inv_step hi (a := .cont t) trivial hr
  subst e
  have hp1 : s1.pc t = .store j v := by
    simp only [step, hp, cont, Option.some.injEq] at hr
    split at hr; cases hr; split at hr; cases hr
    injection hr with hr; subst hr; simp [setPc]
  obtain ⟨s', h1, h2⟩ := alone_store t j v hi1 hp1
  exact ⟨s', .step hr h1, h2⟩

theorem alone_chk1 {s : State T} (t : T) (j : Job) (v : Word) (hi : Inv s) (hp : s.pc t = .chk1 j v) :
    ∃ s', Alone t 3 s s' ∧ untagged s'.word = s'.word := by
  have hr : step s (.cont t) = some (.ok (setPc s t (.chk2 j v s.word))) := by simp [step, hp, cont]
  obtain ⟨s1, e, hi1⟩ := inv_step hi (a := .cont t) trivial hr
  injection e with e; subst e
  obtain ⟨s', h1, h2⟩ := alone_chk2 t j v s.word hi1 (by simp [setPc])
  exact ⟨s', .step hr h1, h2⟩

theorem alone_add {s : State T} (t : T) (j : Job) (v : Word) (hi : Inv s) (hp : s.pc t = .add j v) :
    ∃ s', Alone t 4 s s' ∧ untagged s'.word = s'.word := by
  have hs : ∃ r, step s (.cont t) = some r := by simp [step, hp, cont]
  obtain ⟨r, hr⟩ := hs
  obtain ⟨s1, e, hi1⟩ := inv_step hi (a := .cont t) trivial hr
  subst e
  have hp1 : s1.pc t = .chk1 j v := by
    simp only [step, hp, cont, Option.some.injEq] at hr
    split at hr
    · injection hr with hr; subst hr; simp [setPc]
    · simp only [incr] at hr
      split at hr; cases hr
      injection hr with hr; subst hr; simp [setPc]
  obtain ⟨s', h1, h2⟩ := alone_chk1 t j v hi1 hp1
  exact ⟨s', .step hr h1, h2⟩

/-- C49: the lock is never lost. Whenever the stored pointer is tagged, some thread holds the lock, and that
thread, scheduled on its own, unlocks within four steps. -/
theorem C49_unlocks (s : State T) (h : Reachable s) (hl : untagged s.word ≠ s.word) :
    ∃ t n s', n ≤ 4 ∧ Alone t n s s' ∧ untagged s'.word = s'.word := by
  have hi := inv_reachable h
  have : ∃ t, (s.pc t).crit = true := by
    apply Classical.byContradiction
    intro hn
    exact hl (hi.lock (fun t => by
      cases hc : (s.pc t).crit with
      | false => rfl
      | true => exact (hn ⟨t, hc⟩).elim))
  obtain ⟨t, ht⟩ := this
  cases hp : s.pc t with
  | add j v => obtain ⟨s', h⟩ := alone_add t j v hi hp; exact ⟨t, 4, s', by omega, h⟩
  | chk1 j v => obtain ⟨s', h⟩ := alone_chk1 t j v hi hp; exact ⟨t, 3, s', by omega, h⟩
  | chk2 j v w => obtain ⟨s', h⟩ := alone_chk2 t j v w hi hp; exact ⟨t, 2, s', by omega, h⟩
  | store j v => obtain ⟨s', h⟩ := alone_store t j v hi hp; exact ⟨t, 1, s', by omega, h⟩
  | _ => rw [hp] at ht; cases ht

/-! A schedule: thread 0 creates the `AtomicRef` and the object at 16 and assigns it, thread 1 starts a `get` and takes
the lock, thread 0 tries to assign null (its first CAS fails because the word is tagged), drops its own reference,
thread 1 finishes `get`, thread 0 then replaces the pointer and thread 1's reference keeps the object alive. -/
instance (s : State (Fin 2)) (a : Act (Fin 2)) : Decidable (Allowed s a) := by
  cases a <;> simp only [Allowed] <;> infer_instance

def sched (s : State (Fin 2)) : List (Act (Fin 2)) → Option (State (Fin 2))
  | [] => some s
  | a :: as => if Allowed s a then match step s a with
    | some (.ok s') => sched s' as
    | _ => none
    else none

theorem sched_run : ∀ (as bs : List (Act (Fin 2))) (s s' : State (Fin 2)), Run bs s → sched s as = some s' →
    Run (as.reverse ++ bs) s'
  | [], bs, s, s', h, he => by simp only [sched, Option.some.injEq] at he; exact he ▸ h
  | a :: as, bs, s, s', h, he => by
    simp only [sched] at he
    split at he
    · rename_i ha
      split at he
      · rename_i s1 h1
        have := sched_run as (a :: bs) s1 s' (.step h ha h1) he
        simpa using this
      · cases he
    · cases he

def demoActs : List (Act (Fin 2)) :=
  [.make 0 0#64, .create 0 16#64, .set 0 16#64, .cont 0, .cont 0, .cont 0, .cont 0, .cont 0, .cont 0,
   .release 0 16#64, .cont 0,
   .get 1, .cont 1, .cont 1,
   .set 0 0#64, .cont 0, .cont 0,
   .cont 1, .cont 1, .cont 1, .cont 1,
   .cont 0, .cont 0, .cont 0, .cont 0, .cont 0, .cont 0, .cont 0]

example : (sched State.start demoActs).map (fun s => decide (s.word = 0#64 ∧ s.alive 16#64 = true ∧ s.cnt 16#64 = 1
    ∧ s.tok = [(1, 16#64)] ∧ s.log.length = 4 ∧ s.pc 0 = .idle ∧ s.pc 1 = .idle)) = some true := by decide +kernel

/-- ... in the middle of which the word is locked, so `C49_unlocks` applies. -/
example : (sched State.start (demoActs.take 16)).map (fun s => decide (s.word = 17#64
    ∧ s.pc 0 = .cas (.set 0#64) 16#64 ∧ s.pc 1 = .add .get 16#64)) = some true := by decide +kernel

/-- ... and when the last reference goes, the object is destroyed. -/
example : (sched State.start (demoActs ++ [.release 1 16#64, .cont 1, .cont 1, .cont 1])).map
    (fun s => decide (s.alive 16#64 = false ∧ s.tok = [] ∧ s.pc 1 = .idle)) = some true := by decide +kernel

/-- ... the books of the two threads in that schedule: thread 0 created and released, thread 1 got. -/
example : booked 0 16#64 demoActs.reverse = 0 ∧ booked 1 16#64 demoActs.reverse = 0 ∧
    (sched State.start demoActs).map (fun s => decide (gotten 1 16#64 s.log = 1 ∧ gotten 0 16#64 s.log = 0)) = some true := by
  decide +kernel

/-- An `AtomicRef` constructed from a pointer holds a reference, and gives it up, with the object, when destroyed. -/
example : (sched State.start [.create 0 16#64, .make 0 16#64, .release 0 16#64, .cont 0]).map
      (fun s => decide (s.alive 16#64 = true ∧ s.cnt 16#64 = 1 ∧ s.tok = [])) = some true ∧
    (sched State.start [.create 0 16#64, .make 0 16#64, .release 0 16#64, .cont 0, .destroy 1, .cont 1, .cont 1, .cont 1]).map
      (fun s => decide (s.alive 16#64 = false ∧ s.tok = [] ∧ s.pc 1 = .idle)) = some true := by decide +kernel

end Verif.AtomicRef
