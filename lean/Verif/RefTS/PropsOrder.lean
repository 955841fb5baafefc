import Verif.RefTS.Spec
import Verif.RefTS.Props
/-!
# C92: the destructor runs after everything else
-/
namespace Verif.RefTS
open Verif

variable {T : Type} [DecidableEq T]

/-- `refcount_ += 1` and `refcount_.fetch_sub(1)` use the default order, sequentially consistent: acquire and release. am-refcounting-threadsafe.h:53, 56. -/
def codeOrders : Orders := { incAcquire := true, incRelease := true, decAcquire := true, decRelease := true }

/-- The executions of the model: the steps taken and the state reached. am-refcounting-threadsafe.h:44-112, all interleavings. -/
inductive Runs (k : Kind) (t0 : T) : List (Act T) → State T → Prop
  | start : Runs k t0 [] (State.start t0)
  | step {tr : List (Act T)} {s s' : State T} {a : Act T} : Runs k t0 tr s → step k s a = some (.ok s') → Runs k t0 (tr ++ [a]) s'

theorem runs_reachable {k : Kind} {t0 : T} {tr : List (Act T)} {s : State T} (h : Runs k t0 tr s) : Reachable k t0 s := by
  induction h with
  | start => exact .start
  | step _ h ih => exact .step ih h

theorem before_append {o : Orders} {tr : List (Act T)} (l : List (Act T)) {i j : Nat} (h : Before o tr i j) : Before o (tr ++ l) i j := by
  have up : ∀ {i : Nat} {a : Act T}, tr[i]? = some a → (tr ++ l)[i]? = some a := by
    intro i a h
    rw [List.getElem?_append_left (List.getElem?_eq_some_iff.1 h).1]; exact h
  induction h with
  | sequenced h1 h2 h3 h4 => exact .sequenced (up h1) (up h2) h3 h4
  | handed h1 h2 h3 h4 => exact .handed (up h1) (up h2) h3 h4
  | counted h1 h2 h3 h4 h5 => exact .counted (up h1) (up h2) h3 h4 h5
  | trans _ _ h1 h2 => exact .trans h1 h2

/-- Whatever thread `u` does next happens after step `i`. -/
def Known (o : Orders) (tr : List (Act T)) (i : Nat) (u : T) : Prop :=
  ∃ (k : Nat) (a : Act T), tr[k]? = some a ∧ (i = k ∨ Before o tr i k) ∧ (a.thread = u ∨ ∃ t, a = .send t u)

/-- Whatever thread decrements next and sees the count at all happens after step `i`. -/
def Counted (o : Orders) (tr : List (Act T)) (i : Nat) : Prop :=
  ∃ (k : Nat) (a : Act T), tr[k]? = some a ∧ (i = k ∨ Before o tr i k) ∧ a.isRelease o = true

theorem known_append {o : Orders} {tr : List (Act T)} (l : List (Act T)) {i : Nat} {u : T} (h : Known o tr i u) : Known o (tr ++ l) i u := by
  obtain ⟨k, a, h1, h2, h3⟩ := h
  refine ⟨k, a, ?_, h2.imp id (before_append l), h3⟩
  rw [List.getElem?_append_left (List.getElem?_eq_some_iff.1 h1).1]; exact h1

theorem counted_append {o : Orders} {tr : List (Act T)} (l : List (Act T)) {i : Nat} (h : Counted o tr i) : Counted o (tr ++ l) i := by
  obtain ⟨k, a, h1, h2, h3⟩ := h
  refine ⟨k, a, ?_, h2.imp id (before_append l), h3⟩
  rw [List.getElem?_append_left (List.getElem?_eq_some_iff.1 h1).1]; exact h1

theorem before_last {o : Orders} {tr : List (Act T)} {a : Act T} {i : Nat} (h : Known o tr i a.thread) : Before o (tr ++ [a]) i tr.length := by
  obtain ⟨k, b, h1, h2, h3⟩ := h
  have hk := (List.getElem?_eq_some_iff.1 h1).1
  have h1' : (tr ++ [a])[k]? = some b := by rw [List.getElem?_append_left hk]; exact h1
  have hl : (tr ++ [a])[tr.length]? = some a := by simp
  have hb : Before o (tr ++ [a]) k tr.length := by
    rcases h3 with h3 | ⟨t, rfl⟩
    · exact .sequenced h1' hl hk h3
    · exact .handed h1' hl hk rfl
  rcases h2 with rfl | h2
  · exact hb
  · exact .trans (before_append _ h2) hb

theorem before_last_counted {o : Orders} {tr : List (Act T)} {a : Act T} {i : Nat} (h : Counted o tr i) (ha : a.isAcquire o = true) :
    Before o (tr ++ [a]) i tr.length := by
  obtain ⟨k, b, h1, h2, h3⟩ := h
  have hk := (List.getElem?_eq_some_iff.1 h1).1
  have h1' : (tr ++ [a])[k]? = some b := by rw [List.getElem?_append_left hk]; exact h1
  have hb : Before o (tr ++ [a]) k tr.length := .counted h1' (by simp) hk h3 ha
  rcases h2 with rfl | h2
  · exact hb
  · exact .trans (before_append _ h2) hb

/-- What is true of every execution: a step that has happened is known to the count or to somebody who still owns a reference; and once a thread is in the
destroying part of `Release`, everything is known to it. -/
structure OInv (o : Orders) (tr : List (Act T)) (s : State T) : Prop where
  all : ∀ i, i < tr.length → s.alive = true → (∀ t, s.pc t = .idle) → Counted o tr i ∨ ∃ u ∈ s.tok, Known o tr i u
  dying : ∀ t, s.pc t ≠ .idle → ∀ i, i < tr.length → Known o tr i t

theorem oinv_step {t0 : T} {tr : List (Act T)} {s s' : State T} {a : Act T} (hr : Runs .plain t0 tr s) (ho : OInv codeOrders tr s)
    (h : step .plain s a = some (.ok s')) : OInv codeOrders (tr ++ [a]) s' := by
  have hi := inv_reachable (runs_reachable hr)
  have hi' := inv_step hi h
  have hlast : (tr ++ [a])[tr.length]? = some a := by simp
  have self : Known codeOrders (tr ++ [a]) tr.length a.thread := ⟨tr.length, a, hlast, .inl rfl, .inl rfl⟩
  have split_i : ∀ {i : Nat}, i < (tr ++ [a]).length → i < tr.length ∨ i = tr.length := by
    intro i h; simp at h; omega
  cases a with
  | addRef t =>
    simp only [step] at h
    split at h
    · rename_i hc
      have hne : s.tok ≠ [] := List.ne_nil_of_mem hc.2
      obtain ⟨ha, hp⟩ := hi.used hne
      rw [if_neg (by simp [ha]), if_neg (by simp)] at h
      injection h with h; injection h with h
      subst h
      refine ⟨fun i hl _ _ => ?_, fun u hu => (hu (hp u)).elim⟩
      rcases split_i hl with hl | rfl
      · rcases ho.all i hl ha hp with h | ⟨u, hu, h⟩
        · exact .inl (counted_append _ h)
        · exact .inr ⟨u, List.mem_cons_of_mem _ hu, known_append _ h⟩
      · exact .inr ⟨t, by simp, self⟩
    · cases h
  | use t =>
    simp only [step] at h
    split at h
    · rename_i hc
      have hne : s.tok ≠ [] := List.ne_nil_of_mem hc.2
      obtain ⟨ha, hp⟩ := hi.used hne
      rw [if_neg (by simp [ha])] at h
      injection h with h; injection h with h
      subst h
      refine ⟨fun i hl _ _ => ?_, fun u hu => (hu (hp u)).elim⟩
      rcases split_i hl with hl | rfl
      · rcases ho.all i hl ha hp with h | ⟨u, hu, h⟩
        · exact .inl (counted_append _ h)
        · exact .inr ⟨u, hu, known_append _ h⟩
      · exact .inr ⟨t, hc.2, self⟩
    · cases h
  | send t v =>
    simp only [step] at h
    split at h
    · rename_i hc
      have hne : s.tok ≠ [] := List.ne_nil_of_mem hc.2
      obtain ⟨ha, hp⟩ := hi.used hne
      simp only [Option.some.injEq, Except.ok.injEq] at h
      subst h
      refine ⟨fun i hl _ _ => ?_, fun u hu => (hu (hp u)).elim⟩
      rcases split_i hl with hl | rfl
      · rcases ho.all i hl ha hp with h | ⟨u, hu, h⟩
        · exact .inl (counted_append _ h)
        · by_cases hut : u = t
          · subst hut
            exact .inr ⟨v, by simp, tr.length, .send u v, hlast, .inr (before_last h), .inr ⟨u, rfl⟩⟩
          · exact .inr ⟨u, List.mem_cons_of_mem _ ((List.mem_erase_of_ne hut).2 hu), known_append _ h⟩
      · exact .inr ⟨v, by simp, tr.length, .send t v, hlast, .inl rfl, .inr ⟨t, rfl⟩⟩
    · cases h
  | release t =>
    simp only [step] at h
    split at h
    · rename_i hc
      have hne : s.tok ≠ [] := List.ne_nil_of_mem hc.2
      obtain ⟨ha, hp⟩ := hi.used hne
      rw [if_neg (by simp [ha])] at h
      injection h with h; injection h with h
      subst h
      refine ⟨fun i hl _ _ => ?_, fun u hu i hl => ?_⟩
      · rcases split_i hl with hl | rfl
        · rcases ho.all i hl ha hp with h | ⟨u, hu, h⟩
          · exact .inl (counted_append _ h)
          · by_cases hut : u = t
            · subst hut
              exact .inl ⟨tr.length, .release u, hlast, .inr (before_last h), rfl⟩
            · exact .inr ⟨u, (List.mem_erase_of_ne hut).2 hu, known_append _ h⟩
        · exact .inl ⟨tr.length, .release t, hlast, .inl rfl, rfl⟩
      · have hut : u = t := by
          by_cases e : u = t
          · exact e
          · simp [setPc, e, hp] at hu
        subst hut
        have h1 : s.cnt = 1 := by
          by_cases e : s.cnt = 1
          · exact e
          · simp [setPc, Kind.last, e] at hu
        have htok : ∀ v ∈ s.tok, v = u := by
          have hl1 : s.tok.length = 1 := by rw [← hi.cnt, h1]
          match hm : s.tok, hl1, hc.2 with
          | [w], _, hw =>
            simp only [List.mem_singleton] at hw
            intro v hv
            simp only [List.mem_singleton] at hv
            rw [hv, hw]
        rcases split_i hl with hl | rfl
        · refine ⟨tr.length, .release u, hlast, .inr ?_, .inl rfl⟩
          rcases ho.all i hl ha hp with h | ⟨v, hv, h⟩
          · exact before_last_counted h rfl
          · rw [htok v hv] at h
            exact before_last (a := .release u) h
        · exact self
    · cases h
  | cont t =>
    have hpt : s.pc t ≠ .idle := by
      intro e; simp [step, e] at h
    have he : s.tok = [] := Decidable.by_contra fun hne => hpt ((hi.used hne).2 t)
    have ha : s.alive = true := by
      cases h : s.alive with
      | true => rfl
      | false => exact (hpt (hi.dead h t)).elim
    obtain ⟨w, -, hw⟩ := hi.ends he ha
    refine ⟨fun i hl ha' hp' => ?_, fun u hu i hl => ?_⟩
    · exfalso
      cases hpc : s.pc t with
      | idle => exact hpt hpc
      | check =>
        have h0 : s.cnt = 0 := by rw [hi.cnt, he]; rfl
        simp only [step, hpc, ha, h0, ne_eq, not_true_eq_false, reduceCtorEq, if_false, Option.some.injEq, Except.ok.injEq] at h
        subst h
        have := hp' t
        simp [setPc] at this
      | del =>
        simp only [step, hpc, ha, reduceCtorEq, if_false, Option.some.injEq, Except.ok.injEq] at h
        subst h
        simp [setPc] at ha'
    · have hut : u = t := by
        by_cases e : u = t
        · exact e
        · have hu' : s.pc u ≠ .idle := by
            intro hq
            apply hu
            cases hpc : s.pc t with
            | idle => exact (hpt hpc).elim
            | check =>
              have h0 : s.cnt = 0 := by rw [hi.cnt, he]; rfl
              simp only [step, hpc, ha, h0, ne_eq, not_true_eq_false, reduceCtorEq, if_false, Option.some.injEq, Except.ok.injEq] at h
              subst h
              simp [setPc, e, hq]
            | del =>
              simp only [step, hpc, ha, reduceCtorEq, if_false, Option.some.injEq, Except.ok.injEq] at h
              subst h
              simp [setPc, e, hq]
          rw [hw u hu', hw t hpt]
      subst hut
      rcases split_i hl with hl | rfl
      · exact known_append _ (ho.dying u hpt i hl)
      · exact self

theorem oinv_runs {t0 : T} {tr : List (Act T)} {s : State T} (h : Runs .plain t0 tr s) : OInv codeOrders tr s := by
  induction h with
  | start => exact ⟨fun i hl => by simp at hl, fun t ht => (ht rfl).elim⟩
  | step hr h ih => exact oinv_step hr ih h

/-- C92: the destructor of an object derived from `RefcountedThreadsafe` runs after everything any thread did with the object: all earlier steps of the
execution (all accesses, `AddRef`s and `Release`s of all threads) happen before the step that destroys it, so that none of them races with the destructor;
and none comes after it. -/
theorem C92_destructor_last (t0 t : T) (tr : List (Act T)) (s s' : State T) (h : Runs .plain t0 tr s) (hs : step .plain s (.cont t) = some (.ok s'))
    (hd : s'.deleted = 1) :
    (∀ i, i < tr.length → Before codeOrders (tr ++ [.cont t]) i tr.length) ∧ ∀ a, step .plain s' a = none := by
  have hpt : s.pc t ≠ .idle := by
    intro e; simp [step, e] at hs
  refine ⟨fun i hl => before_last ((oinv_runs h).dying t hpt i hl), ?_⟩
  have hi := inv_reachable (.step (runs_reachable h) hs)
  have hal : s'.alive = false := by
    have := hi.del
    rw [hd] at this
    cases e : s'.alive with
    | false => rfl
    | true => rw [e] at this; cases this
  have htok : s'.tok = [] := Decidable.by_contra fun hne => by
    have := (hi.used hne).1
    rw [hal] at this; cases this
  have hp := hi.dead hal
  intro a
  cases a <;> simp [step, htok, hp]

/-- A run as a list of steps. -/
theorem sched_runs {k : Kind} {t0 : Nat} : ∀ (as tr : List (Act Nat)) (s s' : State Nat), Runs k t0 tr s → sched k s as = some s' → Runs k t0 (tr ++ as) s'
  | [], tr, s, s', h, he => by simp only [sched, Option.some.injEq] at he; rw [List.append_nil]; exact he ▸ h
  | a :: as, tr, s, s', h, he => by
    simp only [sched] at he
    split at he
    · rename_i s1 h1
      have := sched_runs as (tr ++ [a]) s1 s' (.step h h1) he
      rwa [List.append_assoc] at this
    · cases he

/-- Two threads use the object, the second one releases first, the first one destroys. -/
def demoTrace : List (Act Nat) := [.addRef 0, .send 0 1, .use 1, .use 0, .release 1, .release 0, .cont 0]

example : Before codeOrders (demoTrace ++ [.cont 0]) 2 7 := by
  obtain ⟨s, hs⟩ : ∃ s, sched .plain (State.start 0) demoTrace = some s := ⟨_, rfl⟩
  have hr := sched_runs demoTrace [] _ _ .start hs
  injection hs with hs
  subst hs
  exact (C92_destructor_last 0 0 demoTrace _ _ hr rfl rfl).1 2 (by decide)

/-- The theorem has content: if the decrement were not an acquire operation, the access of the second thread (step 2) would not happen before the destructor. -/
example : ¬ Before { codeOrders with incAcquire := false, decAcquire := false } (demoTrace ++ [.cont 0]) 2 7 := by
  have key : ∀ i j, Before { codeOrders with incAcquire := false, decAcquire := false } (demoTrace ++ [.cont 0]) i j → i = 2 ∨ i = 4 → j = 4 := by
    intro i j h
    induction h with
    | @sequenced i j a b h1 h2 h3 h4 =>
      intro hij
      have hb : b.thread = 1 := by
        rw [← h4]
        rcases hij with rfl | rfl
        · cases h1; rfl
        · cases h1; rfl
      match j, h2 with
      | 0, h2 => cases h2; cases hb
      | 1, h2 => cases h2; cases hb
      | 2, h2 => omega
      | 3, h2 => cases h2; cases hb
      | 4, h2 => rfl
      | 5, h2 => cases h2; cases hb
      | 6, h2 => cases h2; cases hb
      | 7, h2 => cases h2; cases hb
      | j + 8, h2 => simp [demoTrace] at h2
    | handed h1 _ _ _ =>
      rintro (rfl | rfl) <;> cases h1
    | @counted i j a b h1 h2 h3 h4 h5 => cases b <;> cases h5
    | trans _ _ h1 h2 => intro hij; exact h2 (.inr (h1 hij))
  intro h
  have := key 2 7 h (.inl rfl)
  omega

end Verif.RefTS
