import Verif.AtomicRef.SpecOrder
import Verif.AtomicRef.Lemmas
import Verif.RefTS.PropsOrder
/-!
# Happens-before invariant of `AtomicRef`
-/
namespace Verif.AtomicRef
open Verif
open Verif.RefTS (Orders codeOrders)

set_option linter.unusedSimpArgs false
set_option linter.unusedSectionVars false

variable {T : Type} [DecidableEq T]

/-- What a step does to counted objects. am-refcounting-threadsafe.h:53 (`inc`), 56 (`dec`), 57 (`check`), 58 (`died`), reached from 132-141, 148-149, 157-161; `born` and `use` are the client's. -/
def deed (s : State T) : Act T → Option (Deed T)
  | .make t n => if n = 0 then none else some (.inc t n)
  | .destroy _ | .get _ | .set _ _ | .release _ _ | .stale _ _ => none
  | .addRef t a => some (.inc t a)
  | .use t a => some (.use t a)
  | .send t u _ => some (.gave t u)
  | .create t a => some (.born t a)
  | .cont t => match s.pc t with
    | .add j v => if j.newval v = 0 then none else some (.inc t (j.newval v))
    | .rel a => some (.dec t a)
    | .relCheck a => some (.check t a)
    | .relDelete a => some (.died t a)
    | _ => none

/-- The executions with their history, earliest first. am-refcounting-threadsafe.h:124-202, all interleavings. -/
inductive Story : List (Deed T) → State T → Prop
  | start : Story [] State.start
  | step {tr : List (Deed T)} {s s' : State T} {a : Act T} : Story tr s → Allowed s a → step s a = some (.ok s') → Story (tr ++ (deed s a).toList) s'

theorem story_reachable {tr : List (Deed T)} {s : State T} (h : Story tr s) : Reachable s := by
  induction h with
  | start => exact ⟨[], .start⟩
  | step _ ha hs ih =>
    obtain ⟨as, h⟩ := ih
    exact ⟨_, .step h ha hs⟩

theorem get_append {α : Type} {tr l : List α} {i : Nat} {a : α} (h : tr[i]? = some a) : (tr ++ l)[i]? = some a := by
  rw [List.getElem?_append_left (List.getElem?_eq_some_iff.1 h).1]; exact h

theorem get_back {α : Type} {tr l : List α} {i : Nat} (h : i < tr.length) : (tr ++ l)[i]? = tr[i]? := List.getElem?_append_left h

theorem before_append {o : Orders} {tr : List (Deed T)} (l : List (Deed T)) {i j : Nat} (h : Before o tr i j) : Before o (tr ++ l) i j := by
  induction h with
  | sequenced h1 h2 h3 h4 => exact .sequenced (get_append h1) (get_append h2) h3 h4
  | handed h1 h2 h3 h4 => exact .handed (get_append h1) (get_append h2) h3 h4
  | counted h1 h2 h3 h4 h5 h6 =>
    refine .counted (get_append h1) (get_append h2) h3 h4 h5 fun k t hk1 hk2 => ?_
    rw [get_back (by have := (List.getElem?_eq_some_iff.1 h2).1; omega)]
    exact h6 k t hk1 hk2
  | reused h1 h2 h3 => exact .reused (get_append h1) (get_append h2) h3
  | trans _ _ h1 h2 => exact .trans h1 h2

/-- Whatever thread `u` does next happens after deed `i`. -/
def Known (tr : List (Deed T)) (i : Nat) (u : T) : Prop :=
  ∃ (k : Nat) (a : Deed T), tr[k]? = some a ∧ (i = k ∨ Before codeOrders tr i k) ∧ (a.thread = u ∨ ∃ t, a = .gave t u)

/-- Whoever next changes the count of the object at `p` does so after deed `i`. -/
def Counted (tr : List (Deed T)) (i : Nat) (p : Word) : Prop :=
  ∃ (k : Nat) (a : Deed T), tr[k]? = some a ∧ (i = k ∨ Before codeOrders tr i k) ∧ a.releases codeOrders p = true ∧
    ∀ (m : Nat) (t : T), k < m → tr[m]? ≠ some (.born t p)

/-- Deed `i` is done to the object at `p`. -/
def About (tr : List (Deed T)) (i : Nat) (p : Word) : Prop := ∃ a : Deed T, tr[i]? = some a ∧ a.object = some p

def Born (tr : List (Deed T)) (i : Nat) (p : Word) : Prop := ∃ t : T, tr[i]? = some (.born t p)

theorem Born.about {tr : List (Deed T)} {i : Nat} {p : Word} (h : Born tr i p) : About tr i p := by
  obtain ⟨t, h⟩ := h; exact ⟨_, h, rfl⟩

theorem known_append (l : List (Deed T)) {tr : List (Deed T)} {i : Nat} {u : T} (h : Known tr i u) : Known (tr ++ l) i u := by
  obtain ⟨k, a, h1, h2, h3⟩ := h
  exact ⟨k, a, get_append h1, h2.imp id (before_append l), h3⟩

theorem counted_append {tr : List (Deed T)} {d : Deed T} {i : Nat} {p : Word} (h : Counted tr i p) (hd : ∀ t, d ≠ .born t p) : Counted (tr ++ [d]) i p := by
  obtain ⟨k, a, h1, h2, h3, h4⟩ := h
  refine ⟨k, a, get_append h1, h2.imp id (before_append _), h3, fun m t hm => ?_⟩
  by_cases hl : m < tr.length
  · rw [get_back hl]; exact h4 m t hm
  · intro e
    have : m = tr.length := by
      have := (List.getElem?_eq_some_iff.1 e).1
      simp at this; omega
    subst this
    simp at e
    exact hd t e

theorem about_append {tr : List (Deed T)} {d : Deed T} {i : Nat} {p : Word} (h : About (tr ++ [d]) i p) : About tr i p ∨ (i = tr.length ∧ d.object = some p) := by
  obtain ⟨a, h1, h2⟩ := h
  have hl := (List.getElem?_eq_some_iff.1 h1).1
  by_cases hi : i < tr.length
  · left; exact ⟨a, by rw [get_back hi] at h1; exact h1, h2⟩
  · right
    simp at hl
    have : i = tr.length := by omega
    subst this
    simp at h1
    subst h1
    exact ⟨rfl, h2⟩

theorem born_append {tr : List (Deed T)} {d : Deed T} {i : Nat} {p : Word} (h : Born (tr ++ [d]) i p) : Born tr i p ∨ (i = tr.length ∧ ∃ t, d = .born t p) := by
  obtain ⟨t, h1⟩ := h
  have hl := (List.getElem?_eq_some_iff.1 h1).1
  by_cases hi : i < tr.length
  · left; exact ⟨t, by rw [get_back hi] at h1; exact h1⟩
  · right
    simp at hl
    have : i = tr.length := by omega
    subst this
    simp at h1
    exact ⟨rfl, t, h1⟩

theorem known_self (tr : List (Deed T)) (d : Deed T) : Known (tr ++ [d]) tr.length d.thread := ⟨tr.length, d, by simp, .inl rfl, .inl rfl⟩

theorem known_before {tr : List (Deed T)} {d : Deed T} {i : Nat} (h : Known tr i d.thread) : Before codeOrders (tr ++ [d]) i tr.length := by
  obtain ⟨k, b, h1, h2, h3⟩ := h
  have hk := (List.getElem?_eq_some_iff.1 h1).1
  have hb : Before codeOrders (tr ++ [d]) k tr.length := by
    rcases h3 with h3 | ⟨t, rfl⟩
    · exact .sequenced (get_append h1) (by simp) hk h3
    · exact .handed (get_append h1) (by simp) hk rfl
  rcases h2 with rfl | h2
  · exact hb
  · exact .trans (before_append _ h2) hb

theorem counted_before {tr : List (Deed T)} {d : Deed T} {i : Nat} {p : Word} (h : Counted tr i p) (hd : d.acquires codeOrders p = true) :
    Before codeOrders (tr ++ [d]) i tr.length := by
  obtain ⟨k, b, h1, h2, h3, h4⟩ := h
  have hk := (List.getElem?_eq_some_iff.1 h1).1
  have hb : Before codeOrders (tr ++ [d]) k tr.length := by
    refine .counted (get_append h1) (by simp) hk h3 hd fun m t hm1 hm2 => ?_
    rw [get_back hm2]; exact h4 m t hm1
  rcases h2 with rfl | h2
  · exact hb
  · exact .trans (before_append _ h2) hb

theorem known_of_before {tr : List (Deed T)} {d : Deed T} {i : Nat} (h : Before codeOrders (tr ++ [d]) i tr.length) : Known (tr ++ [d]) i d.thread :=
  ⟨tr.length, d, by simp, .inr h, .inl rfl⟩

theorem counted_of_before {tr : List (Deed T)} {d : Deed T} {i : Nat} {p : Word} (h : i = tr.length ∨ Before codeOrders (tr ++ [d]) i tr.length)
    (hd : d.releases codeOrders p = true) : Counted (tr ++ [d]) i p := by
  refine ⟨tr.length, d, by simp, h, hd, fun m t hm e => ?_⟩
  have := (List.getElem?_eq_some_iff.1 e).1
  simp at this; omega

/-- The thread has taken the reference that it is going to put into the `AtomicRef`. -/
def PC.taken : PC → Option Word
  | .chk1 (.set n) _ | .chk2 (.set n) _ _ | .store (.set n) _ => if n = 0 then none else some n
  | _ => none

structure OInv (tr : List (Deed T)) (s : State T) : Prop where
  held : ∀ p, s.alive p = true → 0 < refs s p → ∀ i, About tr i p → Counted tr i p ∨ ∃ u, (u, p) ∈ s.tok ∧ Known tr i u
  dying : ∀ t p, (s.pc t).dels = some p → ∀ i, About tr i p → Known tr i t
  tok : ∀ u p, (u, p) ∈ s.tok → ∀ i, Born tr i p → Known tr i u ∨ (s.pc u = .rel p ∧ Counted tr i p)
  word : ∀ p, p ≠ 0 → untagged s.word = p → ∀ i, Born tr i p → Counted tr i p
  taken : ∀ t n, (s.pc t).taken = some n → (∀ i, Born tr i n → Counted tr i n) ∧ 2 ≤ s.tok.count (t, n)
  dead : ∀ p, s.alive p = false → ∀ i, About tr i p → ∃ (d : Nat) (t : T), tr[d]? = some (.died t p) ∧ (i = d ∨ Before codeOrders tr i d)
  live : ∀ p, s.alive p = true → ∃ k, Born tr k p ∧ ∀ (d : Nat) (t : T), tr[d]? = some (.died t p) → d < k
  free : RaceFree codeOrders tr

/-- A new deed keeps the history free of races if it is ordered with the exclusive deeds before it. -/
theorem free_append {tr : List (Deed T)} (h : RaceFree codeOrders tr) (d : Deed T)
    (hd : ∀ p, d.object = some p → ∀ (i : Nat) (a : Deed T), tr[i]? = some a → a.object = some p → (a.exclusive = true ∨ d.exclusive = true) →
      Before codeOrders (tr ++ [d]) i tr.length) : RaceFree codeOrders (tr ++ [d]) := by
  intro i j a b p hij hi hj ha hb he
  have hl := (List.getElem?_eq_some_iff.1 hj).1
  by_cases hjl : j < tr.length
  · rw [get_back hjl] at hj
    rw [get_back (by omega)] at hi
    exact before_append _ (h i j a b p hij hi hj ha hb he)
  · simp at hl
    have : j = tr.length := by omega
    subst this
    simp at hj
    subst hj
    rw [get_back hij] at hi
    exact hd p hb i a hi ha he

/-- The same for a deed on a live object that is neither its construction nor its destruction: it is enough that it is ordered with the construction. -/
theorem free_touch {tr : List (Deed T)} {s : State T} (ho : OInv tr s) {d : Deed T} {p : Word} (hd : d.object = some p) (hx : d.exclusive = false)
    (ha : s.alive p = true) (hb : ∀ i, Born tr i p → Before codeOrders (tr ++ [d]) i tr.length) : RaceFree codeOrders (tr ++ [d]) := by
  apply free_append ho.free
  intro q hq i a hi hao he
  rw [hd] at hq; injection hq with hq; subst hq
  rw [hx] at he
  have he := he.resolve_right (by simp)
  cases a with
  | born t b =>
    injection hao with hao; subst hao
    exact hb i ⟨t, hi⟩
  | died t b =>
    injection hao with hao; subst hao
    obtain ⟨k, hk, hlt⟩ := ho.live b ha
    have hik := hlt i t hi
    obtain ⟨u, hk'⟩ := hk
    exact .trans (before_append _ (ho.free i k _ _ b hik hi hk' rfl rfl (.inl rfl))) (hb k ⟨u, hk'⟩)
  | _ => cases he

theorem refs_congr {s s' : State T} (ht : s'.tok = s.tok) (hw : untagged s'.word = untagged s.word) (p : Word) : refs s' p = refs s p := by
  unfold refs; rw [ht, hw]

/-- A step that does nothing to objects and moves no reference. -/
theorem oinv_quiet {tr : List (Deed T)} {s s' : State T} (ho : OInv tr s) (t : T) (q : PC) (ht : s'.tok = s.tok) (ha : s'.alive = s.alive)
    (hw : untagged s'.word = untagged s.word) (hp : ∀ u, s'.pc u = if u = t then q else s.pc u) (hd : q.dels = none) (hr : ∀ p, s.pc t ≠ .rel p)
    (hk : q.taken = none ∨ q.taken = (s.pc t).taken) : OInv tr s' := by
  refine ⟨?_, ?_, ?_, ?_, ?_, ?_, ?_, ho.free⟩
  · intro p h1 h2 i hi
    rw [ha] at h1; rw [refs_congr ht hw] at h2
    rw [ht]; exact ho.held p h1 h2 i hi
  · intro u p h i hi
    rw [hp] at h
    split at h
    · rw [hd] at h; cases h
    · exact ho.dying u p h i hi
  · intro u p h i hi
    rw [ht] at h
    rcases ho.tok u p h i hi with h | ⟨h1, h2⟩
    · exact .inl h
    · refine .inr ⟨?_, h2⟩
      rw [hp, if_neg]
      · exact h1
      · rintro rfl; exact hr _ h1
  · intro p h0 h i hi
    exact ho.word p h0 (by rw [← hw]; exact h) i hi
  · intro u n h
    rw [ht]
    rw [hp] at h
    split at h
    · rename_i e; subst e
      rcases hk with hk | hk
      · rw [hk] at h; cases h
      · exact ho.taken u n (by rw [← hk]; exact h)
    · exact ho.taken u n h
  · intro p h; rw [ha] at h; exact ho.dead p h
  · intro p h; rw [ha] at h; exact ho.live p h

/-- A deed that is not a construction or destruction, by thread `t` on the object at `p`; references of `t` to that object may be added. -/
theorem oinv_touch {tr : List (Deed T)} {s s' : State T} (ho : OInv tr s) (d : Deed T) (p : Word) (q : PC) (hdo : d.object = some p) (hx : d.exclusive = false)
    (halive : s.alive p = true) (hb : ∀ i, Born tr i p → Before codeOrders (tr ++ [d]) i tr.length)
    (ht : s'.tok = s.tok ∨ s'.tok = (d.thread, p) :: s.tok) (ha : s'.alive = s.alive)
    (hw : untagged s'.word = untagged s.word ∨ (untagged s'.word = p ∧ untagged s.word = 0)) (hp : ∀ u, s'.pc u = if u = d.thread then q else s.pc u)
    (hd : ∀ r, q.dels = some r → r = p ∧ (s.pc d.thread).dels = some p) (hr : ∀ r, s.pc d.thread ≠ .rel r)
    (hk : q.taken = none ∨ q.taken = (s.pc d.thread).taken ∨ (q.taken = some p ∧ (d.thread, p) ∈ s.tok ∧ s'.tok = (d.thread, p) :: s.tok ∧ d.releases codeOrders p = true))
    (hz : ∀ r, s.alive r = true → r ≠ 0)
    (hown : (d.thread, p) ∈ s'.tok ∨ d.releases codeOrders p = true ∨ (s.pc d.thread).dels = some p ∧ refs s' p = 0)
    (hnd : ∀ u, u ≠ d.thread → (s.pc u).dels ≠ some p)
    (hwr : untagged s'.word = p → untagged s.word ≠ p → d.releases codeOrders p = true) (hrf : 0 < refs s p ∨ refs s' p = 0) : OInv (tr ++ [d]) s' := by
  have hnb : ∀ r t, d ≠ .born t r := by intro r t e; subst e; cases hx
  have hbi : ∀ {i r}, Born (tr ++ [d]) i r → Born tr i r := by
    intro i r h
    rcases born_append h with h | ⟨-, t, e⟩
    · exact h
    · exact (hnb r t e).elim
  have htm : ∀ {x}, x ∈ s.tok → x ∈ s'.tok := by
    intro x hx
    rcases ht with ht | ht
    · rw [ht]; exact hx
    · rw [ht]; exact List.mem_cons_of_mem _ hx
  refine ⟨?_, ?_, ?_, ?_, ?_, ?_, ?_, free_touch ho hdo hx halive hb⟩
  · intro r h1 h2 i hi
    rw [ha] at h1
    rcases about_append hi with hi | ⟨rfl, hi'⟩
    · have h2' : 0 < refs s r := by
        by_cases e : r = p
        · subst e; exact hrf.resolve_right (by omega)
        · unfold refs at h2 ⊢
          rcases hw with hw | ⟨hw, hw0⟩
          · rw [hw] at h2
            rcases ht with ht | ht
            · rw [ht] at h2; exact h2
            · rw [ht, List.countP_cons] at h2; simp [Ne.symm e] at h2; simpa using h2
          · rw [hw, if_neg (Ne.symm e)] at h2
            rcases ht with ht | ht
            · rw [ht] at h2; omega
            · rw [ht, List.countP_cons] at h2; simp [Ne.symm e] at h2
              have : 0 < s.tok.countP (fun p => decide (p.2 = r)) := by simpa using h2
              omega
      rcases ho.held r h1 h2' i hi with h | ⟨u, hu, h⟩
      · exact .inl (counted_append h (hnb r))
      · exact .inr ⟨u, htm hu, known_append _ h⟩
    · rw [hdo] at hi'; injection hi' with hi'; subst hi'
      rcases hown with h | h | ⟨-, h⟩
      · exact .inr ⟨_, h, known_self tr d⟩
      · exact .inl (counted_of_before (.inl rfl) h)
      · omega
  · intro u r h i hi
    rw [hp] at h
    split at h
    · rename_i e; subst e
      obtain ⟨rfl, hdl⟩ := hd r h
      rcases about_append hi with hi | ⟨rfl, -⟩
      · exact known_append _ (ho.dying _ _ hdl i hi)
      · exact known_self tr d
    · rename_i hne
      rcases about_append hi with hi' | ⟨rfl, hi'⟩
      · exact known_append _ (ho.dying u r h i hi')
      · exfalso
        rw [hdo] at hi'; injection hi' with hi'; subst hi'
        exact hnd u hne h
  · intro u r h i hi
    have hi := hbi hi
    by_cases hm : (u, r) ∈ s.tok
    · rcases ho.tok u r hm i hi with h | ⟨h1, h2⟩
      · exact .inl (known_append _ h)
      · refine .inr ⟨?_, counted_append h2 (hnb r)⟩
        rw [hp, if_neg]
        · exact h1
        · rintro rfl; exact hr _ h1
    · rcases ht with ht | ht
      · rw [ht] at h; exact (hm h).elim
      · rw [ht] at h
        rcases List.mem_cons.1 h with e | h
        · cases e
          exact .inl (known_of_before (hb i hi))
        · exact (hm h).elim
  · intro r h0 h i hi
    have hi := hbi hi
    by_cases hwp : untagged s.word = r
    · exact counted_append (ho.word r h0 hwp i hi) (hnb r)
    · rcases hw with hw | ⟨hw, -⟩
      · exact (hwp (by rw [← hw]; exact h)).elim
      · rw [hw] at h; subst h
        exact counted_of_before (.inr (hb i hi)) (hwr hw hwp)
  · intro u n h
    rw [hp] at h
    have old : (s.pc u).taken = some n → (∀ i, Born (tr ++ [d]) i n → Counted (tr ++ [d]) i n) ∧ 2 ≤ s'.tok.count (u, n) := by
      intro h
      obtain ⟨h1, h2⟩ := ho.taken u n h
      refine ⟨fun i hi => counted_append (h1 i (hbi hi)) (hnb n), ?_⟩
      rcases ht with ht | ht
      · rw [ht]; exact h2
      · rw [ht, List.count_cons]; omega
    split at h
    · rename_i e; subst e
      rcases hk with hk | hk | ⟨hk, hk1, hk2, hk3⟩
      · rw [hk] at h; cases h
      · exact old (by rw [← hk]; exact h)
      · rw [hk] at h; injection h with h; subst h
        refine ⟨fun i hi => counted_of_before (.inr (hb i (hbi hi))) hk3, ?_⟩
        rw [hk2, List.count_cons]
        have := List.count_pos_iff.2 hk1
        simp; omega
    · exact old h
  · intro r h i hi
    rw [ha] at h
    rcases about_append hi with hi | ⟨-, hi⟩
    · obtain ⟨k, t, h1, h2⟩ := ho.dead r h i hi
      exact ⟨k, t, get_append h1, h2.imp id (before_append _)⟩
    · rw [hdo] at hi; injection hi with hi; subst hi
      rw [halive] at h; cases h
  · intro r h
    rw [ha] at h
    obtain ⟨k, hk, hl⟩ := ho.live r h
    refine ⟨k, ⟨hk.choose, get_append hk.choose_spec⟩, fun m t hm => ?_⟩
    by_cases hml : m < tr.length
    · rw [get_back hml] at hm; exact hl m t hm
    · have := (List.getElem?_eq_some_iff.1 hm).1
      simp at this
      have : m = tr.length := by omega
      subst this
      simp at hm
      subst hm; cases hx

theorem live_append {tr : List (Deed T)} {d : Deed T} {r : Word} (h : ∃ k, Born tr k r ∧ ∀ (d : Nat) (t : T), tr[d]? = some (.died t r) → d < k)
    (hd : ∀ t, d ≠ .died t r) : ∃ k, Born (tr ++ [d]) k r ∧ ∀ (m : Nat) (t : T), (tr ++ [d])[m]? = some (.died t r) → m < k := by
  obtain ⟨k, hk, hl⟩ := h
  refine ⟨k, ⟨hk.choose, get_append hk.choose_spec⟩, fun m t hm => ?_⟩
  by_cases hml : m < tr.length
  · rw [get_back hml] at hm; exact hl m t hm
  · have := (List.getElem?_eq_some_iff.1 hm).1
    simp at this
    have : m = tr.length := by omega
    subst this
    simp at hm
    exact (hd t hm).elim

theorem dead_append {tr : List (Deed T)} {r : Word} {i : Nat} (d : Deed T)
    (h : ∃ (d : Nat) (t : T), tr[d]? = some (.died t r) ∧ (i = d ∨ Before codeOrders tr i d)) :
    ∃ (k : Nat) (t : T), (tr ++ [d])[k]? = some (.died t r) ∧ (i = k ∨ Before codeOrders (tr ++ [d]) i k) := by
  obtain ⟨k, t, h1, h2⟩ := h
  exact ⟨k, t, get_append h1, h2.imp id (before_append _)⟩

/-- A step that does nothing to objects but moves references between the `AtomicRef` and the thread. -/
theorem oinv_move {tr : List (Deed T)} {s s' : State T} (ho : OInv tr s) (t : T) (q : PC) (ha : s'.alive = s.alive)
    (hrf : ∀ p, s.alive p = true → 0 < refs s' p → 0 < refs s p)
    (hin : ∀ x, x ∈ s.tok → x ∈ s'.tok)
    (hout : ∀ u r, (u, r) ∈ s'.tok → (u, r) ∈ s.tok ∨ (u = t ∧ q = .rel r ∧ untagged s.word = r ∧ r ≠ 0))
    (hw : ∀ p, p ≠ 0 → untagged s'.word = p → untagged s.word = p ∨ (s.pc t).taken = some p)
    (hp : ∀ u, s'.pc u = if u = t then q else s.pc u) (hd : q.dels = none) (hk : q.taken = none) (hr : ∀ p, s.pc t ≠ .rel p)
    (hc : ∀ u n, u ≠ t → s.tok.count (u, n) ≤ s'.tok.count (u, n)) : OInv tr s' := by
  refine ⟨?_, ?_, ?_, ?_, ?_, ?_, ?_, ho.free⟩
  · intro p h1 h2 i hi
    rw [ha] at h1
    rcases ho.held p h1 (hrf p h1 h2) i hi with h | ⟨u, hu, h⟩
    · exact .inl h
    · exact .inr ⟨u, hin _ hu, h⟩
  · intro u p h i hi
    rw [hp] at h
    split at h
    · rw [hd] at h; cases h
    · exact ho.dying u p h i hi
  · intro u p h i hi
    rcases hout u p h with h | ⟨rfl, rfl, h1, h2⟩
    · rcases ho.tok u p h i hi with h | ⟨h1, h2⟩
      · exact .inl h
      · refine .inr ⟨?_, h2⟩
        rw [hp, if_neg]
        · exact h1
        · rintro rfl; exact hr _ h1
    · exact .inr ⟨by rw [hp, if_pos rfl], ho.word p h2 h1 i hi⟩
  · intro p h0 h i hi
    rcases hw p h0 h with h | h
    · exact ho.word p h0 h i hi
    · exact (ho.taken t p h).1 i hi
  · intro u n h
    rw [hp] at h
    split at h
    · rw [hk] at h; cases h
    · rename_i hne
      obtain ⟨h1, h2⟩ := ho.taken u n h
      exact ⟨h1, Nat.le_trans h2 (hc u n hne)⟩
  · intro p h; rw [ha] at h; exact ho.dead p h
  · intro p h; rw [ha] at h; exact ho.live p h

/-- Handing a reference over. -/
theorem oinv_gave {tr : List (Deed T)} {s s' : State T} (ho : OInv tr s) (t u : T) (p : Word) (hm : (t, p) ∈ s.tok) (hidle : s.pc t = .idle)
    (ht : s'.tok = (u, p) :: s.tok.erase (t, p)) (ha : s'.alive = s.alive) (hw : s'.word = s.word) (hp : s'.pc = s.pc) :
    OInv (tr ++ [.gave t u]) s' := by
  have hnb : ∀ r w, (.gave t u : Deed T) ≠ .born w r := by intro r w e; cases e
  have hab : ∀ {i r}, About (tr ++ [.gave t u]) i r → About tr i r := by
    intro i r h
    rcases about_append h with h | ⟨-, h⟩
    · exact h
    · cases h
  have hbi : ∀ {i r}, Born (tr ++ [.gave t u]) i r → Born tr i r := by
    intro i r h
    rcases born_append h with h | ⟨-, w, e⟩
    · exact h
    · cases e
  have hkn : ∀ {i}, Known tr i t → Known (tr ++ [.gave t u]) i u := by
    intro i h
    exact ⟨tr.length, .gave t u, by simp, .inr (known_before (d := .gave t u) h), .inr ⟨t, rfl⟩⟩
  have hmem : ∀ {w r}, (w, r) ∈ s.tok → (w, r) ≠ (t, p) → (w, r) ∈ s'.tok := by
    intro w r h hne
    rw [ht]; exact List.mem_cons_of_mem _ ((List.mem_erase_of_ne hne).2 h)
  have hrf : ∀ r, refs s' r = refs s r := by
    intro r
    simp only [refs, hw, ht, List.countP_cons, (List.perm_cons_erase hm).countP_eq]
  refine ⟨?_, ?_, ?_, ?_, ?_, ?_, ?_, ?_⟩
  · intro r h1 h2 i hi
    rw [ha] at h1; rw [hrf] at h2
    rcases ho.held r h1 h2 i (hab hi) with h | ⟨w, hmw, h⟩
    · exact .inl (counted_append h (hnb r))
    · by_cases e : (w, r) = (t, p)
      · cases e
        exact .inr ⟨u, by rw [ht]; exact List.mem_cons_self .., hkn h⟩
      · exact .inr ⟨w, hmem hmw e, known_append _ h⟩
  · intro w r h i hi
    rw [hp] at h
    exact known_append _ (ho.dying w r h i (hab hi))
  · intro w r h i hi0
    have hi := hbi hi0
    clear hi0
    rw [ht] at h
    rcases List.mem_cons.1 h with e | h
    · injection e with e1 e2; subst e1 e2
      rcases ho.tok t _ hm i hi with h | ⟨h, -⟩
      · exact .inl (hkn h)
      · rw [hidle] at h; cases h
    · rcases ho.tok w r (List.mem_of_mem_erase h) i hi with h | ⟨h1, h2⟩
      · exact .inl (known_append _ h)
      · exact .inr ⟨by rw [hp]; exact h1, counted_append h2 (hnb r)⟩
  · intro r h0 h i hi
    rw [hw] at h
    exact counted_append (ho.word r h0 h i (hbi hi)) (hnb r)
  · intro w n h
    rw [hp] at h
    obtain ⟨h1, h2⟩ := ho.taken w n h
    refine ⟨fun i hi => counted_append (h1 i (hbi hi)) (hnb n), ?_⟩
    have hne : w ≠ t := by rintro rfl; rw [hidle] at h; cases h
    rw [ht, List.count_cons, List.count_erase_of_ne (by intro e; injection e with e; exact hne e)]
    omega
  · intro r h i hi
    rw [ha] at h
    exact dead_append _ (ho.dead r h i (hab hi))
  · intro r h
    rw [ha] at h
    exact live_append (ho.live r h) (by intro w e; cases e)
  · exact free_append ho.free _ (by intro r hr; cases hr)

/-- Construction. -/
theorem oinv_born {tr : List (Deed T)} {s s' : State T} (hi : Inv s) (ho : OInv tr s) (t : T) (p : Word) (hf : s.alive p = false) (hz : p ≠ 0)
    (ht : s'.tok = (t, p) :: s.tok) (ha : s'.alive = fun b => if b = p then true else s.alive b) (hw : s'.word = s.word) (hp : s'.pc = s.pc) :
    OInv (tr ++ [.born t p]) s' := by
  have hrefs : ¬ 0 < refs s p := fun h => by rw [hi.live p hz h] at hf; cases hf
  have htk : ∀ {w}, (w, p) ∉ s.tok := fun h => hrefs (refs_tok h)
  have hwd : untagged s.word ≠ p := fun h => hrefs (by unfold refs; rw [if_pos h]; omega)
  have hnb : ∀ r, r ≠ p → ∀ w, (.born t p : Deed T) ≠ .born w r := by intro r hr w e; injection e with _ e; exact hr e.symm
  have hab : ∀ {i r}, r ≠ p → About (tr ++ [.born t p]) i r → About tr i r := by
    intro i r hr h
    rcases about_append h with h | ⟨-, h⟩
    · exact h
    · injection h with h; exact (hr h.symm).elim
  have hbi : ∀ {i r}, r ≠ p → Born (tr ++ [.born t p]) i r → Born tr i r := by
    intro i r hr h
    rcases born_append h with h | ⟨-, w, e⟩
    · exact h
    · injection e with _ e; exact (hr e.symm).elim
  have hall : ∀ {i}, About tr i p → Before codeOrders (tr ++ [.born t p]) i tr.length := by
    intro i h
    obtain ⟨d, w, h1, h2⟩ := ho.dead p hf i h
    have hb : Before codeOrders (tr ++ [.born t p]) d tr.length := (.reused (u := t) (get_append h1) (by simp) (List.getElem?_eq_some_iff.1 h1).1)
    rcases h2 with rfl | h2
    · exact hb
    · exact .trans (before_append _ h2) hb
  have hkn : ∀ {i}, About (tr ++ [.born t p]) i p → Known (tr ++ [.born t p]) i t := by
    intro i h
    rcases about_append h with h | ⟨rfl, -⟩
    · exact known_of_before (hall h)
    · exact known_self tr (.born t p)
  have hal : ∀ {r}, r ≠ p → s'.alive r = s.alive r := by intro r hr; rw [ha]; simp only [hr, if_false]
  refine ⟨?_, ?_, ?_, ?_, ?_, ?_, ?_, ?_⟩
  · intro r h1 h2 i hi'
    by_cases e : r = p
    · subst e; exact .inr ⟨t, by rw [ht]; exact List.mem_cons_self .., hkn hi'⟩
    · rw [hal e] at h1
      have h2 : 0 < refs s r := by
        unfold refs at h2 ⊢; rw [hw, ht, List.countP_cons] at h2; simpa [Ne.symm e] using h2
      rcases ho.held r h1 h2 i (hab e hi') with h | ⟨w, hmw, h⟩
      · exact .inl (counted_append h (hnb r e))
      · exact .inr ⟨w, by rw [ht]; exact List.mem_cons_of_mem _ hmw, known_append _ h⟩
  · intro w r h i hi'
    rw [hp] at h
    by_cases e : r = p
    · subst e
      have := hi.ok w
      cases hpc : s.pc w <;> rw [hpc] at h this <;> simp only [PC.dels, Option.some.injEq] at h <;> try cases h
      · rw [this.1] at hf; cases hf
      · rw [this.1] at hf; cases hf
    · exact known_append _ (ho.dying w r h i (hab e hi'))
  · intro w r h i hi'
    rw [ht] at h
    rcases List.mem_cons.1 h with e | h'
    · cases e; exact .inl (hkn hi'.about)
    · have e : r ≠ p := by rintro rfl; exact htk h'
      rcases ho.tok w r h' i (hbi e hi') with h | ⟨h1, h2⟩
      · exact .inl (known_append _ h)
      · exact .inr ⟨by rw [hp]; exact h1, counted_append h2 (hnb r e)⟩
  · intro r h0 h i hi'
    rw [hw] at h
    have e : r ≠ p := by rintro rfl; exact hwd h
    exact counted_append (ho.word r h0 h i (hbi e hi')) (hnb r e)
  · intro w n h
    rw [hp] at h
    obtain ⟨h1, h2⟩ := ho.taken w n h
    have e : n ≠ p := by
      rintro rfl
      exact htk (List.count_pos_iff.1 (by omega : 0 < s.tok.count (w, n)))
    refine ⟨fun i hi' => counted_append (h1 i (hbi e hi')) (hnb n e), ?_⟩
    rw [ht, List.count_cons]; omega
  · intro r h i hi'
    have e : r ≠ p := by rintro rfl; rw [ha] at h; simp at h
    rw [hal e] at h
    exact dead_append _ (ho.dead r h i (hab e hi'))
  · intro r h
    by_cases e : r = p
    · subst e
      refine ⟨tr.length, ⟨t, by simp⟩, fun m w hm => ?_⟩
      have hl := (List.getElem?_eq_some_iff.1 hm).1
      simp at hl
      by_cases hml : m = tr.length
      · subst hml; simp at hm
      · omega
    · rw [hal e] at h
      exact live_append (ho.live r h) (by intro w e; cases e)
  · refine free_append ho.free _ fun r hr i a hi' hao _ => ?_
    injection hr with hr; subst hr
    exact hall ⟨a, hi', hao⟩

/-- `fetch_sub`. -/
theorem oinv_dec {tr : List (Deed T)} {s s' : State T} (hi : Inv s) (ho : OInv tr s) (t : T) (p : Word) (q : PC) (hpc : s.pc t = .rel p)
    (ht : s'.tok = s.tok.erase (t, p)) (ha : s'.alive = s.alive) (hw : s'.word = s.word) (hp : ∀ u, s'.pc u = if u = t then q else s.pc u)
    (hq : q = .idle ∨ (q = .relCheck p ∧ refs s p = 1)) :
    OInv (tr ++ [.dec t p]) s' := by
  have hm : (t, p) ∈ s.tok := by have := hi.ok t; rw [hpc] at this; exact this
  have halive := hi.alive_tok hm
  have hnb : ∀ r w, (.dec t p : Deed T) ≠ .born w r := by intro r w e; cases e
  have hbi : ∀ {i r}, Born (tr ++ [.dec t p]) i r → Born tr i r := by
    intro i r h
    rcases born_append h with h | ⟨-, w, e⟩
    · exact h
    · cases e
  have hacq : (.dec t p : Deed T).acquires codeOrders p = true := by simp [Deed.acquires, codeOrders]
  have hrel : (.dec t p : Deed T).releases codeOrders p = true := by simp [Deed.releases, codeOrders]
  have hb : ∀ {i}, Born tr i p → Before codeOrders (tr ++ [.dec t p]) i tr.length := by
    intro i h
    rcases ho.tok t p hm i h with h | ⟨-, h⟩
    · exact known_before (d := .dec t p) h
    · exact counted_before h hacq
  have hqt : q.taken = none := by rcases hq with rfl | ⟨rfl, -⟩ <;> rfl
  have hmem : ∀ {w r}, (w, r) ∈ s.tok → (w, r) ≠ (t, p) → (w, r) ∈ s'.tok := by
    intro w r h hne
    rw [ht]; exact (List.mem_erase_of_ne hne).2 h
  have hrf : ∀ r, refs s r = refs s' r + if p = r then 1 else 0 := fun r => refs_pop (t := t) (b := p) (by rw [hw]) ht hm r
  refine ⟨?_, ?_, ?_, ?_, ?_, ?_, ?_, ?_⟩
  · intro r h1 h2 i hi'
    rw [ha] at h1
    rcases about_append hi' with hi' | ⟨rfl, hi''⟩
    · rcases ho.held r h1 (by rw [hrf]; omega) i hi' with h | ⟨w, hmw, h⟩
      · exact .inl (counted_append h (hnb r))
      · by_cases e : (w, r) = (t, p)
        · cases e
          exact .inl (counted_of_before (.inr (known_before (d := .dec t p) h)) hrel)
        · exact .inr ⟨w, hmem hmw e, known_append _ h⟩
    · injection hi'' with hi''; subst hi''
      exact .inl (counted_of_before (.inl rfl) hrel)
  · intro w r h i hi'
    rw [hp] at h
    split at h
    · rename_i e; subst e
      rcases hq with rfl | ⟨rfl, hr1⟩
      · cases h
      · injection h with h; subst h
        rcases about_append hi' with hi' | ⟨rfl, -⟩
        · rcases ho.held p halive (by omega) i hi' with h | ⟨x, hmx, h⟩
          · exact known_of_before (d := .dec w p) (counted_before h hacq)
          · by_cases e : x = w
            · subst e; exact known_append _ h
            · have h3 := hrf p
              have h4 := refs_tok (hmem hmx (by intro h; injection h with h; exact e h))
              simp at h3; omega
        · exact known_self tr (.dec w p)
    · rename_i hne
      rcases about_append hi' with hi' | ⟨rfl, hi''⟩
      · exact known_append _ (ho.dying w r h i hi')
      · exfalso
        injection hi'' with hi''; subst hi''
        have := hi.ok w
        have h0 := refs_tok hm
        cases hpc : s.pc w <;> rw [hpc] at h this <;> simp only [PC.dels, Option.some.injEq] at h <;> try cases h
        · have := this.2; omega
        · have := this.2; omega
  · intro w r h i hi'
    have hi' := hbi hi'
    rw [ht] at h
    rcases ho.tok w r (List.mem_of_mem_erase h) i hi' with h | ⟨h1, h2⟩
    · exact .inl (known_append _ h)
    · by_cases e : w = t
      · subst e
        rw [hpc] at h1; injection h1 with h1; subst h1
        exact .inl (known_of_before (d := .dec w p) (counted_before h2 hacq))
      · exact .inr ⟨by rw [hp, if_neg e]; exact h1, counted_append h2 (hnb r)⟩
  · intro r h0 h i hi'
    rw [hw] at h
    exact counted_append (ho.word r h0 h i (hbi hi')) (hnb r)
  · intro w n h
    rw [hp] at h
    split at h
    · rw [hqt] at h; cases h
    · rename_i hne
      obtain ⟨h1, h2⟩ := ho.taken w n h
      refine ⟨fun i hi' => counted_append (h1 i (hbi hi')) (hnb n), ?_⟩
      rw [ht, List.count_erase_of_ne (by intro e; injection e with e; exact hne e)]
      exact h2
  · intro r h i hi'
    rw [ha] at h
    rcases about_append hi' with hi' | ⟨-, hi'⟩
    · exact dead_append _ (ho.dead r h i hi')
    · injection hi' with hi'; subst hi'; rw [halive] at h; cases h
  · intro r h
    rw [ha] at h
    exact live_append (ho.live r h) (by intro w e; cases e)
  · exact free_touch ho (d := .dec t p) rfl rfl halive fun i h => hb h

/-- Destruction. -/
theorem oinv_died {tr : List (Deed T)} {s s' : State T} (hi : Inv s) (ho : OInv tr s) (t : T) (p : Word) (hpc : s.pc t = .relDelete p)
    (ht : s'.tok = s.tok) (ha : s'.alive = fun b => if b = p then false else s.alive b) (hw : s'.word = s.word)
    (hp : ∀ u, s'.pc u = if u = t then .idle else s.pc u) :
    OInv (tr ++ [.died t p]) s' := by
  have hok := hi.ok t
  rw [hpc] at hok
  have hz : p ≠ 0 := (hi.al p hok.1).1
  have htk : ∀ {w}, (w, p) ∉ s.tok := fun h => by have := refs_tok h; have := hok.2; omega
  have hnb : ∀ r w, (.died t p : Deed T) ≠ .born w r := by intro r w e; cases e
  have hbi : ∀ {i r}, Born (tr ++ [.died t p]) i r → Born tr i r := by
    intro i r h
    rcases born_append h with h | ⟨-, w, e⟩
    · exact h
    · cases e
  have hab : ∀ {i r}, r ≠ p → About (tr ++ [.died t p]) i r → About tr i r := by
    intro i r hr h
    rcases about_append h with h | ⟨-, h⟩
    · exact h
    · injection h with h; exact (hr h.symm).elim
  have hall : ∀ {i}, About tr i p → Before codeOrders (tr ++ [.died t p]) i tr.length := fun {i} h =>
    known_before (d := .died t p) (ho.dying t p (by rw [hpc]; rfl) i h)
  have hal : ∀ {r}, r ≠ p → s'.alive r = s.alive r := by intro r hr; rw [ha]; simp only [hr, if_false]
  have hpf : s'.alive p = false := by rw [ha]; simp
  refine ⟨?_, ?_, ?_, ?_, ?_, ?_, ?_, ?_⟩
  · intro r h1 h2 i hi'
    have e : r ≠ p := by rintro rfl; rw [hpf] at h1; cases h1
    rw [hal e] at h1
    rw [refs_congr ht (by rw [hw])] at h2
    rcases ho.held r h1 h2 i (hab e hi') with h | ⟨w, hmw, h⟩
    · exact .inl (counted_append h (hnb r))
    · exact .inr ⟨w, by rw [ht]; exact hmw, known_append _ h⟩
  · intro w r h i hi'
    rw [hp] at h
    split at h
    · cases h
    · rename_i hne
      have e : r ≠ p := by rintro rfl; exact hne (hi.delu w t r h (by rw [hpc]; rfl))
      exact known_append _ (ho.dying w r h i (hab e hi'))
  · intro w r h i hi'
    have hi' := hbi hi'
    rw [ht] at h
    rcases ho.tok w r h i hi' with h | ⟨h1, h2⟩
    · exact .inl (known_append _ h)
    · have e : w ≠ t := by rintro rfl; rw [hpc] at h1; cases h1
      exact .inr ⟨by rw [hp, if_neg e]; exact h1, counted_append h2 (hnb r)⟩
  · intro r h0 h i hi'
    rw [hw] at h
    exact counted_append (ho.word r h0 h i (hbi hi')) (hnb r)
  · intro w n h
    rw [hp] at h
    split at h
    · cases h
    · obtain ⟨h1, h2⟩ := ho.taken w n h
      exact ⟨fun i hi' => counted_append (h1 i (hbi hi')) (hnb n), by rw [ht]; exact h2⟩
  · intro r h i hi'
    by_cases e : r = p
    · subst e
      refine ⟨tr.length, t, by simp, ?_⟩
      rcases about_append hi' with hi' | ⟨rfl, -⟩
      · exact .inr (hall hi')
      · exact .inl rfl
    · rw [hal e] at h
      exact dead_append _ (ho.dead r h i (hab e hi'))
  · intro r h
    have e : r ≠ p := by rintro rfl; rw [hpf] at h; cases h
    rw [hal e] at h
    exact live_append (ho.live r h) (by intro w e'; injection e' with _ e'; exact e e'.symm)
  · refine free_append ho.free _ fun r hr i a hi' hao _ => ?_
    injection hr with hr; subst hr
    exact hall ⟨a, hi', hao⟩

theorem not_dels {s : State T} (hi : Inv s) {p : Word} (hr : 0 < refs s p) (u : T) : (s.pc u).dels ≠ some p := by
  intro h
  have := hi.ok u
  cases hpc : s.pc u <;> rw [hpc] at h this <;> simp only [PC.dels, Option.some.injEq] at h <;> try cases h
  · have := this.2; omega
  · have := this.2; omega

theorem tok_before {tr : List (Deed T)} {s : State T} (ho : OInv tr s) (d : Deed T) {p : Word} (hm : (d.thread, p) ∈ s.tok) (hr : s.pc d.thread ≠ .rel p)
    (i : Nat) (h : Born tr i p) : Before codeOrders (tr ++ [d]) i tr.length := by
  rcases ho.tok _ p hm i h with h | ⟨h, -⟩
  · exact known_before h
  · exact (hr h).elim

theorem oinv_step {tr : List (Deed T)} {s s' : State T} (hi : Inv s) (ho : OInv tr s) {a : Act T} (hal : Allowed s a)
    (h : step s a = some (.ok s')) : OInv (tr ++ (deed s a).toList) s' := by
  have hz : ∀ r, s.alive r = true → r ≠ 0 := fun r h => (hi.al r h).1
  cases a with
  | make t n =>
    simp only [step] at h
    split at h
    case isFalse => cases h
    rename_i hp
    injection h with h
    obtain ⟨h1, h2, h3⟩ := hp
    simp only [make] at h
    split at h
    · cases h
    rename_i hal7
    simp only [ne_eq, Decidable.not_not] at hal7
    have hw0 := hi.unw h2
    split at h
    · rename_i hn; subst hn
      cases h
      simp only [deed, if_true, Option.toList_none, List.append_nil]
      refine oinv_quiet ho t (s.pc t) rfl rfl ?_ ?_ ?_ ?_ (.inr rfl)
      · simp [hw0]
      · intro u; simp only; split
        · rename_i e; rw [e]
        · rfl
      · rw [h1]; rfl
      · intro p; rw [h1]; simp
    · rename_i hn
      split at h
      · cases h
      rename_i haf
      cases h
      have hm := h3.resolve_left hn
      simp only [deed, hn, if_false, Option.toList_some]
      refine oinv_touch ho (.inc t n) n (s.pc t) rfl rfl (hi.alive_tok hm) (tok_before ho (.inc t n) hm (by simp [Deed.thread, h1])) (.inl rfl) rfl
        (.inr ⟨aligned_untagged hal7, by rw [hw0]; exact untagged_zero⟩) ?_ ?_ ?_ (.inr (.inl rfl)) hz (.inl hm) (fun u _ => not_dels hi (refs_tok hm) u)
        (fun _ _ => by simp [Deed.releases, codeOrders]) (.inl (refs_tok hm))
      · intro u; simp only [Deed.thread]; by_cases e : u = t
        · simp [e]
        · simp [e]
      · intro r hr; rw [h1] at hr; cases hr
      · intro r; simp [Deed.thread, h1]
  | destroy t =>
    simp only [step] at h
    split at h
    case isFalse => cases h
    rename_i hp
    injection h with h
    simp only [destroy] at h
    split at h
    · cases h
    rename_i hu
    simp only [ne_eq, Decidable.not_not] at hu
    simp only [deed, Option.toList_none, List.append_nil]
    split at h
    · rename_i hw
      cases h
      refine oinv_quiet ho t (s.pc t) rfl rfl (by simp [hw]) ?_ (by rw [hp.1]; rfl) (by intro p; rw [hp.1]; simp) (.inr rfl)
      intro u; simp only; split
      · rename_i e; rw [e]
      · rfl
    · rename_i hw
      cases h
      refine oinv_move ho t (.rel s.word) rfl ?_ ?_ ?_ ?_ ?_ rfl rfl (by intro p; rw [hp.1]; simp) ?_
      · intro p hap h
        simp only [refs, setPc, List.countP_cons, untagged_zero, Ne.symm (hz p hap), if_false, Nat.add_zero] at h
        unfold refs; rw [← hu]; revert h
        by_cases e : s.word = p <;> simp [e]
      · intro x hx; exact List.mem_cons_of_mem _ hx
      · intro u r h
        rcases List.mem_cons.1 h with e | h
        · injection e with e1 e2; subst e1 e2
          exact .inr ⟨rfl, rfl, hu.symm, hw⟩
        · exact .inl h
      · intro p h0 h
        exact (h0 (by rw [← h]; exact untagged_zero)).elim
      · intro u; rfl
      · intro u n _
        simp only [setPc, List.count_cons]; omega
  | get t =>
    simp only [step] at h
    split at h <;> cases h
    rename_i hp
    simp only [deed, Option.toList_none, List.append_nil]
    exact oinv_quiet ho t (.load .get) rfl rfl rfl (fun u => rfl) rfl (by intro p; rw [hp.1]; simp) (.inl rfl)
  | set t n =>
    simp only [step] at h
    split at h <;> cases h
    rename_i hp
    simp only [deed, Option.toList_none, List.append_nil]
    exact oinv_quiet ho t (.load (.set n)) rfl rfl rfl (fun u => rfl) rfl (by intro p; rw [hp.1]; simp) (.inl rfl)
  | release t p =>
    simp only [step] at h
    split at h <;> cases h
    rename_i hp
    simp only [deed, Option.toList_none, List.append_nil]
    exact oinv_quiet ho t (.rel p) rfl rfl rfl (fun u => rfl) rfl (by intro p; rw [hp.1]; simp) (.inl rfl)
  | addRef t p =>
    simp only [step] at h
    split at h
    case isFalse => cases h
    rename_i hp
    injection h with h
    simp only [incr] at h
    split at h
    · cases h
    cases h
    simp only [deed, Option.toList_some]
    refine oinv_touch ho (.inc t p) p (s.pc t) rfl rfl (hi.alive_tok hp.2) (tok_before ho (.inc t p) hp.2 (by simp [Deed.thread, hp.1])) (.inr rfl) rfl
      (.inl rfl) ?_ ?_ ?_ (.inr (.inl rfl)) hz (.inl (List.mem_cons_self ..)) (fun u _ => not_dels hi (refs_tok hp.2) u)
      (fun _ _ => by simp [Deed.releases, codeOrders]) (.inl (refs_tok hp.2))
    · intro u; simp only [Deed.thread]; by_cases e : u = t
      · simp [e]
      · simp [e]
    · intro r hr; rw [hp.1] at hr; cases hr
    · intro r; simp [Deed.thread, hp.1]
  | use t p =>
    simp only [step] at h
    split at h
    case isFalse => cases h
    rename_i hp
    injection h with h
    split at h <;> cases h
    simp only [deed, Option.toList_some]
    refine oinv_touch ho (.use t p) p (s.pc t) rfl rfl (hi.alive_tok hp.2) (tok_before ho (.use t p) hp.2 (by simp [Deed.thread, hp.1])) (.inl rfl) rfl
      (.inl rfl) ?_ ?_ ?_ (.inr (.inl rfl)) hz (.inl hp.2) (fun u _ => not_dels hi (refs_tok hp.2) u)
      (fun h1 h2 => (h2 h1).elim) (.inl (refs_tok hp.2))
    · intro u; simp only [Deed.thread]; by_cases e : u = t
      · simp [e]
      · simp [e]
    · intro r hr; rw [hp.1] at hr; cases hr
    · intro r; simp [Deed.thread, hp.1]
  | send t u p =>
    simp only [step] at h
    split at h <;> cases h
    rename_i hp
    exact oinv_gave ho t u p hp.2 hp.1 rfl rfl rfl rfl
  | create t p =>
    simp only [step] at h
    split at h <;> cases h
    rename_i hp
    exact oinv_born hi ho t p hp.2.1 hp.2.2.1 rfl rfl rfl rfl
  | stale t w =>
    simp only [step] at h
    simp only [deed, Option.toList_none, List.append_nil]
    cases hp : s.pc t <;> rw [hp] at h <;> simp only [stale] at h <;> try cases h
    · exact oinv_quiet ho t (.cas _ (untagged w)) rfl rfl rfl (fun u => rfl) rfl (by intro p; rw [hp]; simp) (.inl rfl)
    · split at h <;> cases h
      exact oinv_quiet ho t (.load _) rfl rfl rfl (fun u => rfl) rfl (by intro p; rw [hp]; simp) (.inl rfl)
  | cont t =>
    simp only [step] at h
    have hok := hi.ok t
    simp only [deed]
    cases hp : s.pc t with
    | idle => rw [hp] at h; cases h
    | load j =>
      rw [hp] at h; cases h
      simp only [Option.toList_none, List.append_nil]
      exact oinv_quiet ho t (.cas j (untagged s.word)) rfl rfl rfl (fun u => rfl) rfl (by intro p; rw [hp]; simp) (.inl rfl)
    | cas j old =>
      rw [hp] at h; simp only [cont] at h; injection h with h
      simp only [Option.toList_none, List.append_nil]
      split at h
      · rename_i hw
        cases h
        exact oinv_quiet ho t (.add j old) rfl rfl (by simp only [setPc, untagged_tagged, hw]) (fun u => rfl) rfl (by intro p; rw [hp]; simp) (.inl rfl)
      · cases h
        exact oinv_quiet ho t (.load j) rfl rfl rfl (fun u => rfl) rfl (by intro p; rw [hp]; simp) (.inl rfl)
    | add j v =>
      rw [hp] at h hok; simp only [cont] at h; injection h with h
      obtain ⟨h1, h2, h3⟩ := hok
      split at h
      · rename_i hn
        cases h
        simp only [hn, if_true, Option.toList_none, List.append_nil]
        refine oinv_quiet ho t (.chk1 j v) rfl rfl rfl (fun u => rfl) rfl (by intro p; rw [hp]; simp) (.inl ?_)
        cases j with
        | get => rfl
        | set n => simp only [PC.taken]; rw [if_pos]; exact hn
      · rename_i hn
        simp only [hn, if_false, Option.toList_some]
        simp only [incr, bind, Except.bind] at h
        split at h
        · cases h
        rename_i s1 e
        split at e
        · cases e
        cases e
        cases h
        have hr : 0 < refs s (j.newval v) := by
          cases j with
          | get => simp [refs, Job.newval, h1, untagged_tagged, h2]
          | set n => exact refs_tok (h3.resolve_left hn)
        have hb : ∀ i, Born tr i (j.newval v) → Before codeOrders (tr ++ [.inc t (j.newval v)]) i tr.length := by
          intro i hb
          cases j with
          | get =>
            exact counted_before (p := v) (ho.word v hn (by rw [h1, untagged_tagged, h2]) i hb) (by simp [Deed.acquires, Job.newval, codeOrders])
          | set n => exact tok_before ho (.inc t n) (h3.resolve_left hn) (by simp [Deed.thread, hp]) i hb
        refine oinv_touch ho (.inc t (j.newval v)) (j.newval v) (.chk1 j v) rfl rfl (hi.live _ hn hr) hb (.inr rfl) rfl (.inl rfl) (fun u => rfl)
          (by intro r h; cases h) (by intro r; simp [Deed.thread, hp]) ?_ hz (.inl (List.mem_cons_self ..)) (fun u _ => not_dels hi hr u)
          (fun _ _ => by simp [Deed.releases, codeOrders]) (.inl hr)
        cases j with
        | get => exact .inl rfl
        | set n =>
          refine .inr (.inr ⟨?_, h3.resolve_left hn, rfl, by simp [Deed.releases, codeOrders]⟩)
          have hn' : n ≠ 0 := hn
          simp only [PC.taken]; rw [if_neg hn']; rfl
    | chk1 j v =>
      rw [hp] at h; cases h
      simp only [Option.toList_none, List.append_nil]
      refine oinv_quiet ho t (.chk2 j v s.word) rfl rfl rfl (fun u => rfl) rfl (by intro p; rw [hp]; simp) (.inr ?_)
      rw [hp]; cases j <;> rfl
    | chk2 j v w =>
      rw [hp] at h; simp only [cont] at h; injection h with h
      split at h
      · cases h
      split at h
      · cases h
      cases h
      simp only [Option.toList_none, List.append_nil]
      refine oinv_quiet ho t (.store j v) rfl rfl rfl (fun u => rfl) rfl (by intro p; rw [hp]; simp) (.inr ?_)
      rw [hp]; cases j <;> rfl
    | store j v =>
      rw [hp] at hok
      obtain ⟨h1, h2, h3⟩ := hok
      simp only [Option.toList_none, List.append_nil]
      have hnr : ∀ p, s.pc t ≠ .rel p := by intro p; rw [hp]; simp
      cases j with
      | get =>
        rw [hp] at h; cases h
        exact oinv_quiet ho t .idle rfl rfl (by simp only [setPc, h1, untagged_tagged]) (fun u => rfl) rfl hnr (.inl rfl)
      | set n =>
        rw [hp] at h; simp only [cont] at h; injection h with h
        have hnu : untagged n = n := newval_untagged hi h3
        have hwv : untagged s.word = v := by rw [h1, untagged_tagged, h2]
        have htk : n ≠ 0 → (s.pc t).taken = some n ∧ (t, n) ∈ s.tok ∧ 2 ≤ s.tok.count (t, n) := by
          intro hn
          have e : (s.pc t).taken = some n := by rw [hp]; simp only [PC.taken]; rw [if_neg hn]
          exact ⟨e, h3.resolve_left hn, (ho.taken t n e).2⟩
        have hin : ∀ x, x ∈ s.tok → x ∈ (if n = 0 then s.tok else s.tok.erase (t, n)) := by
          intro x hx
          split
          · exact hx
          · rename_i hn
            by_cases e : x = (t, n)
            · subst e
              have := (htk hn).2.2
              exact List.count_pos_iff.1 (by rw [List.count_erase_self]; omega)
            · exact (List.mem_erase_of_ne e).2 hx
        have hout : ∀ x, x ∈ (if n = 0 then s.tok else s.tok.erase (t, n)) → x ∈ s.tok := by
          intro x hx
          split at hx
          · exact hx
          · exact List.mem_of_mem_erase hx
        have hct : ∀ u m, u ≠ t → s.tok.count (u, m) ≤ (if n = 0 then s.tok else s.tok.erase (t, n)).count (u, m) := by
          intro u m hu
          split
          · exact Nat.le_refl _
          · exact Nat.le_of_eq (List.count_erase_of_ne (by intro e; injection e with e; exact hu e)).symm
        have hword : ∀ p, p ≠ 0 → untagged n = p → untagged s.word = p ∨ (s.pc t).taken = some p := by
          intro p h0 e
          rw [hnu] at e; subst e
          exact .inr (htk h0).1
        have hpos : ∀ p, 0 < s.tok.countP (fun x => decide (x.2 = p)) → 0 < refs s p := by
          intro p h; unfold refs; omega
        have hnp : ∀ p, p ≠ 0 → n = p → 0 < refs s p := by
          intro p h0 e; subst e; exact refs_tok (htk h0).2.1
        have hcp : ∀ p, 0 < (if n = 0 then s.tok else s.tok.erase (t, n)).countP (fun x => decide (x.2 = p)) → 0 < refs s p := by
          intro p h
          obtain ⟨x, hx, e⟩ := List.countP_pos_iff.1 h
          exact hpos p (List.countP_pos_iff.2 ⟨x, hout x hx, e⟩)
        split at h
        · rename_i hv
          cases h
          refine oinv_move ho t .idle rfl ?_ hin (fun u r h => .inl (hout _ h)) hword (fun u => rfl) rfl rfl hnr hct
          intro p hap h
          have h : 0 < (if n = 0 then s.tok else s.tok.erase (t, n)).countP (fun x => decide (x.2 = p)) + (if untagged n = p then 1 else 0) := h
          by_cases e : n = p
          · exact hnp p (hz p hap) e
          · rw [hnu, if_neg e] at h; exact hcp p h
        · rename_i hv
          cases h
          refine oinv_move ho t (.rel v) rfl ?_ (fun x hx => List.mem_cons_of_mem _ (hin x hx)) ?_ hword (fun u => rfl) rfl rfl hnr ?_
          · intro p hap h
            have h : 0 < ((t, v) :: (if n = 0 then s.tok else s.tok.erase (t, n))).countP (fun x => decide (x.2 = p)) + (if untagged n = p then 1 else 0) := h
            by_cases e : n = p
            · exact hnp p (hz p hap) e
            · rw [hnu, if_neg e, List.countP_cons] at h
              by_cases e2 : v = p
              · subst e2; unfold refs; rw [hwv]; simp
              · simp only [e2, decide_false] at h; exact hcp p (by simpa using h)
          · intro u r h
            rcases List.mem_cons.1 h with e | h
            · injection e with e1 e2; subst e1 e2
              exact .inr ⟨rfl, rfl, hwv, hv⟩
            · exact .inl (hout _ h)
          · intro u m hu
            have := hct u m hu
            show _ ≤ List.count (u, m) ((t, v) :: _)
            rw [List.count_cons]; omega
    | rel p =>
      rw [hp] at h hok; simp only [cont] at h; injection h with h
      split at h
      · cases h
      cases h
      simp only [Option.toList_some]
      have hap := hi.alive_tok hok
      refine oinv_dec hi ho t p _ hp rfl rfl rfl (fun u => rfl) ?_
      split
      · rename_i e; exact .inr ⟨rfl, by rw [← hi.cnt p hap]; exact e⟩
      · exact .inl rfl
    | relCheck p =>
      rw [hp] at h hok; simp only [cont] at h; injection h with h
      split at h
      · cases h
      split at h
      · cases h
      cases h
      simp only [Option.toList_some]
      have hdl : (s.pc t).dels = some p := by rw [hp]; rfl
      refine oinv_touch ho (.check t p) p (.relDelete p) rfl rfl hok.1 (fun i h => known_before (d := .check t p) (ho.dying t p hdl i h.about)) (.inl rfl) rfl
        (.inl rfl) (fun u => rfl) ?_ (by intro r; simp [Deed.thread, hp]) (.inl rfl) hz (.inr (.inr ⟨hdl, hok.2⟩)) ?_ (fun h1 h2 => (h2 h1).elim) (.inr hok.2)
      · intro r h; injection h with h; exact ⟨h.symm, hdl⟩
      · intro u hu h; exact hu (hi.delu u t p h hdl)
    | relDelete p =>
      rw [hp] at h hok; simp only [cont] at h; injection h with h
      split at h
      · cases h
      cases h
      simp only [Option.toList_some]
      exact oinv_died hi ho t p hp rfl rfl rfl (fun u => rfl)

theorem oinv_start : OInv [] (State.start : State T) := by
  have hn : ∀ i p, ¬ About ([] : List (Deed T)) i p := by rintro i p ⟨a, h, -⟩; simp at h
  refine ⟨?_, ?_, ?_, ?_, ?_, ?_, ?_, ?_⟩
  · intro p h; cases h
  · intro t p h; cases h
  · intro u p h; cases h
  · intro p h0 h; exact (h0 (by rw [← h]; exact untagged_zero)).elim
  · intro t n h; cases h
  · intro p _ i h; exact (hn i p h).elim
  · intro p h; cases h
  · intro i j a b p _ h; simp at h

theorem oinv_story {tr : List (Deed T)} {s : State T} (h : Story tr s) : OInv tr s := by
  induction h with
  | start => exact oinv_start
  | step h ha hs ih => exact oinv_step (inv_reachable (story_reachable h)) ih ha hs

end Verif.AtomicRef
