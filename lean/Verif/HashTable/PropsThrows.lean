import Verif.HashTable.ThrowsLemmas
import Verif.HashTable.Props
/-!
# C143: a hash table whose client code throws
-/
namespace Verif.HashTable
open Verif

variable {L P S : Type}

/-! ### What a throwing payload constructor leaves -/

/-- The array is there, has the size it should have, and exactly the live entries hold payloads. -/
def Sound (t : Table P) : Prop :=
  ∃ s, t.table = some s ∧ t.capacity = s.length ∧ ∀ (i : Nat) (e : Slot P), s[i]? = some e → e.Wf

/-- Some entry is marked live and holds no payload. -/
def Hollow (t : Table P) : Prop :=
  ∃ (s : List (Slot P)) (j : Nat) (e : Slot P), t.table = some s ∧ t.capacity = s.length ∧ s[j]? = some e ∧ e.isLive = true ∧ e.obj = none

theorem destroyLoop_hollow (j : Nat) (e : Slot P) (hl : e.isLive = true) (ho : e.obj = none) : ∀ rem i (t : Table P) (s : List (Slot P)), t.table = some s →
    i + rem = s.length → i ≤ j → s[j]? = some e → destroyLoop i rem t = .error .uninitialised := by
  intro rem
  induction rem with
  | zero =>
    intro i t s ht hi hij hj
    have := lt_of_get hj
    omega
  | succ rem ih =>
    intro i t s ht hi hij hj
    have hilt : i < s.length := by omega
    have hget := List.getElem?_eq_getElem hilt
    generalize s[i] = x at hget
    unfold destroyLoop
    simp only [bind, Except.bind, load_ok ht hget]
    by_cases hji : j = i
    · subst hji
      rw [hget] at hj
      cases hj
      simp only [Slot.destruct, hl, if_true, ho]
    · have hget' : ∀ y : Slot P, (s.set i y)[j]? = some e := fun y => by rw [List.getElem?_set_ne (by omega)]; exact hj
      by_cases hxl : x.isLive = true
      · cases hxo : x.obj with
        | none => simp only [Slot.destruct, hxl, if_true, hxo]
        | some p =>
          simp only [Slot.destruct, hxl, if_true, hxo]
          rw [store_ok ht hilt]
          exact ih (i + 1) _ _ rfl (by rw [List.length_set]; omega) (by omega) (hget' _)
      · simp only [Slot.destruct, hxl, Bool.false_eq_true, if_false]
        rw [store_ok ht hilt]
        exact ih (i + 1) _ _ rfl (by rw [List.length_set]; omega) (by omega) (hget' _)

theorem Hollow.fatal {t : Table P} (h : Hollow t) : destroy t = .error .uninitialised := by
  obtain ⟨s, j, e, ht, hc, hj, hl, ho⟩ := h
  unfold destroy
  rw [hc, destroyLoop_hollow j e hl ho s.length 0 t s ht (by omega) (Nat.zero_le _) hj]
  rfl

theorem insertUniqueLoop_dead {t : Table P} {s : List (Slot P)} (ht : t.table = some s) : ∀ fuel cur i, insertUniqueLoop t cur fuel = .ok i →
    ∃ e, s[i]? = some e ∧ e.isLive = false := by
  intro fuel
  induction fuel with
  | zero => intro cur i h; cases h
  | succ fuel ih =>
    intro cur i h
    unfold insertUniqueLoop at h
    simp only [bind, Except.bind] at h
    cases hload : t.load (probeEntry cur t.capacity) with
    | error f => rw [hload] at h; cases h
    | ok e =>
      rw [hload] at h
      simp only at h
      by_cases hd : (e.isFree || e.removed) = true
      · rw [if_pos hd] at h
        cases h
        unfold Table.load at hload
        rw [ht] at hload
        simp only at hload
        cases hs : s[probeEntry cur t.capacity]? with
        | none => rw [hs] at hload; cases hload
        | some e' =>
          rw [hs] at hload
          cases hload
          refine ⟨e, rfl, ?_⟩
          rw [Bool.or_eq_true] at hd
          rcases hd with hd | hd
          · exact free_not_live hd
          · exact removed_not_live hd
      · rw [if_neg hd] at h
        exact ih _ _ h

theorem insertUnique_dead {t : Table P} {s : List (Slot P)} (ht : t.table = some s) {h : BitVec 32} {ins : Insert} (hi : insertUnique t h = .ok ins) :
    ins.hash = h ∧ ∃ e, s[ins.entry]? = some e ∧ e.isLive = false := by
  unfold insertUnique at hi
  simp only [bind, Except.bind] at hi
  cases hp : probulatorCheck t.capacity with
  | error f => rw [hp] at hi; cases hi
  | ok u =>
    rw [hp] at hi
    simp only at hi
    cases hl : insertUniqueLoop t h t.capacity with
    | error f => rw [hl] at hi; cases hi
    | ok i =>
      rw [hl] at hi
      cases hi
      exact ⟨rfl, insertUniqueLoop_dead ht _ _ _ hl⟩

theorem rehashLoopX_hollow (old : List (Slot P)) : ∀ rem i k (t : Table P), Sound t → ∀ t' r, rehashLoopX old i rem k t = .ok (t', r) →
    (r = none → Hollow t' ∧ k ≠ none) ∧ (∀ k', r = some k' → (Sound t' ∧ t'.capacity = t.capacity) ∧ (k = none → k' = none)) := by
  intro rem
  induction rem with
  | zero =>
    intro i k t hs t' r h
    cases h
    exact ⟨fun h => (nomatch h), fun k' h => by cases h; exact ⟨⟨hs, rfl⟩, id⟩⟩
  | succ rem ih =>
    intro i k t hs t' r h
    unfold rehashLoopX at h
    cases hoi : old[i]? with
    | none => rw [hoi] at h; cases h
    | some oe =>
      rw [hoi] at h
      simp only [bind, Except.bind] at h
      by_cases hl : oe.isLive = true
      · rw [if_pos hl] at h
        obtain ⟨s, ht, hcap, hwf⟩ := hs
        cases hins : insertUnique t oe.hash with
        | error f => rw [hins] at h; cases h
        | ok ins =>
          obtain ⟨hh, e, he, hel⟩ := insertUnique_dead ht hins
          have hilt := lt_of_get he
          have hnone := (hwf _ _ he).none hel
          rw [hins] at h
          simp only [load_ok ht he, store_ok ht hilt, hh] at h
          have hlive : (e.setHash oe.hash).isLive = true := hl
          cases hpay : oe.payload with
          | error f => rw [hpay] at h; cases h
          | ok p =>
            rw [hpay] at h
            simp only at h
            cases hk : fire k with
            | none =>
              rw [hk] at h
              cases h
              refine ⟨fun _ => ⟨⟨_, ins.entry, e.setHash oe.hash, rfl, by rw [List.length_set]; exact hcap, get_set_self hilt, hlive, hnone⟩, ?_⟩, fun k' h => (nomatch h)⟩
              rintro rfl
              cases hk
            | some k1 =>
              rw [hk] at h
              simp only at h
              rw [load_ok (t := { t with table := some (s.set ins.entry (e.setHash oe.hash)) }) rfl (get_set_self hilt)] at h
              simp only [Slot.construct, Slot.setHash, hnone] at h
              rw [store_ok rfl (by rw [List.length_set]; exact hilt)] at h
              simp only [List.set_set] at h
              cases hd : oe.destruct with
              | error f => rw [hd] at h; cases h
              | ok v =>
                rw [hd] at h
                have := ih (i + 1) k1 { t with table := some (s.set ins.entry ⟨oe.hash, some p⟩), ctors := t.ctors + 1, dtors := t.dtors + v.2 }
                  ⟨_, rfl, by rw [List.length_set]; exact hcap, wf_set hwf (by unfold Slot.Wf; exact hl)⟩ t' r h
                refine ⟨fun hr => ⟨(this.1 hr).1, ?_⟩, fun k' hr => ⟨(this.2 k' hr).1, ?_⟩⟩
                · rintro rfl
                  cases hk
                  exact (this.1 hr).2 rfl
                · rintro rfl
                  cases hk
                  exact (this.2 k' hr).2 rfl
      · rw [if_neg hl] at h
        cases hd : oe.destruct with
        | error f => rw [hd] at h; cases h
        | ok v =>
          rw [hd] at h
          have hs' : Sound { t with dtors := t.dtors + v.2 } := hs
          exact ih (i + 1) k _ hs' t' r h

/-- What `checkDensity` and its callees leave: after a throw the table is as it was, or has an entry without a payload because a constructor threw; after a return it is sound. -/
def After (t : Table P) (plan : Plan) (x : Exec (Table P × Option (Bool × Option Nat))) : Prop :=
  ∀ t' r, x = .ok (t', r) → (r = none → t' = t ∨ (Hollow t' ∧ plan.ctor ≠ none)) ∧ (∀ b k, r = some (b, k) → (Sound t' ∧ (t'.capacity = t.capacity → t' = t)) ∧ (plan.ctor = none → k = none))

theorem changeCapacityX_after (c : Config) {t : Table P} (hs : Sound t) (n : Nat) (hn : n ≠ t.capacity) (memOk : Bool) (plan : Plan) : After t plan (changeCapacityX c t n memOk plan) := by
  intro t' r h
  unfold changeCapacityX at h
  by_cases h1 : n ≤ c.kMaxCapacity
  · rw [if_pos h1] at h
    by_cases h2 : plan.malloc = true
    · rw [if_pos h2] at h
      cases h
      exact ⟨fun _ => .inl rfl, fun b k h => (nomatch h)⟩
    · rw [if_neg h2] at h
      unfold createTable at h
      rw [if_pos h1] at h
      obtain ⟨s, ht, hcap, hwf⟩ := hs
      cases memOk with
      | false =>
        simp only [Bool.false_eq_true, if_false, bind, Except.bind] at h
        by_cases ha : c.aborts = true
        · rw [if_pos ha] at h; cases h
        · rw [if_neg ha] at h
          cases h
          exact ⟨fun h => (nomatch h), fun b k h => by cases h; exact ⟨⟨⟨s, ht, hcap, hwf⟩, fun _ => rfl⟩, id⟩⟩
      | true =>
        simp only [if_true, bind, Except.bind, ht] at h
        have hs0 : Sound { t with table := some (List.replicate n (Slot.fresh : Slot P)), capacity := n, ndeleted := 0, mallocs := t.mallocs + 1 } :=
          ⟨_, rfl, by simp, wf_replicate n⟩
        have := rehashLoopX_hollow s t.capacity 0 plan.ctor _ hs0
        generalize rehashLoopX s 0 t.capacity plan.ctor { t with table := some (List.replicate n (Slot.fresh : Slot P)), capacity := n, ndeleted := 0, mallocs := t.mallocs + 1 } = x at this h
        rcases x with f | ⟨t2, _ | k⟩
        · cases h
        · cases h
          exact ⟨fun _ => .inr ((this _ _ rfl).1 rfl), fun b k h => (nomatch h)⟩
        · cases h
          refine ⟨fun h => (nomatch h), fun b k h => ?_⟩
          cases h
          obtain ⟨⟨h3, h4⟩, h5⟩ := (this _ _ rfl).2 _ rfl
          exact ⟨⟨h3, fun he => absurd (h4.symm.trans he) hn⟩, h5⟩
  · rw [if_neg h1] at h; cases h

theorem checkDensityX_after (c : Config) {t : Table P} (hs : Sound t) (hpos : 0 < t.capacity) (memOk : Bool) (plan : Plan) : After t plan (checkDensityX c t memOk plan) := by
  have same : ∀ b, After t plan (.ok (t, some (b, plan.ctor))) := by
    intro b t' r h
    cases h
    exact ⟨fun h => (nomatch h), fun b k h => by cases h; exact ⟨⟨hs, fun _ => rfl⟩, id⟩⟩
  unfold checkDensityX shrinkX growX
  by_cases h1 : underloaded t = true
  · rw [if_pos h1]
    by_cases h2 : t.capacity / 2 < t.minCapacity
    · rw [if_pos h2]; exact same _
    · rw [if_neg h2]; exact changeCapacityX_after c hs _ (by omega) memOk plan
  · rw [if_neg h1]
    by_cases h3 : overloaded t = true
    · rw [if_pos h3]
      by_cases h4 : c.kMaxCapacity ≤ t.capacity
      · rw [if_pos h4]
        simp only [bind, Except.bind]
        cases reportAllocationOverflow c with
        | error f => intro t' r h; cases h
        | ok u => exact same _
      · rw [if_neg h4]; exact changeCapacityX_after c hs _ (by omega) memOk plan
    · rw [if_neg h3]; exact same _

theorem tail_hollow {t t' : Table P} {i i' : Insert} {s : List (Slot P)} {b : Bool} {e : Slot P} (ht : t.table = some s) (hcap : t.capacity = s.length)
    (he : s[i.entry]? = some e) (ho : e.obj = none) (hH : i.hash ≠ 0#32 ∧ i.hash ≠ 1#32) (h : internalAddTail t i = .ok (b, t', i')) : Hollow t' := by
  have hilt := lt_of_get he
  unfold internalAddTail at h
  simp only [bind, Except.bind] at h
  rw [load_ok (t := { t with nelements := inc32 t.nelements }) ht he] at h
  simp only at h
  rw [store_ok (t := { t with nelements := inc32 t.nelements }) ht hilt] at h
  cases h
  exact ⟨_, i.entry, e.setHash i.hash, rfl, by rw [List.length_set]; exact hcap, get_set_self hilt, by rw [isLive_iff]; exact hH, ho⟩

/-- `internalAdd`: if it succeeds, the entry is marked live before there is a payload. -/
theorem internalAddX_after (c : Config) {t : Table P} (hs : Sound t) (hpos : 0 < t.capacity) (i : Insert) (hH : i.hash ≠ 0#32 ∧ i.hash ≠ 1#32) (memOk : Bool) (plan : Plan) :
    ∀ t' r, internalAddX c t i memOk plan = .ok (t', r) →
      (r = none → t' = t ∨ (Hollow t' ∧ plan.ctor ≠ none)) ∧ (∀ i' k, r = some (true, i', k) → Hollow t' ∧ (plan.ctor = none → k = none)) := by
  intro t' r h
  obtain ⟨s, ht, hcap, hwf⟩ := id hs
  unfold internalAddX at h
  simp only [bind, Except.bind] at h
  cases he : s[i.entry]? with
  | none =>
    simp only [Table.load, ht, he] at h
    cases h
  | some e =>
    rw [load_ok ht he] at h
    simp only at h
    have tail : ∀ (t1 t2 : Table P) (s1 : List (Slot P)) (i1 i2 : Insert) (e1 : Slot P) (b : Bool), t1.table = some s1 → t1.capacity = s1.length → s1[i1.entry]? = some e1 → e1.obj = none →
        i1.hash = i.hash → internalAddTail t1 i1 = .ok (b, t2, i2) → Hollow t2 :=
      fun t1 t2 s1 i1 i2 e1 b h1 h2 h3 h4 h5 h6 => tail_hollow h1 h2 h3 h4 (by rw [h5]; exact hH) h6
    by_cases h1 : e.isLive = true
    · rw [if_pos h1] at h; cases h
    · rw [if_neg h1] at h
      have hnone := (hwf _ _ he).none (by simpa using h1)
      by_cases h2 : e.removed = true
      · rw [if_pos h2] at h
        cases hta : internalAddTail { t with ndeleted := dec32 t.ndeleted } i with
        | error f => rw [hta] at h; cases h
        | ok v =>
          rw [hta] at h
          obtain ⟨b, t2, i2⟩ := v
          cases h
          refine ⟨fun h => (nomatch h), fun i' k h => ?_⟩
          cases h
          exact ⟨tail { t with ndeleted := dec32 t.ndeleted } _ s i _ e _ ht hcap he hnone rfl hta, id⟩
      · rw [if_neg h2] at h
        by_cases h3 : t.nelements = c.kMaxCapacity
        · rw [if_pos h3] at h
          cases hr : reportAllocationOverflow c with
          | error f => rw [hr] at h; cases h
          | ok u =>
            rw [hr] at h
            cases h
            exact ⟨fun h => (nomatch h), fun i' k h => (nomatch h)⟩
        · rw [if_neg h3] at h
          have hcd := checkDensityX_after c hs hpos memOk plan
          cases hx : checkDensityX c t memOk plan with
          | error f => rw [hx] at h; cases h
          | ok v =>
            rw [hx] at h
            obtain ⟨t2, _ | ⟨b, k⟩⟩ := v
            · cases h
              exact ⟨fun _ => (hcd _ _ hx).1 rfl, fun i' k h => (nomatch h)⟩
            · obtain ⟨⟨hs2, hsame⟩, hk2⟩ := (hcd _ _ hx).2 b k rfl
              cases b with
              | false =>
                cases h
                exact ⟨fun h => (nomatch h), fun i' k h => (nomatch h)⟩
              | true =>
                simp only at h
                obtain ⟨s2, ht2, hcap2, hwf2⟩ := hs2
                by_cases h4 : t2.capacity ≠ t.capacity
                · rw [if_pos h4] at h
                  cases hins : insertUnique t2 i.hash with
                  | error f => rw [hins] at h; cases h
                  | ok i1 =>
                    obtain ⟨hh, e1, he1, hel1⟩ := insertUnique_dead ht2 hins
                    rw [hins] at h
                    simp only at h
                    cases hta : internalAddTail t2 i1 with
                    | error f => rw [hta] at h; cases h
                    | ok v =>
                      rw [hta] at h
                      obtain ⟨b, t3, i3⟩ := v
                      cases h
                      refine ⟨fun h => (nomatch h), fun i' k h => ?_⟩
                      cases h
                      exact ⟨tail _ _ s2 i1 _ e1 _ ht2 hcap2 he1 ((hwf2 _ _ he1).none hel1) hh hta, hk2⟩
                · rw [if_neg h4] at h
                  cases hta : internalAddTail t2 i with
                  | error f => rw [hta] at h; cases h
                  | ok v =>
                    rw [hta] at h
                    obtain ⟨b, t3, i3⟩ := v
                    cases h
                    refine ⟨fun h => (nomatch h), fun i' k h => ?_⟩
                    cases h
                    have := hsame (by simpa using h4)
                    subst this
                    exact ⟨tail _ _ s i _ e _ ht hcap he hnone rfl hta, hk2⟩

theorem addX_after (c : Config) {t : Table P} (hs : Sound t) (hpos : 0 < t.capacity) (i : Insert) (hH : i.hash ≠ 0#32 ∧ i.hash ≠ 1#32) (p : P) (memOk : Bool) (plan : Plan) :
    ∀ t', addX c t i p memOk plan = .ok (t', none) → t' = t ∨ (Hollow t' ∧ plan.ctor ≠ none) := by
  intro t' h
  unfold addX at h
  simp only [bind, Except.bind] at h
  have hia := internalAddX_after c hs hpos i hH memOk plan
  cases hx : internalAddX c t i memOk plan with
  | error f => rw [hx] at h; cases h
  | ok v =>
    rw [hx] at h
    obtain ⟨t2, _ | ⟨b, i2, k⟩⟩ := v
    · cases h
      exact (hia _ _ hx).1 rfl
    · cases b with
      | false => cases h
      | true =>
        obtain ⟨hh, hk⟩ := (hia _ _ hx).2 i2 k rfl
        simp only at h
        cases hf : fire k with
        | none =>
          rw [hf] at h
          cases h
          refine .inr ⟨hh, fun hn => ?_⟩
          rw [hk hn] at hf
          cases hf
        | some k' =>
          rw [hf] at h
          simp only at h
          cases h1 : t2.load i2.entry with
          | error f => rw [h1] at h; cases h
          | ok e =>
            rw [h1] at h
            simp only at h
            cases h2 : e.construct p with
            | error f => rw [h2] at h; cases h
            | ok e2 =>
              rw [h2] at h
              simp only at h
              cases h3 : t2.store i2.entry e2 with
              | error f => rw [h3] at h; cases h
              | ok t3 => rw [h3] at h; cases h

theorem findForAddX_hash {polX : PolicyX L P S} {t : Table P} {l : L} {s s' : S} {i : Insert} (h : findForAddX polX t l s = .ok (some i, s')) :
    i.hash ≠ 0#32 ∧ i.hash ≠ 1#32 := by
  unfold findForAddX at h
  cases hc : computeHashX polX l s with
  | mk H s1 =>
    rw [hc] at h
    cases H with
    | none => cases h
    | some H =>
      simp only [bind, Except.bind] at h
      have hl := computeHashX_live hc
      cases hp : probulatorCheck t.capacity with
      | error f => rw [hp] at h; cases h
      | ok u =>
        rw [hp] at h
        simp only at h
        cases hx : lookupForAddLoopX polX t l H H none s1 t.capacity with
        | error f => rw [hx] at h; cases h
        | ok v =>
          rw [hx] at h
          obtain ⟨_ | ⟨j, fr⟩, s2⟩ := v
          · cases h
          · simp only at h
            cases he : t.load j with
            | error f => rw [he] at h; cases h
            | ok e =>
              rw [he] at h
              simp only at h
              cases hel : e.isLive <;> cases fr <;> rw [hel] at h <;> cases h <;> exact hl

/-- One call that throws. -/
theorem execX_threw {polX : PolicyX L P S} (c : Config) {t : Table P} (hs : Sound t) (hpos : 0 < t.capacity) (s : S) (op : Op L P) (plan : Plan) :
    ∀ t' s', execX c polX t s op plan = .ok (t', none, s') → t' = t ∨ (Hollow t' ∧ plan.ctor ≠ none) := by
  intro t' s' h
  cases op with
  | find l =>
    simp only [execX, bind, Except.bind] at h
    rcases hx : findX polX t l s with f | ⟨_ | r, s1⟩
    · rw [hx] at h; cases h
    · rw [hx] at h; cases h; exact .inl rfl
    · rw [hx] at h
      simp only at h
      cases h1 : t.found r with
      | error f => rw [h1] at h; cases h
      | ok b =>
        rw [h1] at h
        cases b with
        | false => simp at h
        | true =>
          simp only [if_true] at h
          cases h2 : deref t r with
          | error f => rw [h2] at h; cases h
          | ok p => rw [h2] at h; simp at h
  | add l p memOk =>
    simp only [execX, bind, Except.bind] at h
    rcases hx : findForAddX polX t l s with f | ⟨_ | r, s1⟩
    · rw [hx] at h; cases h
    · rw [hx] at h; cases h; exact .inl rfl
    · rw [hx] at h
      simp only at h
      cases h1 : t.found r.entry with
      | error f => rw [h1] at h; cases h
      | ok b =>
        rw [h1] at h
        cases b with
        | true =>
          simp only [if_true] at h
          cases h2 : deref t r.entry with
          | error f => rw [h2] at h; cases h
          | ok p => rw [h2] at h; simp at h
        | false =>
          simp only [Bool.false_eq_true, if_false] at h
          have ha := addX_after c hs hpos r (findForAddX_hash hx) p memOk plan
          rcases hy : addX c t r p memOk plan with f | ⟨t2, _ | ⟨b, i2⟩⟩
          · rw [hy] at h; cases h
          · rw [hy] at h; cases h; exact ha _ hy
          · rw [hy] at h
            cases b with
            | false => simp at h
            | true =>
              simp only at h
              cases h2 : deref t2 i2.entry with
              | error f => rw [h2] at h; cases h
              | ok p => rw [h2] at h; simp at h
  | assign l p =>
    simp only [execX, bind, Except.bind] at h
    rcases hx : findX polX t l s with f | ⟨_ | r, s1⟩
    · rw [hx] at h; cases h
    · rw [hx] at h; cases h; exact .inl rfl
    · rw [hx] at h
      simp only at h
      cases h1 : t.found r with
      | error f => rw [h1] at h; cases h
      | ok b =>
        rw [h1] at h
        cases b with
        | false => simp at h
        | true =>
          simp only [if_true] at h
          cases h2 : deref t r with
          | error f => rw [h2] at h; cases h
          | ok q =>
            rw [h2] at h
            simp only at h
            cases h3 : assign t r p with
            | error f => rw [h3] at h; cases h
            | ok t2 => rw [h3] at h; simp at h
  | removeIfExists l =>
    simp only [execX, removeIfExistsX, bind, Except.bind] at h
    rcases hx : findX polX t l s with f | ⟨_ | r, s1⟩
    · rw [hx] at h; cases h
    · rw [hx] at h; cases h; exact .inl rfl
    · rw [hx] at h
      simp only at h
      cases h1 : t.found r with
      | error f => rw [h1] at h; cases h
      | ok b =>
        rw [h1] at h
        cases b with
        | false => simp at h
        | true =>
          simp only [if_true] at h
          cases h2 : remove t r with
          | error f => rw [h2] at h; cases h
          | ok p => rw [h2] at h; simp at h
  | clear =>
    simp only [execX, bind, Except.bind] at h
    cases h2 : clear t with
    | error f => rw [h2] at h; cases h
    | ok p => rw [h2] at h; simp at h
  | checkDensity memOk =>
    simp only [execX, bind, Except.bind] at h
    have ha := checkDensityX_after c hs hpos memOk plan
    rcases hy : checkDensityX c t memOk plan with f | ⟨t2, _ | ⟨b, i2⟩⟩
    · rw [hy] at h; cases h
    · rw [hy] at h; cases h; exact (ha _ _ hy).1 rfl
    · rw [hy] at h; simp at h
  | sweep pick =>
    simp only [execX, bind, Except.bind] at h
    cases h2 : sweep pick t with
    | error f => rw [h2] at h; cases h
    | ok p => rw [h2] at h; simp at h
  | elements => simp [execX] at h
  | move =>
    simp only [execX, bind, Except.bind] at h
    cases h2 : destroy (moveFrom t).2 with
    | error f => rw [h2] at h; cases h
    | ok p => rw [h2] at h; simp at h

variable {K : Type} [DecidableEq K] {c : Config} {canon : L → K} {keyOf : P → K} {h : K → BitVec 32} {pol : Policy L P} {polX : PolicyX L P S}

omit [DecidableEq K] in
theorem inv_sound {t : Table P} {s : List (Slot P)} (hi : Inv c keyOf h t s) : Sound t ∧ 0 < t.capacity :=
  ⟨⟨s, hi.tbl, hi.cap, hi.sinv.wf⟩, by have h1 := hi.min16; have h2 := hi.minCap; omega⟩

/-- Payload constructors do not throw. -/
def CtorsReturn (ops : List (Op L P × Plan)) : Prop := ∀ x ∈ ops, x.2.ctor = none

theorem runX_returned (hl : Lawful pol canon keyOf h) (ha : Agrees polX pol) : ∀ (ops : List (Op L P × Plan)) (t : Table P) (s : List (Slot P)) (m : K → Option P) (σ : S),
    Inv c keyOf h t s → Repr' keyOf s m → CtorsReturn ops → (∀ x ∈ ops, x.1.Ok canon keyOf) →
    (∀ t' os σ', runX c polX t σ ops = .ok (t', os, σ') → run c pol t (returned ops os) = .ok (t', answers os) ∧ os.length = ops.length) ∧
    (∀ f, runX c polX t σ ops = .error f → ∃ ops', ops'.Sublist (ops.map (·.1)) ∧ run c pol t ops' = .error f) := by
  intro ops
  induction ops with
  | nil =>
    intro t s m σ hi hr _ _
    exact ⟨fun t' os σ' h => by cases h; exact ⟨rfl, rfl⟩, fun f h => (nomatch h)⟩
  | cons x ops ih =>
    intro t s m σ hi hr hc hok
    obtain ⟨op, plan⟩ := x
    have hplan : plan.ctor = none := hc (op, plan) List.mem_cons_self
    have hc' : CtorsReturn ops := fun x hx => hc x (List.mem_cons_of_mem _ hx)
    have hok' : ∀ x ∈ ops, x.1.Ok canon keyOf := fun x hx => hok x (List.mem_cons_of_mem _ hx)
    obtain ⟨hs, hpos⟩ := inv_sound hi
    have hE := execX_asIf ha c t σ op plan
    have hT := execX_threw (polX := polX) c hs hpos σ op plan
    simp only [runX, bind, Except.bind]
    rcases hx : execX c polX t σ op plan with f | ⟨t1, _ | o, σ1⟩
    · refine ⟨fun t' os σ' h => (by cases h), fun f' h => ?_⟩
      cases h
      exact ⟨[op], by simp, by simp only [run, bind, Except.bind, hE.1 f hx]⟩
    · have ht1 : t1 = t := by
        rcases hT _ _ hx with h | ⟨_, h⟩
        · exact h
        · exact absurd hplan h
      subst ht1
      obtain ⟨ih1, ih2⟩ := ih t1 s m σ1 hi hr hc' hok'
      simp only
      rcases hy : runX c polX t1 σ1 ops with f | ⟨t2, os, σ2⟩
      · refine ⟨fun t' os σ' h => (by cases h), fun f' h => ?_⟩
        cases h
        obtain ⟨ops', h1, h2⟩ := ih2 f hy
        exact ⟨ops', h1.trans (List.sublist_cons_self _ _), h2⟩
      · refine ⟨fun t' os' σ' h => ?_, fun f' h => (by cases h)⟩
        cases h
        obtain ⟨h1, h2⟩ := ih1 _ _ _ hy
        exact ⟨h1, by simp [h2]⟩
    · have hexec := hE.2 _ _ _ hx
      obtain ⟨s1, m1, hi1, hr1, _⟩ := run_steps hl [op] t s m hi hr (by intro o' ho; rw [List.mem_singleton] at ho; rw [ho]; exact hok (op, plan) List.mem_cons_self) t1 [o]
        (by simp only [run, bind, Except.bind, hexec])
      obtain ⟨ih1, ih2⟩ := ih t1 s1 m1 σ1 hi1 hr1 hc' hok'
      simp only
      rcases hy : runX c polX t1 σ1 ops with f | ⟨t2, os, σ2⟩
      · refine ⟨fun t' os σ' h => (by cases h), fun f' h => ?_⟩
        cases h
        obtain ⟨ops', h1, h2⟩ := ih2 f hy
        exact ⟨op :: ops', h1.cons_cons op, by simp only [run, bind, Except.bind, hexec, h2]⟩
      · refine ⟨fun t' os' σ' h => ?_, fun f' h => (by cases h)⟩
        cases h
        obtain ⟨h1, h2⟩ := ih1 _ _ _ hy
        refine ⟨?_, by simp [h2]⟩
        simp only [returned, answers, run, bind, Except.bind, hexec, h1, List.filterMap_cons, id]

/-- C143, `HashPolicy::hash`, `HashPolicy::matches` and `am_malloc` may throw at any time, payload constructors do not: every history leaves the table, and gives the answers, of the
history with the throwing calls left out. -/
theorem C143_history_partial (hl : Lawful pol canon keyOf h) (ha : Agrees polX pol) {cap : Nat} {t0 : Table P} (hst : Started c cap t0) {ops : List (Op L P × Plan)}
    (hc : CtorsReturn ops) (hok : ∀ x ∈ ops, x.1.Ok canon keyOf) {σ σ' : S} {t : Table P} {os : List (Option (Out P))} (hrun : runX c polX t0 σ ops = .ok (t, os, σ')) :
    run c pol t0 (returned ops os) = .ok (t, answers os) ∧ os.length = ops.length := by
  obtain ⟨s, hi, hr, _⟩ := started_inv (keyOf := keyOf) (h := h) hst
  exact (runX_returned hl ha ops t0 s _ σ hi hr hc hok).1 _ _ _ hrun

/-- C143: so no such history makes a probe loop run for ever, touches memory that is not the table's, constructs over a payload or destroys or reads one that is not there; it can only
abort for want of memory or fail the assertion on the size of the table (C10). -/
theorem C143_no_fault_partial (hl : Lawful pol canon keyOf h) (ha : Agrees polX pol) {cap : Nat} {t0 : Table P} (hst : Started c cap t0) {ops : List (Op L P × Plan)}
    (hc : CtorsReturn ops) (hok : ∀ x ∈ ops, x.1.Ok canon keyOf) {σ : S} {f : Fault} (hrun : runX c polX t0 σ ops = .error f) : f = .abort ∨ f = .assertFail := by
  obtain ⟨s, hi, hr, _⟩ := started_inv (keyOf := keyOf) (h := h) hst
  obtain ⟨ops', hsub, hf⟩ := (runX_returned hl ha ops t0 s _ σ hi hr hc hok).2 _ hrun
  have hok' : ∀ op ∈ ops', op.Ok canon keyOf := by
    intro op hop
    obtain ⟨x, hx, rfl⟩ := List.mem_map.1 (hsub.subset hop)
    exact hok x hx
  rcases run_fault hl ops' t0 s _ hi hr hok' f hf with ⟨rfl, _⟩ | ⟨rfl, _⟩
  · exact .inl rfl
  · exact .inr rfl

/-- C143: and the table after such a history is the finite map of the calls that returned, has the payloads of that map and no other, and can be destroyed. -/
theorem C143_finite_map_partial (hl : Lawful pol canon keyOf h) (ha : Agrees polX pol) {cap : Nat} {t0 : Table P} (hst : Started c cap t0) {ops : List (Op L P × Plan)}
    (hc : CtorsReturn ops) (hok : ∀ x ∈ ops, x.1.Ok canon keyOf) {σ σ' : S} {t : Table P} {os : List (Option (Out P))} (hrun : runX c polX t0 σ ops = .ok (t, os, σ')) :
    (∃ m, Steps canon keyOf (fun _ => none) (returned ops os) (answers os) m ∧ ∀ l, exec c pol t (.find l) = .ok (t, .found (m (canon l)))) ∧
    t.ctors = t.dtors + elements t ∧ ∃ t', destroy t = .ok t' ∧ t'.dtors = t.ctors ∧ t'.frees = t.mallocs := by
  obtain ⟨h1, _⟩ := C143_history_partial hl ha hst hc hok hrun
  have hok' : ∀ op ∈ returned ops os, op.Ok canon keyOf := by
    have key : ∀ (ops : List (Op L P × Plan)) (os : List (Option (Out P))), (∀ x ∈ ops, x.1.Ok canon keyOf) → ∀ op ∈ returned ops os, op.Ok canon keyOf := by
      intro ops
      induction ops with
      | nil => intro os _ op hop; simp [returned] at hop
      | cons x ops ih =>
        intro os hok op hop
        obtain ⟨o, pl⟩ := x
        have hok2 : ∀ x ∈ ops, x.1.Ok canon keyOf := fun x hx => hok x (List.mem_cons_of_mem _ hx)
        cases os with
        | nil => simp [returned] at hop
        | cons a os =>
          cases a with
          | none => exact ih os hok2 op (by simpa [returned] using hop)
          | some a =>
            simp only [returned, List.mem_cons] at hop
            rcases hop with rfl | hop
            · exact hok (op, pl) List.mem_cons_self
            · exact ih os hok2 op hop
    exact key ops os hok
  obtain ⟨h2, h3, t', h4, _, h5, h6⟩ := (C06_lifetimes_balanced hl hst hok').1 _ _ h1
  exact ⟨C01_finite_map hl hst hok' h1, h2, t', h4, h5, h6⟩

/-- C143, exactly: a call on a table reached as above that throws, for whatever reason, either leaves the table exactly as it was, or a payload constructor threw and the table cannot even
be destroyed: some entry is marked live without a payload, and the destructor's first access to one is undefined behaviour. -/
theorem C143_throwing_call_partial (hl : Lawful pol canon keyOf h) (ha : Agrees polX pol) {cap : Nat} {t0 : Table P} (hst : Started c cap t0) {ops : List (Op L P × Plan)}
    (hc : CtorsReturn ops) (hok : ∀ x ∈ ops, x.1.Ok canon keyOf) {σ σ' : S} {t : Table P} {os : List (Option (Out P))} (hrun : runX c polX t0 σ ops = .ok (t, os, σ'))
    {op : Op L P} {plan : Plan} {t' : Table P} {σ'' : S} (hcall : execX c polX t σ' op plan = .ok (t', none, σ'')) :
    t' = t ∨ (plan.ctor ≠ none ∧ destroy t' = .error .uninitialised) := by
  have hok' : ∀ op ∈ returned ops os, op.Ok canon keyOf := by
    have h1 := (C143_finite_map_partial hl ha hst hc hok hrun).1
    intro op hop
    have key : ∀ (ops : List (Op L P × Plan)) (os : List (Option (Out P))), op ∈ returned ops os → ∃ x ∈ ops, x.1 = op := by
      intro ops
      induction ops with
      | nil => intro os hop; simp [returned] at hop
      | cons x ops ih =>
        intro os hop
        obtain ⟨o, pl⟩ := x
        cases os with
        | nil => simp [returned] at hop
        | cons a os =>
          cases a with
          | none =>
            obtain ⟨x, hx, he⟩ := ih os (by simpa [returned] using hop)
            exact ⟨x, List.mem_cons_of_mem _ hx, he⟩
          | some a =>
            simp only [returned, List.mem_cons] at hop
            rcases hop with rfl | hop
            · exact ⟨_, List.mem_cons_self, rfl⟩
            · obtain ⟨x, hx, he⟩ := ih os hop
              exact ⟨x, List.mem_cons_of_mem _ hx, he⟩
    obtain ⟨x, hx, rfl⟩ := key ops os hop
    exact hok x hx
  obtain ⟨h1, _⟩ := C143_history_partial hl ha hst hc hok hrun
  obtain ⟨s, m, hi, _⟩ := reached hl hst hok' h1
  obtain ⟨hs, hpos⟩ := inv_sound hi
  rcases execX_threw (polX := polX) c hs hpos σ' op plan t' σ'' hcall with h | ⟨h, hp⟩
  · exact .inl h
  · exact .inr ⟨hp, h.fatal⟩

/-! ### Witnesses -/

/-- Keys are numbers, a payload is its own key. -/
def natPolicy : Policy Nat Nat := ⟨fun k => BitVec.ofNat 32 k, fun k p => k == p⟩

/-- The same, throwing from every call while the state is 0. -/
def natPolicyX : PolicyX Nat Nat Nat :=
  ⟨fun k n => if n = 0 then (none, 5) else (some (BitVec.ofNat 32 k), n - 1), fun k p n => if n = 0 then (none, 5) else (some (k == p), n - 1)⟩

theorem natAgrees : Agrees natPolicyX natPolicy := by
  constructor
  · intro l s h s' hh
    unfold natPolicyX at hh
    simp only at hh
    split at hh
    · simp at hh
    · simp at hh; exact hh.1.symm
  · intro l p s b s' hh
    unfold natPolicyX at hh
    simp only at hh
    split at hh
    · simp at hh
    · simp at hh; exact hh.1.symm

def tinyConfig : Config := ⟨8, false⟩

/-- The table after `init()`. -/
def tinyTable : Table Nat := { (Table.new : Table Nat) with capacity := 16, table := some (List.replicate 16 Slot.fresh), mallocs := 1 }

/-- The hypotheses of the theorems above are met by a history with throwing calls. -/
example : ∃ t os σ', runX tinyConfig natPolicyX tinyTable 2 [(.add 7 7 true, ⟨false, none⟩), (.find 7, ⟨false, none⟩), (.add 9 9 true, ⟨false, none⟩), (.find 7, ⟨true, none⟩), (.find 8, ⟨false, none⟩)] =
    .ok (t, os, σ') ∧ os.map Option.isSome = [true, false, true, true, true] := by
  refine ⟨_, _, _, rfl, ?_⟩
  decide +kernel

/-- The table after an `add` whose payload constructor threw. -/
def hollowTable : Table Nat :=
  { tinyTable with nelements := 1, table := some ((List.replicate 16 Slot.fresh).set 15 ⟨BitVec.ofNat 32 7 * 0x9E3779B9#32, none⟩) }

/-- C143 is false: `add` of one number to an empty table; the payload's constructor throws. The table then has an entry marked live that holds nothing, which its destructor destroys. -/
theorem C143_ctor_refuted : ¬ ThrowSafe := by
  intro hs
  obtain ⟨t', ht'⟩ := hs Nat tinyConfig natPolicyX natPolicy natAgrees tinyTable 0 rfl [(.add 7 7 true, ⟨false, some 0⟩)] 9 8 hollowTable [none] rfl
  rw [Hollow.fatal ⟨_, 15, ⟨BitVec.ofNat 32 7 * 0x9E3779B9#32, none⟩, rfl, rfl, rfl, by decide +kernel, rfl⟩] at ht'
  cases ht'

end Verif.HashTable
