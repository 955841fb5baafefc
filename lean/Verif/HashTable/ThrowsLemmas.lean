import Verif.HashTable.SpecThrows
import Verif.HashTable.Any
/-! Lemmas for C143. -/
namespace Verif.HashTable
open Verif

variable {L P S : Type}

/-! ### Calls that return: as without exceptions. Calls that fail: likewise. -/

/-- A result of the throwing model against the same call without exceptions: `conv` relates what was returned. -/
def AsIf {α β : Type} (x : Exec (Option α × S)) (y : Exec β) (conv : α → β → Prop) : Prop :=
  match x with
  | .error f => y = .error f
  | .ok (some a, _) => ∃ b, y = .ok b ∧ conv a b
  | .ok (none, _) => True

theorem computeHashX_agrees {polX : PolicyX L P S} {pol : Policy L P} (ha : Agrees polX pol) {l : L} {s s' : S} {h : BitVec 32}
    (hc : computeHashX polX l s = (some h, s')) : h = computeHash pol l := by
  unfold computeHashX at hc
  split at hc
  · cases hc
  · rename_i h0 s0 he
    cases hc
    rw [ha.1 _ _ _ _ he]
    rfl

theorem computeHashX_live {polX : PolicyX L P S} {l : L} {s s' : S} {h : BitVec 32} (hc : computeHashX polX l s = (some h, s')) : h ≠ 0#32 ∧ h ≠ 1#32 := by
  unfold computeHashX at hc
  split at hc
  · cases hc
  · rename_i h0 s0 he
    cases hc
    exact mix_live h0

theorem lookupLoopX_asIf {polX : PolicyX L P S} {pol : Policy L P} (ha : Agrees polX pol) (t : Table P) (l : L) (H : BitVec 32) :
    ∀ fuel cur s, AsIf (lookupLoopX polX t l H cur s fuel) (lookupLoop pol t l H cur fuel) Eq := by
  intro fuel
  induction fuel with
  | zero => intro cur s; rfl
  | succ fuel ih =>
    intro cur s
    unfold lookupLoopX lookupLoop
    simp only [bind, Except.bind]
    cases t.load (probeEntry cur t.capacity) with
    | error f => rfl
    | ok e =>
      simp only
      by_cases h1 : e.isFree = true
      · rw [if_pos h1, if_pos h1]; exact ⟨_, rfl, rfl⟩
      · rw [if_neg h1, if_neg h1]
        by_cases h2 : (e.isLive && e.sameHash H) = true
        · rw [if_pos h2, if_pos h2]
          cases e.payload with
          | error f => rfl
          | ok p =>
            simp only
            cases hm : polX.isMatch l p s with
            | mk b s1 =>
              cases b with
              | none => trivial
              | some b =>
                have hb := ha.2 _ _ _ _ _ hm
                subst hb
                cases hp : pol.isMatch l p with
                | true => exact ⟨_, rfl, rfl⟩
                | false => exact ih _ _
        · rw [if_neg h2, if_neg h2]; exact ih _ _

theorem findX_asIf {polX : PolicyX L P S} {pol : Policy L P} (ha : Agrees polX pol) (t : Table P) (l : L) (s : S) :
    AsIf (findX polX t l s) (find pol t l) Eq := by
  unfold findX find
  cases hc : computeHashX polX l s with
  | mk h s1 =>
    cases h with
    | none => trivial
    | some h =>
      have := computeHashX_agrees ha hc
      subst this
      simp only [bind, Except.bind]
      cases probulatorCheck t.capacity with
      | error f => rfl
      | ok u => exact lookupLoopX_asIf ha t l _ _ _ _

theorem lookupForAddLoopX_asIf {polX : PolicyX L P S} {pol : Policy L P} (ha : Agrees polX pol) (t : Table P) (l : L) (H : BitVec 32) :
    ∀ fuel cur fr s, AsIf (lookupForAddLoopX polX t l H cur fr s fuel) (lookupForAddLoop pol t l H cur fr fuel) Eq := by
  intro fuel
  induction fuel with
  | zero => intro cur fr s; rfl
  | succ fuel ih =>
    intro cur fr s
    unfold lookupForAddLoopX lookupForAddLoop
    simp only [bind, Except.bind]
    cases t.load (probeEntry cur t.capacity) with
    | error f => rfl
    | ok e =>
      simp only
      by_cases h1 : e.isFree = true
      · rw [if_pos h1, if_pos h1]; exact ⟨_, rfl, rfl⟩
      · rw [if_neg h1, if_neg h1]
        by_cases h3 : e.removed = true
        · rw [if_pos h3, if_pos h3]; exact ih _ _ _
        · rw [if_neg h3, if_neg h3]
          by_cases h2 : e.sameHash H = true
          · rw [if_pos h2, if_pos h2]
            cases e.payload with
            | error f => rfl
            | ok p =>
              simp only
              cases hm : polX.isMatch l p s with
              | mk b s1 =>
                cases b with
                | none => trivial
                | some b =>
                  have hb := ha.2 _ _ _ _ _ hm
                  subst hb
                  cases hp : pol.isMatch l p with
                  | true => exact ⟨_, rfl, rfl⟩
                  | false => exact ih _ _ _
          · rw [if_neg h2, if_neg h2]; exact ih _ _ _

theorem findForAddX_asIf {polX : PolicyX L P S} {pol : Policy L P} (ha : Agrees polX pol) (t : Table P) (l : L) (s : S) :
    AsIf (findForAddX polX t l s) (findForAdd pol t l) Eq := by
  unfold findForAddX findForAdd
  cases hc : computeHashX polX l s with
  | mk h s1 =>
    cases h with
    | none => trivial
    | some h =>
      have := computeHashX_agrees ha hc
      subst this
      simp only [bind, Except.bind]
      cases probulatorCheck t.capacity with
      | error f => rfl
      | ok u =>
        have := lookupForAddLoopX_asIf ha t l (computeHash pol l) t.capacity (computeHash pol l) none s1
        simp only
        generalize lookupForAddLoopX polX t l (computeHash pol l) (computeHash pol l) none s1 t.capacity = x at this ⊢
        generalize lookupForAddLoop pol t l (computeHash pol l) (computeHash pol l) none t.capacity = y at this ⊢
        rcases x with f | ⟨_ | ⟨i, fr⟩, s2⟩
        · cases this; rfl
        · trivial
        · obtain ⟨b, rfl, rfl⟩ := this
          simp only
          cases t.load i with
          | error f => rfl
          | ok e =>
            simp only
            cases e.isLive <;> cases fr <;> exact ⟨_, rfl, rfl⟩

/-- The same for the functions that take a plan: there is no policy state. -/
def AsIfP {α β : Type} (x : Exec (Table P × Option α)) (y : Exec β) (conv : Table P → α → β → Prop) : Prop :=
  match x with
  | .error f => y = .error f
  | .ok (t, some a) => ∃ b, y = .ok b ∧ conv t a b
  | .ok (_, none) => True

theorem rehashLoopX_asIf (old : List (Slot P)) : ∀ rem i k (t : Table P),
    AsIfP (rehashLoopX old i rem k t) (rehashLoop old i rem t) (fun t _ b => b = t) := by
  intro rem
  induction rem with
  | zero => intro i k t; exact ⟨_, rfl, rfl⟩
  | succ rem ih =>
    intro i k t
    unfold rehashLoopX rehashLoop
    cases old[i]? with
    | none => rfl
    | some oe =>
      simp only [bind, Except.bind]
      by_cases hl : oe.isLive = true
      · rw [if_pos hl, if_pos hl]
        cases insertUnique t oe.hash with
        | error f => rfl
        | ok ins =>
          simp only
          cases t.load ins.entry with
          | error f => rfl
          | ok e =>
            simp only
            cases t.store ins.entry (e.setHash ins.hash) with
            | error f => rfl
            | ok t1 =>
              simp only
              cases oe.payload with
              | error f => rfl
              | ok p =>
                simp only
                cases fire k with
                | none => trivial
                | some k' =>
                  simp only
                  cases t1.load ins.entry with
                  | error f => rfl
                  | ok e1 =>
                    simp only
                    cases e1.construct p with
                    | error f => rfl
                    | ok e2 =>
                      simp only
                      cases t1.store ins.entry e2 with
                      | error f => rfl
                      | ok t2 =>
                        simp only
                        cases oe.destruct with
                        | error f => rfl
                        | ok v => exact ih _ _ _
      · rw [if_neg hl, if_neg hl]
        cases oe.destruct with
        | error f => rfl
        | ok v => exact ih _ _ _

theorem changeCapacityX_asIf (c : Config) (t : Table P) (n : Nat) (memOk : Bool) (plan : Plan) :
    AsIfP (changeCapacityX c t n memOk plan) (changeCapacity c t n memOk) (fun t a b => b = (a.1, t)) := by
  unfold changeCapacityX changeCapacity
  by_cases h1 : n ≤ c.kMaxCapacity
  · rw [if_pos h1, if_pos h1]
    by_cases h2 : plan.malloc = true
    · rw [if_pos h2]; trivial
    · rw [if_neg h2]
      simp only [bind, Except.bind]
      cases hct : (createTable c n memOk : Exec (Option (List (Slot P)))) with
      | error f => rfl
      | ok o =>
        cases o with
        | none => exact ⟨_, rfl, rfl⟩
        | some s =>
          simp only
          cases t.table with
          | none =>
            simp only
            by_cases h3 : t.capacity = 0
            · rw [if_pos h3, if_pos h3]; exact ⟨_, rfl, rfl⟩
            · rw [if_neg h3, if_neg h3]; rfl
          | some old =>
            simp only
            have := rehashLoopX_asIf old t.capacity 0 plan.ctor { t with table := some s, capacity := n, ndeleted := 0, mallocs := t.mallocs + 1 }
            generalize rehashLoopX old 0 t.capacity plan.ctor { t with table := some s, capacity := n, ndeleted := 0, mallocs := t.mallocs + 1 } = x at this ⊢
            generalize rehashLoop old 0 t.capacity { t with table := some s, capacity := n, ndeleted := 0, mallocs := t.mallocs + 1 } = y at this ⊢
            rcases x with f | ⟨t2, _ | k⟩
            · cases this; rfl
            · trivial
            · obtain ⟨b, rfl, rfl⟩ := this
              exact ⟨_, rfl, rfl⟩
  · rw [if_neg h1, if_neg h1]; rfl

theorem checkDensityX_asIf (c : Config) (t : Table P) (memOk : Bool) (plan : Plan) :
    AsIfP (checkDensityX c t memOk plan) (checkDensity c t memOk) (fun t a b => b = (a.1, t)) := by
  unfold checkDensityX checkDensity shrinkX shrink growX grow
  by_cases h1 : underloaded t = true
  · rw [if_pos h1, if_pos h1]
    by_cases h2 : t.capacity / 2 < t.minCapacity
    · rw [if_pos h2, if_pos h2]; exact ⟨_, rfl, rfl⟩
    · rw [if_neg h2, if_neg h2]; exact changeCapacityX_asIf c t _ memOk plan
  · rw [if_neg h1, if_neg h1]
    by_cases h3 : overloaded t = true
    · rw [if_pos h3, if_pos h3]
      by_cases h4 : c.kMaxCapacity ≤ t.capacity
      · rw [if_pos h4, if_pos h4]
        simp only [bind, Except.bind]
        cases reportAllocationOverflow c with
        | error f => rfl
        | ok u => exact ⟨_, rfl, rfl⟩
      · rw [if_neg h4, if_neg h4]; exact changeCapacityX_asIf c t _ memOk plan
    · rw [if_neg h3, if_neg h3]; exact ⟨_, rfl, rfl⟩

theorem tail_asIf (t : Table P) (i : Insert) (k : Option Nat) :
    AsIfP (internalAddTail t i >>= fun r => .ok (r.2.1, some (r.1, r.2.2, k))) (internalAddTail t i) (fun t a b => b = (a.1, t, a.2.1)) := by
  cases internalAddTail t i with
  | error f => rfl
  | ok r => exact ⟨_, rfl, rfl⟩

theorem internalAddX_asIf (c : Config) (t : Table P) (i : Insert) (memOk : Bool) (plan : Plan) :
    AsIfP (internalAddX c t i memOk plan) (internalAdd c t i memOk) (fun t a b => b = (a.1, t, a.2.1)) := by
  unfold internalAddX internalAdd
  simp only [bind, Except.bind]
  cases t.load i.entry with
  | error f => rfl
  | ok e =>
    simp only
    by_cases h1 : e.isLive = true
    · rw [if_pos h1, if_pos h1]; rfl
    · rw [if_neg h1, if_neg h1]
      by_cases h2 : e.removed = true
      · rw [if_pos h2, if_pos h2]; exact tail_asIf _ i _
      · rw [if_neg h2, if_neg h2]
        by_cases h3 : t.nelements = c.kMaxCapacity
        · rw [if_pos h3, if_pos h3]
          cases reportAllocationOverflow c with
          | error f => rfl
          | ok u => exact ⟨_, rfl, rfl⟩
        · rw [if_neg h3, if_neg h3]
          have := checkDensityX_asIf c t memOk plan
          generalize checkDensityX c t memOk plan = x at this ⊢
          generalize checkDensity c t memOk = y at this ⊢
          rcases x with f | ⟨t2, _ | ⟨b, k⟩⟩
          · cases this; rfl
          · trivial
          · obtain ⟨b', rfl, rfl⟩ := this
            cases b with
            | false => exact ⟨_, rfl, rfl⟩
            | true =>
              simp only [if_true]
              by_cases h4 : t2.capacity ≠ t.capacity
              · rw [if_pos h4, if_pos h4]
                cases insertUnique t2 i.hash with
                | error f => rfl
                | ok i2 => exact tail_asIf _ i2 _
              · rw [if_neg h4, if_neg h4]; exact tail_asIf _ i _

theorem addX_asIf (c : Config) (t : Table P) (i : Insert) (p : P) (memOk : Bool) (plan : Plan) :
    AsIfP (addX c t i p memOk plan) (add c t i p memOk) (fun t a b => b = (a.1, t, a.2)) := by
  unfold addX add
  have := internalAddX_asIf c t i memOk plan
  simp only [bind, Except.bind]
  generalize internalAddX c t i memOk plan = x at this ⊢
  generalize internalAdd c t i memOk = y at this ⊢
  rcases x with f | ⟨t2, _ | ⟨b, i2, k⟩⟩
  · cases this; rfl
  · trivial
  · obtain ⟨b', rfl, rfl⟩ := this
    cases b with
    | false => exact ⟨_, rfl, rfl⟩
    | true =>
      simp only [if_true]
      cases fire k with
      | none => trivial
      | some k' =>
        simp only
        cases t2.load i2.entry with
        | error f => rfl
        | ok e =>
          simp only
          cases e.construct p with
          | error f => rfl
          | ok e2 =>
            simp only
            cases t2.store i2.entry e2 with
            | error f => rfl
            | ok t3 => exact ⟨_, rfl, rfl⟩

/-- One call: what returns, returns as it would without exceptions. -/
theorem execX_asIf {polX : PolicyX L P S} {pol : Policy L P} (ha : Agrees polX pol) (c : Config) (t : Table P) (s : S) (op : Op L P) (plan : Plan) :
    (∀ f, execX c polX t s op plan = .error f → exec c pol t op = .error f) ∧
    ∀ t' o s', execX c polX t s op plan = .ok (t', some o, s') → exec c pol t op = .ok (t', o) := by
  cases op with
  | find l =>
    have := findX_asIf ha t l s
    simp only [execX, exec, bind, Except.bind]
    generalize findX polX t l s = x at this ⊢
    generalize find pol t l = y at this ⊢
    rcases x with f | ⟨_ | r, s1⟩
    · cases this; exact ⟨fun _ h => (by simp at h ⊢; exact h), fun _ _ _ h => nomatch h⟩
    · exact ⟨fun _ h => (nomatch h), fun _ _ _ h => by simp at h⟩
    · obtain ⟨b, rfl, rfl⟩ := this
      simp only
      cases t.found r with
      | error f => exact ⟨fun _ h => (by simp at h ⊢; exact h), fun _ _ _ h => nomatch h⟩
      | ok b =>
        cases b with
        | false => exact ⟨fun _ h => (by simp at h), fun _ _ _ h => by simp at h ⊢; exact ⟨h.1, h.2.1⟩⟩
        | true =>
          simp only [if_true]
          cases deref t r with
          | error f => exact ⟨fun _ h => (by simp at h ⊢; exact h), fun _ _ _ h => nomatch h⟩
          | ok p => exact ⟨fun _ h => (by simp at h), fun _ _ _ h => by simp at h ⊢; exact ⟨h.1, h.2.1⟩⟩
  | add l p memOk =>
    have := findForAddX_asIf ha t l s
    simp only [execX, exec, bind, Except.bind]
    generalize findForAddX polX t l s = x at this ⊢
    generalize findForAdd pol t l = y at this ⊢
    rcases x with f | ⟨_ | r, s1⟩
    · cases this; exact ⟨fun _ h => (by simp at h ⊢; exact h), fun _ _ _ h => nomatch h⟩
    · exact ⟨fun _ h => (nomatch h), fun _ _ _ h => by simp at h⟩
    · obtain ⟨b, rfl, rfl⟩ := this
      simp only
      cases t.found r.entry with
      | error f => exact ⟨fun _ h => (by simp at h ⊢; exact h), fun _ _ _ h => nomatch h⟩
      | ok b =>
        cases b with
        | true =>
          simp only [if_true]
          cases deref t r.entry with
          | error f => exact ⟨fun _ h => (by simp at h ⊢; exact h), fun _ _ _ h => nomatch h⟩
          | ok p => exact ⟨fun _ h => (by simp at h), fun _ _ _ h => by simp at h ⊢; exact ⟨h.1, h.2.1⟩⟩
        | false =>
          simp only [Bool.false_eq_true, if_false]
          have := addX_asIf c t r p memOk plan
          generalize addX c t r p memOk plan = x at this ⊢
          generalize add c t r p memOk = y at this ⊢
          rcases x with f | ⟨t2, _ | ⟨b, i2⟩⟩
          · cases this; exact ⟨fun _ h => (by simp at h ⊢; exact h), fun _ _ _ h => nomatch h⟩
          · exact ⟨fun _ h => (nomatch h), fun _ _ _ h => by simp at h⟩
          · obtain ⟨b', rfl, rfl⟩ := this
            cases b with
            | false => exact ⟨fun _ h => (by simp at h), fun _ _ _ h => by simp at h ⊢; exact ⟨h.1, h.2.1⟩⟩
            | true =>
              simp only [if_true]
              cases deref t2 i2.entry with
              | error f => exact ⟨fun _ h => (by simp at h ⊢; exact h), fun _ _ _ h => nomatch h⟩
              | ok p => exact ⟨fun _ h => (by simp at h), fun _ _ _ h => by simp at h ⊢; exact ⟨h.1, h.2.1⟩⟩
  | assign l p =>
    have := findX_asIf ha t l s
    simp only [execX, exec, bind, Except.bind]
    generalize findX polX t l s = x at this ⊢
    generalize find pol t l = y at this ⊢
    rcases x with f | ⟨_ | r, s1⟩
    · cases this; exact ⟨fun _ h => (by simp at h ⊢; exact h), fun _ _ _ h => nomatch h⟩
    · exact ⟨fun _ h => (nomatch h), fun _ _ _ h => by simp at h⟩
    · obtain ⟨b, rfl, rfl⟩ := this
      simp only
      cases t.found r with
      | error f => exact ⟨fun _ h => (by simp at h ⊢; exact h), fun _ _ _ h => nomatch h⟩
      | ok b =>
        cases b with
        | false => exact ⟨fun _ h => (by simp at h), fun _ _ _ h => by simp at h ⊢; exact ⟨h.1, h.2.1⟩⟩
        | true =>
          simp only [if_true]
          cases deref t r with
          | error f => exact ⟨fun _ h => (by simp at h ⊢; exact h), fun _ _ _ h => nomatch h⟩
          | ok q =>
            simp only
            cases assign t r p with
            | error f => exact ⟨fun _ h => (by simp at h ⊢; exact h), fun _ _ _ h => nomatch h⟩
            | ok t2 => exact ⟨fun _ h => (by simp at h), fun _ _ _ h => by simp at h ⊢; exact ⟨h.1, h.2.1⟩⟩
  | removeIfExists l =>
    have := findX_asIf ha t l s
    simp only [execX, exec, removeIfExistsX, removeIfExists, bind, Except.bind]
    generalize findX polX t l s = x at this ⊢
    generalize find pol t l = y at this ⊢
    rcases x with f | ⟨_ | r, s1⟩
    · cases this; exact ⟨fun _ h => (by simp at h ⊢; exact h), fun _ _ _ h => nomatch h⟩
    · exact ⟨fun _ h => (nomatch h), fun _ _ _ h => by simp at h⟩
    · obtain ⟨b, rfl, rfl⟩ := this
      simp only
      cases t.found r with
      | error f => exact ⟨fun _ h => (by simp at h ⊢; exact h), fun _ _ _ h => nomatch h⟩
      | ok b =>
        cases b with
        | false => exact ⟨fun _ h => (by simp at h), fun _ _ _ h => by simp at h ⊢; exact ⟨h.1, h.2.1⟩⟩
        | true =>
          simp only [if_true]
          cases remove t r with
          | error f => exact ⟨fun _ h => (by simp at h ⊢; exact h), fun _ _ _ h => nomatch h⟩
          | ok t2 => exact ⟨fun _ h => (by simp at h), fun _ _ _ h => by simp at h ⊢; exact ⟨h.1, h.2.1⟩⟩
  | clear =>
    simp only [execX, exec, bind, Except.bind]
    cases clear t with
    | error f => exact ⟨fun _ h => (by simp at h ⊢; exact h), fun _ _ _ h => nomatch h⟩
    | ok t2 => exact ⟨fun _ h => (by simp at h), fun _ _ _ h => by simp at h ⊢; exact ⟨h.1, h.2.1⟩⟩
  | checkDensity memOk =>
    have := checkDensityX_asIf c t memOk plan
    simp only [execX, exec, bind, Except.bind]
    generalize checkDensityX c t memOk plan = x at this ⊢
    generalize checkDensity c t memOk = y at this ⊢
    rcases x with f | ⟨t2, _ | ⟨b, k⟩⟩
    · cases this; exact ⟨fun _ h => (by simp at h ⊢; exact h), fun _ _ _ h => nomatch h⟩
    · exact ⟨fun _ h => (nomatch h), fun _ _ _ h => by simp at h⟩
    · obtain ⟨b', rfl, rfl⟩ := this
      exact ⟨fun _ h => (by simp at h), fun _ _ _ h => by simp at h ⊢; exact ⟨h.1, h.2.1⟩⟩
  | sweep pick =>
    simp only [execX, exec, bind, Except.bind]
    cases sweep pick t with
    | error f => exact ⟨fun _ h => (by simp at h ⊢; exact h), fun _ _ _ h => nomatch h⟩
    | ok v => exact ⟨fun _ h => (by simp at h), fun _ _ _ h => by simp at h ⊢; exact ⟨h.1, h.2.1⟩⟩
  | elements => exact ⟨fun _ h => (by simp [execX] at h), fun _ _ _ h => by simp [execX, exec] at h ⊢; exact ⟨h.1, h.2.1⟩⟩
  | move =>
    simp only [execX, exec, moveFrom, bind, Except.bind]
    cases destroy ({ t with capacity := 0, nelements := 0, ndeleted := 0, table := none, minCapacity := kMinCapacity, ctors := 0, dtors := 0, mallocs := 0, frees := 0 } : Table P) with
    | error f => exact ⟨fun _ h => (by simp at h ⊢; exact h), fun _ _ _ h => nomatch h⟩
    | ok v => exact ⟨fun _ h => (by simp at h), fun _ _ _ h => by simp at h ⊢; exact ⟨h.1, h.2.1⟩⟩

end Verif.HashTable
