import Verif.HashTable.PropsArgs
import Verif.HashTable.SpecCost
/-!
# C119: resizing costs a constant per added payload. C120: references to payloads stay valid while no array is allocated
-/
namespace Verif.HashTable
open Verif

set_option linter.unusedSectionVars false

variable {L P K : Type} [DecidableEq K] {c : Config} {canon : L → K} {keyOf : P → K}
  {h : K → BitVec 32} {pol : Policy L P}

/-! ### Frames -/

/-- No array was allocated, `a` payloads were constructed, and payloads outside `D` are where they were. -/
structure Quiet (D : Nat → P → Prop) (a : Nat) (t t' : Table P) : Prop where
  cap : t'.capacity = t.capacity
  mallocs : t'.mallocs = t.mallocs
  ctors : t'.ctors = t.ctors + a
  keep : ∀ i p, At t i p → ¬ D i p → At t' i p

theorem Quiet.refl (t : Table P) : Quiet (fun _ _ => False) 0 t t := ⟨rfl, rfl, rfl, fun _ _ h _ => h⟩

theorem Quiet.mono {D D' : Nat → P → Prop} {a : Nat} {t t' : Table P} (hq : Quiet D a t t') (hd : ∀ i p, At t i p → D i p → D' i p) : Quiet D' a t t' :=
  ⟨hq.cap, hq.mallocs, hq.ctors, fun i p hp hn => hq.keep i p hp (fun hd' => hn (hd i p hp hd'))⟩

theorem Quiet.trans {D : Nat → P → Prop} {a b : Nat} {t t' t'' : Table P} (h1 : Quiet D a t t') (h2 : Quiet D b t' t'') : Quiet D (a + b) t t'' :=
  ⟨h2.cap.trans h1.cap, h2.mallocs.trans h1.mallocs, by rw [h2.ctors, h1.ctors, Nat.add_assoc],
    fun i p hp hn => h2.keep i p (h1.keep i p hp hn) hn⟩

theorem At.inj {t : Table P} {i : Nat} {p q : P} (h1 : At t i p) (h2 : At t i q) : p = q := by
  obtain ⟨s, e, ht, he, hp⟩ := h1
  obtain ⟨s', e', ht', he', hp'⟩ := h2
  rw [ht] at ht'; cases ht'
  rw [he] at he'; cases he'
  rw [hp] at hp'; cases hp'; rfl

theorem store_inv {t t' : Table P} {i : Nat} {e : Slot P} (hr : t.store i e = .ok t') :
    ∃ s, t.table = some s ∧ i < s.length ∧ t' = { t with table := some (s.set i e) } := by
  unfold Table.store at hr
  split at hr
  · cases hr
  · rename_i s hs
    split at hr
    · rename_i hlt; cases hr; exact ⟨s, hs, hlt, rfl⟩
    · cases hr

theorem load_inv {t : Table P} {i : Nat} {e : Slot P} (hr : t.load i = .ok e) : ∃ s, t.table = some s ∧ s[i]? = some e := by
  unfold Table.load at hr
  split at hr
  · cases hr
  · rename_i s hs
    split at hr
    · cases hr
    · rename_i he; cases hr; exact ⟨s, hs, he⟩

theorem store_quiet {t t' : Table P} {i : Nat} {e : Slot P} (hr : t.store i e = .ok t') : Quiet (fun j _ => j = i) 0 t t' := by
  obtain ⟨s, hs, hlt, rfl⟩ := store_inv hr
  refine ⟨rfl, rfl, rfl, ?_⟩
  rintro j p ⟨s', e', ht, he, hp⟩ hn
  rw [hs] at ht; cases ht
  exact ⟨_, e', rfl, by rw [get_set_ne hn]; exact he, hp⟩

theorem removeEntry_quiet {t t' : Table P} {i : Nat} (hr : removeEntry t i = .ok t') : Quiet (fun j _ => j = i) 0 t t' := by
  unfold removeEntry at hr
  simp only [bind, Except.bind] at hr
  split at hr
  · cases hr
  · split at hr
    · split at hr
      · cases hr
      · split at hr
        · cases hr
        · rename_i h1
          cases hr
          have := store_quiet h1
          exact ⟨this.cap, this.mallocs, this.ctors, fun j p hp hn => by
            obtain ⟨s, e, a, b, c⟩ := this.keep j p hp hn; exact ⟨s, e, a, b, c⟩⟩
    · cases hr

theorem clearLoop_quiet : ∀ (rem i : Nat) (t t' : Table P), clearLoop i rem t = .ok t' → Quiet (fun _ _ => True) 0 t t' := by
  intro rem
  induction rem with
  | zero => intro i t t' hr; cases hr; exact (Quiet.refl t).mono (fun _ _ _ h => h.elim)
  | succ rem ih =>
    intro i t t' hr
    unfold clearLoop at hr
    simp only [bind, Except.bind] at hr
    split at hr
    · cases hr
    · split at hr
      · cases hr
      · split at hr
        · cases hr
        · rename_i h1
          have h2 := store_quiet h1
          have h3 := ih _ _ _ hr
          exact ⟨h3.cap.trans h2.cap, h3.mallocs.trans h2.mallocs, h3.ctors.trans h2.ctors, fun _ _ _ hn => absurd trivial hn⟩

theorem deref_inv {t : Table P} {i : Nat} {p : P} (hr : deref t i = .ok p) : At t i p := by
  unfold deref at hr
  simp only [bind, Except.bind] at hr
  split at hr
  · cases hr
  · rename_i e he
    obtain ⟨s, hs, hse⟩ := load_inv he
    unfold Slot.payload at hr
    split at hr
    · split at hr
      · rename_i hp; cases hr; exact ⟨s, e, hs, hse, hp⟩
      · cases hr
    · cases hr

theorem sweepLoop_quiet (pick : P → Bool) : ∀ (fuel : Nat) (t t' : Table P) (it : Iter) (acc vs : List P),
    sweepLoop pick fuel t it acc = .ok (t', vs) → Quiet (fun _ p => pick p = true) 0 t t' := by
  intro fuel
  induction fuel with
  | zero => intro t t' it acc vs hr; cases hr
  | succ fuel ih =>
    intro t t' it acc vs hr
    unfold sweepLoop at hr
    split at hr
    · cases hr; exact (Quiet.refl t).mono (fun _ _ _ h => h.elim)
    · simp only [bind, Except.bind] at hr
      split at hr
      · cases hr
      · rename_i p hp
        have hat := deref_inv hp
        split at hr
        · cases hr
        · rename_i t1 h1
          have hq1 : Quiet (fun _ p => pick p = true) 0 t t1 := by
            unfold eraseIf at h1
            split at h1
            · rename_i hpk
              unfold Iter.erase at h1
              split at h1
              · cases h1
              · exact (removeEntry_quiet h1).mono (fun j q hq hj => by
                  subst hj; rw [← At.inj hat hq]; exact hpk)
            · cases h1; exact (Quiet.refl t).mono (fun _ _ _ h => h.elim)
          split at hr
          · cases hr
          · exact hq1.trans (ih _ _ _ _ _ hr)

theorem sweep_quiet {pick : P → Bool} {t t' : Table P} {vs : List P} (hr : sweep pick t = .ok (t', vs)) : Quiet (fun _ p => pick p = true) 0 t t' := by
  unfold sweep at hr
  simp only [bind, Except.bind] at hr
  split at hr
  · cases hr
  · exact sweepLoop_quiet pick _ _ _ _ _ _ hr

/-! ### Resizing -/

/-- A new array: twice or half as large, and only if the old one was too full or too empty. Every stored payload was moved, and the marks of removed entries are gone. -/
structure Resized (t t' : Table P) : Prop where
  mallocs : t'.mallocs = t.mallocs + 1
  size : (t'.capacity = t.capacity * 2 ∧ t.capacity / 2 + t.capacity / 4 < t.nelements + t.ndeleted) ∨
    (t'.capacity = t.capacity / 2 ∧ t.minCapacity ≤ t.capacity / 2 ∧ t.nelements + t.ndeleted < t.capacity / 4)
  n : t'.nelements = t.nelements
  d : t'.ndeleted = 0
  ctors : t'.ctors = t.ctors + t.nelements

theorem changeCapacity_inv {t t' : Table P} {s : List (Slot P)} (hi : Inv c keyOf h t s) {newCap k : Nat} (hk : newCap = 2 ^ k) (hk31 : k ≤ 31)
    (hroom : t.nelements ≤ newCap / 2 + newCap / 4) (h16 : 16 ≤ newCap) (hmin : t.minCapacity ≤ newCap) {b : Bool} {memOk : Bool}
    (hr : changeCapacity c t newCap memOk = .ok (b, t')) : (b = false ∧ t' = t) ∨ (b = true ∧ t'.mallocs = t.mallocs + 1 ∧ t'.capacity = newCap ∧
      t'.nelements = t.nelements ∧ t'.ndeleted = 0 ∧ t'.ctors = t.ctors + t.nelements) := by
  by_cases hmax : newCap ≤ c.kMaxCapacity
  · cases memOk with
    | true =>
      obtain ⟨t1, s1, hrun, hi1, hc1, hn1, hd1, hm1, hct, -⟩ := changeCapacity_spec hi newCap k hk hk31 hmax hroom h16 hmin
      rw [hrun] at hr; cases hr
      exact .inr ⟨rfl, changeCapacity_mallocs hrun, hc1, hn1, hd1, hct⟩
    | false =>
      unfold changeCapacity createTable at hr
      rw [if_pos hmax, if_pos hmax] at hr
      rcases ha : c.aborts with _ | _
      · simp only [ha, bind, Except.bind, Bool.false_eq_true, if_false, Except.ok.injEq, Prod.mk.injEq] at hr
        exact .inl ⟨hr.1.symm, hr.2.symm⟩
      · simp [ha, bind, Except.bind] at hr
  · unfold changeCapacity at hr
    rw [if_neg hmax] at hr
    cases hr

theorem checkDensity_inv {t t' : Table P} {s : List (Slot P)} (hi : Inv c keyOf h t s) {memOk b : Bool} (hr : checkDensity c t memOk = .ok (b, t')) :
    t' = t ∨ (b = true ∧ Resized t t') := by
  obtain ⟨k, hk31, hk⟩ := hi.sinv.pow
  have hcapk : t.capacity = 2 ^ k := hi.cap.trans hk
  have h16 := hi.cap_ge
  have hlt := hi.cap_lt
  have hload := hi.load
  have hmin := hi.minCap
  unfold checkDensity at hr
  by_cases hu : underloaded t = true
  · rw [if_pos hu] at hr
    unfold underloaded kMinCapacity at hu
    rw [Bool.and_eq_true, decide_eq_true_eq, decide_eq_true_eq, hi.add32_eq] at hu
    unfold shrink at hr
    by_cases hm : t.capacity / 2 < t.minCapacity
    · rw [if_pos hm] at hr; cases hr; exact .inl rfl
    · rw [if_neg hm] at hr
      have hk1 : 4 < k := by apply pow2_le; rw [← hcapk]; exact hu.1
      have hhalf : t.capacity / 2 = 2 ^ (k - 1) := by
        rw [hcapk]
        have : k = (k - 1) + 1 := by omega
        rw [this, Nat.pow_succ, Nat.mul_div_cancel _ (by decide)]
        rfl
      have hge : 16 ≤ t.capacity / 2 := by
        rw [hhalf]
        have : (2:Nat) ^ 4 ≤ 2 ^ (k - 1) := Nat.pow_le_pow_right (by decide) (by omega)
        omega
      rcases changeCapacity_inv hi hhalf (by omega) (by omega) hge (by omega) hr with ⟨-, h1⟩ | ⟨h0, h1, h2, h3, h4, h5⟩
      · exact .inl h1
      · exact .inr ⟨h0, h1, .inr ⟨h2, by omega, hu.2⟩, h3, h4, h5⟩
  · rw [if_neg hu] at hr
    by_cases ho : overloaded t = true
    · rw [if_pos ho] at hr
      unfold overloaded at ho
      rw [decide_eq_true_eq, hi.add32_eq] at ho
      unfold grow at hr
      by_cases hmx : c.kMaxCapacity ≤ t.capacity
      · rw [if_pos hmx] at hr
        simp only [bind, Except.bind] at hr
        split at hr
        · cases hr
        · cases hr; exact .inl rfl
      · rw [if_neg hmx] at hr
        have hmod : t.capacity * 2 % 2 ^ 32 = t.capacity * 2 := Nat.mod_eq_of_lt (by omega)
        rw [hmod] at hr
        have hk' : t.capacity * 2 = 2 ^ (k + 1) := by rw [hcapk, Nat.pow_succ]
        have hk30 : k + 1 ≤ 31 := by
          have := pow2_le (a := k) (b := 31) (by rw [← hcapk]; exact hlt)
          omega
        rcases changeCapacity_inv hi hk' hk30 (by omega) (by omega) (by omega) hr with ⟨-, h1⟩ | ⟨h0, h1, h2, h3, h4, h5⟩
        · exact .inl h1
        · exact .inr ⟨h0, h1, .inl ⟨h2, ho⟩, h3, h4, h5⟩
    · rw [if_neg ho] at hr; cases hr; exact .inl rfl

/-- A step that resized, and then added `a` payloads. -/
def ResizedThen (a : Nat) (t t' : Table P) : Prop :=
  ∃ t1, Resized t t1 ∧ t'.mallocs = t1.mallocs ∧ t'.capacity = t1.capacity ∧ t'.nelements + t'.ndeleted ≤ t1.nelements + a ∧ t'.ctors = t1.ctors + a

theorem add_inv {t t' : Table P} {s : List (Slot P)} (hi : Inv c keyOf h t s) {i i' : Insert} {p : P} {memOk b : Bool}
    (hr : add c t i p memOk = .ok (b, t', i')) :
    (b = false ∧ t' = t) ∨ (b = true ∧ (Quiet (fun _ _ => False) 1 t t' ∨ ResizedThen 1 t t')) := by
  unfold add at hr
  simp only [bind, Except.bind] at hr
  split at hr
  · cases hr
  · rename_i v hv
    obtain ⟨ok, t1, i1⟩ := v
    simp only at hr
    cases ok with
    | false =>
      simp only [Bool.false_eq_true, if_false] at hr
      cases hr
      refine .inl ⟨rfl, ?_⟩
      -- `internalAdd` that fails returns the table as it was
      unfold internalAdd at hv
      simp only [bind, Except.bind] at hv
      split at hv
      · cases hv
      · split at hv
        · cases hv
        · split at hv
          · obtain ⟨_, _, _, _, h1, _⟩ := internalAddTail_inv hv; cases h1
          · split at hv
            · split at hv
              · cases hv
              · cases hv; rfl
            · split at hv
              · cases hv
              · rename_i w hw
                obtain ⟨ok, t2⟩ := w
                simp only at hv
                cases ok with
                | false =>
                  simp only [Bool.false_eq_true, if_false] at hv
                  cases hv
                  rcases checkDensity_inv hi hw with h1 | ⟨h1, -⟩
                  · exact h1
                  · cases h1
                | true =>
                  simp only [if_true] at hv
                  split at hv
                  · split at hv
                    · cases hv
                    · obtain ⟨_, _, _, _, h1, _⟩ := internalAddTail_inv hv; cases h1
                  · obtain ⟨_, _, _, _, h1, _⟩ := internalAddTail_inv hv; cases h1
    | true =>
      simp only [if_true] at hr
      split at hr
      · cases hr
      · rename_i e he
        split at hr
        · cases hr
        · rename_i e1 he1
          split at hr
          · cases hr
          · rename_i t2 h2
            cases hr
            refine .inr ⟨rfl, ?_⟩
            obtain ⟨ta, ia, htail, -, -, hcase⟩ := internalAdd_inv hv
            obtain ⟨sa, ea, hta, hea, -, hii, ht1⟩ := internalAddTail_inv htail
            subst hii
            obtain ⟨s2, hs2, -, ht2⟩ := store_inv h2
            have hs2' : s2 = sa.set i'.entry (ea.setHash i'.hash) := by
              rw [ht1] at hs2; cases hs2; rfl
            obtain ⟨s3, hs3, he3⟩ := load_inv he
            have hobj : e.obj = none := by
              unfold Slot.construct at he1
              split at he1
              · cases he1
              · assumption
            have heq : e = ea.setHash i'.hash := by
              rw [hs2] at hs3; cases hs3
              rw [hs2', get_set_self (lt_of_get hea)] at he3
              cases he3; rfl
            have hea0 : ea.obj = none := by rw [heq] at hobj; exact hobj
            have hkeep : ∀ j q, At ta j q → At ({ t2 with ctors := t2.ctors + 1 } : Table P) j q := by
              rintro j q ⟨s', e', ht', he', hq'⟩
              rw [hta] at ht'; cases ht'
              have hne : j ≠ i'.entry := by
                intro e; subst e; rw [hea] at he'; cases he'; rw [hea0] at hq'; cases hq'
              refine ⟨_, e', by rw [ht2], ?_, hq'⟩
              rw [get_set_ne hne, hs2', get_set_ne hne]; exact he'
            rcases hcase with ⟨rfl, -⟩ | ⟨hcd, -⟩
            · refine .inl ⟨?_, ?_, ?_, fun j q hq _ => hkeep j q (by obtain ⟨s, e, a, b, c⟩ := hq; exact ⟨s, e, a, b, c⟩)⟩
              · show t2.capacity = _; rw [ht2, ht1]
              · show t2.mallocs = _; rw [ht2, ht1]
              · show t2.ctors + 1 = _; rw [ht2, ht1]
            · rcases checkDensity_inv hi hcd with rfl | ⟨-, hrs⟩
              · refine .inl ⟨?_, ?_, ?_, fun j q hq _ => hkeep j q hq⟩
                · show t2.capacity = _; rw [ht2, ht1]
                · show t2.mallocs = _; rw [ht2, ht1]
                · show t2.ctors + 1 = _; rw [ht2, ht1]
              · refine .inr ⟨ta, hrs, ?_, ?_, ?_, ?_⟩
                · show t2.mallocs = _; rw [ht2, ht1]
                · show t2.capacity = _; rw [ht2, ht1]
                · show t2.nelements + t2.ndeleted ≤ _
                  rw [ht2, ht1]
                  show inc32 ta.nelements + ta.ndeleted ≤ _
                  rw [hrs.d]
                  unfold inc32
                  have := Nat.mod_le (ta.nelements + 1) (2 ^ 32)
                  omega
                · show t2.ctors + 1 = _; rw [ht2, ht1]

/-- Every operation either leaves the array alone, except for what it removes or assigns, or resizes it. -/
theorem exec_cost (hl : Lawful pol canon keyOf h) {t t' : Table P} {s : List (Slot P)} (hi : Inv c keyOf h t s) {op : Op L P}
    (hop : op.Ok canon keyOf) {out : Out P} (hr : exec c pol t op = .ok (t', out)) :
    (Quiet (fun _ q => op.drops canon keyOf (keyOf q) ∨ op.sets canon (keyOf q)) (if out.isAdded then 1 else 0) t t' ∧
      (∀ i q, At t i q → op.sets canon (keyOf q) → ∃ q', At t' i q' ∧ keyOf q' = keyOf q)) ∨
    (ResizedThen (if out.isAdded then 1 else 0) t t' ∧ (out.isAdded = true ∨ ∃ b, op = .checkDensity b)) := by
  have hrefl : ∀ D : Nat → P → Prop, Quiet D 0 t t := fun D => (Quiet.refl t).mono (fun _ _ _ h => h.elim)
  cases op with
  | find l =>
    simp only [exec, bind, Except.bind] at hr
    left
    split at hr
    · cases hr
    · split at hr
      · cases hr
      · split at hr
        · split at hr
          · cases hr
          · cases hr; exact ⟨hrefl _, fun i q _ hs => hs.elim⟩
        · cases hr; exact ⟨hrefl _, fun i q _ hs => hs.elim⟩
  | add l p memOk =>
    simp only [exec, bind, Except.bind] at hr
    split at hr
    · cases hr
    · split at hr
      · cases hr
      · split at hr
        · split at hr
          · cases hr
          · cases hr; exact .inl ⟨hrefl _, fun i q _ hs => hs.elim⟩
        · split at hr
          · cases hr
          · rename_i v hv
            obtain ⟨ok, t1, i1⟩ := v
            simp only at hr
            cases ok with
            | false =>
              simp only [Bool.false_eq_true, if_false] at hr
              cases hr
              rcases add_inv hi hv with ⟨-, rfl⟩ | ⟨h1, -⟩
              · exact .inl ⟨hrefl _, fun i q _ hs => hs.elim⟩
              · cases h1
            | true =>
              simp only [if_true] at hr
              split at hr
              · cases hr
              · cases hr
                rcases add_inv hi hv with ⟨h1, -⟩ | ⟨-, h1 | h1⟩
                · cases h1
                · exact .inl ⟨h1.mono (fun _ _ _ h => h.elim), fun i q _ hs => hs.elim⟩
                · exact .inr ⟨h1, .inl rfl⟩
  | assign l p =>
    left
    obtain ⟨i, e, hf, he, hcase⟩ := find_spec hl hi.sinv hi.tbl hi.cap hi.free l
    simp only [exec, bind, Except.bind, hf, Table.found, load_ok hi.tbl he] at hr
    rcases hcase with ⟨hlv, q, hq, hk⟩ | ⟨hfr, habs⟩
    · obtain ⟨q', hq', hpay⟩ := (hi.sinv.wf _ _ he).payload hlv
      rw [hq] at hq'; cases hq'
      simp only [hlv, if_true, deref, bind, Except.bind, load_ok hi.tbl he, hpay, assign] at hr
      split at hr
      · cases hr
      · rename_i h1
        cases hr
        have hat : At t i q := ⟨s, e, hi.tbl, he, hq⟩
        have hq1 := store_quiet h1
        refine ⟨hq1.mono (fun j r hj e => ?_), fun j r hj hs => ?_⟩
        · subst e; rw [At.inj hj hat]; exact .inr hk.symm
        · have hji : j = i := by
            obtain ⟨s', e', ht', he', hr'⟩ := hj
            rw [hi.tbl] at ht'; cases ht'
            exact hi.sinv.uniq _ _ _ _ _ _ he' he hr' hq (Eq.trans (Eq.symm hs) hk.symm)
          subst hji
          obtain ⟨s2, hs2, hlt, rfl⟩ := store_inv h1
          exact ⟨p, ⟨_, _, rfl, get_set_self hlt, rfl⟩, Eq.trans hop hs⟩
    · simp only [free_not_live hfr, Bool.false_eq_true, if_false] at hr
      cases hr
      refine ⟨hrefl _, fun j r hj hs => ?_⟩
      exact ⟨r, hj, rfl⟩
  | removeIfExists l =>
    left
    obtain ⟨i, e, hf, he, hcase⟩ := find_spec hl hi.sinv hi.tbl hi.cap hi.free l
    simp only [exec, removeIfExists, remove, bind, Except.bind, hf, Table.found, load_ok hi.tbl he] at hr
    rcases hcase with ⟨hlv, q, hq, hk⟩ | ⟨hfr, habs⟩
    · simp only [hlv, if_true] at hr
      split at hr
      · cases hr
      · rename_i h1
        cases hr
        have hat : At t i q := ⟨s, e, hi.tbl, he, hq⟩
        refine ⟨(removeEntry_quiet h1).mono (fun j r hj e => ?_), fun j r _ hs => hs.elim⟩
        subst e; rw [At.inj hj hat]; exact .inl hk.symm
    · simp only [free_not_live hfr, Bool.false_eq_true, if_false] at hr
      cases hr
      exact ⟨hrefl _, fun j r _ hs => hs.elim⟩
  | clear =>
    simp only [exec, clear, bind, Except.bind] at hr
    left
    split at hr
    · cases hr
    · rename_i h1
      split at h1
      · cases h1
      · rename_i h2
        cases h1; cases hr
        have hq := clearLoop_quiet _ _ _ _ h2
        exact ⟨⟨hq.cap, hq.mallocs, hq.ctors, fun _ _ _ hn => absurd (.inl trivial) hn⟩, fun i q _ hs => hs.elim⟩
  | checkDensity memOk =>
    simp only [exec, bind, Except.bind] at hr
    split at hr
    · cases hr
    · rename_i v hv
      obtain ⟨ok, t1⟩ := v
      cases hr
      rcases checkDensity_inv hi hv with rfl | ⟨-, hrs⟩
      · exact .inl ⟨hrefl _, fun i q _ hs => hs.elim⟩
      · exact .inr ⟨⟨_, hrs, rfl, rfl, by rw [hrs.d]; exact Nat.le_refl _, rfl⟩, .inr ⟨_, rfl⟩⟩
  | sweep pick =>
    simp only [exec, bind, Except.bind] at hr
    left
    split at hr
    · cases hr
    · rename_i v hv
      obtain ⟨t1, vs⟩ := v
      cases hr
      exact ⟨(sweep_quiet hv).mono (fun i p _ hp => .inl ⟨p, rfl, hp⟩), fun i q _ hs => hs.elim⟩
  | elements => cases hr; exact .inl ⟨hrefl _, fun i q _ hs => hs.elim⟩
  | move =>
    simp only [exec, bind, Except.bind, moveFrom] at hr
    left
    split at hr
    · cases hr
    · cases hr; exact ⟨hrefl _, fun i q _ hs => hs.elim⟩

/-- Entries in use grow by at most one, and only when a payload is added. -/
theorem exec_used (hl : Lawful pol canon keyOf h) {t t' : Table P} {s : List (Slot P)} (hi : Inv c keyOf h t s) {m : K → Option P} (hm : Repr' keyOf s m)
    {op : Op L P} (hop : op.Ok canon keyOf) {out : Out P} (hr : exec c pol t op = .ok (t', out)) :
    (∃ s' m', Inv c keyOf h t' s' ∧ Repr' keyOf s' m') ∧ t'.minCapacity = t.minCapacity ∧
      t'.nelements + t'.ndeleted ≤ t.nelements + t.ndeleted + (if out.isAdded then 1 else 0) := by
  rcases exec_step (c := c) hl hi hm op hop with ⟨t1, s1, o1, m1, he, hi1, hr1, hst, hmn, hocc, hfail⟩ | ⟨f, he, -⟩
  · rw [hr] at he; cases he
    refine ⟨⟨s1, m1, hi1, hr1⟩, hmn, ?_⟩
    cases hst with
    | addNew => simpa [Op.isAdd, Out.isAdded] using hocc
    | addPresent l p b q hq =>
      have : t' = t := by
        simp only [exec, bind, Except.bind] at hr
        split at hr
        · cases hr
        · split at hr
          · cases hr
          · split at hr
            · split at hr
              · cases hr
              · cases hr; rfl
            · split at hr
              · cases hr
              · split at hr
                · split at hr <;> cases hr
                · cases hr
      rw [this]; exact Nat.le_add_right _ _
    | addFailed => rw [(hfail rfl).1]; exact Nat.le_add_right _ _
    | find => simpa [Op.isAdd, Out.isAdded] using hocc
    | assignPresent => simpa [Op.isAdd, Out.isAdded] using hocc
    | assignAbsent => simpa [Op.isAdd, Out.isAdded] using hocc
    | remove => simpa [Op.isAdd, Out.isAdded] using hocc
    | clear => simpa [Op.isAdd, Out.isAdded] using hocc
    | checkDensity => simpa [Op.isAdd, Out.isAdded] using hocc
    | sweep => simpa [Op.isAdd, Out.isAdded] using hocc
    | elements => simpa [Op.isAdd, Out.isAdded] using hocc
    | move => simpa [Op.isAdd, Out.isAdded] using hocc
  · rw [hr] at he; cases he

/-! ### C119 -/

/-- Saved up for the next resizing: payload moves, twice. -/
def movesDue (t : Table P) : Nat := 10 * (t.nelements + t.ndeleted - t.capacity / 2) + (t.capacity - t.minCapacity)
/-- Saved up for the next resizing: entries touched. -/
def workDue (t : Table P) : Nat := 24 * (t.nelements + t.ndeleted - t.capacity / 2) + 3 * (t.capacity - t.minCapacity)

theorem Inv.four {t : Table P} {s : List (Slot P)} (hi : Inv c keyOf h t s) : ∃ q, t.capacity = 4 * q := by
  obtain ⟨k, hk31, hk⟩ := hi.sinv.pow
  have hcapk : t.capacity = 2 ^ k := hi.cap.trans hk
  have h16 := hi.cap_ge
  have hk4 : 3 < k := by apply pow2_le; rw [← hcapk]; omega
  refine ⟨2 ^ (k - 2), ?_⟩
  rw [hcapk, show (4:Nat) = 2 ^ 2 from rfl, ← Nat.pow_add]
  congr 1; omega

theorem exec_due (hl : Lawful pol canon keyOf h) {t t' : Table P} {s : List (Slot P)} (hi : Inv c keyOf h t s) {m : K → Option P} (hm : Repr' keyOf s m)
    {op : Op L P} (hop : op.Ok canon keyOf) {out : Out P} (hr : exec c pol t op = .ok (t', out)) :
    2 * t'.ctors + movesDue t' ≤ 2 * t.ctors + movesDue t + 12 * (if out.isAdded then 1 else 0) ∧
    (if t'.capacity = t.capacity then 0 else t.capacity + t'.capacity) + workDue t' ≤ workDue t + 24 * (if out.isAdded then 1 else 0) := by
  obtain ⟨-, hmin, hu⟩ := exec_used hl hi hm hop hr
  obtain ⟨q, hq⟩ := hi.four
  have h16 := hi.cap_ge
  have hmc := hi.minCap
  have hload := hi.load
  have hone : (if out.isAdded then 1 else 0) ≤ 1 := by split <;> omega
  unfold movesDue workDue
  rw [hmin]
  have hcost := exec_cost hl hi hop hr
  generalize (if out.isAdded = true then 1 else 0) = a at *
  rcases hcost with ⟨hqt, -⟩ | ⟨⟨t1, hrs, hmal, hcap, hused, hct⟩, -⟩
  · rw [hqt.cap, hqt.ctors, if_pos rfl]
    omega
  · have hc1 := hrs.ctors
    have hn1 := hrs.n
    rcases hrs.size with ⟨hs1, hs2⟩ | ⟨hs1, hs2, hs3⟩
    · rw [if_neg (by omega)]
      omega
    · rw [if_neg (by omega)]
      omega

theorem run_due (hl : Lawful pol canon keyOf h) : ∀ (ops : List (Op L P)) (t : Table P) (s : List (Slot P)) (m : K → Option P), Inv c keyOf h t s →
    Repr' keyOf s m → (∀ op ∈ ops, op.Ok canon keyOf) → ∀ t' outs, run c pol t ops = .ok (t', outs) →
    2 * t'.ctors + movesDue t' ≤ 2 * t.ctors + movesDue t + 12 * outs.countP Out.isAdded ∧
    resizeWork c pol t ops + workDue t' ≤ workDue t + 24 * outs.countP Out.isAdded := by
  intro ops
  induction ops with
  | nil => intro t s m _ _ _ t' outs hr; cases hr; exact ⟨Nat.le_refl _, by simp [resizeWork]⟩
  | cons op ops ih =>
    intro t s m hi hm hok t' outs hr
    simp only [run, bind, Except.bind] at hr
    split at hr
    · cases hr
    · rename_i v hv
      obtain ⟨t1, o⟩ := v
      simp only at hr
      split at hr
      · cases hr
      · rename_i w hw
        obtain ⟨t2, os⟩ := w
        simp only [Except.ok.injEq, Prod.mk.injEq] at hr
        obtain ⟨rfl, rfl⟩ := hr
        obtain ⟨⟨s1, m1, hi1, hm1⟩, -⟩ := exec_used hl hi hm (hok op List.mem_cons_self) hv
        obtain ⟨h1, h2⟩ := exec_due hl hi hm (hok op List.mem_cons_self) hv
        obtain ⟨h3, h4⟩ := ih t1 s1 m1 hi1 hm1 (fun op hop => hok op (List.mem_cons_of_mem _ hop)) _ _ hw
        rw [List.countP_cons]
        simp only [resizeWork, hv]
        omega

/-- **C119 (payloads).** In any history of a table that `init(cap)` made ready, the number of payload constructions, those by moving payloads to a new array included, is
at most six for every payload added; whatever is removed in between, whatever the hash function, and whichever allocations fail. -/
theorem C119_moves (hl : Lawful pol canon keyOf h) {cap : Nat} {t0 : Table P} (hst : Started c cap t0) {ops : List (Op L P)}
    (hok : ∀ op ∈ ops, op.Ok canon keyOf) {t : Table P} {outs : List (Out P)} (hrun : run c pol t0 ops = .ok (t, outs)) :
    t.ctors ≤ t0.ctors + 6 * outs.countP Out.isAdded := by
  obtain ⟨s, hi, hr, h1, h2, h3, h4⟩ := started_inv (keyOf := keyOf) (h := h) hst
  have := (run_due hl ops t0 s _ hi hr hok t outs hrun).1
  have hd : movesDue t0 = 0 := by unfold movesDue; rw [h1, h2, h3, h4]; omega
  omega

/-- **C119 (entries).** All resizing of a history together reads and writes at most twenty-four entries for every payload added. -/
theorem C119_work (hl : Lawful pol canon keyOf h) {cap : Nat} {t0 : Table P} (hst : Started c cap t0) {ops : List (Op L P)}
    (hok : ∀ op ∈ ops, op.Ok canon keyOf) {t : Table P} {outs : List (Out P)} (hrun : run c pol t0 ops = .ok (t, outs)) :
    resizeWork c pol t0 ops ≤ 24 * outs.countP Out.isAdded := by
  obtain ⟨s, hi, hr, h1, h2, h3, h4⟩ := started_inv (keyOf := keyOf) (h := h) hst
  have := (run_due hl ops t0 s _ hi hr hok t outs hrun).2
  have hd : workDue t0 = 0 := by unfold workDue; rw [h1, h2, h3, h4]; omega
  omega

/-! ### C120 -/

theorem exec_mallocs_le (hl : Lawful pol canon keyOf h) {t t' : Table P} {s : List (Slot P)} (hi : Inv c keyOf h t s) {op : Op L P}
    (hop : op.Ok canon keyOf) {out : Out P} (hr : exec c pol t op = .ok (t', out)) : t.mallocs ≤ t'.mallocs := by
  rcases exec_cost hl hi hop hr with ⟨hq, -⟩ | ⟨⟨t1, hrs, hm, -⟩, -⟩
  · rw [hq.mallocs]; exact Nat.le_refl _
  · rw [hm, hrs.mallocs]; omega

theorem run_mallocs_le (hl : Lawful pol canon keyOf h) : ∀ (ops : List (Op L P)) (t : Table P) (s : List (Slot P)) (m : K → Option P), Inv c keyOf h t s →
    Repr' keyOf s m → (∀ op ∈ ops, op.Ok canon keyOf) → ∀ t' outs, run c pol t ops = .ok (t', outs) → t.mallocs ≤ t'.mallocs := by
  intro ops
  induction ops with
  | nil => intro t s m _ _ _ t' outs hr; cases hr; exact Nat.le_refl _
  | cons op ops ih =>
    intro t s m hi hm hok t' outs hr
    simp only [run, bind, Except.bind] at hr
    split at hr
    · cases hr
    · rename_i v hv
      obtain ⟨t1, o⟩ := v
      simp only at hr
      split at hr
      · cases hr
      · rename_i w hw
        obtain ⟨t2, os⟩ := w
        simp only [Except.ok.injEq, Prod.mk.injEq] at hr
        obtain ⟨rfl, rfl⟩ := hr
        obtain ⟨⟨s1, m1, hi1, hm1⟩, -⟩ := exec_used hl hi hm (hok op List.mem_cons_self) hv
        have h1 := exec_mallocs_le hl hi (hok op List.mem_cons_self) hv
        have h2 := ih t1 s1 m1 hi1 hm1 (fun op hop => hok op (List.mem_cons_of_mem _ hop)) _ _ hw
        omega

theorem run_keeps (hl : Lawful pol canon keyOf h) : ∀ (ops : List (Op L P)) (t : Table P) (s : List (Slot P)) (m : K → Option P), Inv c keyOf h t s →
    Repr' keyOf s m → (∀ op ∈ ops, op.Ok canon keyOf) → ∀ t' outs, run c pol t ops = .ok (t', outs) → t'.mallocs = t.mallocs →
    ∀ i p, At t i p → (∀ op ∈ ops, ¬ op.drops canon keyOf (keyOf p)) →
      (∃ q, At t' i q ∧ keyOf q = keyOf p) ∧ ((∀ op ∈ ops, ¬ op.sets canon (keyOf p)) → At t' i p) := by
  intro ops
  induction ops with
  | nil => intro t s m _ _ _ t' outs hr _ i p hp _; cases hr; exact ⟨⟨p, hp, rfl⟩, fun _ => hp⟩
  | cons op ops ih =>
    intro t s m hi hm hok t' outs hr hmal i p hp hnd
    simp only [run, bind, Except.bind] at hr
    split at hr
    · cases hr
    · rename_i v hv
      obtain ⟨t1, o⟩ := v
      simp only at hr
      split at hr
      · cases hr
      · rename_i w hw
        obtain ⟨t2, os⟩ := w
        simp only [Except.ok.injEq, Prod.mk.injEq] at hr
        obtain ⟨rfl, rfl⟩ := hr
        have hop := hok op List.mem_cons_self
        have hok' : ∀ op ∈ ops, op.Ok canon keyOf := fun op hop => hok op (List.mem_cons_of_mem _ hop)
        obtain ⟨⟨s1, m1, hi1, hm1⟩, -⟩ := exec_used hl hi hm hop hv
        have h1 := exec_mallocs_le hl hi hop hv
        have h2 := run_mallocs_le hl ops t1 s1 m1 hi1 hm1 hok' _ _ hw
        have hnd1 := hnd op List.mem_cons_self
        have hnd' : ∀ op ∈ ops, ¬ op.drops canon keyOf (keyOf p) := fun op hop => hnd op (List.mem_cons_of_mem _ hop)
        rcases exec_cost hl hi hop hv with ⟨hq, hset⟩ | ⟨⟨ta, hrs, hma, -⟩, -⟩
        · by_cases hs : op.sets canon (keyOf p)
          · obtain ⟨q, hq1, hk⟩ := hset i p hp hs
            obtain ⟨⟨r, hr1, hr2⟩, -⟩ := ih t1 s1 m1 hi1 hm1 hok' _ _ hw (by omega) i q hq1 (by rw [hk]; exact hnd')
            exact ⟨⟨r, hr1, hr2.trans hk⟩, fun hn => absurd hs (hn op List.mem_cons_self)⟩
          · have hp1 := hq.keep i p hp (fun hd => hd.elim hnd1 hs)
            obtain ⟨h3, h4⟩ := ih t1 s1 m1 hi1 hm1 hok' _ _ hw (by omega) i p hp1 hnd'
            exact ⟨h3, fun hn => h4 (fun op hop => hn op (List.mem_cons_of_mem _ hop))⟩
        · have := hrs.mallocs
          omega

/-- **C120 (stability).** While a table allocates no other array, the payload of a key that is not removed stays where it is: after any history, entry `i` still holds
the payload of that key, and the same payload unless it was assigned to. -/
theorem C120_stable (hl : Lawful pol canon keyOf h) {cap : Nat} {t0 : Table P} (hst : Started c cap t0) {ops ops' : List (Op L P)}
    (hok : ∀ op ∈ ops, op.Ok canon keyOf) (hok' : ∀ op ∈ ops', op.Ok canon keyOf) {t t' : Table P} {outs outs' : List (Out P)}
    (hrun : run c pol t0 ops = .ok (t, outs)) (hrun' : run c pol t ops' = .ok (t', outs')) (hmal : t'.mallocs = t.mallocs) {i : Nat} {p : P} (hp : At t i p)
    (hnd : ∀ op ∈ ops', ¬ op.drops canon keyOf (keyOf p)) :
    (∃ q, At t' i q ∧ keyOf q = keyOf p) ∧ ((∀ op ∈ ops', ¬ op.sets canon (keyOf p)) → At t' i p) := by
  obtain ⟨s, m, hi, hr, -, -⟩ := reached hl hst hok hrun
  exact run_keeps hl ops' t s m hi hr hok' t' outs' hrun' hmal i p hp hnd

/-- **C120 (which calls).** Only `add` of a new key and `checkDensity` allocate, and only in a table that is more than three quarters, or less than one quarter, full
(removed entries counted). -/
theorem C120_allocates (hl : Lawful pol canon keyOf h) {cap : Nat} {t0 : Table P} (hst : Started c cap t0) {ops : List (Op L P)}
    (hok : ∀ op ∈ ops, op.Ok canon keyOf) {t t' : Table P} {outs : List (Out P)} (hrun : run c pol t0 ops = .ok (t, outs)) {op : Op L P}
    (hop : op.Ok canon keyOf) {out : Out P} (hr : exec c pol t op = .ok (t', out)) (hmal : t'.mallocs ≠ t.mallocs) :
    (out.isAdded = true ∨ ∃ b, op = .checkDensity b) ∧
    (t.capacity / 2 + t.capacity / 4 < t.nelements + t.ndeleted ∨ t.nelements + t.ndeleted < t.capacity / 4) := by
  obtain ⟨s, m, hi, hm, -, -⟩ := reached hl hst hok hrun
  rcases exec_cost hl hi hop hr with ⟨hq, -⟩ | ⟨⟨t1, hrs, -⟩, h1⟩
  · exact absurd hq.mallocs hmal
  · refine ⟨h1, ?_⟩
    rcases hrs.size with ⟨-, h2⟩ | ⟨-, -, h2⟩
    · exact .inl h2
    · exact .inr h2

theorem run_reserved (hl : Lawful pol canon keyOf h) : ∀ (ops : List (Op L P)) (t : Table P) (s : List (Slot P)) (m : K → Option P), Inv c keyOf h t s →
    Repr' keyOf s m → (∀ op ∈ ops, op.Ok canon keyOf) → ∀ t' outs, run c pol t ops = .ok (t', outs) → t.capacity = t.minCapacity →
    4 * (t.nelements + t.ndeleted + outs.countP Out.isAdded) ≤ 3 * t.capacity → t'.mallocs = t.mallocs ∧ t'.capacity = t.capacity := by
  intro ops
  induction ops with
  | nil => intro t s m _ _ _ t' outs hr _ _; cases hr; exact ⟨rfl, rfl⟩
  | cons op ops ih =>
    intro t s m hi hm hok t' outs hr hmin hroom
    simp only [run, bind, Except.bind] at hr
    split at hr
    · cases hr
    · rename_i v hv
      obtain ⟨t1, o⟩ := v
      simp only at hr
      split at hr
      · cases hr
      · rename_i w hw
        obtain ⟨t2, os⟩ := w
        simp only [Except.ok.injEq, Prod.mk.injEq] at hr
        obtain ⟨rfl, rfl⟩ := hr
        have hop := hok op List.mem_cons_self
        obtain ⟨⟨s1, m1, hi1, hm1⟩, hmn, hu⟩ := exec_used hl hi hm hop hv
        rw [List.countP_cons] at hroom
        have h16 := hi.cap_ge
        obtain ⟨q, hq4⟩ := hi.four
        rcases exec_cost hl hi hop hv with ⟨hq, -⟩ | ⟨⟨ta, hrs, -⟩, -⟩
        · have h1 := hq.cap
          have h2 := hq.mallocs
          obtain ⟨h3, h4⟩ := ih t1 s1 m1 hi1 hm1 (fun op hop => hok op (List.mem_cons_of_mem _ hop)) _ _ hw (by omega) (by omega)
          exact ⟨h3.trans h2, h4.trans h1⟩
        · exfalso
          rcases hrs.size with ⟨-, h1⟩ | ⟨-, h1, -⟩
          · omega
          · omega

/-- **C120 (reserved room).** After `init(cap)` (at least sixteen), the table allocates nothing more until three quarters of `cap` payloads have been added, whatever else
is done; so by `C120_stable` the payloads do not move. -/
theorem C120_reserved (hl : Lawful pol canon keyOf h) {cap : Nat} {t0 : Table P} (hst : Started c cap t0) {ops : List (Op L P)}
    (hok : ∀ op ∈ ops, op.Ok canon keyOf) {t : Table P} {outs : List (Out P)} (hrun : run c pol t0 ops = .ok (t, outs))
    (hroom : 4 * outs.countP Out.isAdded ≤ 3 * Nat.max 16 cap) : t.mallocs = t0.mallocs ∧ t.capacity = Nat.max 16 cap := by
  obtain ⟨s, hi, hr, h1, h2, h3, h4⟩ := started_inv (keyOf := keyOf) (h := h) hst
  obtain ⟨h5, h6⟩ := run_reserved hl ops t0 s _ hi hr hok t outs hrun (by rw [h3, h4]) (by rw [h1, h2, h3]; omega)
  exact ⟨h5, h6.trans h3⟩

/-! ### Non-vacuity -/

/-- Fourteen adds: thirteen fit, the fourteenth moves everything to an array of 32 entries. -/
def fourteen : List (Op (BitVec 32) (BitVec 32 × Nat)) := (List.range 14).map (fun i => .add (BitVec.ofNat 32 i) (BitVec.ofNat 32 i, i) true)

/-- After `init(0)` and fourteen adds, 27 payloads were constructed and two arrays allocated; 48 entries were touched. After thirteen adds only one array. -/
example : (match init ⟨16, false⟩ (Table.new : Table (BitVec 32 × Nat)) 0 true with
    | .ok (_, t0) => (match run ⟨16, false⟩ collidePolicy t0 fourteen with
      | .ok (t, outs) => some (t.ctors, t.mallocs, t.capacity, outs.countP Out.isAdded, resizeWork ⟨16, false⟩ collidePolicy t0 fourteen)
      | .error _ => none)
    | .error _ => none) = some (27, 2, 32, 14, 48) := by decide +kernel
example : (match init ⟨16, false⟩ (Table.new : Table (BitVec 32 × Nat)) 0 true with
    | .ok (_, t0) => (match run ⟨16, false⟩ collidePolicy t0 (fourteen.take 12 ++ [.removeIfExists 3#32, .assign 5#32 (5#32, 77), .checkDensity true]) with
      | .ok (t, outs) => some (t.ctors, t.mallocs, t.capacity, outs.countP Out.isAdded)
      | .error _ => none)
    | .error _ => none) = some (12, 1, 16, 12) := by decide +kernel

end Verif.HashTable
