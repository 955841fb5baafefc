import Verif.HashTable.SpecAny
import Verif.HashTable.Refine
/-! The table's structural invariant, which no answer of the policy can break (C135). -/
namespace Verif.HashTable
open Verif

variable {L P S : Type}

/-- `Inv` without what depends on keys and hashes. -/
structure BInv (c : Config) (t : Table P) (s : List (Slot P)) : Prop where
  tbl : t.table = some s
  cap : t.capacity = s.length
  pow : ∃ k, k ≤ 31 ∧ s.length = 2 ^ k
  wf : ∀ (i : Nat) (e : Slot P), s[i]? = some e → e.Wf
  n : t.nelements = nLive s
  d : t.ndeleted = nRem s
  load : t.nelements + t.ndeleted ≤ t.capacity / 2 + t.capacity / 4 + 1
  max : t.capacity ≤ c.kMaxCapacity
  min16 : 16 ≤ t.minCapacity
  minCap : t.minCapacity ≤ t.capacity
  life : t.ctors = t.dtors + t.nelements
  mem : t.mallocs = t.frees + 1

namespace BInv
variable {c : Config} {t : Table P} {s : List (Slot P)}

theorem cap_lt (hi : BInv c t s) : t.capacity < 2 ^ 31 := Nat.lt_of_le_of_lt hi.max (kMax_lt c)
theorem cap_ge (hi : BInv c t s) : 16 ≤ t.capacity := Nat.le_trans hi.min16 hi.minCap

theorem occ_lt (hi : BInv c t s) : nLive s + nRem s < s.length := by
  have h1 := hi.load
  have h2 := hi.cap_ge
  rw [← hi.n, ← hi.d, ← hi.cap]
  omega

theorem free (hi : BInv c t s) : ∃ (i : Nat) (e : Slot P), s[i]? = some e ∧ e.isFree = true :=
  exists_free hi.occ_lt

theorem add32_eq (hi : BInv c t s) : add32 t.nelements t.ndeleted = t.nelements + t.ndeleted := by
  unfold add32
  have h1 := hi.load
  have h2 := hi.cap_lt
  exact Nat.mod_eq_of_lt (by omega)

theorem len (hi : BInv c t s) : (contents s).length = t.nelements := by
  rw [hi.n]
  exact contents_length (fun e he => by
    obtain ⟨i, hi'⟩ := List.mem_iff_getElem?.1 he
    exact hi.wf i e hi')

end BInv

/-! ### The bag under single-slot updates -/

theorem contents_set {s : List (Slot P)} {i : Nat} {e a : Slot P} (h : s[i]? = some e) :
    (e.obj.toList ++ contents (s.set i a)).Perm (a.obj.toList ++ contents s) := by
  induction s generalizing i with
  | nil => simp at h
  | cons x s ih =>
    cases i with
    | zero =>
      simp only [List.getElem?_cons_zero, Option.some.injEq] at h
      subst h
      simp only [List.set_cons_zero, contents, List.filterMap_cons]
      cases a.obj <;> cases x.obj <;> simp [List.Perm.swap]
    | succ i =>
      simp only [List.getElem?_cons_succ] at h
      have := ih h
      simp only [List.set_cons_succ, contents, List.filterMap_cons] at this ⊢
      cases x.obj with
      | none => exact this
      | some p =>
        simp only
        refine List.perm_middle.trans ((this.cons p).trans ?_)
        exact List.perm_middle.symm

theorem nLive_set {s : List (Slot P)} {i : Nat} {e a : Slot P} (h : s[i]? = some e) :
    nLive (s.set i a) + (if e.isLive = true then 1 else 0) = nLive s + (if a.isLive = true then 1 else 0) :=
  countP_set' h

theorem nRem_set {s : List (Slot P)} {i : Nat} {e a : Slot P} (h : s[i]? = some e) :
    nRem (s.set i a) + (if e.removed = true then 1 else 0) = nRem s + (if a.removed = true then 1 else 0) :=
  countP_set' h

theorem wf_set {s : List (Slot P)} {i : Nat} {a : Slot P} (hwf : ∀ (i : Nat) (e : Slot P), s[i]? = some e → e.Wf) (ha : a.Wf) :
    ∀ (j : Nat) (e : Slot P), (s.set i a)[j]? = some e → e.Wf := by
  intro j e hj
  rcases get_set hj with ⟨_, rfl⟩ | ⟨_, hj⟩
  · exact ha
  · exact hwf _ _ hj

/-! ### Lookups -/

theorem computeHashC_live {pol : PolicyC L P S} {l : L} {s s' : S} {H : BitVec 32} (h : computeHashC pol l s = .ok (H, s')) :
    H ≠ 0#32 ∧ H ≠ 1#32 := by
  unfold computeHashC at h
  cases hh : pol.hash l s with
  | error f => rw [hh] at h; simp [bind, Except.bind] at h
  | ok v =>
    rw [hh] at h
    simp only [bind, Except.bind, Except.ok.injEq, Prod.mk.injEq] at h
    rw [← h.1]
    exact mix_live v.1

theorem computeHashC_err {pol : PolicyC L P S} {l : L} {s : S} {f : Fault} (h : computeHashC pol l s = .error f) :
    PolicyFails pol f := by
  unfold computeHashC at h
  cases hh : pol.hash l s with
  | error g =>
    rw [hh] at h
    simp only [bind, Except.bind, Except.error.injEq] at h
    subst h
    exact .inl ⟨l, s, hh⟩
  | ok v => rw [hh] at h; simp [bind, Except.bind] at h

section lookup
variable {pol : PolicyC L P S} {t : Table P} {s : List (Slot P)} {k : Nat}

theorem lookupLoopC_any (ht : t.table = some s) (hcap : t.capacity = s.length) (hk : s.length = 2 ^ k) (hk31 : k ≤ 31)
    (hwf : ∀ (i : Nat) (e : Slot P), s[i]? = some e → e.Wf) (l : L) (H0 H : BitVec 32) :
    ∀ fuel j σ, j + fuel = s.length → (∃ m e, j ≤ m ∧ m < s.length ∧ s[pos s.length H m]? = some e ∧ e.isFree = true) →
      (∃ i e σ', lookupLoopC pol t l H0 (H + BitVec.ofNat 32 j) σ fuel = .ok (i, σ') ∧ s[i]? = some e ∧
        (e.isFree = true ∨ (e.isLive = true ∧ ∃ p, e.obj = some p ∧ Said pol l p))) ∨
      (∃ f, lookupLoopC pol t l H0 (H + BitVec.ofNat 32 j) σ fuel = .error f ∧ PolicyFails pol f) := by
  intro fuel
  induction fuel with
  | zero => rintro j σ hj ⟨m, e, h1, h2, _⟩; omega
  | succ fuel ih =>
    rintro j σ hj ⟨m, e0, hjm, hm, he0, hf0⟩
    have hlt : pos s.length H j < s.length := pos_lt (by omega) H j
    have hget := List.getElem?_eq_getElem hlt
    generalize s[pos s.length H j] = e at hget
    unfold lookupLoopC
    rw [hcap, probe_step hk hk31]
    simp only [bind, Except.bind, load_ok ht hget]
    by_cases hf : e.isFree = true
    · left
      exact ⟨_, e, σ, by rw [if_pos hf], hget, .inl hf⟩
    · rw [if_neg hf]
      have hne : j ≠ m := by rintro rfl; rw [hget] at he0; cases he0; exact hf hf0
      have next : ∃ m e, j + 1 ≤ m ∧ m < s.length ∧ s[pos s.length H m]? = some e ∧ e.isFree = true :=
        ⟨m, e0, by omega, hm, he0, hf0⟩
      rw [cur_succ]
      by_cases hl : (e.isLive && e.sameHash H0) = true
      · rw [if_pos hl]
        have hlv : e.isLive = true := by simp only [Bool.and_eq_true] at hl; exact hl.1
        obtain ⟨p, hp, hpay⟩ := (hwf _ _ hget).payload hlv
        simp only [hpay]
        cases hm' : pol.isMatch l p σ with
        | error f => exact .inr ⟨f, rfl, .inr ⟨l, p, σ, hm'⟩⟩
        | ok v =>
          obtain ⟨b, σ1⟩ := v
          cases b with
          | true => exact .inl ⟨_, e, σ1, rfl, hget, .inr ⟨hlv, p, hp, σ, σ1, hm'⟩⟩
          | false =>
            simp only [Bool.false_eq_true, if_false]
            exact ih (j + 1) σ1 (by omega) next
      · rw [if_neg hl]
        exact ih (j + 1) σ (by omega) next

theorem findC_any {c : Config} (hi : BInv c t s) (l : L) (σ : S) :
    (∃ i e σ', findC pol t l σ = .ok (i, σ') ∧ s[i]? = some e ∧
      (e.isFree = true ∨ (e.isLive = true ∧ ∃ p, e.obj = some p ∧ Said pol l p))) ∨
    (∃ f, findC pol t l σ = .error f ∧ PolicyFails pol f) := by
  obtain ⟨k, hk31, hk⟩ := hi.pow
  unfold findC
  cases hh : computeHashC pol l σ with
  | error f => exact .inr ⟨f, rfl, computeHashC_err hh⟩
  | ok v =>
    obtain ⟨H, σ1⟩ := v
    simp only [bind, Except.bind]
    rw [probulatorCheck_ok (hi.cap.trans hk) hk31, hi.cap]
    obtain ⟨i, e, he, hf⟩ := hi.free
    obtain ⟨m, hm, hpm⟩ := pos_surj H (lt_of_get he)
    have := lookupLoopC_any (pol := pol) hi.tbl hi.cap hk hk31 hi.wf l H H s.length 0 σ1 (by omega)
      ⟨m, e, Nat.zero_le _, hm, by rw [hpm]; exact he, hf⟩
    simp only [BitVec.add_zero] at this
    exact this

theorem lookupForAddLoopC_any (ht : t.table = some s) (hcap : t.capacity = s.length) (hk : s.length = 2 ^ k) (hk31 : k ≤ 31)
    (hwf : ∀ (i : Nat) (e : Slot P), s[i]? = some e → e.Wf) (l : L) (H0 H : BitVec 32) :
    ∀ fuel j (fr : Option Nat) σ, j + fuel = s.length →
      (∃ m e, j ≤ m ∧ m < s.length ∧ s[pos s.length H m]? = some e ∧ e.isFree = true) →
      (∀ f, fr = some f → ∃ e, s[f]? = some e ∧ e.removed = true) →
      (∃ i e fr' σ', lookupForAddLoopC pol t l H0 (H + BitVec.ofNat 32 j) fr σ fuel = .ok (i, fr', σ') ∧ s[i]? = some e ∧
        (∀ f, fr' = some f → ∃ e, s[f]? = some e ∧ e.removed = true) ∧
        (e.isFree = true ∨ (e.isLive = true ∧ ∃ p, e.obj = some p ∧ Said pol l p))) ∨
      (∃ f, lookupForAddLoopC pol t l H0 (H + BitVec.ofNat 32 j) fr σ fuel = .error f ∧ PolicyFails pol f) := by
  intro fuel
  induction fuel with
  | zero => rintro j fr σ hj ⟨m, e, h1, h2, _⟩; omega
  | succ fuel ih =>
    rintro j fr σ hj ⟨m, e0, hjm, hm, he0, hf0⟩ hfr
    have hlt : pos s.length H j < s.length := pos_lt (by omega) H j
    have hget := List.getElem?_eq_getElem hlt
    generalize s[pos s.length H j] = e at hget
    unfold lookupForAddLoopC
    rw [hcap, probe_step hk hk31]
    simp only [bind, Except.bind, load_ok ht hget]
    by_cases hf : e.isFree = true
    · left
      exact ⟨_, e, fr, σ, by rw [if_pos hf], hget, hfr, .inl hf⟩
    · rw [if_neg hf]
      have hne : j ≠ m := by rintro rfl; rw [hget] at he0; cases he0; exact hf hf0
      have next : ∃ m e, j + 1 ≤ m ∧ m < s.length ∧ s[pos s.length H m]? = some e ∧ e.isFree = true :=
        ⟨m, e0, by omega, hm, he0, hf0⟩
      rw [cur_succ]
      by_cases hr : e.removed = true
      · rw [if_pos hr]
        refine ih (j + 1) _ σ (by omega) next ?_
        intro f hf'
        cases fr with
        | none => simp only [Option.some.injEq] at hf'; subst hf'; exact ⟨e, hget, hr⟩
        | some g => exact hfr f hf'
      · rw [if_neg hr]
        have hlv : e.isLive = true := by
          rcases slot_cases e with h | h | h
          · exact absurd h hf
          · exact absurd h hr
          · exact h
        by_cases hl : e.sameHash H0 = true
        · rw [if_pos hl]
          obtain ⟨p, hp, hpay⟩ := (hwf _ _ hget).payload hlv
          simp only [hpay]
          cases hm' : pol.isMatch l p σ with
          | error f => exact .inr ⟨f, rfl, .inr ⟨l, p, σ, hm'⟩⟩
          | ok v =>
            obtain ⟨b, σ1⟩ := v
            cases b with
            | true => exact .inl ⟨_, e, fr, σ1, rfl, hget, hfr, .inr ⟨hlv, p, hp, σ, σ1, hm'⟩⟩
            | false =>
              simp only [Bool.false_eq_true, if_false]
              exact ih (j + 1) fr σ1 (by omega) next hfr
        · rw [if_neg hl]
          exact ih (j + 1) fr σ (by omega) next hfr

theorem findForAddC_any {c : Config} (hi : BInv c t s) (l : L) (σ : S) :
    (∃ i H e σ', findForAddC pol t l σ = .ok (⟨i, H⟩, σ') ∧ s[i]? = some e ∧ H ≠ 0#32 ∧ H ≠ 1#32 ∧
      (e.isLive = false ∨ (e.isLive = true ∧ ∃ p, e.obj = some p ∧ Said pol l p))) ∨
    (∃ f, findForAddC pol t l σ = .error f ∧ PolicyFails pol f) := by
  obtain ⟨k, hk31, hk⟩ := hi.pow
  unfold findForAddC
  cases hh : computeHashC pol l σ with
  | error f => exact .inr ⟨f, rfl, computeHashC_err hh⟩
  | ok v =>
    obtain ⟨H, σ1⟩ := v
    have hH := computeHashC_live hh
    simp only [bind, Except.bind]
    rw [probulatorCheck_ok (hi.cap.trans hk) hk31, hi.cap]
    obtain ⟨i, e, he, hf⟩ := hi.free
    obtain ⟨m, hm, hpm⟩ := pos_surj H (lt_of_get he)
    have := lookupForAddLoopC_any (pol := pol) hi.tbl hi.cap hk hk31 hi.wf l H H s.length 0 none σ1 (by omega)
      ⟨m, e, Nat.zero_le _, hm, by rw [hpm]; exact he, hf⟩ (by simp)
    simp only [BitVec.add_zero] at this
    rcases this with ⟨i, e, fr, σ', hrun, hget, hfr, hcase⟩ | ⟨f, hrun, hpf⟩
    · left
      simp only [hrun, load_ok hi.tbl hget]
      rcases hcase with hfree | ⟨hlv, p, hp, hsaid⟩
      · have hnl := free_not_live hfree
        cases fr with
        | none => exact ⟨i, H, e, σ', by simp [hnl], hget, hH.1, hH.2, .inl hnl⟩
        | some f =>
          obtain ⟨e', he', hr'⟩ := hfr f rfl
          exact ⟨f, H, e', σ', by simp [hnl], he', hH.1, hH.2, .inl (removed_not_live hr')⟩
      · exact ⟨i, H, e, σ', by simp [hlv], hget, hH.1, hH.2, .inr ⟨hlv, p, hp, hsaid⟩⟩
    · right
      exact ⟨f, by simp only [hrun], hpf⟩

end lookup

/-! ### Resizing -/

theorem contents_replicate (n : Nat) : contents (List.replicate n (Slot.fresh : Slot P)) = [] := by
  induction n with
  | zero => rfl
  | succ n ih => rw [List.replicate_succ]; exact ih

theorem nLive_replicate (n : Nat) : nLive (List.replicate n (Slot.fresh : Slot P)) = 0 := by
  unfold nLive; rw [List.countP_replicate, if_neg (by simp [Slot.isLive, Slot.fresh, kFreeHash, kRemovedHash])]

theorem nRem_replicate (n : Nat) : nRem (List.replicate n (Slot.fresh : Slot P)) = 0 := by
  unfold nRem; rw [List.countP_replicate, if_neg (by simp [Slot.removed, Slot.fresh, kFreeHash, kRemovedHash])]

theorem wf_replicate (n : Nat) : ∀ (i : Nat) (e : Slot P), (List.replicate n Slot.fresh)[i]? = some e → e.Wf := by
  intro i e he
  rw [List.eq_of_mem_replicate (List.mem_of_getElem? he)]
  exact fresh_wf

theorem rehashLoop_any (old : List (Slot P)) (hold : ∀ (i : Nat) (e : Slot P), old[i]? = some e → e.Wf) :
    ∀ rem i (t : Table P) (s : List (Slot P)) k, i + rem = old.length → t.table = some s →
      t.capacity = s.length → s.length = 2 ^ k → k ≤ 31 → (∀ (i : Nat) (e : Slot P), s[i]? = some e → e.Wf) →
      nLive s + nLive (old.drop i) < s.length →
      ∃ s', rehashLoop old i rem t = .ok { t with table := some s', ctors := t.ctors + nLive (old.drop i),
                                                  dtors := t.dtors + nLive (old.drop i) } ∧
        s'.length = s.length ∧ (∀ (i : Nat) (e : Slot P), s'[i]? = some e → e.Wf) ∧ nLive s' = nLive s + nLive (old.drop i) ∧
        nRem s' ≤ nRem s ∧ (contents s').Perm (contents s ++ contents (old.drop i)) := by
  intro rem
  induction rem with
  | zero =>
    intro i t s k hi ht hcap hk hk31 hs hlt
    have hd : old.drop i = [] := List.drop_eq_nil_of_le (by omega)
    refine ⟨s, ?_, rfl, hs, ?_, Nat.le_refl _, ?_⟩
    · rw [hd]; unfold rehashLoop; simp [nLive, ← ht]
    · rw [hd]; simp [nLive]
    · rw [hd]; simp [contents]
  | succ rem ih =>
    intro i t s k hi ht hcap hk hk31 hs hlt
    have hilt : i < old.length := by omega
    have hget : old[i]? = some old[i] := List.getElem?_eq_getElem hilt
    have hdrop : old.drop i = old[i] :: old.drop (i + 1) := List.drop_eq_getElem_cons hilt
    generalize hoe : old[i] = oe at hget hdrop
    unfold rehashLoop
    rw [hget]
    simp only
    have hwf := hold _ _ hget
    by_cases hl : oe.isLive = true
    · rw [if_pos hl]
      obtain ⟨p, hp, hpay⟩ := hwf.payload hl
      have hdl : nLive (old.drop i) = nLive (old.drop (i + 1)) + 1 := by
        rw [hdrop]; unfold nLive; rw [List.countP_cons]; simp [hl]
      obtain ⟨m, e, hm, he, hel, hb, hins⟩ := insertUnique_spec ht hcap hk hk31 oe.hash
        (exists_nonlive (by omega))
      have hplt : pos s.length oe.hash m < s.length := lt_of_get he
      rw [hins]
      simp only [bind, Except.bind]
      rw [load_ok ht he]
      simp only
      rw [store_ok ht hplt]
      simp only [hpay]
      rw [load_ok (t := { t with table := some (s.set (pos s.length oe.hash m) (e.setHash oe.hash)) }) rfl
        (get_set_self hplt)]
      have hnone := (hs _ _ he).none hel
      simp only [Slot.construct, Slot.setHash, hnone]
      rw [store_ok rfl (by rw [List.length_set]; exact hplt)]
      simp only [Slot.destruct, hl, if_true, hp, List.set_set]
      have hnew : (⟨oe.hash, some p⟩ : Slot P).isLive = true := hl
      have hn' := nLive_set (a := ⟨oe.hash, some p⟩) he
      rw [hel, hnew] at hn'
      simp at hn'
      have hr' := nRem_set (a := ⟨oe.hash, some p⟩) he
      rw [live_not_removed hnew] at hr'
      simp at hr'
      have hc' := contents_set (a := ⟨oe.hash, some p⟩) he
      rw [hnone] at hc'
      simp only [Option.toList_none, List.nil_append, Option.toList_some] at hc'
      obtain ⟨s'', hrun, hlen, hs'', hn'', hr'', hh''⟩ := ih (i + 1)
        { t with table := some (s.set (pos s.length oe.hash m) ⟨oe.hash, some p⟩), ctors := t.ctors + 1,
                 dtors := t.dtors + 1 } _ k (by omega) rfl (by rw [List.length_set]; exact hcap)
        (by rw [List.length_set]; exact hk) hk31 (wf_set hs (by unfold Slot.Wf; rw [hnew]; rfl)) (by
          rw [List.length_set]; omega)
      rw [hrun]
      refine ⟨s'', ?_, by rw [hlen, List.length_set], hs'', by omega, by omega, ?_⟩
      · simp only [hdl]
        congr 2 <;> omega
      · refine hh''.trans ((hc'.append_right _).trans ?_)
        rw [hdrop]
        simp only [contents, List.filterMap_cons, hp, List.cons_append, List.nil_append]
        exact List.perm_middle.symm
    · rw [if_neg hl]
      have hl' : oe.isLive = false := by simpa using hl
      have hdl : nLive (old.drop i) = nLive (old.drop (i + 1)) := by
        rw [hdrop]; unfold nLive; rw [List.countP_cons]; simp [hl']
      simp only [Slot.destruct, hl', bind, Except.bind, Bool.false_eq_true, if_false]
      obtain ⟨s'', hrun, hlen, hs'', hn'', hr'', hh''⟩ := ih (i + 1) { t with dtors := t.dtors + 0 } s k
        (by omega) ht hcap hk hk31 hs (by omega)
      rw [hrun]
      refine ⟨s'', by rw [hdl]; rfl, hlen, hs'', by omega, hr'', ?_⟩
      rw [hdrop]
      simp only [contents, List.filterMap_cons, hwf.none hl']
      exact hh''

theorem changeCapacity_any {c : Config} {t : Table P}
    {s : List (Slot P)} (hi : BInv c t s) (newCap k : Nat) (hk : newCap = 2 ^ k) (hk31 : k ≤ 31)
    (hmax : newCap ≤ c.kMaxCapacity) (hroom : t.nelements ≤ newCap / 2 + newCap / 4) (h16 : 16 ≤ newCap)
    (hmin : t.minCapacity ≤ newCap) :
    ∃ t' s', changeCapacity c t newCap true = .ok (true, t') ∧ BInv c t' s' ∧
      t'.capacity = newCap ∧ t'.nelements = t.nelements ∧ t'.ndeleted = 0 ∧ (contents s').Perm (contents s) := by
  unfold changeCapacity createTable
  rw [if_pos hmax, if_pos hmax]
  simp only [if_true, bind, Except.bind, hi.tbl]
  have hn0 := nLive_replicate (P := P) newCap
  have hr0 := nRem_replicate (P := P) newCap
  have hn := hi.n
  obtain ⟨s', hrun, hlen, hs', hn', hr', hh'⟩ := rehashLoop_any s hi.wf t.capacity 0
    { t with table := some (List.replicate newCap Slot.fresh), capacity := newCap, ndeleted := 0,
             mallocs := t.mallocs + 1 } (List.replicate newCap Slot.fresh) k (by rw [hi.cap]; omega) rfl
    (by rw [List.length_replicate]) (by rw [List.length_replicate, hk]) hk31 (wf_replicate newCap) (by
      rw [hn0, List.drop_zero, List.length_replicate]; omega)
  rw [hrun]
  rw [List.drop_zero, hn0, Nat.zero_add] at hn'
  refine ⟨_, s', rfl, ⟨rfl, ?_, ⟨k, hk31, by rw [hlen, List.length_replicate, hk]⟩, hs', ?_, ?_, ?_, hmax, hi.min16, hmin, ?_, ?_⟩, rfl, rfl, rfl, ?_⟩
  · rw [hlen, List.length_replicate]
  · rw [hn']; exact hn
  · show 0 = nRem s'; omega
  · show t.nelements + 0 ≤ newCap / 2 + newCap / 4 + 1; omega
  · show t.ctors + nLive (s.drop 0) = t.dtors + nLive (s.drop 0) + t.nelements
    have := hi.life; omega
  · show t.mallocs + 1 = t.frees + 1 + 1
    have := hi.mem; omega
  · rw [contents_replicate, List.nil_append, List.drop_zero] at hh'
    exact hh'

theorem checkDensity_any {c : Config} {t : Table P}
    {s : List (Slot P)} (hi : BInv c t s) (memOk : Bool) :
    (∃ t' s', checkDensity c t memOk = .ok (true, t') ∧ BInv c t' s' ∧
      t'.nelements = t.nelements ∧
      t'.nelements + t'.ndeleted ≤ t'.capacity / 2 + t'.capacity / 4 ∧
      (t'.capacity = t.capacity → t' = t ∧ s' = s) ∧ (t'.capacity ≠ t.capacity → t'.ndeleted = 0) ∧
      t'.ndeleted ≤ t.ndeleted ∧ (contents s').Perm (contents s)) ∨
    (checkDensity c t memOk = .ok (false, t) ∧ c.aborts = false ∧ (memOk = false ∨ NearLimit c t)) ∨
    (∃ f, checkDensity c t memOk = .error f ∧ Resize c t memOk f) := by
  obtain ⟨k, hk31, hk⟩ := hi.pow
  have hcapk : t.capacity = 2 ^ k := hi.cap.trans hk
  have h16 := hi.cap_ge
  have hlt := hi.cap_lt
  have hload := hi.load
  unfold checkDensity
  by_cases hu : underloaded t = true
  · rw [if_pos hu]
    unfold underloaded kMinCapacity at hu
    rw [Bool.and_eq_true, decide_eq_true_eq, decide_eq_true_eq, hi.add32_eq] at hu
    unfold shrink
    by_cases hm : t.capacity / 2 < t.minCapacity
    · rw [if_pos hm]
      left
      exact ⟨t, s, rfl, hi, rfl, by omega, fun _ => ⟨rfl, rfl⟩, fun h => absurd rfl h,
        Nat.le_refl _, List.Perm.refl _⟩
    · rw [if_neg hm]
      have hk1 : 4 < k := by
        apply pow2_le; rw [← hcapk]; exact hu.1
      have hhalf : t.capacity / 2 = 2 ^ (k - 1) := by
        rw [hcapk]
        have : k = (k - 1) + 1 := by omega
        rw [this, Nat.pow_succ, Nat.mul_div_cancel _ (by decide)]
        rfl
      have hge : 16 ≤ t.capacity / 2 := by
        rw [hhalf]
        have : (2:Nat) ^ 4 ≤ 2 ^ (k - 1) := Nat.pow_le_pow_right (by decide) (by omega)
        omega
      have hmx : t.capacity / 2 ≤ c.kMaxCapacity := by have := hi.max; omega
      cases memOk with
      | true =>
        left
        obtain ⟨t', s', hrun, hi', hc', hn', hd', hh'⟩ := changeCapacity_any hi (t.capacity / 2)
          (k - 1) hhalf (by omega) hmx (by omega) hge (by omega)
        exact ⟨t', s', hrun, hi', hn', by omega, fun hc => by omega, fun _ => hd', by omega, hh'⟩
      | false =>
        unfold changeCapacity createTable
        rw [if_pos hmx, if_pos hmx]
        rcases ha : c.aborts with _ | _
        · right; left
          exact ⟨by simp [bind, Except.bind], rfl, .inl rfl⟩
        · right; right
          exact ⟨.abort, by simp [bind, Except.bind], .abort ha (.inl rfl)⟩
  · rw [if_neg hu]
    by_cases ho : overloaded t = true
    · rw [if_pos ho]
      unfold overloaded at ho
      rw [decide_eq_true_eq, hi.add32_eq] at ho
      unfold grow
      by_cases hmx : c.kMaxCapacity ≤ t.capacity
      · rw [if_pos hmx]
        have hnl : NearLimit c t := ⟨ho, by omega⟩
        unfold reportAllocationOverflow
        rcases ha : c.aborts with _ | _
        · right; left
          exact ⟨by simp [bind, Except.bind], rfl, .inr hnl⟩
        · right; right
          exact ⟨.abort, by simp [bind, Except.bind], .abort ha (.inr hnl)⟩
      · rw [if_neg hmx]
        have hmod : t.capacity * 2 % 2 ^ 32 = t.capacity * 2 := Nat.mod_eq_of_lt (by omega)
        rw [hmod]
        by_cases hfit : t.capacity * 2 ≤ c.kMaxCapacity
        · have hk' : t.capacity * 2 = 2 ^ (k + 1) := by rw [hcapk, Nat.pow_succ]
          have hk30 : k + 1 ≤ 31 := by
            have : (2:Nat) ^ (k+1) < 2 ^ 31 := by
              rw [← hk']; exact Nat.lt_of_le_of_lt hfit (kMax_lt c)
            exact Nat.le_of_lt (pow2_le this)
          cases memOk with
          | true =>
            left
            obtain ⟨t', s', hrun, hi', hc', hn', hd', hh'⟩ := changeCapacity_any hi (t.capacity * 2)
              (k + 1) hk' hk30 hfit (by omega) (by omega) (by have := hi.minCap; omega)
            exact ⟨t', s', hrun, hi', hn', by omega, fun hc => by omega, fun _ => hd', by omega, hh'⟩
          | false =>
            unfold changeCapacity createTable
            rw [if_pos hfit, if_pos hfit]
            rcases ha : c.aborts with _ | _
            · right; left
              exact ⟨by simp [bind, Except.bind], rfl, .inl rfl⟩
            · right; right
              exact ⟨.abort, by simp [bind, Except.bind], .abort ha (.inl rfl)⟩
        · right; right
          refine ⟨.assertFail, ?_, .assert ⟨ho, by omega⟩⟩
          unfold changeCapacity
          rw [if_neg hfit]
    · rw [if_neg ho]
      unfold overloaded at ho
      rw [decide_eq_true_eq, hi.add32_eq] at ho
      left
      exact ⟨t, s, rfl, hi, rfl, by omega, fun _ => ⟨rfl, rfl⟩, fun h => absurd rfl h,
        Nat.le_refl _, List.Perm.refl _⟩

/-! ### Adding -/

theorem addTail_any {c : Config} {t : Table P}
    {s : List (Slot P)} (hi : BInv c t s) {i : Nat} {e : Slot P} (p : P) {H : BitVec 32} (hH : H ≠ 0#32 ∧ H ≠ 1#32) (he : s[i]? = some e)
    (hlive : e.isLive = false)
    (hroom : e.removed = true ∨ t.nelements + t.ndeleted ≤ t.capacity / 2 + t.capacity / 4)
    (nd : Nat) (hnd : nd = t.ndeleted - (if e.removed = true then 1 else 0)) :
    (internalAddTail { t with ndeleted := nd } ⟨i, H⟩ >>= addFinish p) =
      .ok (true, { t with ndeleted := nd, nelements := t.nelements + 1, ctors := t.ctors + 1,
                          table := some (s.set i ⟨H, some p⟩) }, ⟨i, H⟩) ∧
    BInv c { t with ndeleted := nd, nelements := t.nelements + 1, ctors := t.ctors + 1,
                    table := some (s.set i ⟨H, some p⟩) } (s.set i ⟨H, some p⟩) ∧
    (contents (s.set i ⟨H, some p⟩)).Perm (p :: contents s) := by
  have hilt := lt_of_get he
  have h1 := hi.load
  have h2 := hi.cap_lt
  have hnone := (hi.wf _ _ he).none hlive
  have hinc : inc32 t.nelements = t.nelements + 1 := by
    unfold inc32; exact Nat.mod_eq_of_lt (by omega)
  have hnew : (⟨H, some p⟩ : Slot P).isLive = true := by rw [isLive_iff]; exact hH
  have hn' := nLive_set (a := ⟨H, some p⟩) he
  rw [hlive, hnew] at hn'
  simp at hn'
  have hr' := nRem_set (a := ⟨H, some p⟩) he
  rw [live_not_removed hnew] at hr'
  simp at hr'
  have hc' := contents_set (a := ⟨H, some p⟩) he
  rw [hnone] at hc'
  simp only [Option.toList_none, List.nil_append, Option.toList_some, List.singleton_append] at hc'
  refine ⟨?_, ⟨rfl, ?_, ?_, wf_set hi.wf (by unfold Slot.Wf; rw [hnew]; rfl), ?_, ?_, ?_, hi.max, hi.min16, hi.minCap, ?_, hi.mem⟩, hc'⟩
  · unfold internalAddTail
    simp only [hinc, bind, Except.bind]
    rw [load_ok (t := { t with nelements := t.nelements + 1, ndeleted := nd }) hi.tbl he]
    simp only
    rw [store_ok (t := { t with nelements := t.nelements + 1, ndeleted := nd }) hi.tbl hilt]
    simp only [addFinish, if_true, bind, Except.bind]
    rw [load_ok (s := s.set i (e.setHash H)) rfl (get_set_self hilt)]
    simp only [Slot.construct, Slot.setHash, hnone]
    rw [store_ok rfl (by rw [List.length_set]; exact hilt)]
    simp only [List.set_set]
  · rw [List.length_set]; exact hi.cap
  · rw [List.length_set]; exact hi.pow
  · show t.nelements + 1 = _
    rw [hn', ← hi.n]
  · show nd = _
    have := hi.d
    omega
  · show t.nelements + 1 + nd ≤ _
    rcases hroom with hr | hr
    · have hpos : 0 < t.ndeleted := by
        rw [hi.d]; unfold nRem; rw [List.countP_pos_iff]
        exact ⟨e, List.mem_of_getElem? he, hr⟩
      rw [hr] at hnd
      simp only [if_true] at hnd
      show _ ≤ t.capacity / 2 + t.capacity / 4 + 1
      omega
    · show _ ≤ t.capacity / 2 + t.capacity / 4 + 1
      have : nd ≤ t.ndeleted := by omega
      omega
  · show t.ctors + 1 = t.dtors + (t.nelements + 1)
    have := hi.life; omega

theorem add_any {c : Config} {t : Table P}
    {s : List (Slot P)} (hi : BInv c t s) {i : Nat} {e : Slot P} (p : P) {H : BitVec 32} (hH : H ≠ 0#32 ∧ H ≠ 1#32) (memOk : Bool)
    (he : s[i]? = some e) (hlive : e.isLive = false) :
    (∃ t' s' i', add c t ⟨i, H⟩ p memOk = .ok (true, t', ⟨i', H⟩) ∧
      BInv c t' s' ∧ t'.nelements = t.nelements + 1 ∧ t'.ndeleted ≤ t.ndeleted ∧
      s'[i']? = some ⟨H, some p⟩ ∧ (contents s').Perm (p :: contents s)) ∨
    (add c t ⟨i, H⟩ p memOk = .ok (false, t, ⟨i, H⟩) ∧
      c.aborts = false ∧ (memOk = false ∨ NearLimit c t)) ∨
    (∃ f, add c t ⟨i, H⟩ p memOk = .error f ∧ Resize c t memOk f) := by
  rw [add_eq_bind]
  unfold internalAdd
  simp only [load_ok hi.tbl he]
  by_cases hr : e.removed = true
  · left
    have hpos : 0 < t.ndeleted := by
      rw [hi.d]; unfold nRem; rw [List.countP_pos_iff]
      exact ⟨e, List.mem_of_getElem? he, hr⟩
    have hdec : dec32 t.ndeleted = t.ndeleted - 1 := by
      have h1 := hi.load
      have h2 := hi.cap_lt
      unfold dec32
      omega
    obtain ⟨hrun, hi', hh'⟩ := addTail_any hi p hH he hlive (.inl hr) (t.ndeleted - 1) (by simp [hr])
    refine ⟨_, _, i, ?_, hi', rfl, ?_, get_set_self (lt_of_get he), hh'⟩
    · rw [← hrun, ← hdec]
      simp only [bind, Except.bind, hr, if_true, hlive, Bool.false_eq_true, if_false]
    · show t.ndeleted - 1 ≤ _; omega
  · have hr' : e.removed = false := by simpa using hr
    have hnk : ¬ t.nelements = c.kMaxCapacity := by
      have h1 := hi.load
      have h2 := hi.max
      have h3 := hi.cap_ge
      omega
    simp only [bind, Except.bind, hlive, hr', hnk, Bool.false_eq_true, if_false]
    rcases checkDensity_any hi memOk with ⟨t1, s1, hrun, hi1, hn1, hload1, hsame, hdz, hdle, hh1⟩ |
        ⟨hrun, ha, hcond⟩ | ⟨f, hrun, hcond⟩
    · left
      rw [hrun]
      simp only [if_true]
      by_cases hc : t1.capacity = t.capacity
      · obtain ⟨rfl, rfl⟩ := hsame hc
        simp only [ne_eq, not_true_eq_false, if_false]
        obtain ⟨hrun', hi', hh'⟩ := addTail_any hi1 p hH he hlive (.inr hload1) t1.ndeleted (by simp [hr'])
        exact ⟨_, _, i, hrun', hi', rfl, Nat.le_refl _, get_set_self (lt_of_get he), hh'⟩
      · simp only [ne_eq, hc, not_false_eq_true, if_true]
        obtain ⟨k, hk31, hk⟩ := hi1.pow
        have hocc := hi1.occ_lt
        obtain ⟨m, e1, hm, he1, hel1, hb, hins⟩ := insertUnique_spec hi1.tbl hi1.cap hk hk31 H
          (exists_nonlive (by omega))
        rw [hins]
        have hnr : e1.removed = false := by
          rcases hx : e1.removed with _ | _
          · rfl
          · have : 0 < nRem s1 := by
              unfold nRem; rw [List.countP_pos_iff]; exact ⟨e1, List.mem_of_getElem? he1, hx⟩
            rw [← hi1.d, hdz hc] at this; omega
        obtain ⟨hrun', hi', hh'⟩ := addTail_any hi1 p hH he1 hel1 (.inr hload1) t1.ndeleted (by simp [hnr])
        refine ⟨_, _, _, hrun', hi', by rw [← hn1], hdle, get_set_self (lt_of_get he1), ?_⟩
        exact hh'.trans (hh1.cons p)
    · right; left
      rw [hrun]
      simp only [Bool.false_eq_true, if_false]
      exact ⟨rfl, ha, hcond⟩
    · right; right
      rw [hrun]
      exact ⟨f, rfl, hcond⟩

/-! ### Removing, assigning, clearing, walking, destroying -/

theorem removeEntry_any {c : Config} {t : Table P} {s : List (Slot P)} (hi : BInv c t s) {i : Nat}
    {e : Slot P} {p : P} (he : s[i]? = some e) (hp : e.obj = some p) :
    ∃ t', removeEntry t i = .ok t' ∧ BInv c t' (s.set i ⟨kRemovedHash, none⟩) ∧
      t'.nelements + t'.ndeleted = t.nelements + t.ndeleted ∧
      (contents s).Perm (p :: contents (s.set i ⟨kRemovedHash, none⟩)) := by
  have hilt := lt_of_get he
  have hlive : e.isLive = true := by rw [hi.wf _ _ he, hp]; rfl
  have hrem : (⟨kRemovedHash, none⟩ : Slot P).removed = true := rfl
  have hnl : (⟨kRemovedHash, none⟩ : Slot P).isLive = false := removed_not_live hrem
  have hn' := nLive_set (a := ⟨kRemovedHash, none⟩) he
  rw [hlive, hnl] at hn'
  simp at hn'
  have hr' := nRem_set (a := ⟨kRemovedHash, none⟩) he
  rw [live_not_removed hlive, hrem] at hr'
  simp at hr'
  have hc' := contents_set (a := ⟨kRemovedHash, none⟩) he
  rw [hp] at hc'
  simp only [Option.toList_none, List.nil_append, Option.toList_some, List.singleton_append] at hc'
  have h1 := hi.load
  have h2 := hi.cap_lt
  have h3 := hi.n
  have h4 := hi.d
  have hinc : inc32 t.ndeleted = t.ndeleted + 1 := by
    unfold inc32; exact Nat.mod_eq_of_lt (by omega)
  have hdec : dec32 t.nelements = t.nelements - 1 := by
    unfold dec32; omega
  unfold removeEntry
  simp only [bind, Except.bind, load_ok hi.tbl he, hlive, if_true, Slot.setRemoved, Slot.destruct, hp]
  rw [store_ok hi.tbl hilt]
  simp only [hinc, hdec]
  refine ⟨_, rfl, ⟨rfl, ?_, ?_, wf_set hi.wf (by unfold Slot.Wf; rw [hnl]; rfl), ?_, ?_, ?_, hi.max, hi.min16, hi.minCap, ?_, hi.mem⟩, ?_, hc'.symm⟩
  · rw [List.length_set]; exact hi.cap
  · rw [List.length_set]; exact hi.pow
  · show t.nelements - 1 = _; omega
  · show t.ndeleted + 1 = _; omega
  · show t.nelements - 1 + (t.ndeleted + 1) ≤ t.capacity / 2 + t.capacity / 4 + 1; omega
  · show t.ctors = t.dtors + 1 + (t.nelements - 1)
    have := hi.life; omega
  · show t.nelements - 1 + (t.ndeleted + 1) = _; omega

theorem assign_any {c : Config} {t : Table P} {s : List (Slot P)} (hi : BInv c t s) {i : Nat}
    {e : Slot P} {q : P} (p : P) (he : s[i]? = some e) (hq : e.obj = some q) :
    ∃ s', assign t i p = .ok { t with table := some s' } ∧ BInv c { t with table := some s' } s' ∧
      ∃ rest, (contents s).Perm (q :: rest) ∧ (contents s').Perm (p :: rest) := by
  have hilt := lt_of_get he
  have hlive : e.isLive = true := by rw [hi.wf _ _ he, hq]; rfl
  obtain ⟨q', hq', hpay⟩ := (hi.wf _ _ he).payload hlive
  have hnl : ({ e with obj := some p } : Slot P).isLive = true := hlive
  have hn' := nLive_set (a := { e with obj := some p }) he
  rw [hlive, hnl] at hn'
  simp at hn'
  have hr' := nRem_set (a := { e with obj := some p }) he
  rw [live_not_removed hlive, live_not_removed hnl] at hr'
  simp at hr'
  have hc1 := contents_set (a := ⟨kRemovedHash, none⟩) he
  rw [hq] at hc1
  simp only [Option.toList_none, List.nil_append, Option.toList_some, List.singleton_append] at hc1
  have hc2 := contents_set (a := { e with obj := some p }) (get_set_self (a := ⟨kRemovedHash, none⟩) hilt)
  simp only [Option.toList_none, List.nil_append, Option.toList_some, List.singleton_append, List.set_set] at hc2
  unfold assign
  simp only [bind, Except.bind, load_ok hi.tbl he, hpay]
  rw [store_ok hi.tbl hilt]
  refine ⟨_, rfl, ⟨rfl, ?_, ?_, wf_set hi.wf (by unfold Slot.Wf; rw [hnl]; rfl), ?_, ?_, hi.load, hi.max, hi.min16, hi.minCap, hi.life, hi.mem⟩,
    _, hc1.symm, hc2⟩
  · rw [List.length_set]; exact hi.cap
  · rw [List.length_set]; exact hi.pow
  · rw [hn']; exact hi.n
  · rw [hr']; exact hi.d

theorem clear_any {c : Config} {t : Table P} {s : List (Slot P)} (hi : BInv c t s) :
    ∃ t', clear t = .ok t' ∧ BInv c t' (List.replicate t.capacity Slot.fresh) ∧ t'.nelements = 0 ∧ t'.ndeleted = 0 := by
  unfold clear
  rw [clearLoop_spec t.capacity 0 t s (by rw [hi.cap]; omega) hi.tbl hi.wf]
  simp only [bind, Except.bind, List.take_zero, List.nil_append, List.drop_zero]
  refine ⟨_, rfl, ⟨rfl, ?_, ?_, wf_replicate _, (nLive_replicate _).symm, (nRem_replicate _).symm, ?_, hi.max, hi.min16, hi.minCap, ?_, hi.mem⟩, rfl, rfl⟩
  · rw [List.length_replicate]
  · rw [List.length_replicate, hi.cap]; exact hi.pow
  · show 0 + 0 ≤ _; omega
  · show t.ctors = t.dtors + nLive s + 0
    have := hi.life; have := hi.n; omega

theorem destroy_any {c : Config} {t : Table P} {s : List (Slot P)} (hi : BInv c t s) :
    ∃ t', destroy t = .ok t' ∧ t'.ctors = t'.dtors ∧ t'.mallocs = t'.frees ∧
      t'.ctors = t.ctors ∧ t'.mallocs = t.mallocs := by
  obtain ⟨s', hrun, _⟩ := destroyLoop_spec t.capacity 0 t s (by rw [hi.cap]; omega) hi.tbl
    (fun i e he hso => by rw [hi.wf i e he]; exact hso)
    (fun i e _ he => hi.wf i e he) (fun i e hlt => by omega)
  unfold destroy
  rw [hrun]
  refine ⟨_, rfl, ?_, ?_, rfl, rfl⟩
  · show t.ctors = t.dtors + nLive (s.drop 0)
    rw [List.drop_zero, ← hi.n]; exact hi.life
  · exact hi.mem

theorem sweepLoop_any {c : Config} (pick : P → Bool) : ∀ fuel (t : Table P) (s : List (Slot P)) (j : Nat) (acc : List P),
    BInv c t s → s.length < j + fuel → j ≤ s.length →
    (∀ e, s[j]? = some e → e.isLive = true) →
    ∃ t' s', sweepLoop pick fuel t ⟨j, s.length⟩ acc = .ok (t', acc.reverse ++ contents (s.drop j)) ∧
      BInv c t' s' ∧ t'.nelements + t'.ndeleted = t.nelements + t.ndeleted ∧
      (contents s ++ (contents (s.drop j)).filter (fun p => !pick p)).Perm (contents s' ++ contents (s.drop j)) := by
  intro fuel
  induction fuel with
  | zero => intro t s j acc hi h1 h2; omega
  | succ fuel ih =>
    intro t s j acc hi hf hj hlive
    unfold sweepLoop
    by_cases hend : j = s.length
    · subst hend
      have hd : s.drop s.length = [] := List.drop_eq_nil_of_le (Nat.le_refl _)
      simp only [Iter.empty, beq_self_eq_true, if_true]
      refine ⟨t, s, by rw [hd]; simp [contents], hi, rfl, ?_⟩
      rw [hd]
      simp [contents]
    · have hjlt : j < s.length := by omega
      have hget : s[j]? = some s[j] := List.getElem?_eq_getElem hjlt
      have hdrop : s.drop j = s[j] :: s.drop (j + 1) := List.drop_eq_getElem_cons hjlt
      generalize s[j] = e at hget hdrop
      have hl := hlive e hget
      obtain ⟨p, hp, hpay⟩ := (hi.wf _ _ hget).payload hl
      have hemp : (Iter.empty ⟨j, s.length⟩) = false := by
        unfold Iter.empty; simpa using hend
      have hcont : contents (s.drop j) = p :: contents (s.drop (j + 1)) := by
        rw [hdrop]; unfold contents; rw [List.filterMap_cons, hp]
      simp only [hemp, Bool.false_eq_true, if_false, deref, bind, Except.bind, load_ok hi.tbl hget, hpay]
      -- the table after the optional erase
      have step : ∃ t1 s1, eraseIf pick p t ⟨j, s.length⟩ = .ok t1 ∧
          BInv c t1 s1 ∧ s1.length = s.length ∧ s1.drop (j + 1) = s.drop (j + 1) ∧
          t1.nelements + t1.ndeleted = t.nelements + t.ndeleted ∧
          (contents s ++ [p].filter (fun p => !pick p)).Perm (contents s1 ++ [p]) := by
        rcases hpk : pick p with _ | _
        · refine ⟨t, s, by simp [eraseIf, hpk], hi, rfl, rfl, rfl, ?_⟩
          simp [hpk]
        · obtain ⟨t1, hrun, hi1, hnd, hh1⟩ := removeEntry_any hi hget hp
          refine ⟨t1, _, by simp [eraseIf, hpk, Iter.erase, hemp, hrun], hi1, List.length_set, ?_, hnd, ?_⟩
          · rw [List.drop_set_of_lt (by omega)]
          · simp only [List.filter_cons, hpk, Bool.not_true, Bool.false_eq_true, if_false, List.filter_nil, List.append_nil]
            exact hh1.trans (List.perm_append_singleton _ _).symm
      obtain ⟨t1, s1, hrun1, hi1, hlen1, hdrop1, hnd1, hh1⟩ := step
      rw [hrun1]
      simp only [Iter.next, bind, Except.bind]
      obtain ⟨j', hskip, hj1, hj2, hdead, hlv⟩ := skipDead_spec hi1.tbl (s1.length - (j + 1)) (j + 1)
        (by omega)
      rw [hlen1] at hskip
      rw [hskip]
      simp only
      rw [← hlen1]
      obtain ⟨t2, s2, hrun2, hi2, hnd2, hh2⟩ := ih t1 s1 j' (p :: acc) hi1 (by omega) (by omega) hlv
      have hcj : contents (s.drop (j + 1)) = contents (s1.drop j') := by
        rw [← hdrop1]
        have := contents_skip hi1.wf (j' - (j + 1)) (j + 1) (by omega)
          (fun x e h1 h2 => hdead x e h1 (by omega))
        rw [this, show j + 1 + (j' - (j + 1)) = j' by omega]
      refine ⟨t2, s2, ?_, hi2, by omega, ?_⟩
      · rw [hrun2, hcont, ← hcj]; simp
      · rw [hcont]
        rw [← hcj] at hh2
        generalize contents (s.drop (j + 1)) = r at hh2
        have e1 : (p :: r).filter (fun p => !pick p) = [p].filter (fun p => !pick p) ++ r.filter (fun p => !pick p) := by
          rw [← List.filter_append]; rfl
        rw [e1, ← List.append_assoc]
        refine (hh1.append_right _).trans ?_
        rw [List.append_assoc]
        have e2 : (contents s1 ++ ([p] ++ r.filter (fun p => !pick p))).Perm ((contents s1 ++ r.filter (fun p => !pick p)) ++ [p]) := by
          rw [List.append_assoc]
          exact (List.perm_append_comm).append_left _
        refine e2.trans ((hh2.append_right _).trans ?_)
        rw [List.append_assoc]
        exact (List.perm_append_singleton _ _).append_left _

theorem sweep_any {c : Config} (pick : P → Bool) {t : Table P} {s : List (Slot P)} (hi : BInv c t s) :
    ∃ t' s', sweep pick t = .ok (t', contents s) ∧
      BInv c t' s' ∧ t'.nelements + t'.ndeleted = t.nelements + t.ndeleted ∧
      (contents s').Perm ((contents s).filter (fun p => !pick p)) := by
  unfold sweep iter
  rw [hi.cap]
  obtain ⟨j, hskip, hj1, hj2, hdead, hlv⟩ := skipDead_spec hi.tbl s.length 0 (by omega)
  simp only [bind, Except.bind]
  rw [hskip]
  simp only
  obtain ⟨t2, s2, hrun2, hi2, hnd2, hh2⟩ := sweepLoop_any pick (s.length + 1) t s j [] hi
    (by omega) (by omega) hlv
  have hcj : contents s = contents (s.drop j) := by
    have := contents_skip hi.wf j 0 (by omega) (fun x e h1 h2 => hdead x e h1 (by omega))
    rw [List.drop_zero, Nat.zero_add] at this
    exact this
  refine ⟨t2, s2, by rw [hrun2, hcj]; simp, hi2, hnd2, ?_⟩
  rw [← hcj] at hh2
  exact ((List.perm_append_left_iff _).1 (hh2.trans List.perm_append_comm)).symm

/-! ### One operation -/

theorem execC_any {c : Config} {pol : PolicyC L P S} {t : Table P} {s : List (Slot P)} (hi : BInv c t s) (σ : S) (op : Op L P) :
    (∃ t' s' o σ', execC c pol t σ op = .ok (t', o, σ') ∧ BInv c t' s' ∧
      (∀ b, (contents s).Perm b → ∃ b', (contents s').Perm b' ∧ BagStep (Said pol) b op o b') ∧
      t'.nelements + t'.ndeleted ≤ t.nelements + t.ndeleted + (if op.isAdd then 1 else 0) ∧
      (o.isFailure = true → c.aborts = false ∧ (op.memOk = false ∨ NearLimit c t))) ∨
    (∃ f, execC c pol t σ op = .error f ∧ (PolicyFails pol f ∨ Resize c t op.memOk f)) := by
  have mem : ∀ {b : List P} {i : Nat} {e : Slot P} {p : P}, (contents s).Perm b → s[i]? = some e → e.obj = some p → p ∈ b :=
    fun hb he hp => hb.mem_iff.1 (mem_contents.2 ⟨_, _, he, hp⟩)
  cases op with
  | find l =>
    rcases findC_any (pol := pol) hi l σ with ⟨i, e, σ', hf, he, hcase⟩ | ⟨f, hf, hpf⟩
    · left
      simp only [execC, bind, Except.bind, hf, Table.found, load_ok hi.tbl he]
      rcases hcase with hfr | ⟨hlv, p, hp, hsaid⟩
      · simp only [free_not_live hfr, Bool.false_eq_true, if_false]
        exact ⟨t, s, _, σ', rfl, hi, fun b hb => ⟨b, hb, .findMiss⟩, by simp, by simp [Out.isFailure]⟩
      · obtain ⟨p', hp', hpay⟩ := (hi.wf _ _ he).payload hlv
        rw [hp] at hp'; cases hp'
        simp only [hlv, if_true, deref, bind, Except.bind, load_ok hi.tbl he, hpay]
        exact ⟨t, s, _, σ', rfl, hi, fun b hb => ⟨b, hb, .findHit (mem hb he hp) hsaid⟩, by simp, by simp [Out.isFailure]⟩
    · right
      exact ⟨f, by simp only [execC, bind, Except.bind, hf], .inl hpf⟩
  | add l p memOk =>
    rcases findForAddC_any (pol := pol) hi l σ with ⟨i, H, e, σ', hf, he, hH0, hH1, hcase⟩ | ⟨f, hf, hpf⟩
    · simp only [execC, bind, Except.bind, hf, Table.found, load_ok hi.tbl he]
      rcases hcase with hnl | ⟨hlv, q, hq, hsaid⟩
      · simp only [hnl, Bool.false_eq_true, if_false]
        rcases add_any hi p ⟨hH0, hH1⟩ memOk he hnl with ⟨t', s', i', hrun, hi', hn', hd', hs', hc'⟩ | ⟨hrun, ha, hcond⟩ | ⟨f, hrun, hcond⟩
        · left
          obtain ⟨p', hp', hpay⟩ := (hi'.wf _ _ hs').payload (by rw [isLive_iff]; exact ⟨hH0, hH1⟩)
          cases hp'
          simp only [hrun, if_true, deref, bind, Except.bind, load_ok hi'.tbl hs', hpay]
          exact ⟨t', s', _, σ', rfl, hi', fun b hb => ⟨_, hc'.trans (hb.cons p), .added (List.Perm.refl _)⟩, by simp only [Op.isAdd, if_true]; omega,
            by simp [Out.isFailure]⟩
        · left
          simp only [hrun, Bool.false_eq_true, if_false]
          exact ⟨t, s, _, σ', rfl, hi, fun b hb => ⟨b, hb, .failed⟩, by omega, fun _ => ⟨ha, hcond⟩⟩
        · right
          simp only [hrun]
          exact ⟨f, rfl, .inr hcond⟩
      · left
        obtain ⟨p', hp', hpay⟩ := (hi.wf _ _ he).payload hlv
        rw [hq] at hp'; cases hp'
        simp only [hlv, if_true, deref, bind, Except.bind, load_ok hi.tbl he, hpay]
        exact ⟨t, s, _, σ', rfl, hi, fun b hb => ⟨b, hb, .present (mem hb he hq) hsaid⟩, by omega, by simp [Out.isFailure]⟩
    · right
      exact ⟨f, by simp only [execC, bind, Except.bind, hf], .inl hpf⟩
  | assign l p =>
    rcases findC_any (pol := pol) hi l σ with ⟨i, e, σ', hf, he, hcase⟩ | ⟨f, hf, hpf⟩
    · left
      simp only [execC, bind, Except.bind, hf, Table.found, load_ok hi.tbl he]
      rcases hcase with hfr | ⟨hlv, q, hq, hsaid⟩
      · simp only [free_not_live hfr, Bool.false_eq_true, if_false]
        exact ⟨t, s, _, σ', rfl, hi, fun b hb => ⟨b, hb, .assignMiss⟩, by simp, by simp [Out.isFailure]⟩
      · obtain ⟨p', hp', hpay⟩ := (hi.wf _ _ he).payload hlv
        rw [hq] at hp'; cases hp'
        obtain ⟨s', hrun, hi', rest, hr1, hr2⟩ := assign_any hi p he hq
        simp only [hlv, if_true, deref, bind, Except.bind, load_ok hi.tbl he, hpay, hrun]
        exact ⟨_, s', _, σ', rfl, hi', fun b hb => ⟨_, hr2, .assignHit hsaid (hb.symm.trans hr1) (List.Perm.refl _)⟩, by simp, by simp [Out.isFailure]⟩
    · right
      exact ⟨f, by simp only [execC, bind, Except.bind, hf], .inl hpf⟩
  | removeIfExists l =>
    rcases findC_any (pol := pol) hi l σ with ⟨i, e, σ', hf, he, hcase⟩ | ⟨f, hf, hpf⟩
    · left
      simp only [execC, removeIfExistsC, bind, Except.bind, hf, Table.found, load_ok hi.tbl he]
      rcases hcase with hfr | ⟨hlv, q, hq, hsaid⟩
      · simp only [free_not_live hfr, Bool.false_eq_true, if_false]
        exact ⟨t, s, _, σ', rfl, hi, fun b hb => ⟨b, hb, .removeMiss⟩, by simp, by simp [Out.isFailure]⟩
      · obtain ⟨t', hrun, hi', hnd, hc'⟩ := removeEntry_any hi he hq
        simp only [hlv, if_true, remove, Table.found, bind, Except.bind, load_ok hi.tbl he, hrun]
        exact ⟨t', _, _, σ', rfl, hi', fun b hb => ⟨_, List.Perm.refl _, .removeHit hsaid (hb.symm.trans hc')⟩, by omega,
          by simp [Out.isFailure]⟩
    · right
      exact ⟨f, by simp only [execC, removeIfExistsC, bind, Except.bind, hf], .inl hpf⟩
  | clear =>
    left
    obtain ⟨t', hrun, hi', hn', hd'⟩ := clear_any hi
    simp only [execC, bind, Except.bind, hrun]
    exact ⟨t', _, _, σ, rfl, hi', fun b hb => ⟨[], by rw [contents_replicate], .clear⟩, by omega, by simp [Out.isFailure]⟩
  | checkDensity memOk =>
    rcases checkDensity_any hi memOk with ⟨t1, s1, hrun, hi1, hn1, hload1, hsame, hdz, hdle, hh1⟩ |
        ⟨hrun, ha, hcond⟩ | ⟨f, hrun, hcond⟩
    · left
      simp only [execC, bind, Except.bind, hrun]
      exact ⟨t1, s1, _, σ, rfl, hi1, fun b hb => ⟨b, hh1.trans hb, .checkDensity (List.Perm.refl _)⟩, by omega, by simp [Out.isFailure]⟩
    · left
      simp only [execC, bind, Except.bind, hrun]
      exact ⟨t, s, _, σ, rfl, hi, fun b hb => ⟨b, hb, .checkDensity (List.Perm.refl _)⟩, by omega, fun _ => ⟨ha, hcond⟩⟩
    · right
      simp only [execC, bind, Except.bind, hrun]
      exact ⟨f, rfl, .inr hcond⟩
  | sweep pick =>
    left
    obtain ⟨t', s', hrun, hi', hnd, hc'⟩ := sweep_any pick hi
    simp only [execC, bind, Except.bind, hrun]
    exact ⟨t', s', _, σ, rfl, hi', fun b hb => ⟨_, hc'.trans (hb.filter _), .sweep hb (List.Perm.refl _)⟩, by omega, by simp [Out.isFailure]⟩
  | elements =>
    left
    refine ⟨t, s, _, σ, rfl, hi, fun b hb => ⟨b, hb, ?_⟩, by omega, by simp [Out.isFailure]⟩
    unfold elements
    rw [← hi.len, hb.length_eq]
    exact .elements
  | move =>
    left
    refine ⟨t, s, .done, σ, ?_, hi, fun b hb => ⟨b, hb, .move⟩, by omega, by simp [Out.isFailure]⟩
    simp only [execC, moveFrom, destroy, destroyLoop, bind, Except.bind]

end Verif.HashTable
