import Verif.HashTable.Model
import Verif.Bits.Lemmas
/-! Lemmas about probing and about the slot array; no property statements here. -/
namespace Verif.HashTable
open Verif

variable {L P K : Type}

/-! ### Slot states -/

theorem isLive_iff (e : Slot P) : e.isLive = true ↔ e.hash ≠ 0#32 ∧ e.hash ≠ 1#32 := by
  unfold Slot.isLive kRemovedHash
  simp only [decide_eq_true_eq, ne_eq]
  rw [BitVec.lt_def, ← BitVec.toNat_inj, ← BitVec.toNat_inj]
  have h0 : (0#32).toNat = 0 := rfl
  have h1 : (1#32).toNat = 1 := rfl
  have h2 : (1 : BitVec 32).toNat = 1 := rfl
  rw [h0, h1, h2]
  omega

theorem isFree_iff (e : Slot P) : e.isFree = true ↔ e.hash = 0#32 := by
  unfold Slot.isFree kFreeHash; simp

theorem removed_iff (e : Slot P) : e.removed = true ↔ e.hash = 1#32 := by
  unfold Slot.removed kRemovedHash; simp

theorem live_not_free {e : Slot P} (h : e.isLive = true) : e.isFree = false := by
  rw [isLive_iff] at h
  rw [Bool.eq_false_iff, ne_eq, isFree_iff]; exact h.1

theorem live_not_removed {e : Slot P} (h : e.isLive = true) : e.removed = false := by
  rw [isLive_iff] at h
  rw [Bool.eq_false_iff, ne_eq, removed_iff]; exact h.2

theorem free_not_live {e : Slot P} (h : e.isFree = true) : e.isLive = false := by
  rw [isFree_iff] at h
  rw [Bool.eq_false_iff, ne_eq, isLive_iff]; simp [h]

theorem free_not_removed {e : Slot P} (h : e.isFree = true) : e.removed = false := by
  rw [isFree_iff] at h
  rw [Bool.eq_false_iff, ne_eq, removed_iff]; simp [h]

theorem removed_not_live {e : Slot P} (h : e.removed = true) : e.isLive = false := by
  rw [removed_iff] at h
  rw [Bool.eq_false_iff, ne_eq, isLive_iff]; simp [h]

theorem removed_not_free {e : Slot P} (h : e.removed = true) : e.isFree = false := by
  rw [removed_iff] at h
  rw [Bool.eq_false_iff, ne_eq, isFree_iff]; simp [h]

theorem slot_cases (e : Slot P) : e.isFree = true ∨ e.removed = true ∨ e.isLive = true := by
  rw [isFree_iff, removed_iff, isLive_iff]
  by_cases h0 : e.hash = 0#32
  · exact .inl h0
  · by_cases h1 : e.hash = 1#32
    · exact .inr (.inl h1)
    · exact .inr (.inr ⟨h0, h1⟩)

/-- The part of `computeHash` after `HashPolicy::hash`. -/
def mix (h : BitVec 32) : BitVec 32 :=
  let hash := h * 0x9E3779B9#32
  if hash = kFreeHash ∨ hash = kRemovedHash then hash + 2 else hash

theorem computeHash_eq (pol : Policy L P) (l : L) : computeHash pol l = mix (pol.hash l) := rfl

theorem mix_live (h : BitVec 32) : mix h ≠ 0#32 ∧ mix h ≠ 1#32 := by
  unfold mix kFreeHash kRemovedHash
  simp only
  generalize h * 0x9E3779B9#32 = x
  split
  · rename_i h'
    rcases h' with rfl | rfl <;> decide
  · rename_i h'
    exact ⟨fun e => h' (.inl e), fun e => h' (.inr e)⟩

theorem computeHash_live (pol : Policy L P) (l : L) :
    computeHash pol l ≠ 0#32 ∧ computeHash pol l ≠ 1#32 := mix_live _

/-! ### Probe positions -/

/-- The `j`-th entry on the probe path of hash `h`. -/
def pos (c : Nat) (h : BitVec 32) (j : Nat) : Nat := (h.toNat + j) % c

theorem pos_lt {c : Nat} (hc : 0 < c) (h : BitVec 32) (j : Nat) : pos c h j < c := Nat.mod_lt _ hc

theorem probulatorCheck_ok {c k : Nat} (hc : c = 2 ^ k) (hk : k ≤ 31) : probulatorCheck c = .ok () := by
  unfold probulatorCheck
  rw [if_pos]
  rw [Bits.isPowerOfTwo_iff]
  refine ⟨k, ?_⟩
  rw [BitVec.toNat_ofNat, hc, Nat.mod_eq_of_lt]
  exact Nat.pow_lt_pow_right (by omega) (by omega)

theorem probeEntry_eq {c k : Nat} (hc : c = 2 ^ k) (hk : k ≤ 31) (x : BitVec 32) :
    probeEntry x c = x.toNat % c := by
  unfold probeEntry
  have hlt : c < 2 ^ 32 := by rw [hc]; exact Nat.pow_lt_pow_right (by omega) (by omega)
  have hpos : 0 < c := by rw [hc]; exact Nat.two_pow_pos k
  have h1 : (BitVec.ofNat 32 c - 1#32).toNat = 2 ^ k - 1 := by
    rw [BitVec.toNat_sub, BitVec.toNat_ofNat, BitVec.toNat_ofNat, Nat.mod_eq_of_lt hlt, ← hc]
    omega
  rw [BitVec.toNat_and, h1, Nat.and_two_pow_sub_one_eq_mod, hc]

theorem probe_step {c k : Nat} (hc : c = 2 ^ k) (hk : k ≤ 31) (h : BitVec 32) (j : Nat) :
    probeEntry (h + BitVec.ofNat 32 j) c = pos c h j := by
  rw [probeEntry_eq hc hk, BitVec.toNat_add, BitVec.toNat_ofNat, pos]
  have hd : c ∣ 2 ^ 32 := by rw [hc]; exact Nat.pow_dvd_pow 2 (by omega)
  rw [Nat.mod_mod_of_dvd _ hd, Nat.add_mod, Nat.mod_mod_of_dvd _ hd, ← Nat.add_mod]

theorem cur_succ (h : BitVec 32) (j : Nat) :
    h + BitVec.ofNat 32 j + 1 = h + BitVec.ofNat 32 (j + 1) := by
  rw [BitVec.add_assoc, BitVec.ofNat_add]
  rfl

theorem pos_surj {c : Nat} (h : BitVec 32) {i : Nat} (hi : i < c) : ∃ j, j < c ∧ pos c h j = i := by
  have hc : 0 < c := by omega
  refine ⟨(i + (c - h.toNat % c)) % c, Nat.mod_lt _ hc, ?_⟩
  unfold pos
  have hm := Nat.mod_lt h.toNat hc
  rw [Nat.add_mod, Nat.mod_mod, ← Nat.add_mod]
  have e : h.toNat + (i + (c - h.toNat % c)) = i + c * (h.toNat / c + 1) := by
    have := Nat.div_add_mod h.toNat c
    rw [Nat.mul_add, Nat.mul_one]
    omega
  rw [e, Nat.add_mul_mod_self_left, Nat.mod_eq_of_lt hi]

theorem pos_inj {c : Nat} (h : BitVec 32) {j j' : Nat} (hj : j < c) (hj' : j' < c)
    (e : pos c h j = pos c h j') : j = j' := by
  unfold pos at e
  have h1 := Nat.div_add_mod (h.toNat + j) c
  have h2 := Nat.div_add_mod (h.toNat + j') c
  rw [← e] at h2
  generalize (h.toNat + j) / c = a at *
  generalize (h.toNat + j') / c = b at *
  rcases Nat.lt_trichotomy a b with h | h | h
  · have := Nat.mul_le_mul_left c h
    rw [Nat.mul_succ] at this; omega
  · subst h; omega
  · have := Nat.mul_le_mul_left c h
    rw [Nat.mul_succ] at this; omega

theorem least_exists (q : Nat → Bool) (n : Nat) (h : ∃ j, j < n ∧ q j = true) :
    ∃ m, m < n ∧ q m = true ∧ ∀ j, j < m → q j = false := by
  obtain ⟨j, hj, hq⟩ := h
  induction j using Nat.strongRecOn with
  | ind j ih =>
    by_cases h : ∃ i, i < j ∧ q i = true
    · obtain ⟨i, hi, hqi⟩ := h
      exact ih i hi (by omega) hqi
    · refine ⟨j, hj, hq, fun i hi => ?_⟩
      rw [Bool.eq_false_iff]; exact fun hc => h ⟨i, hi, hc⟩

/-! ### Loading and storing -/

theorem load_ok {t : Table P} {s : List (Slot P)} (ht : t.table = some s) {i : Nat} {e : Slot P}
    (he : s[i]? = some e) : t.load i = .ok e := by
  unfold Table.load; rw [ht]; simp only [he]

theorem store_ok {t : Table P} {s : List (Slot P)} (ht : t.table = some s) {i : Nat}
    (hi : i < s.length) (e : Slot P) : t.store i e = .ok { t with table := some (s.set i e) } := by
  unfold Table.store; rw [ht]; simp only [hi, if_true]

/-- storage is constructed exactly in the live slots -/
def Slot.Wf (e : Slot P) : Prop := e.isLive = e.obj.isSome

theorem Slot.Wf.payload {e : Slot P} (h : e.Wf) (hl : e.isLive = true) :
    ∃ p, e.obj = some p ∧ e.payload = .ok p := by
  have h' := h
  unfold Slot.Wf at h'
  rw [hl] at h'
  cases ho : e.obj with
  | none => rw [ho] at h'; simp at h'
  | some p => exact ⟨p, rfl, by unfold Slot.payload; rw [if_pos hl, ho]⟩

theorem Slot.Wf.none {e : Slot P} (h : e.Wf) (hl : e.isLive = false) : e.obj = none := by
  unfold Slot.Wf at h
  rw [hl] at h
  cases ho : e.obj with
  | none => rfl
  | some p => rw [ho] at h; simp at h

theorem fresh_wf : (Slot.fresh : Slot P).Wf := rfl
theorem fresh_free : (Slot.fresh : Slot P).isFree = true := rfl

/-! ### The probe loops -/

/-- the stop condition of `lookup` and `lookupForAdd` -/
def hit (pol : Policy L P) (l : L) (hash : BitVec 32) (e : Slot P) : Bool :=
  e.isFree || (e.isLive && e.sameHash hash && match e.obj with
    | some p => pol.isMatch l p
    | none => false)

section loops
variable {t : Table P} {s : List (Slot P)} {k : Nat}

theorem insertUniqueLoop_spec (ht : t.table = some s) (hcap : t.capacity = s.length)
    (hk : s.length = 2 ^ k) (hk31 : k ≤ 31) (h : BitVec 32) (m : Nat) (hm : m < s.length)
    (e : Slot P) (hstop : s[pos s.length h m]? = some e) (hse : e.isLive = false)
    (hbefore : ∀ j, j < m → ∀ e, s[pos s.length h j]? = some e → e.isLive = true) :
    ∀ fuel j, j + fuel = s.length → j ≤ m →
      insertUniqueLoop t (h + BitVec.ofNat 32 j) fuel = .ok (pos s.length h m) := by
  have hc0 : 0 < s.length := by omega
  intro fuel
  induction fuel with
  | zero => intro j h1 h2; omega
  | succ fuel ih =>
    intro j h1 h2
    unfold insertUniqueLoop
    simp only [hcap, probe_step hk hk31]
    have hlt := pos_lt hc0 h j
    obtain ⟨e', he'⟩ : ∃ e', s[pos s.length h j]? = some e' :=
      ⟨_, List.getElem?_eq_getElem hlt⟩
    rw [load_ok ht he']
    simp only [bind, Except.bind]
    by_cases hjm : j = m
    · subst hjm
      rw [hstop] at he'
      cases he'
      rcases slot_cases e with hf | hr | hl
      · simp [hf]
      · simp [hr]
      · rw [hl] at hse; cases hse
    · have hl := hbefore j (by omega) e' he'
      rw [live_not_free hl, live_not_removed hl]
      simp only [Bool.or_self, Bool.false_eq_true, if_false]
      rw [cur_succ]
      exact ih (j + 1) (by omega) (by omega)

/-- `insertUnique` returns the first slot on the path that is not live. -/
theorem insertUnique_spec (ht : t.table = some s) (hcap : t.capacity = s.length)
    (hk : s.length = 2 ^ k) (hk31 : k ≤ 31) (h : BitVec 32)
    (hex : ∃ (i : Nat) (e : Slot P), s[i]? = some e ∧ e.isLive = false) :
    ∃ m e, m < s.length ∧ s[pos s.length h m]? = some e ∧ e.isLive = false ∧
      (∀ j, j < m → ∀ e, s[pos s.length h j]? = some e → e.isLive = true) ∧
      insertUnique t h = .ok { entry := pos s.length h m, hash := h } := by
  obtain ⟨i, e0, hi, he0⟩ := hex
  have hilt : i < s.length := by
    rcases Nat.lt_or_ge i s.length with h | h
    · exact h
    · rw [List.getElem?_eq_none h] at hi; cases hi
  obtain ⟨j0, hj0, hj0e⟩ := pos_surj h hilt
  let q : Nat → Bool := fun j => match s[pos s.length h j]? with
    | some e => !e.isLive
    | none => false
  obtain ⟨m, hm, hqm, hmin⟩ := least_exists q s.length ⟨j0, hj0, by
    show (match s[pos s.length h j0]? with
      | some e => !e.isLive
      | none => false) = true
    rw [hj0e, hi]; simp [he0]⟩
  have hc0 : 0 < s.length := by omega
  have hlt := pos_lt hc0 h m
  have hget := List.getElem?_eq_getElem hlt
  have hql : s[pos s.length h m].isLive = false := by
    have : (match s[pos s.length h m]? with
      | some e => !e.isLive
      | none => false) = true := hqm
    rw [hget] at this
    simpa using this
  have hb : ∀ j, j < m → ∀ e, s[pos s.length h j]? = some e → e.isLive = true := by
    intro j hj e he
    have : (match s[pos s.length h j]? with
      | some e => !e.isLive
      | none => false) = false := hmin j hj
    rw [he] at this
    simpa using this
  refine ⟨m, _, hm, hget, hql, hb, ?_⟩
  unfold insertUnique
  rw [probulatorCheck_ok (hcap.trans hk) hk31]
  simp only [bind, Except.bind]
  have := insertUniqueLoop_spec ht hcap hk hk31 h m hm _ hget hql hb s.length 0 (by omega) (by omega)
  simp only [BitVec.add_zero] at this
  rw [hcap, this]

theorem hit_false {pol : Policy L P} {l : L} {hash : BitVec 32} {e : Slot P}
    (h : hit pol l hash e = false) : e.isFree = false ∧
      (e.isLive = true → e.sameHash hash = true → ∀ p, e.obj = some p → pol.isMatch l p = false) := by
  unfold hit at h
  rw [Bool.or_eq_false_iff] at h
  refine ⟨h.1, fun h1 h2 p hp => ?_⟩
  have := h.2
  rw [h1, h2, hp] at this
  simpa using this

theorem hit_true {pol : Policy L P} {l : L} {hash : BitVec 32} {e : Slot P}
    (h : hit pol l hash e = true) : e.isFree = true ∨
      (e.isLive = true ∧ e.sameHash hash = true ∧ ∃ p, e.obj = some p ∧ pol.isMatch l p = true) := by
  unfold hit at h
  rw [Bool.or_eq_true] at h
  rcases h with h | h
  · exact .inl h
  · right
    rw [Bool.and_eq_true, Bool.and_eq_true] at h
    refine ⟨h.1.1, h.1.2, ?_⟩
    cases ho : e.obj with
    | none => rw [ho] at h; simp at h
    | some p => rw [ho] at h; exact ⟨p, rfl, h.2⟩

theorem lookupLoop_spec (pol : Policy L P) (l : L) (ht : t.table = some s)
    (hcap : t.capacity = s.length) (hk : s.length = 2 ^ k) (hk31 : k ≤ 31)
    (hwf : ∀ (i : Nat) (e : Slot P), s[i]? = some e → e.Wf) (h : BitVec 32) (m : Nat)
    (hm : m < s.length) (e : Slot P) (hstop : s[pos s.length h m]? = some e)
    (hse : hit pol l h e = true)
    (hbefore : ∀ j, j < m → ∀ e, s[pos s.length h j]? = some e → hit pol l h e = false) :
    ∀ fuel j, j + fuel = s.length → j ≤ m →
      lookupLoop pol t l h (h + BitVec.ofNat 32 j) fuel = .ok (pos s.length h m) := by
  have hc0 : 0 < s.length := by omega
  intro fuel
  induction fuel with
  | zero => intro j h1 h2; omega
  | succ fuel ih =>
    intro j h1 h2
    unfold lookupLoop
    simp only [hcap, probe_step hk hk31]
    have hlt := pos_lt hc0 h j
    obtain ⟨e', he'⟩ : ∃ e', s[pos s.length h j]? = some e' :=
      ⟨_, List.getElem?_eq_getElem hlt⟩
    rw [load_ok ht he']
    simp only [bind, Except.bind]
    by_cases hjm : j = m
    · subst hjm
      rw [hstop] at he'
      cases he'
      rcases hit_true hse with hf | ⟨hl, hs, p, hp, hmt⟩
      · simp [hf]
      · rw [live_not_free hl, hl, hs]
        obtain ⟨p', hp', hpay⟩ := (hwf _ _ hstop).payload hl
        rw [hp] at hp'; cases hp'
        simp [hpay, hmt]
    · have hh := hit_false (hbefore j (by omega) e' he')
      rw [hh.1, cur_succ]
      simp only [Bool.false_eq_true, if_false]
      have ih' := ih (j + 1) (by omega) (by omega)
      split
      · rename_i hls
        rw [Bool.and_eq_true] at hls
        obtain ⟨p', hp', hpay⟩ := (hwf _ _ he').payload hls.1
        rw [hpay]
        simp only [hh.2 hls.1 hls.2 p' hp', Bool.false_eq_true, if_false, ih']
      · exact ih'

theorem lookupForAddLoop_spec (pol : Policy L P) (l : L) (ht : t.table = some s)
    (hcap : t.capacity = s.length) (hk : s.length = 2 ^ k) (hk31 : k ≤ 31)
    (hwf : ∀ (i : Nat) (e : Slot P), s[i]? = some e → e.Wf) (h : BitVec 32) (m : Nat)
    (hm : m < s.length) (e : Slot P) (hstop : s[pos s.length h m]? = some e)
    (hse : hit pol l h e = true)
    (hbefore : ∀ j, j < m → ∀ e, s[pos s.length h j]? = some e → hit pol l h e = false) :
    ∀ fuel j fr, j + fuel = s.length → j ≤ m →
      (∀ f, fr = some f → ∃ j' e', j' < m ∧ f = pos s.length h j' ∧ s[f]? = some e' ∧ e'.removed = true) →
      ∃ fr', lookupForAddLoop pol t l h (h + BitVec.ofNat 32 j) fr fuel = .ok (pos s.length h m, fr') ∧
      (∀ f, fr' = some f → ∃ j' e', j' < m ∧ f = pos s.length h j' ∧ s[f]? = some e' ∧ e'.removed = true) := by
  have hc0 : 0 < s.length := by omega
  intro fuel
  induction fuel with
  | zero => intro j fr h1 h2; omega
  | succ fuel ih =>
    intro j fr h1 h2 hfr
    unfold lookupForAddLoop
    simp only [hcap, probe_step hk hk31]
    have hlt := pos_lt hc0 h j
    obtain ⟨e', he'⟩ : ∃ e', s[pos s.length h j]? = some e' :=
      ⟨_, List.getElem?_eq_getElem hlt⟩
    rw [load_ok ht he']
    simp only [bind, Except.bind]
    by_cases hjm : j = m
    · subst hjm
      rw [hstop] at he'
      cases he'
      rcases hit_true hse with hf | ⟨hl, hs, p, hp, hmt⟩
      · exact ⟨fr, by simp [hf], hfr⟩
      · rw [live_not_free hl, live_not_removed hl, hs]
        obtain ⟨p', hp', hpay⟩ := (hwf _ _ hstop).payload hl
        rw [hp] at hp'; cases hp'
        exact ⟨fr, by simp [hpay, hmt], hfr⟩
    · have hh := hit_false (hbefore j (by omega) e' he')
      rw [hh.1, cur_succ]
      simp only [Bool.false_eq_true, if_false]
      rcases hr : e'.removed with _ | _
      · have hl : e'.isLive = true := by
          rcases slot_cases e' with hx | hx | hx
          · rw [hh.1] at hx; cases hx
          · rw [hr] at hx; cases hx
          · exact hx
        simp only [Bool.false_eq_true, if_false]
        have ih' := ih (j + 1) fr (by omega) (by omega) hfr
        split
        · rename_i hls
          obtain ⟨p', hp', hpay⟩ := (hwf _ _ he').payload hl
          rw [hpay]
          simp only [hh.2 hl hls p' hp', Bool.false_eq_true, if_false]
          exact ih'
        · exact ih'
      · simp only [if_true]
        refine ih (j + 1) _ (by omega) (by omega) ?_
        intro f hf
        cases fr with
        | none =>
          simp only [Option.some.injEq] at hf
          subst hf
          exact ⟨j, e', by omega, rfl, he', hr⟩
        | some f' =>
          simp only [Option.some.injEq] at hf
          subst hf
          exact hfr f' rfl

end loops
end Verif.HashTable
