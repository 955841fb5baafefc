import Verif.HashTable.Lemmas
/-! The representation invariant of the slot array and what single-slot updates do to it. -/
namespace Verif.HashTable
open Verif

variable {L P K : Type}

/-- What the documentation asks of a `HashPolicy` (amtl/am-hashmap.h:43-47: "All types that match a
given key, must compute the same hash"): a lookup value `l` stands for the key `canon l`, it matches
exactly the payloads with that key, and its hash depends on that key only. -/
structure Lawful (pol : Policy L P) (canon : L → K) (keyOf : P → K) (h : K → BitVec 32) : Prop where
  hash_eq : ∀ l, pol.hash l = h (canon l)
  match_iff : ∀ l p, pol.isMatch l p = true ↔ canon l = keyOf p

/-- `p` is stored in the array. -/
def Holds (s : List (Slot P)) (p : P) : Prop := ∃ (i : Nat) (e : Slot P), s[i]? = some e ∧ e.obj = some p

/-- number of live entries -/
def nLive (s : List (Slot P)) : Nat := s.countP Slot.isLive
/-- number of removed entries -/
def nRem (s : List (Slot P)) : Nat := s.countP Slot.removed

structure SInv (keyOf : P → K) (h : K → BitVec 32) (s : List (Slot P)) : Prop where
  pow : ∃ k, k ≤ 31 ∧ s.length = 2 ^ k
  wf : ∀ (i : Nat) (e : Slot P), s[i]? = some e → e.Wf
  hashes : ∀ (i : Nat) (e : Slot P) p, s[i]? = some e → e.obj = some p → e.hash = mix (h (keyOf p))
  chain : ∀ (i : Nat) (e : Slot P), s[i]? = some e → e.isLive = true →
    ∃ m, m < s.length ∧ pos s.length e.hash m = i ∧
      ∀ j, j < m → ∀ e', s[pos s.length e.hash j]? = some e' → e'.isFree = false
  uniq : ∀ (i j : Nat) (e e' : Slot P) p p', s[i]? = some e → s[j]? = some e' → e.obj = some p →
    e'.obj = some p' → keyOf p = keyOf p' → i = j

theorem lt_of_get {s : List (Slot P)} {i : Nat} {e : Slot P} (h : s[i]? = some e) : i < s.length := by
  rcases Nat.lt_or_ge i s.length with h' | h'
  · exact h'
  · rw [List.getElem?_eq_none h'] at h; cases h

theorem get_set {s : List (Slot P)} {i j : Nat} {a e : Slot P} (h : (s.set i a)[j]? = some e) :
    (j = i ∧ e = a) ∨ (j ≠ i ∧ s[j]? = some e) := by
  rw [List.getElem?_set] at h
  split at h
  · subst_vars
    split at h
    · left; cases h; exact ⟨rfl, rfl⟩
    · cases h
  · right; exact ⟨fun e => by subst e; contradiction, h⟩

theorem get_set_ne {s : List (Slot P)} {i j : Nat} {a : Slot P} (h : j ≠ i) :
    (s.set i a)[j]? = s[j]? := by
  rw [List.getElem?_set, if_neg (fun e => h e.symm)]

theorem get_set_self {s : List (Slot P)} {i : Nat} {a : Slot P} (h : i < s.length) :
    (s.set i a)[i]? = some a := by
  rw [List.getElem?_set, if_pos rfl, if_pos h]

theorem countP_set' {q : Slot P → Bool} {s : List (Slot P)} {i : Nat} {e a : Slot P}
    (h : s[i]? = some e) :
    (s.set i a).countP q + (if q e = true then 1 else 0) = s.countP q + (if q a = true then 1 else 0) := by
  have hlt := lt_of_get h
  have he : s[i] = e := by rw [List.getElem?_eq_getElem hlt] at h; exact Option.some.inj h
  have := List.countP_set (p := q) (l := s) (a := a) hlt
  rw [he] at this
  rw [this]
  have hpos : q e = true → 0 < s.countP q := by
    intro hq
    rw [List.countP_pos_iff]
    exact ⟨e, List.mem_of_getElem? h, hq⟩
  split
  · rename_i hq
    have := hpos hq
    omega
  · omega

theorem total_count (s : List (Slot P)) :
    s.countP Slot.isFree + s.countP Slot.removed + s.countP Slot.isLive = s.length := by
  induction s with
  | nil => rfl
  | cons e s ih =>
    simp only [List.countP_cons, List.length_cons]
    rcases slot_cases e with h | h | h
    · simp only [h, free_not_removed h, free_not_live h]; simp; omega
    · simp only [h, removed_not_free h, removed_not_live h]; simp; omega
    · simp only [h, live_not_free h, live_not_removed h]; simp; omega

theorem exists_free {s : List (Slot P)} (h : nLive s + nRem s < s.length) :
    ∃ (i : Nat) (e : Slot P), s[i]? = some e ∧ e.isFree = true := by
  have := total_count s
  unfold nLive nRem at h
  have hp : 0 < s.countP Slot.isFree := by omega
  rw [List.countP_pos_iff] at hp
  obtain ⟨e, he, hf⟩ := hp
  obtain ⟨i, hi⟩ := List.mem_iff_getElem?.1 he
  exact ⟨i, e, hi, hf⟩

theorem exists_nonlive {s : List (Slot P)} (h : nLive s < s.length) :
    ∃ (i : Nat) (e : Slot P), s[i]? = some e ∧ e.isLive = false := by
  have : ¬ s.countP Slot.isLive = s.length := by unfold nLive at h; omega
  rw [List.countP_eq_length] at this
  have : ∃ e ∈ s, e.isLive = false := by
    apply Classical.byContradiction
    intro hc
    apply this
    intro e he
    rcases hl : e.isLive with _ | _
    · exact absurd ⟨e, he, hl⟩ hc
    · rfl
  obtain ⟨e, he, hl⟩ := this
  obtain ⟨i, hi⟩ := List.mem_iff_getElem?.1 he
  exact ⟨i, e, hi, hl⟩

/-! ### Lookup -/

section lookup
variable {pol : Policy L P} {canon : L → K} {keyOf : P → K} {h : K → BitVec 32}
variable {t : Table P} {s : List (Slot P)}

theorem hash_of_lookup (hl : Lawful pol canon keyOf h) (l : L) :
    computeHash pol l = mix (h (canon l)) := by rw [computeHash_eq, hl.hash_eq]

/-- the least stop of the path -/
theorem path_stop (s : List (Slot P)) (l : L) (hfree : ∃ (i : Nat) (e : Slot P), s[i]? = some e ∧ e.isFree = true) :
    ∃ m e, m < s.length ∧ s[pos s.length (computeHash pol l) m]? = some e ∧
      hit pol l (computeHash pol l) e = true ∧
      ∀ j, j < m → ∀ e, s[pos s.length (computeHash pol l) j]? = some e →
        hit pol l (computeHash pol l) e = false := by
  generalize computeHash pol l = H
  obtain ⟨i, e0, hi, hf⟩ := hfree
  have hilt := lt_of_get hi
  obtain ⟨j0, hj0, hj0e⟩ := pos_surj H hilt
  let q : Nat → Bool := fun j => match s[pos s.length H j]? with
    | some e => hit pol l H e
    | none => false
  have hq0 : q j0 = true := by
    show (match s[pos s.length H j0]? with
      | some e => hit pol l H e
      | none => false) = true
    rw [hj0e, hi]
    simp [hit, hf]
  obtain ⟨m, hm, hqm, hmin⟩ := least_exists q s.length ⟨j0, hj0, hq0⟩
  have hlt := pos_lt (show 0 < s.length by omega) H m
  have hget := List.getElem?_eq_getElem hlt
  refine ⟨m, _, hm, hget, ?_, ?_⟩
  · have : (match s[pos s.length H m]? with
      | some e => hit pol l H e
      | none => false) = true := hqm
    rw [hget] at this
    exact this
  · intro j hj e he
    have : (match s[pos s.length H j]? with
      | some e => hit pol l H e
      | none => false) = false := hmin j hj
    rw [he] at this
    exact this

/-- If the path stops at a free slot the key is absent. -/
theorem absent_of_free (hl : Lawful pol canon keyOf h) (hs : SInv keyOf h s) (l : L) {m : Nat}
    {e : Slot P} (he : s[pos s.length (computeHash pol l) m]? = some e)
    (hf : e.isFree = true)
    (hbefore : ∀ j, j < m → ∀ e, s[pos s.length (computeHash pol l) j]? = some e →
        hit pol l (computeHash pol l) e = false) :
    ∀ p, Holds s p → keyOf p ≠ canon l := by
  rintro p ⟨i, e', hi, hp⟩ hk
  have hlive : e'.isLive = true := by rw [hs.wf _ _ hi, hp]; rfl
  have hhash := hs.hashes _ _ _ hi hp
  rw [hk, ← hash_of_lookup hl] at hhash
  obtain ⟨m', hm', hpos, hch⟩ := hs.chain _ _ hi hlive
  rw [hhash] at hpos hch
  rcases Nat.lt_trichotomy m m' with h1 | h1 | h1
  · have := hch m h1 e he
    rw [hf] at this; cases this
  · subst h1
    rw [hpos, hi] at he
    cases he
    rw [live_not_free hlive] at hf; cases hf
  · have := hit_false (hbefore m' h1 e' (by rw [hpos]; exact hi))
    have := this.2 hlive (by unfold Slot.sameHash; rw [hhash]; simp) p hp
    rw [(hl.match_iff l p).2 hk.symm] at this
    cases this

theorem find_spec (hl : Lawful pol canon keyOf h) (hs : SInv keyOf h s) (ht : t.table = some s)
    (hcap : t.capacity = s.length)
    (hfree : ∃ (i : Nat) (e : Slot P), s[i]? = some e ∧ e.isFree = true) (l : L) :
    ∃ i e, find pol t l = .ok i ∧ s[i]? = some e ∧
      ((e.isLive = true ∧ ∃ p, e.obj = some p ∧ keyOf p = canon l) ∨
       (e.isFree = true ∧ ∀ p, Holds s p → keyOf p ≠ canon l)) := by
  obtain ⟨m, e, hm, he, hhit, hb⟩ := path_stop (pol := pol) s l hfree
  obtain ⟨k, hk31, hk⟩ := hs.pow
  refine ⟨_, e, ?_, he, ?_⟩
  · unfold find
    rw [probulatorCheck_ok (hcap.trans hk) hk31]
    simp only [bind, Except.bind]
    have := lookupLoop_spec pol l ht hcap hk hk31 hs.wf _ m hm e he hhit hb s.length 0 (by omega)
      (by omega)
    simp only [BitVec.add_zero] at this
    rw [hcap, this]
  · rcases hit_true hhit with hf | ⟨hlv, _, p, hp, hmt⟩
    · exact .inr ⟨hf, absent_of_free hl hs l he hf hb⟩
    · exact .inl ⟨hlv, p, hp, ((hl.match_iff l p).1 hmt).symm⟩

theorem findForAdd_spec (hl : Lawful pol canon keyOf h) (hs : SInv keyOf h s) (ht : t.table = some s)
    (hcap : t.capacity = s.length)
    (hfree : ∃ (i : Nat) (e : Slot P), s[i]? = some e ∧ e.isFree = true) (l : L) :
    ∃ i e, findForAdd pol t l = .ok { entry := i, hash := computeHash pol l } ∧ s[i]? = some e ∧
      ((e.isLive = true ∧ ∃ p, e.obj = some p ∧ keyOf p = canon l) ∨
       (e.isLive = false ∧ (∀ p, Holds s p → keyOf p ≠ canon l) ∧
        ∃ m, m < s.length ∧ pos s.length (computeHash pol l) m = i ∧
          ∀ j, j < m → ∀ e', s[pos s.length (computeHash pol l) j]? = some e' → e'.isFree = false)) := by
  obtain ⟨m, e, hm, he, hhit, hb⟩ := path_stop (pol := pol) s l hfree
  obtain ⟨k, hk31, hk⟩ := hs.pow
  obtain ⟨fr, hloop, hfr⟩ := lookupForAddLoop_spec pol l ht hcap hk hk31 hs.wf _ m hm e he hhit hb
    s.length 0 none (by omega) (by omega) (by simp)
  simp only [BitVec.add_zero] at hloop
  have heq : findForAdd pol t l = (match (generalizing := false) e.isLive, fr with
      | false, some f => .ok { entry := f, hash := computeHash pol l }
      | _, _ => .ok { entry := pos s.length (computeHash pol l) m, hash := computeHash pol l }) := by
    unfold findForAdd
    rw [probulatorCheck_ok (hcap.trans hk) hk31]
    simp only [bind, Except.bind]
    rw [hcap, hloop]
    simp only
    rw [load_ok ht he]
    all_goals rfl
  rcases hit_true hhit with hf | ⟨hlv, _, p, hp, hmt⟩
  · have habs := absent_of_free hl hs l he hf hb
    rw [free_not_live hf] at heq
    cases fr with
    | none =>
      refine ⟨_, e, heq, he, .inr ⟨free_not_live hf, habs, m, hm, rfl, ?_⟩⟩
      intro j hj e' he'
      exact (hit_false (hb j hj e' he')).1
    | some f =>
      obtain ⟨j', e', hj', hfe, hget, hrem⟩ := hfr f rfl
      refine ⟨_, e', heq, hget, .inr ⟨removed_not_live hrem, habs, j', by omega, hfe.symm, ?_⟩⟩
      intro j hj e'' he''
      exact (hit_false (hb j (by omega) e'' he'')).1
  · rw [hlv] at heq
    refine ⟨_, e, heq, he, .inl ⟨hlv, p, hp, ((hl.match_iff l p).1 hmt).symm⟩⟩

end lookup

/-! ### Slot updates -/

section update
variable {keyOf : P → K} {h : K → BitVec 32} {s : List (Slot P)}

/-- Constructing a new payload in a slot on its probe path. -/
theorem SInv.insert (hs : SInv keyOf h s) {i : Nat} {e : Slot P} (p : P) (hi : s[i]? = some e)
    (hlive : e.isLive = false) (habs : ∀ q, Holds s q → keyOf q ≠ keyOf p)
    (hpath : ∃ m, m < s.length ∧ pos s.length (mix (h (keyOf p))) m = i ∧
      ∀ j, j < m → ∀ e', s[pos s.length (mix (h (keyOf p))) j]? = some e' → e'.isFree = false) :
    SInv keyOf h (s.set i ⟨mix (h (keyOf p)), some p⟩) ∧
    (∀ q, Holds (s.set i ⟨mix (h (keyOf p)), some p⟩) q ↔ q = p ∨ Holds s q) ∧
    nLive (s.set i ⟨mix (h (keyOf p)), some p⟩) = nLive s + 1 ∧
    nRem (s.set i ⟨mix (h (keyOf p)), some p⟩) + (if e.removed = true then 1 else 0) = nRem s := by
  have hilt := lt_of_get hi
  have hnone := (hs.wf _ _ hi).none hlive
  have hnew : (⟨mix (h (keyOf p)), some p⟩ : Slot P).isLive = true := by
    rw [isLive_iff]; exact mix_live _
  refine ⟨⟨?_, ?_, ?_, ?_, ?_⟩, ?_, ?_, ?_⟩
  · rw [List.length_set]; exact hs.pow
  · intro j e' hj
    rcases get_set hj with ⟨_, rfl⟩ | ⟨_, hj⟩
    · unfold Slot.Wf; rw [hnew]; rfl
    · exact hs.wf _ _ hj
  · intro j e' q hj hq
    rcases get_set hj with ⟨_, rfl⟩ | ⟨_, hj⟩
    · simp only [Option.some.injEq] at hq; subst hq; rfl
    · exact hs.hashes _ _ _ hj hq
  · intro j e' hj hl
    rw [List.length_set]
    have key : ∀ (H : BitVec 32) m, (∀ j, j < m → ∀ e', s[pos s.length H j]? = some e' → e'.isFree = false) →
        ∀ j, j < m → ∀ e', (s.set i ⟨mix (h (keyOf p)), some p⟩)[pos s.length H j]? = some e' →
          e'.isFree = false := by
      intro H m hh j hj e' he'
      rcases get_set he' with ⟨_, rfl⟩ | ⟨_, hj'⟩
      · exact live_not_free hnew
      · exact hh j hj e' hj'
    rcases get_set hj with ⟨rfl, rfl⟩ | ⟨_, hj⟩
    · obtain ⟨m, hm, hp, hch⟩ := hpath
      exact ⟨m, hm, hp, key _ m hch⟩
    · obtain ⟨m, hm, hp, hch⟩ := hs.chain _ _ hj hl
      exact ⟨m, hm, hp, key _ m hch⟩
  · intro j j' e' e'' q q' hj hj' hq hq' hk
    rcases get_set hj with ⟨h1, rfl⟩ | ⟨h1, hj⟩ <;> rcases get_set hj' with ⟨h2, rfl⟩ | ⟨h2, hj'⟩
    · rw [h1, h2]
    · simp only [Option.some.injEq] at hq; subst hq
      exact absurd hk.symm (habs q' ⟨_, _, hj', hq'⟩)
    · simp only [Option.some.injEq] at hq'; subst hq'
      exact absurd hk (habs q ⟨_, _, hj, hq⟩)
    · exact hs.uniq _ _ _ _ _ _ hj hj' hq hq' hk
  · intro q
    constructor
    · rintro ⟨j, e', hj, hq⟩
      rcases get_set hj with ⟨_, rfl⟩ | ⟨_, hj⟩
      · simp only [Option.some.injEq] at hq; exact .inl hq.symm
      · exact .inr ⟨j, e', hj, hq⟩
    · rintro (rfl | ⟨j, e', hj, hq⟩)
      · exact ⟨i, _, get_set_self hilt, rfl⟩
      · refine ⟨j, e', ?_, hq⟩
        rw [get_set_ne]; exact hj
        rintro rfl
        rw [hi] at hj; cases hj
        rw [hnone] at hq; cases hq
  · have := countP_set' (q := Slot.isLive) (a := ⟨mix (h (keyOf p)), some p⟩) hi
    rw [hlive, hnew] at this
    simp at this
    unfold nLive; omega
  · have := countP_set' (q := Slot.removed) (a := ⟨mix (h (keyOf p)), some p⟩) hi
    rw [live_not_removed hnew] at this
    simp at this
    unfold nRem; omega

/-- Removing the payload of a live slot. -/
theorem SInv.remove (hs : SInv keyOf h s) {i : Nat} {e : Slot P} {p : P} (hi : s[i]? = some e)
    (hp : e.obj = some p) :
    SInv keyOf h (s.set i ⟨kRemovedHash, none⟩) ∧
    (∀ q, Holds (s.set i ⟨kRemovedHash, none⟩) q ↔ Holds s q ∧ keyOf q ≠ keyOf p) ∧
    nLive (s.set i ⟨kRemovedHash, none⟩) + 1 = nLive s ∧
    nRem (s.set i ⟨kRemovedHash, none⟩) = nRem s + 1 := by
  have hilt := lt_of_get hi
  have hlive : e.isLive = true := by rw [hs.wf _ _ hi, hp]; rfl
  have hrem : (⟨kRemovedHash, none⟩ : Slot P).removed = true := rfl
  have hnl : (⟨kRemovedHash, none⟩ : Slot P).isLive = false := removed_not_live hrem
  refine ⟨⟨?_, ?_, ?_, ?_, ?_⟩, ?_, ?_, ?_⟩
  · rw [List.length_set]; exact hs.pow
  · intro j e' hj
    rcases get_set hj with ⟨_, rfl⟩ | ⟨_, hj⟩
    · unfold Slot.Wf; rw [hnl]; rfl
    · exact hs.wf _ _ hj
  · intro j e' q hj hq
    rcases get_set hj with ⟨_, rfl⟩ | ⟨_, hj⟩
    · simp at hq
    · exact hs.hashes _ _ _ hj hq
  · intro j e' hj hl
    rw [List.length_set]
    rcases get_set hj with ⟨_, rfl⟩ | ⟨_, hj⟩
    · rw [hnl] at hl; cases hl
    · obtain ⟨m, hm, hp, hch⟩ := hs.chain _ _ hj hl
      refine ⟨m, hm, hp, fun j hj e' he' => ?_⟩
      rcases get_set he' with ⟨_, rfl⟩ | ⟨_, hj'⟩
      · exact removed_not_free hrem
      · exact hch j hj e' hj'
  · intro j j' e' e'' q q' hj hj' hq hq' hk
    rcases get_set hj with ⟨h1, rfl⟩ | ⟨h1, hj⟩
    · simp at hq
    · rcases get_set hj' with ⟨h2, rfl⟩ | ⟨h2, hj'⟩
      · simp at hq'
      · exact hs.uniq _ _ _ _ _ _ hj hj' hq hq' hk
  · intro q
    constructor
    · rintro ⟨j, e', hj, hq⟩
      rcases get_set hj with ⟨_, rfl⟩ | ⟨hne, hj⟩
      · simp at hq
      · exact ⟨⟨j, e', hj, hq⟩, fun hk => hne (hs.uniq _ _ _ _ _ _ hj hi hq hp hk)⟩
    · rintro ⟨⟨j, e', hj, hq⟩, hk⟩
      refine ⟨j, e', ?_, hq⟩
      rw [get_set_ne]; exact hj
      rintro rfl
      rw [hi] at hj; cases hj
      rw [hp] at hq; cases hq
      exact hk rfl
  · have := countP_set' (q := Slot.isLive) (a := ⟨kRemovedHash, none⟩) hi
    rw [hlive, hnl] at this
    simp at this
    unfold nLive; omega
  · have := countP_set' (q := Slot.removed) (a := ⟨kRemovedHash, none⟩) hi
    rw [live_not_removed hlive, hrem] at this
    simp at this
    unfold nRem; omega

/-- Overwriting the payload of a live slot by one with the same key. -/
theorem SInv.assign (hs : SInv keyOf h s) {i : Nat} {e : Slot P} {p p' : P} (hi : s[i]? = some e)
    (hp : e.obj = some p) (hk : keyOf p' = keyOf p) :
    SInv keyOf h (s.set i { e with obj := some p' }) ∧
    (∀ q, Holds (s.set i { e with obj := some p' }) q ↔
      q = p' ∨ (Holds s q ∧ keyOf q ≠ keyOf p)) ∧
    nLive (s.set i { e with obj := some p' }) = nLive s ∧
    nRem (s.set i { e with obj := some p' }) = nRem s := by
  have hilt := lt_of_get hi
  have hlive : e.isLive = true := by rw [hs.wf _ _ hi, hp]; rfl
  have hnl : ({ e with obj := some p' } : Slot P).isLive = true := hlive
  refine ⟨⟨?_, ?_, ?_, ?_, ?_⟩, ?_, ?_, ?_⟩
  · rw [List.length_set]; exact hs.pow
  · intro j e' hj
    rcases get_set hj with ⟨_, rfl⟩ | ⟨_, hj⟩
    · unfold Slot.Wf; rw [hnl]; rfl
    · exact hs.wf _ _ hj
  · intro j e' q hj hq
    rcases get_set hj with ⟨_, rfl⟩ | ⟨_, hj⟩
    · simp only [Option.some.injEq] at hq; subst hq
      rw [hk]; exact hs.hashes i e p hi hp
    · exact hs.hashes _ _ _ hj hq
  · intro j e' hj hl
    rw [List.length_set]
    have hh : ∃ e'', s[j]? = some e'' ∧ e''.hash = e'.hash ∧ e''.isLive = true := by
      rcases get_set hj with ⟨rfl, rfl⟩ | ⟨_, hj⟩
      · exact ⟨e, hi, rfl, hlive⟩
      · exact ⟨e', hj, rfl, hl⟩
    obtain ⟨e'', hj'', heq, hl''⟩ := hh
    obtain ⟨m, hm, hp, hch⟩ := hs.chain _ _ hj'' hl''
    rw [heq] at hp hch
    refine ⟨m, hm, hp, fun j hj e' he' => ?_⟩
    rcases get_set he' with ⟨_, rfl⟩ | ⟨_, hj'⟩
    · exact live_not_free hnl
    · exact hch j hj e' hj'
  · intro j j' e' e'' q q' hj hj' hq hq' hkk
    rcases get_set hj with ⟨h1, rfl⟩ | ⟨h1, hj⟩ <;> rcases get_set hj' with ⟨h2, rfl⟩ | ⟨h2, hj'⟩
    · rw [h1, h2]
    · simp only [Option.some.injEq] at hq; subst hq
      exact absurd (hs.uniq _ _ _ _ _ _ hj' hi hq' hp (hkk.symm.trans hk)) h2
    · simp only [Option.some.injEq] at hq'; subst hq'
      exact absurd (hs.uniq _ _ _ _ _ _ hj hi hq hp (hkk.trans hk)) h1
    · exact hs.uniq _ _ _ _ _ _ hj hj' hq hq' hkk
  · intro q
    constructor
    · rintro ⟨j, e', hj, hq⟩
      rcases get_set hj with ⟨_, rfl⟩ | ⟨hne, hj⟩
      · simp only [Option.some.injEq] at hq; exact .inl hq.symm
      · exact .inr ⟨⟨j, e', hj, hq⟩, fun hk => hne (hs.uniq _ _ _ _ _ _ hj hi hq hp hk)⟩
    · rintro (rfl | ⟨⟨j, e', hj, hq⟩, hk⟩)
      · exact ⟨i, _, get_set_self hilt, rfl⟩
      · refine ⟨j, e', ?_, hq⟩
        rw [get_set_ne]; exact hj
        rintro rfl
        rw [hi] at hj; cases hj
        rw [hp] at hq; cases hq
        exact hk rfl
  · have := countP_set' (q := Slot.isLive) (a := { e with obj := some p' }) hi
    rw [hlive, hnl] at this
    simp at this
    unfold nLive; omega
  · have := countP_set' (q := Slot.removed) (a := { e with obj := some p' }) hi
    rw [live_not_removed hlive, live_not_removed hnl] at this
    simp at this
    unfold nRem; omega

/-- A freshly created array. -/
theorem SInv.replicate (n k : Nat) (hk : k ≤ 31) (hn : n = 2 ^ k) :
    SInv keyOf h (List.replicate n Slot.fresh) ∧ (∀ q : P, ¬ Holds (List.replicate n Slot.fresh) q) ∧
    nLive (List.replicate n (Slot.fresh : Slot P)) = 0 ∧
    nRem (List.replicate n (Slot.fresh : Slot P)) = 0 := by
  have hget : ∀ (i : Nat) (e : Slot P), (List.replicate n Slot.fresh)[i]? = some e → e = Slot.fresh := by
    intro i e he
    exact List.eq_of_mem_replicate (List.mem_of_getElem? he)
  refine ⟨⟨⟨k, hk, by rw [List.length_replicate, hn]⟩, ?_, ?_, ?_, ?_⟩, ?_, ?_, ?_⟩
  · intro i e he; rw [hget i e he]; exact fresh_wf
  · intro i e p he hp; rw [hget i e he] at hp; cases hp
  · intro i e he hl; rw [hget i e he] at hl; cases hl
  · intro i j e e' p p' he he' hp; rw [hget i e he] at hp; cases hp
  · rintro q ⟨i, e, he, hp⟩; rw [hget i e he] at hp; cases hp
  · unfold nLive; rw [List.countP_replicate, if_neg (by simp [Slot.isLive, Slot.fresh, kFreeHash, kRemovedHash])]
  · unfold nRem; rw [List.countP_replicate, if_neg (by simp [Slot.removed, Slot.fresh, kFreeHash, kRemovedHash])]

end update
end Verif.HashTable
