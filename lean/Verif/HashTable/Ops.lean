import Verif.HashTable.Inv
/-! Each table operation preserves the invariant and has the stated effect on the stored payloads. -/
namespace Verif.HashTable
open Verif

variable {L P K : Type}

/-- The table-level invariant; `s` is the slot array. -/
structure Inv (c : Config) (keyOf : P → K) (h : K → BitVec 32) (t : Table P) (s : List (Slot P)) : Prop where
  tbl : t.table = some s
  cap : t.capacity = s.length
  sinv : SInv keyOf h s
  n : t.nelements = nLive s
  d : t.ndeleted = nRem s
  load : t.nelements + t.ndeleted ≤ t.capacity / 2 + t.capacity / 4 + 1
  max : t.capacity ≤ c.kMaxCapacity
  minPow : ∃ j, t.minCapacity = 2 ^ j
  min16 : 16 ≤ t.minCapacity
  minCap : t.minCapacity ≤ t.capacity
  life : t.ctors = t.dtors + t.nelements
  mem : t.mallocs = t.frees + 1

theorem kMax_lt (c : Config) : c.kMaxCapacity < 2 ^ 31 := by
  unfold Config.kMaxCapacity
  have := Nat.div_le_self (2 ^ 31 - 1) c.entrySize
  omega

namespace Inv
variable {c : Config} {keyOf : P → K} {h : K → BitVec 32} {t : Table P} {s : List (Slot P)}

theorem cap_lt (hi : Inv c keyOf h t s) : t.capacity < 2 ^ 31 := Nat.lt_of_le_of_lt hi.max (kMax_lt c)
theorem cap_ge (hi : Inv c keyOf h t s) : 16 ≤ t.capacity := Nat.le_trans hi.min16 hi.minCap

theorem occ_lt (hi : Inv c keyOf h t s) : nLive s + nRem s < s.length := by
  have h1 := hi.load
  have h2 := hi.cap_ge
  rw [← hi.n, ← hi.d, ← hi.cap]
  omega

theorem free (hi : Inv c keyOf h t s) : ∃ (i : Nat) (e : Slot P), s[i]? = some e ∧ e.isFree = true :=
  exists_free hi.occ_lt

theorem add32_eq (hi : Inv c keyOf h t s) : add32 t.nelements t.ndeleted = t.nelements + t.ndeleted := by
  unfold add32
  have h1 := hi.load
  have h2 := hi.cap_lt
  exact Nat.mod_eq_of_lt (by omega)

end Inv

/-! ### Re-insertion -/

theorem rehashLoop_spec {keyOf : P → K} {h : K → BitVec 32} (old : List (Slot P))
    (hold : SInv keyOf h old) :
    ∀ rem i (t : Table P) (s : List (Slot P)), i + rem = old.length → t.table = some s →
      t.capacity = s.length → SInv keyOf h s → nLive s + nLive (old.drop i) < s.length →
      (∀ j e p q, i ≤ j → old[j]? = some e → e.obj = some p → Holds s q → keyOf q ≠ keyOf p) →
      ∃ s', rehashLoop old i rem t = .ok { t with table := some s', ctors := t.ctors + nLive (old.drop i),
                                                  dtors := t.dtors + nLive (old.drop i) } ∧
        s'.length = s.length ∧ SInv keyOf h s' ∧ nLive s' = nLive s + nLive (old.drop i) ∧
        nRem s' ≤ nRem s ∧
        (∀ p, Holds s' p ↔ Holds s p ∨ ∃ (j : Nat) (e : Slot P), i ≤ j ∧ old[j]? = some e ∧ e.obj = some p) := by
  intro rem
  induction rem with
  | zero =>
    intro i t s hi ht hcap hs hlt hdis
    have hd : old.drop i = [] := List.drop_eq_nil_of_le (by omega)
    refine ⟨s, ?_, rfl, hs, ?_, Nat.le_refl _, ?_⟩
    · rw [hd]; unfold rehashLoop; simp [nLive, ← ht]
    · rw [hd]; simp [nLive]
    · intro p
      constructor
      · exact .inl
      · rintro (hp | ⟨j, e, hj, he, _⟩)
        · exact hp
        · have := lt_of_get he; omega
  | succ rem ih =>
    intro i t s hi ht hcap hs hlt hdis
    have hilt : i < old.length := by omega
    have hget : old[i]? = some old[i] := List.getElem?_eq_getElem hilt
    have hdrop : old.drop i = old[i] :: old.drop (i + 1) := List.drop_eq_getElem_cons hilt
    generalize hoe : old[i] = oe at hget hdrop
    obtain ⟨k, hk31, hk⟩ := hs.pow
    unfold rehashLoop
    rw [hget]
    simp only
    have hwf := hold.wf _ _ hget
    by_cases hl : oe.isLive = true
    · rw [if_pos hl]
      obtain ⟨p, hp, hpay⟩ := hwf.payload hl
      have hdl : nLive (old.drop i) = nLive (old.drop (i + 1)) + 1 := by
        rw [hdrop]; unfold nLive; rw [List.countP_cons]; simp [hl]
      obtain ⟨m, e, hm, he, hel, hb, hins⟩ := insertUnique_spec ht hcap hk hk31 oe.hash
        (exists_nonlive (by omega))
      have hhash := hold.hashes _ _ _ hget hp
      have hplt : pos s.length oe.hash m < s.length := lt_of_get he
      rw [hins]
      simp only [bind, Except.bind]
      rw [load_ok ht he]
      simp only
      rw [store_ok ht hplt]
      simp only [hpay]
      rw [load_ok (t := { t with table := some (s.set (pos s.length oe.hash m) (e.setHash oe.hash)) }) rfl
        (get_set_self hplt)]
      have hnone := (hs.wf _ _ he).none hel
      simp only [Slot.construct, Slot.setHash, hnone]
      rw [store_ok rfl (by rw [List.length_set]; exact hplt)]
      simp only [Slot.destruct, hl, if_true, hp, List.set_set]
      have hdis' : ∀ q, Holds s q → keyOf q ≠ keyOf p := fun q hq => hdis i oe p q (Nat.le_refl _) hget hp hq
      obtain ⟨hs', hh', hn', hr'⟩ := hs.insert p he hel hdis' ⟨m, hm, by rw [← hhash], by
        rw [← hhash]
        intro j hj e' he'
        exact live_not_free (hb j hj e' he')⟩
      rw [← hhash] at hs' hh' hn' hr'
      obtain ⟨s'', hrun, hlen, hs'', hn'', hr'', hh''⟩ := ih (i + 1)
        { t with table := some (s.set (pos s.length oe.hash m) ⟨oe.hash, some p⟩), ctors := t.ctors + 1,
                 dtors := t.dtors + 1 } _ (by omega) rfl (by rw [List.length_set]; exact hcap) hs' (by
          rw [List.length_set]; omega) (by
          intro j e' p' q hj he' hp' hq
          rcases (hh' q).1 hq with rfl | hq
          · intro hk
            have := hold.uniq _ _ _ _ _ _ hget he' hp hp' hk
            omega
          · exact hdis j e' p' q (by omega) he' hp' hq)
      rw [hrun]
      refine ⟨s'', ?_, by rw [hlen, List.length_set], hs'', by omega, by omega, ?_⟩
      · simp only [hdl]
        congr 2 <;> omega
      · intro q
        rw [hh'', hh']
        constructor
        · rintro ((rfl | hq) | ⟨j, e', hj, he', hp'⟩)
          · exact .inr ⟨i, oe, Nat.le_refl _, hget, hp⟩
          · exact .inl hq
          · exact .inr ⟨j, e', by omega, he', hp'⟩
        · rintro (hq | ⟨j, e', hj, he', hp'⟩)
          · exact .inl (.inr hq)
          · rcases Nat.lt_or_ge i j with hij | hij
            · exact .inr ⟨j, e', by omega, he', hp'⟩
            · have : j = i := by omega
              subst this
              rw [hget] at he'; cases he'
              rw [hp] at hp'; cases hp'
              exact .inl (.inl rfl)
    · rw [if_neg hl]
      have hl' : oe.isLive = false := by simpa using hl
      have hdl : nLive (old.drop i) = nLive (old.drop (i + 1)) := by
        rw [hdrop]; unfold nLive; rw [List.countP_cons]; simp [hl']
      simp only [Slot.destruct, hl', bind, Except.bind, Bool.false_eq_true, if_false]
      obtain ⟨s'', hrun, hlen, hs'', hn'', hr'', hh''⟩ := ih (i + 1) { t with dtors := t.dtors + 0 } s
        (by omega) ht hcap hs (by omega)
        (fun j e' p' q hj => hdis j e' p' q (by omega))
      rw [hrun]
      refine ⟨s'', by rw [hdl]; rfl, hlen, hs'', by omega, hr'', ?_⟩
      intro q
      rw [hh'']
      constructor
      · rintro (hq | ⟨j, e', hj, he', hp'⟩)
        · exact .inl hq
        · exact .inr ⟨j, e', by omega, he', hp'⟩
      · rintro (hq | ⟨j, e', hj, he', hp'⟩)
        · exact .inl hq
        · rcases Nat.lt_or_ge i j with hij | hij
          · exact .inr ⟨j, e', by omega, he', hp'⟩
          · have : j = i := by omega
            subst this
            rw [hget] at he'; cases he'
            rw [hwf.none hl'] at hp'; cases hp'

/-- `changeCapacity` to a size that has room. -/
theorem changeCapacity_spec {c : Config} {keyOf : P → K} {h : K → BitVec 32} {t : Table P}
    {s : List (Slot P)} (hi : Inv c keyOf h t s) (newCap k : Nat) (hk : newCap = 2 ^ k) (hk31 : k ≤ 31)
    (hmax : newCap ≤ c.kMaxCapacity) (hroom : t.nelements ≤ newCap / 2 + newCap / 4) (h16 : 16 ≤ newCap)
    (hmin : t.minCapacity ≤ newCap) :
    ∃ t' s', changeCapacity c t newCap true = .ok (true, t') ∧ Inv c keyOf h t' s' ∧
      t'.capacity = newCap ∧ t'.nelements = t.nelements ∧ t'.ndeleted = 0 ∧
      t'.minCapacity = t.minCapacity ∧ t'.ctors = t.ctors + t.nelements ∧
      (∀ p, Holds s' p ↔ Holds s p) := by
  unfold changeCapacity createTable
  rw [if_pos hmax, if_pos hmax]
  simp only [if_true, bind, Except.bind, hi.tbl]
  obtain ⟨hs0, hh0, hn0, hr0⟩ := SInv.replicate (P := P) (keyOf := keyOf) (h := h) newCap k hk31 hk
  have hn := hi.n
  obtain ⟨s', hrun, hlen, hs', hn', hr', hh'⟩ := rehashLoop_spec s hi.sinv t.capacity 0
    { t with table := some (List.replicate newCap Slot.fresh), capacity := newCap, ndeleted := 0,
             mallocs := t.mallocs + 1 } (List.replicate newCap Slot.fresh) (by rw [hi.cap]; omega) rfl
    (by rw [List.length_replicate]) hs0 (by
      rw [hn0, List.drop_zero, List.length_replicate]; omega) (by
      intro j e p q _ _ _ hq; exact absurd hq (hh0 q))
  rw [hrun]
  rw [List.drop_zero, hn0, Nat.zero_add] at hn'
  refine ⟨_, s', rfl, ⟨rfl, ?_, hs', ?_, ?_, ?_, hmax, hi.minPow, hi.min16, hmin, ?_, ?_⟩, rfl, rfl, rfl, rfl, ?_, ?_⟩
  · rw [hlen, List.length_replicate]
  · rw [hn']; exact hn
  · show 0 = nRem s'; omega
  · show t.nelements + 0 ≤ newCap / 2 + newCap / 4 + 1; omega
  · show t.ctors + nLive (s.drop 0) = t.dtors + nLive (s.drop 0) + t.nelements
    have := hi.life; omega
  · show t.mallocs + 1 = t.frees + 1 + 1
    have := hi.mem; omega
  · show t.ctors + nLive (s.drop 0) = t.ctors + t.nelements
    rw [List.drop_zero]; omega
  · intro p
    rw [hh']
    constructor
    · rintro (hp | ⟨j, e, _, he, hp⟩)
      · exact absurd hp (hh0 p)
      · exact ⟨j, e, he, hp⟩
    · rintro ⟨j, e, he, hp⟩
      exact .inr ⟨j, e, Nat.zero_le _, he, hp⟩

/-- The occupied and removed entries exceed three quarters of a table that cannot be doubled. -/
def NearLimit (c : Config) (t : Table P) : Prop :=
  t.capacity / 2 + t.capacity / 4 < t.nelements + t.ndeleted ∧ c.kMaxCapacity < 2 * t.capacity

/-- Outcome of an operation that may resize. -/
inductive Resize (c : Config) (t : Table P) (memOk : Bool) : Fault → Prop
  | abort : c.aborts = true → (memOk = false ∨ NearLimit c t) → Resize c t memOk .abort
  | assert : NearLimit c t → Resize c t memOk .assertFail

theorem pow2_le {a b : Nat} (h : (2:Nat) ^ a < 2 ^ b) : a < b := (Nat.pow_lt_pow_iff_right (by decide)).1 h

theorem checkDensity_spec {c : Config} {keyOf : P → K} {h : K → BitVec 32} {t : Table P}
    {s : List (Slot P)} (hi : Inv c keyOf h t s) (memOk : Bool) :
    (∃ t' s', checkDensity c t memOk = .ok (true, t') ∧ Inv c keyOf h t' s' ∧
      t'.nelements = t.nelements ∧ t'.minCapacity = t.minCapacity ∧
      t'.nelements + t'.ndeleted ≤ t'.capacity / 2 + t'.capacity / 4 ∧
      (t'.capacity = t.capacity → t' = t ∧ s' = s) ∧ (t'.capacity ≠ t.capacity → t'.ndeleted = 0) ∧
      t'.ndeleted ≤ t.ndeleted ∧
      (∀ p, Holds s' p ↔ Holds s p)) ∨
    (checkDensity c t memOk = .ok (false, t) ∧ c.aborts = false ∧ (memOk = false ∨ NearLimit c t)) ∨
    (∃ f, checkDensity c t memOk = .error f ∧ Resize c t memOk f) := by
  obtain ⟨k, hk31, hk⟩ := hi.sinv.pow
  have hcapk : t.capacity = 2 ^ k := hi.cap.trans hk
  have h16 := hi.cap_ge
  have hlt := hi.cap_lt
  have hload := hi.load
  unfold checkDensity
  by_cases hu : underloaded t = true
  · rw [if_pos hu]
    unfold underloaded kMinCapacity at hu
    rw [Bool.and_eq_true, decide_eq_true_eq, decide_eq_true_eq, hi.add32_eq] at hu
    unfold shrink
    by_cases hm : t.capacity / 2 < t.minCapacity
    · rw [if_pos hm]
      left
      exact ⟨t, s, rfl, hi, rfl, rfl, by omega, fun _ => ⟨rfl, rfl⟩, fun h => absurd rfl h,
        Nat.le_refl _, fun _ => Iff.rfl⟩
    · rw [if_neg hm]
      have hk1 : 4 < k := by
        apply pow2_le; rw [← hcapk]; exact hu.1
      have hhalf : t.capacity / 2 = 2 ^ (k - 1) := by
        rw [hcapk]
        have : k = (k - 1) + 1 := by omega
        rw [this, Nat.pow_succ, Nat.mul_div_cancel _ (by decide)]
        rfl
      have hge : 16 ≤ t.capacity / 2 := by
        rw [hhalf]
        have : (2:Nat) ^ 4 ≤ 2 ^ (k - 1) := Nat.pow_le_pow_right (by decide) (by omega)
        omega
      have hmx : t.capacity / 2 ≤ c.kMaxCapacity := by have := hi.max; omega
      cases memOk with
      | true =>
        left
        obtain ⟨t', s', hrun, hi', hc', hn', hd', hm', _, hh'⟩ := changeCapacity_spec hi (t.capacity / 2)
          (k - 1) hhalf (by omega) hmx (by omega) hge (by omega)
        exact ⟨t', s', hrun, hi', hn', hm', by omega, fun hc => by omega, fun _ => hd', by omega, hh'⟩
      | false =>
        unfold changeCapacity createTable
        rw [if_pos hmx, if_pos hmx]
        rcases ha : c.aborts with _ | _
        · right; left
          exact ⟨by simp [bind, Except.bind], rfl, .inl rfl⟩
        · right; right
          exact ⟨.abort, by simp [bind, Except.bind], .abort ha (.inl rfl)⟩
  · rw [if_neg hu]
    by_cases ho : overloaded t = true
    · rw [if_pos ho]
      unfold overloaded at ho
      rw [decide_eq_true_eq, hi.add32_eq] at ho
      unfold grow
      by_cases hmx : c.kMaxCapacity ≤ t.capacity
      · rw [if_pos hmx]
        have hnl : NearLimit c t := ⟨ho, by omega⟩
        unfold reportAllocationOverflow
        rcases ha : c.aborts with _ | _
        · right; left
          exact ⟨by simp [bind, Except.bind], rfl, .inr hnl⟩
        · right; right
          exact ⟨.abort, by simp [bind, Except.bind], .abort ha (.inr hnl)⟩
      · rw [if_neg hmx]
        have hmod : t.capacity * 2 % 2 ^ 32 = t.capacity * 2 := Nat.mod_eq_of_lt (by omega)
        rw [hmod]
        by_cases hfit : t.capacity * 2 ≤ c.kMaxCapacity
        · have hk' : t.capacity * 2 = 2 ^ (k + 1) := by rw [hcapk, Nat.pow_succ]
          have hk30 : k + 1 ≤ 31 := by
            have : (2:Nat) ^ (k+1) < 2 ^ 31 := by
              rw [← hk']; exact Nat.lt_of_le_of_lt hfit (kMax_lt c)
            exact Nat.le_of_lt (pow2_le this)
          cases memOk with
          | true =>
            left
            obtain ⟨t', s', hrun, hi', hc', hn', hd', hm', _, hh'⟩ := changeCapacity_spec hi (t.capacity * 2)
              (k + 1) hk' hk30 hfit (by omega) (by omega) (by have := hi.minCap; omega)
            exact ⟨t', s', hrun, hi', hn', hm', by omega, fun hc => by omega, fun _ => hd', by omega, hh'⟩
          | false =>
            unfold changeCapacity createTable
            rw [if_pos hfit, if_pos hfit]
            rcases ha : c.aborts with _ | _
            · right; left
              exact ⟨by simp [bind, Except.bind], rfl, .inl rfl⟩
            · right; right
              exact ⟨.abort, by simp [bind, Except.bind], .abort ha (.inl rfl)⟩
        · right; right
          refine ⟨.assertFail, ?_, .assert ⟨ho, by omega⟩⟩
          unfold changeCapacity
          rw [if_neg hfit]
    · rw [if_neg ho]
      unfold overloaded at ho
      rw [decide_eq_true_eq, hi.add32_eq] at ho
      left
      exact ⟨t, s, rfl, hi, rfl, rfl, by omega, fun _ => ⟨rfl, rfl⟩, fun h => absurd rfl h,
        Nat.le_refl _, fun _ => Iff.rfl⟩

/-- The tail of an add: count, set the hash, construct. -/
theorem addTail_spec {c : Config} {keyOf : P → K} {h : K → BitVec 32} {t : Table P}
    {s : List (Slot P)} (hi : Inv c keyOf h t s) {i : Nat} {e : Slot P} (p : P) (he : s[i]? = some e)
    (hlive : e.isLive = false) (habs : ∀ q, Holds s q → keyOf q ≠ keyOf p)
    (hpath : ∃ m, m < s.length ∧ pos s.length (mix (h (keyOf p))) m = i ∧
      ∀ j, j < m → ∀ e', s[pos s.length (mix (h (keyOf p))) j]? = some e' → e'.isFree = false)
    (hroom : e.removed = true ∨ t.nelements + t.ndeleted ≤ t.capacity / 2 + t.capacity / 4)
    (nd : Nat) (hnd : nd = t.ndeleted - (if e.removed = true then 1 else 0)) :
    internalAddTail { t with ndeleted := nd } ⟨i, mix (h (keyOf p))⟩ =
      .ok (true, { t with ndeleted := nd, nelements := t.nelements + 1,
                          table := some (s.set i (e.setHash (mix (h (keyOf p))))) }, ⟨i, mix (h (keyOf p))⟩) ∧
    Inv c keyOf h { t with ndeleted := nd, nelements := t.nelements + 1, ctors := t.ctors + 1,
                           table := some (s.set i ⟨mix (h (keyOf p)), some p⟩) }
      (s.set i ⟨mix (h (keyOf p)), some p⟩) ∧
    (∀ q, Holds (s.set i ⟨mix (h (keyOf p)), some p⟩) q ↔ q = p ∨ Holds s q) := by
  obtain ⟨hs', hh', hn', hr'⟩ := hi.sinv.insert p he hlive habs hpath
  have hilt := lt_of_get he
  have h1 := hi.load
  have h2 := hi.cap_lt
  have hinc : inc32 t.nelements = t.nelements + 1 := by
    unfold inc32; exact Nat.mod_eq_of_lt (by omega)
  refine ⟨?_, ⟨rfl, ?_, hs', ?_, ?_, ?_, hi.max, hi.minPow, hi.min16, hi.minCap, ?_, hi.mem⟩, hh'⟩
  · unfold internalAddTail
    simp only [hinc, bind, Except.bind]
    rw [load_ok (t := { t with nelements := t.nelements + 1, ndeleted := nd }) hi.tbl he]
    simp only
    rw [store_ok (t := { t with nelements := t.nelements + 1, ndeleted := nd }) hi.tbl hilt]
  · rw [List.length_set]; exact hi.cap
  · rw [hn', ← hi.n]
  · show nd = _
    have := hi.d
    omega
  · show t.nelements + 1 + nd ≤ _
    rcases hroom with hr | hr
    · have hpos : 0 < t.ndeleted := by
        rw [hi.d]; unfold nRem; rw [List.countP_pos_iff]
        exact ⟨e, List.mem_of_getElem? he, hr⟩
      rw [hr] at hnd
      simp only [if_true] at hnd
      show _ ≤ t.capacity / 2 + t.capacity / 4 + 1
      omega
    · show _ ≤ t.capacity / 2 + t.capacity / 4 + 1
      have : nd ≤ t.ndeleted := by omega
      omega
  · show t.ctors + 1 = t.dtors + (t.nelements + 1)
    have := hi.life; omega

/-- the part of `add` after `internalAdd` -/
def addFinish (p : P) (v : Bool × Table P × Insert) : Exec (Bool × Table P × Insert) :=
  if v.1 then do
    let e ← v.2.1.load v.2.2.entry
    let e ← e.construct p
    let t ← v.2.1.store v.2.2.entry e
    .ok (true, { t with ctors := t.ctors + 1 }, v.2.2)
  else .ok (false, v.2.1, v.2.2)

theorem add_eq_bind (c : Config) (t : Table P) (i : Insert) (p : P) (memOk : Bool) :
    add c t i p memOk = (internalAdd c t i memOk >>= addFinish p) := rfl

theorem addFinish_ok {c : Config} {keyOf : P → K} {h : K → BitVec 32} (t1 : Table P)
    (s1 : List (Slot P)) (j : Nat) (e1 : Slot P) (nd : Nat) (p : P) (H : BitVec 32)
    (hi1 : Inv c keyOf h t1 s1) (he1 : s1[j]? = some e1) (hl1 : e1.isLive = false) :
    addFinish p (true, { t1 with ndeleted := nd, nelements := t1.nelements + 1,
                                 table := some (s1.set j (e1.setHash H)) }, ⟨j, H⟩) =
      .ok (true, { t1 with ndeleted := nd, nelements := t1.nelements + 1, ctors := t1.ctors + 1,
                           table := some (s1.set j ⟨H, some p⟩) }, ⟨j, H⟩) := by
  have hjlt := lt_of_get he1
  have hnone := (hi1.sinv.wf _ _ he1).none hl1
  simp only [addFinish, if_true, bind, Except.bind]
  rw [load_ok (s := s1.set j (e1.setHash H)) rfl (get_set_self hjlt)]
  simp only [Slot.construct, Slot.setHash, hnone]
  rw [store_ok rfl (by rw [List.length_set]; exact hjlt)]
  simp only [List.set_set]

/-- `add` after a `findForAdd` that did not find the key. -/
theorem add_spec {c : Config} {keyOf : P → K} {h : K → BitVec 32} {t : Table P}
    {s : List (Slot P)} (hi : Inv c keyOf h t s) {i : Nat} {e : Slot P} (p : P) (memOk : Bool)
    (he : s[i]? = some e)
    (hlive : e.isLive = false) (habs : ∀ q, Holds s q → keyOf q ≠ keyOf p)
    (hpath : ∃ m, m < s.length ∧ pos s.length (mix (h (keyOf p))) m = i ∧
      ∀ j, j < m → ∀ e', s[pos s.length (mix (h (keyOf p))) j]? = some e' → e'.isFree = false) :
    (∃ t' s' i', add c t ⟨i, mix (h (keyOf p))⟩ p memOk = .ok (true, t', ⟨i', mix (h (keyOf p))⟩) ∧
      Inv c keyOf h t' s' ∧ t'.nelements = t.nelements + 1 ∧ t'.ndeleted ≤ t.ndeleted ∧
      t'.minCapacity = t.minCapacity ∧ s'[i']? = some ⟨mix (h (keyOf p)), some p⟩ ∧
      (∀ q, Holds s' q ↔ q = p ∨ Holds s q)) ∨
    (add c t ⟨i, mix (h (keyOf p))⟩ p memOk = .ok (false, t, ⟨i, mix (h (keyOf p))⟩) ∧
      c.aborts = false ∧ (memOk = false ∨ NearLimit c t)) ∨
    (∃ f, add c t ⟨i, mix (h (keyOf p))⟩ p memOk = .error f ∧ Resize c t memOk f) := by
  rw [add_eq_bind]
  unfold internalAdd
  simp only [bind, Except.bind, load_ok hi.tbl he, hlive, Bool.false_eq_true, if_false]
  by_cases hr : e.removed = true
  · left
    simp only [hr, if_true]
    have hpos : 0 < t.ndeleted := by
      rw [hi.d]; unfold nRem; rw [List.countP_pos_iff]
      exact ⟨e, List.mem_of_getElem? he, hr⟩
    have hdec : dec32 t.ndeleted = t.ndeleted - 1 := by
      have h1 := hi.load
      have h2 := hi.cap_lt
      unfold dec32
      omega
    obtain ⟨hrun, hi', hh'⟩ := addTail_spec hi p he hlive habs hpath (.inl hr) (t.ndeleted - 1) (by simp [hr])
    rw [hdec, hrun]
    refine ⟨_, _, i, addFinish_ok t s i e _ p _ hi he hlive, hi', rfl, ?_, rfl, get_set_self (lt_of_get he), hh'⟩
    show t.ndeleted - 1 ≤ _; omega
  · have hr' : e.removed = false := by simpa using hr
    simp only [hr', Bool.false_eq_true, if_false]
    have hnk : ¬ t.nelements = c.kMaxCapacity := by
      have h1 := hi.load
      have h2 := hi.max
      have h3 := hi.cap_ge
      omega
    simp only [hnk, if_false]
    rcases checkDensity_spec hi memOk with ⟨t1, s1, hrun, hi1, hn1, hm1, hload1, hsame, hdz, hdle, hh1⟩ |
        ⟨hrun, ha, hcond⟩ | ⟨f, hrun, hcond⟩
    · left
      rw [hrun]
      simp only [if_true]
      by_cases hc : t1.capacity = t.capacity
      · obtain ⟨rfl, rfl⟩ := hsame hc
        simp only [ne_eq, not_true_eq_false, if_false]
        obtain ⟨hrun', hi', hh'⟩ := addTail_spec hi1 p he hlive habs hpath (.inr hload1) t1.ndeleted (by simp [hr'])
        rw [show internalAddTail t1 ⟨i, mix (h (keyOf p))⟩ = _ from hrun']
        exact ⟨_, _, i, addFinish_ok t1 s1 i e _ p _ hi1 he hlive, hi', rfl, Nat.le_refl _, rfl, get_set_self (lt_of_get he), hh'⟩
      · simp only [ne_eq, hc, not_false_eq_true, if_true]
        obtain ⟨k, hk31, hk⟩ := hi1.sinv.pow
        have hocc := hi1.occ_lt
        obtain ⟨m, e1, hm, he1, hel1, hb, hins⟩ := insertUnique_spec hi1.tbl hi1.cap hk hk31
          (mix (h (keyOf p))) (exists_nonlive (by omega))
        rw [hins]
        have hnr : e1.removed = false := by
          rcases hx : e1.removed with _ | _
          · rfl
          · have : 0 < nRem s1 := by
              unfold nRem; rw [List.countP_pos_iff]; exact ⟨e1, List.mem_of_getElem? he1, hx⟩
            rw [← hi1.d, hdz hc] at this; omega
        obtain ⟨hrun', hi', hh'⟩ := addTail_spec hi1 p he1 hel1
          (fun q hq => habs q ((hh1 q).1 hq)) ⟨m, hm, rfl, fun j hj e' he' => live_not_free (hb j hj e' he')⟩
          (.inr hload1) t1.ndeleted (by simp [hnr])
        simp only
        rw [show internalAddTail t1 ⟨_, mix (h (keyOf p))⟩ = _ from hrun']
        refine ⟨_, _, _, addFinish_ok t1 s1 _ e1 _ p _ hi1 he1 hel1, hi', by rw [← hn1], hdle, hm1,
          get_set_self (lt_of_get he1), ?_⟩
        intro q; rw [hh', hh1]
    · right; left
      rw [hrun]
      simp only [Bool.false_eq_true, if_false]
      exact ⟨rfl, ha, hcond⟩
    · right; right
      rw [hrun]
      exact ⟨f, rfl, hcond⟩

end Verif.HashTable
