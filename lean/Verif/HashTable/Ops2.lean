import Verif.HashTable.Ops
/-! Removal, clearing, destruction, initialisation and iteration. -/
namespace Verif.HashTable
open Verif

variable {L P K : Type} {c : Config} {keyOf : P → K} {h : K → BitVec 32}

/-- the stored payloads in array order -/
def contents (s : List (Slot P)) : List P := s.filterMap (·.obj)

theorem mem_contents {s : List (Slot P)} {p : P} : p ∈ contents s ↔ Holds s p := by
  unfold contents Holds
  rw [List.mem_filterMap]
  constructor
  · rintro ⟨e, he, hp⟩
    obtain ⟨i, hi⟩ := List.mem_iff_getElem?.1 he
    exact ⟨i, e, hi, hp⟩
  · rintro ⟨i, e, hi, hp⟩
    exact ⟨e, List.mem_of_getElem? hi, hp⟩

theorem contents_length {s : List (Slot P)} (hwf : ∀ e ∈ s, e.Wf) : (contents s).length = nLive s := by
  induction s with
  | nil => rfl
  | cons e s ih =>
    have ih := ih (fun e he => hwf e (List.mem_cons_of_mem _ he))
    have hw := hwf e List.mem_cons_self
    unfold contents nLive at *
    rw [List.filterMap_cons, List.countP_cons]
    rcases hl : e.isLive with _ | _
    · rw [hw.none hl]; simp [ih]
    · obtain ⟨p, hp, _⟩ := hw.payload hl
      rw [hp]; simp [ih]

theorem contents_nodup {s : List (Slot P)} (hs : SInv keyOf h s) : ((contents s).map keyOf).Nodup := by
  unfold contents
  rw [List.Nodup, List.pairwise_map, List.pairwise_filterMap, List.pairwise_iff_getElem]
  intro i j hi hj hij p hp q hq hk
  have := hs.uniq i j _ _ p q (List.getElem?_eq_getElem hi) (List.getElem?_eq_getElem hj) hp hq hk
  omega

theorem holds_key_inj {s : List (Slot P)} (hs : SInv keyOf h s) {p q : P} (hp : Holds s p)
    (hq : Holds s q) (hk : keyOf p = keyOf q) : p = q := by
  obtain ⟨i, e, hi, hp⟩ := hp
  obtain ⟨j, e', hj, hq⟩ := hq
  have := hs.uniq _ _ _ _ _ _ hi hj hp hq hk
  subst this
  rw [hi] at hj; cases hj
  rw [hp] at hq; cases hq
  rfl

theorem removeEntry_spec {t : Table P} {s : List (Slot P)} (hi : Inv c keyOf h t s) {i : Nat}
    {e : Slot P} {p : P} (he : s[i]? = some e) (hp : e.obj = some p) :
    ∃ t', removeEntry t i = .ok t' ∧ Inv c keyOf h t' (s.set i ⟨kRemovedHash, none⟩) ∧
      t'.nelements + t'.ndeleted = t.nelements + t.ndeleted ∧ t'.capacity = t.capacity ∧
      t'.minCapacity = t.minCapacity ∧
      (∀ q, Holds (s.set i ⟨kRemovedHash, none⟩) q ↔ Holds s q ∧ keyOf q ≠ keyOf p) := by
  obtain ⟨hs', hh', hn', hr'⟩ := hi.sinv.remove he hp
  have hilt := lt_of_get he
  have hlive : e.isLive = true := by rw [hi.sinv.wf _ _ he, hp]; rfl
  have h1 := hi.load
  have h2 := hi.cap_lt
  have h3 := hi.n
  have h4 := hi.d
  have hinc : inc32 t.ndeleted = t.ndeleted + 1 := by
    unfold inc32; exact Nat.mod_eq_of_lt (by omega)
  have hdec : dec32 t.nelements = t.nelements - 1 := by
    unfold dec32; omega
  unfold removeEntry
  simp only [bind, Except.bind, load_ok hi.tbl he, hlive, if_true, Slot.setRemoved, Slot.destruct, hp]
  rw [store_ok hi.tbl hilt]
  simp only [hinc, hdec]
  refine ⟨_, rfl, ⟨rfl, ?_, hs', ?_, ?_, ?_, hi.max, hi.minPow, hi.min16, hi.minCap, ?_, hi.mem⟩, ?_, rfl, rfl, hh'⟩
  · rw [List.length_set]; exact hi.cap
  · show t.nelements - 1 = _; omega
  · show t.ndeleted + 1 = _; omega
  · show t.nelements - 1 + (t.ndeleted + 1) ≤ t.capacity / 2 + t.capacity / 4 + 1; omega
  · show t.ctors = t.dtors + 1 + (t.nelements - 1)
    have := hi.life; omega
  · show t.nelements - 1 + (t.ndeleted + 1) = _; omega

theorem clearLoop_spec : ∀ rem i (t : Table P) (s : List (Slot P)), i + rem = s.length →
    t.table = some s → (∀ (i : Nat) (e : Slot P), s[i]? = some e → e.Wf) →
    clearLoop i rem t = .ok { t with table := some (s.take i ++ List.replicate rem Slot.fresh),
                                     dtors := t.dtors + nLive (s.drop i) } := by
  intro rem
  induction rem with
  | zero =>
    intro i t s hi ht hwf
    unfold clearLoop
    have : s.drop i = [] := List.drop_eq_nil_of_le (by omega)
    rw [this, List.take_of_length_le (by omega)]
    simp [nLive, ← ht]
  | succ rem ih =>
    intro i t s hi ht hwf
    have hilt : i < s.length := by omega
    have hget : s[i]? = some s[i] := List.getElem?_eq_getElem hilt
    have hdrop : s.drop i = s[i] :: s.drop (i + 1) := List.drop_eq_getElem_cons hilt
    generalize s[i] = e at hget hdrop
    have hw := hwf _ _ hget
    have hset : e.setFree = .ok (Slot.fresh, if e.isLive = true then 1 else 0) := by
      unfold Slot.setFree Slot.destruct
      rcases hl : e.isLive with _ | _
      · simp only [bind, Except.bind, Bool.false_eq_true, if_false, hw.none hl]; rfl
      · obtain ⟨p, hp, _⟩ := hw.payload hl
        simp only [bind, Except.bind, if_true, hp]; rfl
    unfold clearLoop
    simp only [bind, Except.bind, load_ok ht hget, hset]
    rw [store_ok ht hilt]
    simp only
    rw [ih (i + 1) _ (s.set i Slot.fresh) (by rw [List.length_set]; omega) rfl]
    · rw [hdrop]
      have e1 : (s.set i Slot.fresh).drop (i + 1) = s.drop (i + 1) := by
        rw [List.drop_set_of_lt (by omega)]
      have e2 : (s.set i Slot.fresh).take (i + 1) = s.take i ++ [Slot.fresh] := by
        rw [List.take_set, List.take_add_one, hget]
        simp only [Option.toList_some]
        rw [List.set_append_right _ _ (by rw [List.length_take]; omega), List.length_take,
          Nat.min_eq_left (by omega), Nat.sub_self, List.set_cons_zero]
      rw [e1, e2, List.append_assoc, List.replicate_succ, List.singleton_append]
      have e3 : nLive (e :: s.drop (i + 1)) = nLive (s.drop (i + 1)) + (if e.isLive = true then 1 else 0) := by
        unfold nLive; rw [List.countP_cons]
      rw [e3]
      congr 2
      dsimp only
      omega
    · intro j e' he'
      rcases get_set he' with ⟨_, rfl⟩ | ⟨_, hj⟩
      · exact fresh_wf
      · exact hwf _ _ hj

theorem clear_spec {t : Table P} {s : List (Slot P)} (hi : Inv c keyOf h t s) :
    ∃ t', clear t = .ok t' ∧ Inv c keyOf h t' (List.replicate t.capacity Slot.fresh) ∧
      t'.nelements = 0 ∧ t'.ndeleted = 0 ∧ t'.capacity = t.capacity ∧ t'.minCapacity = t.minCapacity ∧
      (∀ q, ¬ Holds (List.replicate t.capacity (Slot.fresh : Slot P)) q) := by
  obtain ⟨k, hk31, hk⟩ := hi.sinv.pow
  obtain ⟨hs0, hh0, hn0, hr0⟩ := SInv.replicate (P := P) (keyOf := keyOf) (h := h) t.capacity k hk31
    (hi.cap.trans hk)
  unfold clear
  rw [clearLoop_spec t.capacity 0 t s (by rw [hi.cap]; omega) hi.tbl hi.sinv.wf]
  simp only [bind, Except.bind, List.take_zero, List.nil_append, List.drop_zero]
  refine ⟨_, rfl, ⟨rfl, ?_, hs0, hn0.symm, hr0.symm, ?_, hi.max, hi.minPow, hi.min16, hi.minCap, ?_, hi.mem⟩,
    rfl, rfl, rfl, rfl, hh0⟩
  · rw [List.length_replicate]
  · show 0 + 0 ≤ _; omega
  · show t.ctors = t.dtors + nLive s + 0
    have := hi.life; have := hi.n; omega

theorem destroyLoop_spec : ∀ rem i (t : Table P) (s : List (Slot P)), i + rem = s.length →
    t.table = some s → (∀ (i : Nat) (e : Slot P), s[i]? = some e → e.obj.isSome = true → e.isLive = true) →
    (∀ (i' : Nat) (e : Slot P), i ≤ i' → s[i']? = some e → e.Wf) →
    (∀ (i' : Nat) (e : Slot P), i' < i → s[i']? = some e → e.obj = none) →
    ∃ s', destroyLoop i rem t = .ok { t with table := some s', dtors := t.dtors + nLive (s.drop i) } ∧
      ∀ (i' : Nat) (e : Slot P), s'[i']? = some e → e.obj = none := by
  intro rem
  induction rem with
  | zero =>
    intro i t s hi ht hwf hwf' hdone
    unfold destroyLoop
    have : s.drop i = [] := List.drop_eq_nil_of_le (by omega)
    rw [this]
    refine ⟨s, by simp [nLive, ← ht], fun i' e he => hdone i' e ?_ he⟩
    have := lt_of_get he; omega
  | succ rem ih =>
    intro i t s hi ht hwf hwf' hdone
    have hilt : i < s.length := by omega
    have hget : s[i]? = some s[i] := List.getElem?_eq_getElem hilt
    have hdrop : s.drop i = s[i] :: s.drop (i + 1) := List.drop_eq_getElem_cons hilt
    generalize s[i] = e at hget hdrop
    have hw := hwf' _ _ (Nat.le_refl _) hget
    have hset : e.destruct = .ok ({ e with obj := none }, if e.isLive = true then 1 else 0) := by
      unfold Slot.destruct
      rcases hl : e.isLive with _ | _
      · have hn := hw.none hl
        simp only [Bool.false_eq_true, if_false]
        cases e; simp only at hn; subst hn; rfl
      · obtain ⟨p, hp, _⟩ := hw.payload hl
        simp only [if_true, hp]
    unfold destroyLoop
    simp only [bind, Except.bind, load_ok ht hget, hset]
    rw [store_ok ht hilt]
    simp only
    obtain ⟨s', hrun, hs'⟩ := ih (i + 1) { t with table := some (s.set i { e with obj := none }), dtors := t.dtors + if e.isLive = true then 1 else 0 } (s.set i { e with obj := none }) (by rw [List.length_set]; omega) rfl (by
        intro j e' he' hso
        rcases get_set he' with ⟨_, rfl⟩ | ⟨_, hj⟩
        · simp at hso
        · exact hwf _ _ hj hso) (by
        intro j e' hj he'
        rw [get_set_ne (by omega)] at he'
        exact hwf' j e' (by omega) he') (by
        intro j e' hj he'
        rcases get_set he' with ⟨_, rfl⟩ | ⟨_, hj'⟩
        · rfl
        · exact hdone j e' (by omega) hj')
    rw [hrun]
    refine ⟨s', ?_, hs'⟩
    have e1 : (s.set i { e with obj := none }).drop (i + 1) = s.drop (i + 1) := by
        rw [List.drop_set_of_lt (by omega)]
    rw [e1, hdrop]
    have e3 : nLive (e :: s.drop (i + 1)) = nLive (s.drop (i + 1)) + (if e.isLive = true then 1 else 0) := by
      unfold nLive; rw [List.countP_cons]
    rw [e3]
    congr 2
    dsimp only
    omega

theorem destroy_spec {t : Table P} {s : List (Slot P)} (hi : Inv c keyOf h t s) :
    ∃ t', destroy t = .ok t' ∧ t'.ctors = t'.dtors ∧ t'.mallocs = t'.frees ∧
      t'.ctors = t.ctors ∧ t'.mallocs = t.mallocs := by
  obtain ⟨s', hrun, _⟩ := destroyLoop_spec t.capacity 0 t s (by rw [hi.cap]; omega) hi.tbl
    (fun i e he hso => by rw [hi.sinv.wf i e he]; exact hso)
    (fun i e _ he => hi.sinv.wf i e he) (fun i e hlt => by omega)
  unfold destroy
  rw [hrun]
  refine ⟨_, rfl, ?_, ?_, rfl, rfl⟩
  · show t.ctors = t.dtors + nLive (s.drop 0)
    rw [List.drop_zero, ← hi.n]; exact hi.life
  · exact hi.mem

/-- A successful `init` of a new table establishes the invariant. -/
theorem init_spec (cap : Nat) (memOk : Bool) {t : Table P}
    (hinit : init c (Table.new : Table P) cap memOk = .ok (true, t)) :
    ∃ s, Inv c keyOf h t s ∧ (∀ q, ¬ Holds s q) ∧ t.nelements = 0 ∧ t.ndeleted = 0 ∧
      t.capacity = Nat.max 16 cap ∧ t.minCapacity = Nat.max 16 cap := by
  have go : ∀ capacity : Nat, 16 ≤ capacity →
      (if Bits.isPowerOfTwo (BitVec.ofNat 64 capacity) = true then
        (createTable c capacity memOk).bind fun tbl =>
          match tbl with
          | none => (.ok (false, { (Table.new : Table P) with minCapacity := capacity, capacity := capacity, table := none }) : Exec (Bool × Table P))
          | some s => .ok (true, { (Table.new : Table P) with minCapacity := capacity, capacity := capacity, table := some s, mallocs := 0 + 1 })
      else .error .assertFail) = .ok (true, t) →
      ∃ s, Inv c keyOf h t s ∧ (∀ q, ¬ Holds s q) ∧ t.nelements = 0 ∧ t.ndeleted = 0 ∧
      t.capacity = capacity ∧ t.minCapacity = capacity := by
    intro capacity h16 hrun
    split at hrun
    · rename_i hpow
      unfold createTable at hrun
      split at hrun
      · rename_i hmax
        cases memOk with
        | false => 
          split at hrun
          · rename_i h; cases h
          · split at hrun
            · simp [Except.bind] at hrun
            · simp [Except.bind] at hrun
        | true =>
          simp only [if_true, Except.bind, Except.ok.injEq, Prod.mk.injEq, true_and] at hrun
          have hlt := kMax_lt c
          rw [Bits.isPowerOfTwo_iff] at hpow
          obtain ⟨k, hk⟩ := hpow
          rw [BitVec.toNat_ofNat, Nat.mod_eq_of_lt (by omega)] at hk
          have hk31 : k ≤ 31 := by
            have : (2:Nat) ^ k < 2 ^ 31 := by rw [← hk]; omega
            exact Nat.le_of_lt (pow2_le this)
          obtain ⟨hs0, hh0, hn0, hr0⟩ := SInv.replicate (P := P) (keyOf := keyOf) (h := h) capacity k hk31 hk
          refine ⟨_, ?_, hh0, ?_⟩
          · subst hrun
            refine ⟨rfl, ?_, hs0, hn0.symm, hr0.symm, ?_, hmax, ⟨k, hk⟩, h16, Nat.le_refl _, rfl, rfl⟩
            · rw [List.length_replicate]
            · show 0 + 0 ≤ _; omega
          · subst hrun; exact ⟨rfl, rfl, rfl, rfl⟩
      · simp [Except.bind] at hrun
    · cases hrun
  unfold init at hinit
  simp only [kMinCapacity] at hinit
  by_cases h1 : cap < 16
  · rw [if_pos h1] at hinit
    have : Nat.max 16 cap = 16 := Nat.max_eq_left (by omega)
    rw [this]
    exact go 16 (Nat.le_refl _) hinit
  · rw [if_neg h1] at hinit
    have : Nat.max 16 cap = cap := Nat.max_eq_right (by omega)
    rw [this]
    by_cases h2 : c.kMaxCapacity < cap
    · rw [if_pos h2] at hinit
      unfold reportAllocationOverflow at hinit
      split at hinit <;> simp [bind, Except.bind] at hinit
    · rw [if_neg h2] at hinit
      exact go cap (by omega) hinit

/-! ### Iteration -/

theorem skipDead_spec {t : Table P} {s : List (Slot P)} (ht : t.table = some s) :
    ∀ rem i, i + rem = s.length → ∃ j, skipDead t s.length i rem = .ok j ∧ i ≤ j ∧ j ≤ s.length ∧
      (∀ x e, i ≤ x → x < j → s[x]? = some e → e.isLive = false) ∧
      (∀ e, s[j]? = some e → e.isLive = true) := by
  intro rem
  induction rem with
  | zero =>
    intro i hi
    refine ⟨i, rfl, Nat.le_refl _, by omega, fun x e h1 h2 => by omega, fun e he => ?_⟩
    have := lt_of_get he; omega
  | succ rem ih =>
    intro i hi
    unfold skipDead
    have hilt : i < s.length := by omega
    have hget : s[i]? = some s[i] := List.getElem?_eq_getElem hilt
    generalize s[i] = e at hget
    rw [if_pos hilt]
    simp only [bind, Except.bind, load_ok ht hget]
    rcases hl : e.isLive with _ | _
    · obtain ⟨j, hrun, h1, h2, h3, h4⟩ := ih (i + 1) (by omega)
      simp only [Bool.false_eq_true, if_false]
      refine ⟨j, hrun, by omega, h2, ?_, h4⟩
      intro x e' hx hxj he'
      rcases Nat.lt_or_ge i x with h | h
      · exact h3 x e' h hxj he'
      · have : x = i := by omega
        subst this
        rw [hget] at he'; cases he'; exact hl
    · simp only [if_true]
      refine ⟨i, rfl, Nat.le_refl _, by omega, fun x e h1 h2 => by omega, fun e' he' => ?_⟩
      rw [hget] at he'; cases he'; exact hl

theorem contents_skip {s : List (Slot P)} (hwf : ∀ (i : Nat) (e : Slot P), s[i]? = some e → e.Wf) :
    ∀ d i, i + d ≤ s.length → (∀ x e, i ≤ x → x < i + d → s[x]? = some e → e.isLive = false) →
      contents (s.drop i) = contents (s.drop (i + d)) := by
  intro d
  induction d with
  | zero => intro i _ _; rfl
  | succ d ih =>
    intro i hle hdead
    have hilt : i < s.length := by omega
    have hget : s[i]? = some s[i] := List.getElem?_eq_getElem hilt
    rw [List.drop_eq_getElem_cons hilt]
    have hn := (hwf _ _ hget).none (hdead i _ (Nat.le_refl _) (by omega) hget)
    unfold contents
    rw [List.filterMap_cons, hn]
    have := ih (i + 1) (by omega) (fun x e h1 h2 => hdead x e (by omega) (by omega))
    unfold contents at this
    rw [show i + (d + 1) = i + 1 + d by omega]
    exact this

theorem sweepLoop_spec (pick : P → Bool) : ∀ fuel (t : Table P) (s : List (Slot P)) (j : Nat) (acc : List P),
    Inv c keyOf h t s → s.length < j + fuel → j ≤ s.length →
    (∀ e, s[j]? = some e → e.isLive = true) →
    ∃ t' s', sweepLoop pick fuel t ⟨j, s.length⟩ acc = .ok (t', acc.reverse ++ contents (s.drop j)) ∧
      Inv c keyOf h t' s' ∧ t'.nelements + t'.ndeleted = t.nelements + t.ndeleted ∧
      t'.capacity = t.capacity ∧ t'.minCapacity = t.minCapacity ∧
      ∀ q, Holds s' q ↔ Holds s q ∧ ¬ (q ∈ contents (s.drop j) ∧ pick q = true) := by
  intro fuel
  induction fuel with
  | zero => intro t s j acc hi h1 h2; omega
  | succ fuel ih =>
    intro t s j acc hi hf hj hlive
    unfold sweepLoop
    by_cases hend : j = s.length
    · subst hend
      have hd : s.drop s.length = [] := List.drop_eq_nil_of_le (Nat.le_refl _)
      simp only [Iter.empty, beq_self_eq_true, if_true]
      refine ⟨t, s, by rw [hd]; simp [contents], hi, rfl, rfl, rfl, ?_⟩
      intro q
      rw [hd]
      simp [contents]
    · have hjlt : j < s.length := by omega
      have hget : s[j]? = some s[j] := List.getElem?_eq_getElem hjlt
      have hdrop : s.drop j = s[j] :: s.drop (j + 1) := List.drop_eq_getElem_cons hjlt
      generalize s[j] = e at hget hdrop
      have hl := hlive e hget
      obtain ⟨p, hp, hpay⟩ := (hi.sinv.wf _ _ hget).payload hl
      have hemp : (Iter.empty ⟨j, s.length⟩) = false := by
        unfold Iter.empty; simpa using hend
      have hcont : contents (s.drop j) = p :: contents (s.drop (j + 1)) := by
        rw [hdrop]; unfold contents; rw [List.filterMap_cons, hp]
      simp only [hemp, Bool.false_eq_true, if_false, deref, bind, Except.bind, load_ok hi.tbl hget, hpay]
      -- the table after the optional erase
      have step : ∃ t1 s1, eraseIf pick p t ⟨j, s.length⟩ = .ok t1 ∧
          Inv c keyOf h t1 s1 ∧ s1.length = s.length ∧ s1.drop (j + 1) = s.drop (j + 1) ∧
          t1.nelements + t1.ndeleted = t.nelements + t.ndeleted ∧ t1.capacity = t.capacity ∧
          t1.minCapacity = t.minCapacity ∧
          ∀ q, Holds s1 q ↔ Holds s q ∧ ¬ (q = p ∧ pick q = true) := by
        rcases hpk : pick p with _ | _
        · refine ⟨t, s, by simp [eraseIf, hpk], hi, rfl, rfl, rfl, rfl, rfl, ?_⟩
          intro q
          constructor
          · intro hq; refine ⟨hq, ?_⟩; rintro ⟨rfl, hq'⟩; rw [hpk] at hq'; cases hq'
          · exact fun hq => hq.1
        · obtain ⟨t1, hrun, hi1, hnd, hcp, hmn, hh1⟩ := removeEntry_spec hi hget hp
          refine ⟨t1, _, by simp [eraseIf, hpk, Iter.erase, hemp, hrun], hi1, List.length_set, ?_, hnd, hcp, hmn, ?_⟩
          · rw [List.drop_set_of_lt (by omega)]
          · intro q
            rw [hh1]
            constructor
            · rintro ⟨hq, hk⟩
              refine ⟨hq, ?_⟩
              rintro ⟨rfl, _⟩; exact hk rfl
            · rintro ⟨hq, hk⟩
              refine ⟨hq, fun hkk => hk ?_⟩
              have := holds_key_inj hi.sinv hq ⟨j, e, hget, hp⟩ hkk
              subst this; exact ⟨rfl, hpk⟩
      obtain ⟨t1, s1, hrun1, hi1, hlen1, hdrop1, hnd1, hcp1, hmn1, hh1⟩ := step
      rw [hrun1]
      simp only [Iter.next, bind, Except.bind]
      obtain ⟨j', hskip, hj1, hj2, hdead, hlv⟩ := skipDead_spec hi1.tbl (s1.length - (j + 1)) (j + 1)
        (by omega)
      rw [hlen1] at hskip
      rw [hskip]
      simp only
      rw [← hlen1]
      obtain ⟨t2, s2, hrun2, hi2, hnd2, hcp2, hmn2, hh2⟩ := ih t1 s1 j' (p :: acc) hi1 (by omega) (by omega) hlv
      have hcj : contents (s.drop (j + 1)) = contents (s1.drop j') := by
        rw [← hdrop1]
        have := contents_skip hi1.sinv.wf (j' - (j + 1)) (j + 1) (by omega)
          (fun x e h1 h2 => hdead x e h1 (by omega))
        rw [this, show j + 1 + (j' - (j + 1)) = j' by omega]
      refine ⟨t2, s2, ?_, hi2, by omega, by omega, by omega, ?_⟩
      · rw [hrun2, hcont, ← hcj]; simp
      · intro q
        rw [hh2, hh1, hcont, ← hcj]
        constructor
        · rintro ⟨⟨hq, h1⟩, h2⟩
          refine ⟨hq, ?_⟩
          rintro ⟨hm, hpk⟩
          rcases List.mem_cons.1 hm with rfl | hm
          · exact h1 ⟨rfl, hpk⟩
          · exact h2 ⟨hm, hpk⟩
        · rintro ⟨hq, h1⟩
          refine ⟨⟨hq, ?_⟩, ?_⟩
          · rintro ⟨rfl, hpk⟩; exact h1 ⟨List.mem_cons_self, hpk⟩
          · rintro ⟨hm, hpk⟩; exact h1 ⟨List.mem_cons_of_mem _ hm, hpk⟩

theorem sweep_spec (pick : P → Bool) {t : Table P} {s : List (Slot P)} (hi : Inv c keyOf h t s) :
    ∃ t' s', sweep pick t = .ok (t', contents s) ∧
      Inv c keyOf h t' s' ∧ t'.nelements + t'.ndeleted = t.nelements + t.ndeleted ∧
      t'.capacity = t.capacity ∧ t'.minCapacity = t.minCapacity ∧
      ∀ q, Holds s' q ↔ Holds s q ∧ ¬ pick q = true := by
  unfold sweep iter
  rw [hi.cap]
  obtain ⟨j, hskip, hj1, hj2, hdead, hlv⟩ := skipDead_spec hi.tbl s.length 0 (by omega)
  simp only [bind, Except.bind]
  rw [hskip]
  simp only
  obtain ⟨t2, s2, hrun2, hi2, hnd2, hcp2, hmn2, hh2⟩ := sweepLoop_spec pick (s.length + 1) t s j [] hi
    (by omega) (by omega) hlv
  have hcj : contents s = contents (s.drop j) := by
    have := contents_skip hi.sinv.wf j 0 (by omega) (fun x e h1 h2 => hdead x e h1 (by omega))
    rw [List.drop_zero, Nat.zero_add] at this
    exact this
  refine ⟨t2, s2, by rw [hrun2, hcj]; simp, hi2, hnd2, by rw [hcp2, hi.cap], hmn2, ?_⟩
  intro q
  rw [hh2, ← hcj]
  constructor
  · rintro ⟨hq, h1⟩; exact ⟨hq, fun hpk => h1 ⟨mem_contents.2 hq, hpk⟩⟩
  · rintro ⟨hq, h1⟩; exact ⟨hq, fun hpk => h1 hpk.2⟩

end Verif.HashTable
