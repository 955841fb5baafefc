import Verif.PQueue.Spec
/-! # Heap lemmas -/
namespace Verif.PQueue
open Verif

variable {T : Type} {hp : T → T → Bool}

theorem StrictWeak.asymm (h : StrictWeak hp) {a b : T} (hab : hp a b = true) : hp b a = false := by
  cases hba : hp b a with
  | false => rfl
  | true => have := h.trans a b a hab hba; rw [h.irrefl] at this; cases this

/-- No item outranks its parent. -/
def Heap (hp : T → T → Bool) (v : List T) : Prop :=
  ∀ i x y, 0 < i → v[i]? = some x → v[(i - 1) / 2]? = some y → hp x y = false

/-- Heap except possibly between `c` and its parent. -/
def UpInv (hp : T → T → Bool) (v : List T) (c : Nat) : Prop :=
  (∀ i x y, 0 < i → i ≠ c → v[i]? = some x → v[(i - 1) / 2]? = some y → hp x y = false) ∧
  (∀ i x y, 0 < i → 0 < c → (i - 1) / 2 = c → v[i]? = some x → v[(c - 1) / 2]? = some y → hp x y = false)

/-- Heap except possibly between `c` and its children. -/
def DownInv (hp : T → T → Bool) (v : List T) (c : Nat) : Prop :=
  (∀ i x y, 0 < i → (i - 1) / 2 ≠ c → v[i]? = some x → v[(i - 1) / 2]? = some y → hp x y = false) ∧
  (∀ i x y, 0 < i → 0 < c → (i - 1) / 2 = c → v[i]? = some x → v[(c - 1) / 2]? = some y → hp x y = false)

theorem get_map {v : List T} {i : Nat} {x : T} (h : v[i]? = some x) : get (v.map some) i = .ok x := by
  simp [get, h]

theorem put_map {v : List T} {i : Nat} (h : i < v.length) (x : T) :
    put (v.map some) i x = .ok ((v.set i x).map some) := by
  simp [put, h, List.map_set]

/-- Exchange of two elements. -/
def swp (v : List T) (i j : Nat) (x y : T) : List T := (v.set i y).set j x

theorem swp_length (v : List T) (i j : Nat) (x y : T) : (swp v i j x y).length = v.length := by
  simp [swp]

theorem swp_perm {v : List T} {i j : Nat} {x y : T} (hi : v[i]? = some x) (hj : v[j]? = some y) :
    (swp v i j x y).Perm v := by
  obtain ⟨h1, rfl⟩ := List.getElem?_eq_some_iff.1 hi
  obtain ⟨h2, rfl⟩ := List.getElem?_eq_some_iff.1 hj
  exact List.set_set_perm h1 h2

theorem swp_get {v : List T} {i j : Nat} {x y : T} (hi : v[i]? = some x) (hj : v[j]? = some y) (k : Nat) :
    (swp v i j x y)[k]? = if k = j then some x else if k = i then some y else v[k]? := by
  have h1 : i < v.length := (List.getElem?_eq_some_iff.1 hi).1
  have h2 : j < v.length := (List.getElem?_eq_some_iff.1 hj).1
  unfold swp
  rw [List.getElem?_set, List.getElem?_set]
  by_cases hk : k = j
  · subst hk; simp [h2]
  · rw [if_neg (fun e => hk e.symm), if_neg hk]
    by_cases hk' : k = i
    · subst hk'; simp [h1]
    · rw [if_neg (fun e => hk' e.symm), if_neg hk']

theorem upLoop_spec (key : T) : ∀ (fuel c : Nat) (v : List T), c < fuel → v[c]? = some key →
    ∃ v', upLoop hp key ((v.map some).set c none) c fuel = .ok (v'.map some) ∧ v'.Perm v ∧
      (StrictWeak hp → UpInv hp v c → Heap hp v') := by
  intro fuel
  induction fuel with
  | zero => intro c v h; omega
  | succ fuel ih =>
    intro c v hf hc
    have hcl : c < v.length := (List.getElem?_eq_some_iff.1 hc).1
    have hput : put ((v.map some).set c none) c key = .ok (v.map some) := by
      rw [put, if_pos (by simpa using hcl), List.set_set]
      congr 1
      apply List.ext_getElem?
      intro i
      rw [List.getElem?_set]
      split
      · rename_i h; subst h; simp only [List.length_map, hcl, if_true, List.getElem?_map, hc]; rfl
      · rfl
    unfold upLoop
    by_cases h0 : c = 0
    · subst h0
      rw [if_pos rfl, hput]
      refine ⟨v, rfl, .refl _, fun _ hu i x y hi hx hy => ?_⟩
      exact hu.1 i x y hi (by omega) hx hy
    · rw [if_neg h0]
      have hpl : parentOf c < c := by unfold parentOf; omega
      obtain ⟨p, hp'⟩ : ∃ p, v[parentOf c]? = some p := ⟨v[parentOf c], List.getElem?_eq_getElem (by omega)⟩
      have hget : get ((v.map some).set c none) (parentOf c) = .ok p := by
        unfold get
        rw [List.getElem?_set_ne (by omega)]
        simp [hp']
      simp only [take, bind, Except.bind, hget]
      by_cases hk : hp key p = true
      · rw [if_neg (by simp [hk])]
        have e1 : put (((v.map some).set c none).set (parentOf c) none) c p =
            .ok (((swp v c (parentOf c) key p).map some).set (parentOf c) none) := by
          rw [put, if_pos (by simpa using hcl)]
          congr 1
          apply List.ext_getElem?
          intro i
          simp only [List.getElem?_set, List.getElem?_map, List.length_set, List.length_map,
            swp_get hc hp', swp_length]
          by_cases hic : c = i
          · subst hic
            have hne : parentOf c ≠ c := by omega
            have hne' : c ≠ parentOf c := by omega
            simp [hcl, hne, hne']
          · by_cases hip : parentOf c = i
            · subst hip
              simp [hic]
            · have h1 : i ≠ c := fun e => hic e.symm
              have h2 : i ≠ parentOf c := fun e => hip e.symm
              simp [hic, hip, h1, h2]
        simp only [e1]
        have hsw : (swp v c (parentOf c) key p)[parentOf c]? = some key := by
          rw [swp_get hc hp', if_pos rfl]
        obtain ⟨v', hv', hperm, hheap⟩ := ih (parentOf c) (swp v c (parentOf c) key p) (by omega) hsw
        refine ⟨v', hv', hperm.trans (swp_perm hc hp'), fun hw hu => hheap hw ?_⟩
        have hpc : (c - 1) / 2 = parentOf c := rfl
        constructor
        · intro i x y hi hne hx hy
          rw [swp_get hc hp'] at hx hy
          rw [if_neg hne] at hx
          by_cases hic : i = c
          · subst hic
            rw [if_pos rfl] at hx
            rw [hpc, if_pos rfl] at hy
            cases hx; cases hy
            exact hw.asymm hk
          · rw [if_neg hic] at hx
            by_cases hpp : (i - 1) / 2 = parentOf c
            · rw [hpp, if_pos rfl] at hy
              cases hy
              -- x ≤ p < key
              have h1 := hu.1 i x p hi hic hx (by rw [hpp]; exact hp')
              exact hw.negTrans x p key h1 (hw.asymm hk)
            · rw [if_neg hpp] at hy
              by_cases hpc' : (i - 1) / 2 = c
              · rw [if_pos hpc'] at hy
                cases hy
                exact hu.2 i x p hi (by omega) hpc' hx hp'
              · rw [if_neg hpc'] at hy
                exact hu.1 i x y hi hic hx hy
        · intro i x y hi hp0 hpar hx hy
          rw [swp_get hc hp'] at hx hy
          have hne1 : i ≠ parentOf c := by omega
          have hne2 : (parentOf c - 1) / 2 ≠ parentOf c := by omega
          have hne3 : (parentOf c - 1) / 2 ≠ c := by omega
          rw [if_neg hne1] at hx
          rw [if_neg hne2, if_neg hne3] at hy
          have hpq := hu.1 (parentOf c) p y hp0 (by omega) hp' hy
          by_cases hic : i = c
          · rw [if_pos hic] at hx
            cases hx
            exact hpq
          · rw [if_neg hic] at hx
            exact hw.negTrans x p y (hu.1 i x p hi hic hx (by rw [hpar]; exact hp')) hpq
      · rw [if_pos (by simp [hk]), hput]
        refine ⟨v, rfl, .refl _, fun _ hu i x y hi hx hy => ?_⟩
        by_cases hic : i = c
        · subst hic
          have h1 : (i - 1) / 2 = parentOf i := rfl
          rw [h1, hp'] at hy
          rw [hc] at hx
          cases hx; cases hy
          simpa using hk
        · exact hu.1 i x y hi hic hx hy

theorem bestChild_spec {v : List T} {c : Nat} (hl : c * 2 + 1 < v.length) :
    ∃ b x, bestChild hp (v.map some) c = .ok b ∧ v[b]? = some x ∧ (b - 1) / 2 = c ∧ 0 < b ∧ c < b ∧
      (StrictWeak hp → ∀ i y, 0 < i → (i - 1) / 2 = c → v[i]? = some y → hp y x = false) := by
  obtain ⟨l, hll⟩ : ∃ l, v[c * 2 + 1]? = some l := ⟨v[c * 2 + 1], List.getElem?_eq_getElem hl⟩
  unfold bestChild hasRightChild rightChildOf leftChildOf
  by_cases hr : c * 2 + 2 < v.length
  · obtain ⟨r, hrr⟩ : ∃ r, v[c * 2 + 2]? = some r := ⟨v[c * 2 + 2], List.getElem?_eq_getElem hr⟩
    rw [if_pos (by simpa using hr)]
    simp only [bind, Except.bind, get_map hll, get_map hrr]
    by_cases hrl : hp r l = true
    · rw [if_pos hrl]
      refine ⟨c * 2 + 2, r, rfl, hrr, by omega, by omega, by omega, fun hw i y hi hpar hy => ?_⟩
      rcases (by omega : i = c * 2 + 1 ∨ i = c * 2 + 2) with h | h
      · subst h; rw [hll] at hy; cases hy; exact hw.asymm hrl
      · subst h; rw [hrr] at hy; cases hy; exact hw.irrefl _
    · rw [if_neg hrl]
      refine ⟨c * 2 + 1, l, rfl, hll, by omega, by omega, by omega, fun hw i y hi hpar hy => ?_⟩
      rcases (by omega : i = c * 2 + 1 ∨ i = c * 2 + 2) with h | h
      · subst h; rw [hll] at hy; cases hy; exact hw.irrefl _
      · subst h; rw [hrr] at hy; cases hy; simpa using hrl
  · rw [if_neg (by simpa using hr)]
    refine ⟨c * 2 + 1, l, rfl, hll, by omega, by omega, by omega, fun hw i y hi hpar hy => ?_⟩
    rcases (by omega : i = c * 2 + 1 ∨ i = c * 2 + 2) with h | h
    · subst h; rw [hll] at hy; cases hy; exact hw.irrefl _
    · subst h
      have := (List.getElem?_eq_some_iff.1 hy).1
      omega

theorem down_spec : ∀ (fuel c : Nat) (v : List T), c < v.length → v.length < fuel + c →
    ∃ v', propagateDown hp (v.map some) c fuel = .ok (v'.map some) ∧ v'.Perm v ∧
      (StrictWeak hp → DownInv hp v c → Heap hp v') := by
  intro fuel
  induction fuel with
  | zero => intro c v h1 h2; omega
  | succ fuel ih =>
    intro c v hc hf
    unfold propagateDown hasLeftChild leftChildOf
    by_cases hl : c * 2 + 1 < v.length
    · rw [if_pos (by simpa using hl)]
      obtain ⟨b, x, hb, hbx, hpar, hb0, hcb, hbest⟩ := bestChild_spec (hp := hp) hl
      obtain ⟨k, hk⟩ : ∃ k, v[c]? = some k := ⟨v[c], List.getElem?_eq_getElem hc⟩
      have hbl : b < v.length := (List.getElem?_eq_some_iff.1 hbx).1
      simp only [bind, Except.bind, hb, get_map hbx, get_map hk]
      by_cases hh : hp x k = true
      · rw [if_neg (by simp [hh]), put_map hbl]
        simp only []
        rw [put_map (by simpa using hc)]
        simp only []
        have hsw : (v.set b k).set c x = swp v b c x k := rfl
        rw [hsw]
        obtain ⟨v', hv', hperm, hheap⟩ := ih b (swp v b c x k) (by rw [swp_length]; exact hbl)
          (by rw [swp_length]; omega)
        refine ⟨v', hv', hperm.trans (swp_perm hbx hk), fun hw hd => hheap hw ?_⟩
        constructor
        · intro i y z hi hne hy hz
          rw [swp_get hbx hk] at hy hz
          by_cases hic : i = c
          · subst hic
            rw [if_pos rfl] at hy
            cases hy
            rw [if_neg (by omega), if_neg hne] at hz
            exact hd.2 b x z hb0 hi hpar hbx hz
          · rw [if_neg hic] at hy
            by_cases hib : i = b
            · subst hib
              rw [if_pos rfl] at hy
              cases hy
              rw [if_pos hpar] at hz
              cases hz
              exact hw.asymm hh
            · rw [if_neg hib] at hy
              by_cases hpc : (i - 1) / 2 = c
              · rw [if_pos hpc] at hz
                cases hz
                exact hbest hw i y hi hpc hy
              · rw [if_neg hpc, if_neg hne] at hz
                exact hd.1 i y z hi hpc hy hz
        · intro i y z hi _ hpar' hy hz
          rw [swp_get hbx hk] at hy hz
          rw [if_neg (by omega), if_neg (by omega)] at hy
          rw [if_pos hpar] at hz
          cases hz
          exact hd.1 i y x hi (by omega) hy (by rw [hpar']; exact hbx)
      · rw [if_pos (by simp [hh])]
        refine ⟨v, rfl, .refl _, fun hw hd i y z hi hy hz => ?_⟩
        by_cases hpc : (i - 1) / 2 = c
        · rw [hpc, hk] at hz
          cases hz
          exact hw.negTrans y x k (hbest hw i y hi hpc hy) (by simpa using hh)
        · exact hd.1 i y z hi hpc hy hz
    · rw [if_neg (by simpa using hl)]
      refine ⟨v, rfl, .refl _, fun hw hd i y z hi hy hz => ?_⟩
      by_cases hpc : (i - 1) / 2 = c
      · have := (List.getElem?_eq_some_iff.1 hy).1
        omega
      · exact hd.1 i y z hi hpc hy hz

theorem heap_root (hw : StrictWeak hp) {v : List T} (h : Heap hp v) {r : T} (hr : v[0]? = some r) :
    ∀ (i : Nat) (x : T), v[i]? = some x → hp x r = false := by
  intro i
  induction i using Nat.strongRecOn with
  | ind i ih =>
    intro x hx
    by_cases h0 : i = 0
    · subst h0; rw [hr] at hx; cases hx; exact hw.irrefl _
    · have hl := (List.getElem?_eq_some_iff.1 hx).1
      obtain ⟨p, hp'⟩ : ∃ p, v[(i - 1) / 2]? = some p := ⟨v[(i - 1) / 2], List.getElem?_eq_getElem (by omega)⟩
      exact hw.negTrans x p r (h i x p (by omega) hx hp') (ih _ (by omega) p hp')

theorem add_spec (v : List T) (x : T) :
    ∃ v', add hp (v.map some) x = .ok (v'.map some) ∧ v'.Perm (x :: v) ∧
      (StrictWeak hp → Heap hp v → Heap hp v') := by
  unfold add
  have hm : v.map some ++ [some x] = (v ++ [x]).map some := by simp
  have hp1 : (v ++ [x]).Perm (x :: v) := List.perm_append_singleton x v
  simp only [hm]
  by_cases h1 : ((v ++ [x]).map some).length > 1
  · rw [if_pos h1]
    have hlen : ((v ++ [x]).map some).length - 1 = v.length := by simp
    rw [hlen]
    have hx : (v ++ [x])[v.length]? = some x := by simp
    unfold propagateUp take
    simp only [bind, Except.bind, get_map hx]
    obtain ⟨v', hv', hperm, hheap⟩ := upLoop_spec (hp := hp) x
      ((((v ++ [x]).map some).set v.length none).length + 1) v.length (v ++ [x]) (by simp; omega) hx
    refine ⟨v', hv', hperm.trans hp1, fun hw hh => hheap hw ⟨?_, ?_⟩⟩
    · intro i a b hi hne ha hb
      have hil := (List.getElem?_eq_some_iff.1 ha).1
      simp only [List.length_append, List.length_singleton] at hil
      rw [List.getElem?_append_left (by omega)] at ha hb
      exact hh i a b hi ha hb
    · intro i a b hi _ hpar ha _
      have hil := (List.getElem?_eq_some_iff.1 ha).1
      simp only [List.length_append, List.length_singleton] at hil
      omega
  · rw [if_neg h1]
    refine ⟨v ++ [x], rfl, hp1, fun _ _ i a b hi ha _ => ?_⟩
    have hil := (List.getElem?_eq_some_iff.1 ha).1
    simp only [List.length_map] at h1
    omega

theorem pop_spec (v : List T) (hne : v ≠ []) :
    ∃ r v', v[0]? = some r ∧ pop hp (v.map some) = .ok (r, v'.map some) ∧ v.Perm (r :: v') ∧
      (StrictWeak hp → Heap hp v → Heap hp v') := by
  cases v with
  | nil => exact absurd rfl hne
  | cons r t =>
    have he : empty ((r :: t).map some) = false := rfl
    unfold pop
    rw [he, if_neg (by decide)]
    have hg : get (some r :: t.map some) 0 = .ok r := rfl
    simp only [take, bind, Except.bind, List.map_cons, List.set_cons_zero, hg]
    by_cases ht : t = []
    · subst ht
      refine ⟨r, [], rfl, rfl, .refl _, fun _ _ i a b _ ha _ => by simp at ha⟩
    · obtain ⟨m, z, rfl⟩ : ∃ m z, t = m ++ [z] := ⟨t.dropLast, t.getLast ht, (List.dropLast_concat_getLast ht).symm⟩
      rw [if_neg (by simp)]
      have hlen : (none :: (m ++ [z]).map some).length - 1 = m.length + 1 := by simp
      rw [hlen]
      have hgz : get (none :: (m ++ [z]).map some) (m.length + 1) = .ok z := by simp [get]
      simp only [hgz]
      have hput : put ((none :: (m ++ [z]).map some).set (m.length + 1) none) 0 z =
          .ok (((z :: m).map some) ++ [none]) := by
        rw [put, if_pos (by simp)]
        simp
      simp only [hput, List.dropLast_concat]
      obtain ⟨v', hv', hperm, hheap⟩ := down_spec (hp := hp) (((z :: m).map some).length + 1) 0 (z :: m) (by simp)
        (by simp)
      rw [hv']
      refine ⟨r, v', rfl, rfl, ?_, fun hw hh => hheap hw ⟨?_, ?_⟩⟩
      · refine .cons r (((List.perm_append_singleton z m)).trans hperm.symm)
      · intro i a b hi hpar ha hb
        have hil := (List.getElem?_eq_some_iff.1 ha).1
        simp only [List.length_cons] at hil
        obtain ⟨i', rfl⟩ : ∃ i', i = i' + 1 := ⟨i - 1, by omega⟩
        obtain ⟨p', hp'⟩ : ∃ p', (i' + 1 - 1) / 2 = p' + 1 := ⟨(i' + 1 - 1) / 2 - 1, by omega⟩
        rw [hp'] at hb
        simp only [List.getElem?_cons_succ] at ha hb
        refine hh (i' + 1) a b hi ?_ ?_
        · simp only [List.getElem?_cons_succ]
          rw [List.getElem?_append_left (by omega)]; exact ha
        · rw [hp']
          simp only [List.getElem?_cons_succ]
          rw [List.getElem?_append_left (by omega)]; exact hb
      · intro i a b hi h0; omega

end Verif.PQueue
