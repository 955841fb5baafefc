import Verif.PQueue.SpecCmp
import Verif.PQueue.Props
/-!
# C117: queues that are moved. C118: how often the comparator is called
-/
namespace Verif.PQueue
open Verif

variable {T S : Type}

/-! ## C118 -/

theorem counted_ok {cmp : Cmp T S} (h : Returns cmp) (a b : T) (s : S) (n : Nat) : ∃ r s', counted cmp a b (s, n) = .ok (r, (s', n + 1)) := by
  obtain ⟨r, s', h1⟩ := h a b s
  exact ⟨r, s', by simp [counted, h1]⟩

theorem log2_mono {a b : Nat} (h : a ≤ b) : a.log2 ≤ b.log2 := by
  by_cases ha : a = 0
  · subst ha; simp [Nat.log2_zero]
  · exact (Nat.le_log2 (by omega)).mpr (Nat.le_trans (Nat.log2_self_le ha) h)

theorem log2_child {b c : Nat} (hb : 0 < b) (h : (b - 1) / 2 = c) : (b + 1).log2 = (c + 1).log2 + 1 := by
  rw [Nat.log2_def (b + 1), if_pos (by omega), show (b + 1) / 2 = c + 1 by omega]

theorem upLoopC_count {cmp : Cmp T S} (hcmp : Returns cmp) (key : T) : ∀ (fuel c : Nat) (v : List T) (s : S) (n : Nat), c < fuel → v[c]? = some key →
    ∃ (v' : List T) (s' : S) (n' : Nat), upLoopC (counted cmp) key ((v.map some).set c none) c (s, n) fuel = .ok (v'.map some, (s', n')) ∧ v'.Perm v ∧
      n' ≤ n + (c + 1).log2 := by
  intro fuel
  induction fuel with
  | zero => intro c v s n h; omega
  | succ fuel ih =>
    intro c v s n hf hc
    have hcl : c < v.length := (List.getElem?_eq_some_iff.1 hc).1
    have hput : put ((v.map some).set c none) c key = .ok (v.map some) := by
      rw [put, if_pos (by simpa using hcl), List.set_set]
      congr 1
      apply List.ext_getElem?
      intro i
      rw [List.getElem?_set]
      split
      · rename_i h; subst h; simp only [List.length_map, hcl, if_true, List.getElem?_map, hc]; rfl
      · rfl
    unfold upLoopC
    by_cases h0 : c = 0
    · subst h0
      rw [if_pos rfl, hput]
      exact ⟨v, s, n, rfl, .refl _, by omega⟩
    · rw [if_neg h0]
      have hpl : parentOf c < c := by unfold parentOf; omega
      obtain ⟨p, hp'⟩ : ∃ p, v[parentOf c]? = some p := ⟨v[parentOf c], List.getElem?_eq_getElem (by omega)⟩
      have hget : get ((v.map some).set c none) (parentOf c) = .ok p := by
        unfold get
        rw [List.getElem?_set_ne (by omega)]
        simp [hp']
      have hlog : (c + 1).log2 = (parentOf c + 1).log2 + 1 := log2_child (by omega) rfl
      obtain ⟨r, s', hr⟩ := counted_ok hcmp key p s n
      simp only [take, bind, Except.bind, hget, hr]
      cases r with
      | false => exact ⟨v, s', n + 1, by simp [hput], .refl _, by omega⟩
      | true =>
        have e1 : put (((v.map some).set c none).set (parentOf c) none) c p =
            .ok (((swp v c (parentOf c) key p).map some).set (parentOf c) none) := by
          rw [put, if_pos (by simpa using hcl)]
          congr 1
          apply List.ext_getElem?
          intro i
          simp only [List.getElem?_set, List.getElem?_map, List.length_set, List.length_map,
            swp_get hc hp', swp_length]
          by_cases hic : c = i
          · subst hic
            have hne : parentOf c ≠ c := by omega
            have hne' : c ≠ parentOf c := by omega
            simp [hcl, hne, hne']
          · by_cases hip : parentOf c = i
            · subst hip
              simp [hic]
            · have h1 : i ≠ c := fun e => hic e.symm
              have h2 : i ≠ parentOf c := fun e => hip e.symm
              simp [hic, hip, h1, h2]
        simp only [e1, Bool.not_true, Bool.false_eq_true, if_false]
        have hsw : (swp v c (parentOf c) key p)[parentOf c]? = some key := by
          rw [swp_get hc hp', if_pos rfl]
        obtain ⟨v', s'', n', hv', hperm, hn⟩ := ih (parentOf c) (swp v c (parentOf c) key p) s' (n + 1) (by omega) hsw
        exact ⟨v', s'', n', hv', hperm.trans (swp_perm hc hp'), by omega⟩

theorem bestChildC_count {cmp : Cmp T S} (hcmp : Returns cmp) {v : List T} {c : Nat} (s : S) (n : Nat) (hl : c * 2 + 1 < v.length) :
    ∃ (b : Nat) (x : T) (s' : S) (n' : Nat), bestChildC (counted cmp) (v.map some) c (s, n) = .ok (b, (s', n')) ∧ v[b]? = some x ∧ (b - 1) / 2 = c ∧ 0 < b ∧ n' ≤ n + 1 := by
  obtain ⟨l, hll⟩ : ∃ l, v[c * 2 + 1]? = some l := ⟨v[c * 2 + 1], List.getElem?_eq_getElem hl⟩
  unfold bestChildC hasRightChild rightChildOf leftChildOf
  by_cases hr : c * 2 + 2 < v.length
  · obtain ⟨r, hrr⟩ : ∃ r, v[c * 2 + 2]? = some r := ⟨v[c * 2 + 2], List.getElem?_eq_getElem hr⟩
    rw [if_pos (by simpa using hr)]
    obtain ⟨b, s', hb⟩ := counted_ok hcmp r l s n
    simp only [bind, Except.bind, get_map hll, get_map hrr, hb]
    cases b with
    | true => exact ⟨c * 2 + 2, r, s', n + 1, rfl, hrr, by omega, by omega, by omega⟩
    | false => exact ⟨c * 2 + 1, l, s', n + 1, rfl, hll, by omega, by omega, by omega⟩
  · rw [if_neg (by simpa using hr)]
    exact ⟨c * 2 + 1, l, s, n, rfl, hll, by omega, by omega, by omega⟩

theorem downC_count {cmp : Cmp T S} (hcmp : Returns cmp) : ∀ (fuel c : Nat) (v : List T) (s : S) (n : Nat), c < v.length → v.length < fuel + c →
    ∃ (v' : List T) (s' : S) (n' : Nat), propagateDownC (counted cmp) (v.map some) c (s, n) fuel = .ok (v'.map some, (s', n')) ∧ v'.Perm v ∧
      n' + 2 * (c + 1).log2 ≤ n + 2 * v.length.log2 := by
  intro fuel
  induction fuel with
  | zero => intro c v s n h1 h2; omega
  | succ fuel ih =>
    intro c v s n hc hf
    have hm : (c + 1).log2 ≤ v.length.log2 := log2_mono (by omega)
    unfold propagateDownC hasLeftChild leftChildOf
    by_cases hl : c * 2 + 1 < v.length
    · rw [if_pos (by simpa using hl)]
      obtain ⟨b, x, s1, n1, hb, hbx, hpar, hb0, hn1⟩ := bestChildC_count hcmp s n hl
      obtain ⟨k, hk⟩ : ∃ k, v[c]? = some k := ⟨v[c], List.getElem?_eq_getElem hc⟩
      have hbl : b < v.length := (List.getElem?_eq_some_iff.1 hbx).1
      have hm2 : (b + 1).log2 ≤ v.length.log2 := log2_mono (by omega)
      have hlog := log2_child hb0 hpar
      obtain ⟨r, s2, hr⟩ := counted_ok hcmp x k s1 n1
      simp only [bind, Except.bind, hb, get_map hbx, get_map hk, hr]
      cases r with
      | false => exact ⟨v, s2, n1 + 1, by simp, .refl _, by omega⟩
      | true =>
        simp only [Bool.not_true, Bool.false_eq_true, if_false]
        rw [put_map hbl]
        simp only []
        rw [put_map (by simpa using hc)]
        simp only []
        have hsw : (v.set b k).set c x = swp v b c x k := rfl
        rw [hsw]
        obtain ⟨v', s', n', hv', hperm, hn⟩ := ih b (swp v b c x k) s2 (n1 + 1) (by rw [swp_length]; exact hbl)
          (by rw [swp_length]; omega)
        rw [swp_length] at hn
        exact ⟨v', s', n', hv', hperm.trans (swp_perm hbx hk), by omega⟩
    · rw [if_neg (by simpa using hl)]
      exact ⟨v, s, n, rfl, .refl _, by omega⟩

/-- **C118 (`add`, `emplace`).** Whatever the comparator answers, adding to a queue of `k` items calls it at most `⌊log2 (k + 1)⌋` times, and the item is added. -/
theorem C118_add {cmp : Cmp T S} (hcmp : Returns cmp) (v : List T) (x : T) (s : S) (n : Nat) :
    ∃ (v' : List T) (s' : S) (n' : Nat), addC (counted cmp) (v.map some) x (s, n) = .ok (v'.map some, (s', n')) ∧ v'.Perm (x :: v) ∧ n' ≤ n + (v.length + 1).log2 := by
  unfold addC
  have hm : v.map some ++ [some x] = (v ++ [x]).map some := by simp
  have hp1 : (v ++ [x]).Perm (x :: v) := List.perm_append_singleton x v
  simp only [hm]
  by_cases h1 : ((v ++ [x]).map some).length > 1
  · rw [if_pos h1]
    have hlen : ((v ++ [x]).map some).length - 1 = v.length := by simp
    rw [hlen]
    have hx : (v ++ [x])[v.length]? = some x := by simp
    unfold propagateUpC take
    simp only [bind, Except.bind, get_map hx]
    obtain ⟨v', s', n', hv', hperm, hn⟩ := upLoopC_count hcmp x
      ((((v ++ [x]).map some).set v.length none).length + 1) v.length (v ++ [x]) s n (by simp; omega) hx
    exact ⟨v', s', n', hv', hperm.trans hp1, hn⟩
  · rw [if_neg h1]
    exact ⟨v ++ [x], s, n, rfl, hp1, by omega⟩

/-- **C118 (`pop`).** Whatever the comparator answers, popping from a queue of `k` items calls it at most `2 ⌊log2 (k - 1)⌋` times, and takes the first item. -/
theorem C118_pop {cmp : Cmp T S} (hcmp : Returns cmp) (v : List T) (hne : v ≠ []) (s : S) (n : Nat) :
    ∃ (r : T) (v' : List T) (s' : S) (n' : Nat), popC (counted cmp) (v.map some) (s, n) = .ok (r, v'.map some, (s', n')) ∧ v[0]? = some r ∧ v.Perm (r :: v') ∧
      n' ≤ n + 2 * (v.length - 1).log2 := by
  cases v with
  | nil => exact absurd rfl hne
  | cons r t =>
    have he : empty ((r :: t).map some) = false := rfl
    unfold popC
    rw [he, if_neg (by decide)]
    have hg : get (some r :: t.map some) 0 = .ok r := rfl
    simp only [take, bind, Except.bind, List.map_cons, List.set_cons_zero, hg]
    by_cases ht : t = []
    · subst ht
      exact ⟨r, [], s, n, rfl, rfl, .refl _, by simp⟩
    · obtain ⟨m, z, rfl⟩ : ∃ m z, t = m ++ [z] := ⟨t.dropLast, t.getLast ht, (List.dropLast_concat_getLast ht).symm⟩
      rw [if_neg (by simp)]
      have hlen : (none :: (m ++ [z]).map some).length - 1 = m.length + 1 := by simp
      rw [hlen]
      have hgz : get (none :: (m ++ [z]).map some) (m.length + 1) = .ok z := by simp [get]
      simp only [hgz]
      have hput : put ((none :: (m ++ [z]).map some).set (m.length + 1) none) 0 z =
          .ok (((z :: m).map some) ++ [none]) := by
        rw [put, if_pos (by simp)]
        simp
      simp only [hput, List.dropLast_concat]
      obtain ⟨v', s', n', hv', hperm, hn⟩ := downC_count hcmp (((z :: m).map some).length + 1) 0 (z :: m) s n (by simp) (by simp)
      rw [hv']
      refine ⟨r, v', s', n', rfl, rfl, .cons r (((List.perm_append_singleton z m)).trans hperm.symm), ?_⟩
      simp [Nat.log2_def 1] at hn ⊢
      omega

theorem execC_count {cmp : Cmp T S} (hcmp : Returns cmp) (v : List T) (s : S) (n : Nat) (op : Op T) (ops : List (Op T)) (hl : legal v.length (op :: ops) = true) :
    ∃ (v' : List T) (o : Out T) (s' : S) (n' : Nat), execC (counted cmp) (v.map some) (s, n) op = .ok (v'.map some, (s', n'), o) ∧
      legal v'.length ops = true ∧ n' + budget v'.length ops ≤ n + budget v.length (op :: ops) := by
  cases op with
  | add x =>
    obtain ⟨v', s', n', h1, h2, h3⟩ := C118_add hcmp v x s n
    have hlen : v'.length = v.length + 1 := by simpa using h2.length_eq
    refine ⟨v', .done, s', n', by simp only [execC, bind, Except.bind, h1], by rw [hlen]; exact hl, ?_⟩
    rw [hlen]; simp only [budget]; omega
  | pop =>
    have hne : v ≠ [] := by rintro rfl; simp [legal] at hl
    obtain ⟨r, v', s', n', h1, -, h2, h3⟩ := C118_pop hcmp v hne s n
    have hlen : v.length = v'.length + 1 := by simpa using h2.length_eq
    rw [hlen] at hl h3 ⊢
    refine ⟨v', .item r, s', n', by simp only [execC, bind, Except.bind, h1], hl, ?_⟩
    simp only [budget, Nat.add_sub_cancel] at h3 ⊢; omega
  | peek =>
    cases v with
    | nil => simp [legal] at hl
    | cons a t => exact ⟨a :: t, .item a, s, n, rfl, hl, by simp [budget]⟩
  | empty => exact ⟨v, _, s, n, rfl, by cases v <;> exact hl, by simp [budget]⟩

theorem runC_count {cmp : Cmp T S} (hcmp : Returns cmp) : ∀ (ops : List (Op T)) (v : List T) (s : S) (n : Nat), legal v.length ops = true →
    ∃ (v' : List T) (os : List (Out T)) (s' : S) (n' : Nat), runC (counted cmp) (v.map some) (s, n) ops = .ok (v'.map some, (s', n'), os) ∧
      n' ≤ n + budget v.length ops := by
  intro ops
  induction ops with
  | nil => intro v s n _; exact ⟨v, [], s, n, rfl, by omega⟩
  | cons op ops ih =>
    intro v s n hl
    obtain ⟨v1, o, s1, n1, h1, h2, h3⟩ := execC_count hcmp v s n op ops hl
    obtain ⟨v2, os, s2, n2, h4, h5⟩ := ih v1 s1 n1 h2
    exact ⟨v2, o :: os, s2, n2, by simp only [runC, bind, Except.bind, h1, h4], by omega⟩

theorem budget_le (m : Nat) : ∀ (ops : List (Op T)) (k : Nat), k + ops.length ≤ m → budget k ops ≤ 2 * ops.length * m.log2 := by
  intro ops
  induction ops with
  | nil => intro k _; simp [budget]
  | cons op ops ih =>
    intro k hk
    simp only [List.length_cons] at hk ⊢
    have e : 2 * (ops.length + 1) * m.log2 = 2 * ops.length * m.log2 + 2 * m.log2 := by
      rw [Nat.mul_add, Nat.add_mul]
    rw [e]
    have h1 : (k + 1).log2 ≤ m.log2 := log2_mono (by omega)
    have h2 : (k - 1).log2 ≤ m.log2 := log2_mono (by omega)
    cases op with
    | add x => have := ih (k + 1) (by omega); simp only [budget]; omega
    | pop => have := ih (k - 1) (by omega); simp only [budget]; omega
    | peek => have := ih k (by omega); simp only [budget]; omega
    | empty => have := ih k (by omega); simp only [budget]; omega

/-- **C118 (histories).** Whatever the comparator answers, a history of `m` calls on a new queue that never pops or peeks it when empty runs to its end, and calls
the comparator at most `2 m ⌊log2 m⌋` times. -/
theorem C118_history {cmp : Cmp T S} (hcmp : Returns cmp) (ops : List (Op T)) (hl : legal 0 ops = true) (s : S) :
    ∃ (v : List T) (os : List (Out T)) (s' : S) (calls : Nat), runC (counted cmp) [] (s, 0) ops = .ok (v.map some, (s', calls), os) ∧
      calls ≤ 2 * ops.length * ops.length.log2 := by
  obtain ⟨v, os, s', n, h1, h2⟩ := runC_count hcmp ops [] s 0 hl
  exact ⟨v, os, s', n, h1, Nat.le_trans h2 (by simpa using budget_le ops.length ops 0 (by simp))⟩

/-- `<` on numbers as a comparator without state. -/
def ltCmp : Cmp Nat Unit := fun a b s => .ok (decide (a < b), s)

theorem ltCmp_returns : Returns ltCmp := fun _ _ _ => ⟨_, _, rfl⟩

/-- The bounds of `C118_add` and `C118_pop` are met with equality: adding 0 to seven items takes three calls, and popping from eight takes four. -/
example : addC (counted ltCmp) [some 1, some 2, some 3, some 4, some 5, some 6, some 7] 0 ((), 0) =
    .ok ([some 0, some 1, some 3, some 2, some 5, some 6, some 7, some 4], ((), 3)) := by decide +kernel
example : popC (counted ltCmp) [some 0, some 1, some 3, some 2, some 5, some 6, some 7, some 8] ((), 0) =
    .ok (0, [some 1, some 2, some 3, some 8, some 5, some 6, some 7], ((), 4)) := by decide +kernel

/-- A comparator whose answers alternate: not an order, but the bound holds for it. -/
def flip : Cmp Nat Bool := fun _ _ s => .ok (s, !s)
example : Returns flip := fun _ _ _ => ⟨_, _, rfl⟩
example : legal 0 [Op.add 3, .add 1, .add 2, .pop, .peek, .pop, .empty, .pop] = true := by decide

/-! ## C117 -/

theorem upLoopC_eq {call : Cmp T S} {ord : S → Option (T → T → Bool)} {hp : T → T → Bool}
    (hc : ∀ s a b, ord s = some hp → ∃ s', call a b s = .ok (hp a b, s') ∧ ord s' = some hp) (key : T) :
    ∀ (fuel c : Nat) (v : Vec T) (s : S) (v' : Vec T), ord s = some hp → upLoop hp key v c fuel = .ok v' →
      ∃ s', upLoopC call key v c s fuel = .ok (v', s') ∧ ord s' = some hp := by
  intro fuel
  induction fuel with
  | zero => intro c v s v' _ h; simp [upLoop] at h
  | succ fuel ih =>
    intro c v s v' ho h
    unfold upLoop at h
    unfold upLoopC
    by_cases h0 : c = 0
    · rw [if_pos h0] at h ⊢
      exact ⟨s, by simp only [bind, Except.bind, h], ho⟩
    · rw [if_neg h0] at h ⊢
      cases hg : get v (parentOf c) with
      | error f => simp only [bind, Except.bind, hg] at h; cases h
      | ok p =>
        obtain ⟨s1, h1, ho1⟩ := hc s key p ho
        simp only [bind, Except.bind, hg, h1] at h ⊢
        by_cases hb : hp key p = true
        · simp only [hb, Bool.not_true, Bool.false_eq_true, if_false, take, bind, Except.bind, hg] at h ⊢
          cases hq : put (v.set (parentOf c) none) c p with
          | error f => simp only [hq] at h; cases h
          | ok v1 =>
            simp only [hq] at h ⊢
            exact ih _ _ _ _ ho1 h
        · simp only [Bool.not_eq_true] at hb
          simp only [hb, Bool.not_false, if_true] at h ⊢
          exact ⟨s1, by simp only [h], ho1⟩

theorem addC_eq {call : Cmp T S} {ord : S → Option (T → T → Bool)} {hp : T → T → Bool}
    (hc : ∀ s a b, ord s = some hp → ∃ s', call a b s = .ok (hp a b, s') ∧ ord s' = some hp) {v v' : Vec T} {x : T} {s : S} (ho : ord s = some hp)
    (h : add hp v x = .ok v') : ∃ s', addC call v x s = .ok (v', s') ∧ ord s' = some hp := by
  unfold add at h
  unfold addC
  simp only at h ⊢
  by_cases h1 : (v ++ [some x]).length > 1
  · rw [if_pos h1] at h ⊢
    unfold propagateUp at h
    unfold propagateUpC
    cases ht : take (v ++ [some x]) ((v ++ [some x]).length - 1) with
    | error f => simp only [bind, Except.bind, ht] at h; cases h
    | ok kv =>
      simp only [bind, Except.bind, ht] at h ⊢
      exact upLoopC_eq hc _ _ _ _ _ _ ho h
  · rw [if_neg h1] at h ⊢
    cases h
    exact ⟨s, rfl, ho⟩

theorem downC_eq {call : Cmp T S} {ord : S → Option (T → T → Bool)} {hp : T → T → Bool}
    (hc : ∀ s a b, ord s = some hp → ∃ s', call a b s = .ok (hp a b, s') ∧ ord s' = some hp) :
    ∀ (fuel c : Nat) (v : Vec T) (s : S) (v' : Vec T), ord s = some hp → propagateDown hp v c fuel = .ok v' →
      ∃ s', propagateDownC call v c s fuel = .ok (v', s') ∧ ord s' = some hp := by
  intro fuel
  induction fuel with
  | zero => intro c v s v' _ h; simp [propagateDown] at h
  | succ fuel ih =>
    intro c v s v' ho h
    unfold propagateDown at h
    unfold propagateDownC
    by_cases hl : hasLeftChild v c = true
    · rw [if_pos hl] at h ⊢
      cases hb : bestChild hp v c with
      | error f => simp only [bind, Except.bind, hb] at h; cases h
      | ok best =>
        have hbc : ∃ s1, bestChildC call v c s = .ok (best, s1) ∧ ord s1 = some hp := by
          unfold bestChild at hb
          unfold bestChildC
          by_cases hr : hasRightChild v c = true
          · rw [if_pos hr] at hb ⊢
            cases h1 : get v (rightChildOf c) with
            | error f => simp only [bind, Except.bind, h1] at hb; cases hb
            | ok r =>
              cases h2 : get v (leftChildOf c) with
              | error f => simp only [bind, Except.bind, h1, h2] at hb; cases hb
              | ok l =>
                obtain ⟨s1, h3, ho1⟩ := hc s r l ho
                simp only [bind, Except.bind, h1, h2, h3] at hb ⊢
                cases hb
                exact ⟨s1, rfl, ho1⟩
          · rw [if_neg hr] at hb ⊢
            cases hb
            exact ⟨s, rfl, ho⟩
        obtain ⟨s1, h1, ho1⟩ := hbc
        simp only [bind, Except.bind, hb, h1] at h ⊢
        cases h2 : get v best with
        | error f => simp only [h2] at h; cases h
        | ok b =>
          simp only [h2] at h ⊢
          cases h3 : get v c with
          | error f => simp only [h3] at h; cases h
          | ok k =>
            simp only [h3] at h ⊢
            obtain ⟨s2, h4, ho2⟩ := hc s1 b k ho1
            simp only [h4]
            by_cases hr : hp b k = true
            · simp only [hr, Bool.not_true, Bool.false_eq_true, if_false] at h ⊢
              cases h5 : put v best k with
              | error f => simp only [h5] at h; cases h
              | ok v1 =>
                simp only [h5] at h ⊢
                cases h6 : put v1 c b with
                | error f => simp only [h6] at h; cases h
                | ok v2 =>
                  simp only [h6] at h ⊢
                  exact ih _ _ _ _ ho2 h
            · simp only [Bool.not_eq_true] at hr
              simp only [hr, Bool.not_false, if_true] at h ⊢
              cases h
              exact ⟨s2, rfl, ho2⟩
    · rw [if_neg hl] at h ⊢
      cases h
      exact ⟨s, rfl, ho⟩

theorem popC_eq {call : Cmp T S} {ord : S → Option (T → T → Bool)} {hp : T → T → Bool}
    (hc : ∀ s a b, ord s = some hp → ∃ s', call a b s = .ok (hp a b, s') ∧ ord s' = some hp) {v v' : Vec T} {x : T} {s : S} (ho : ord s = some hp)
    (h : pop hp v = .ok (x, v')) : ∃ s', popC call v s = .ok (x, v', s') ∧ ord s' = some hp := by
  unfold pop at h
  unfold popC
  by_cases he : empty v = true
  · rw [if_pos he] at h; cases h
  · rw [if_neg he] at h ⊢
    cases h1 : take v 0 with
    | error f => simp only [bind, Except.bind, h1] at h; cases h
    | ok tv =>
      obtain ⟨t, v1⟩ := tv
      simp only [bind, Except.bind, h1] at h ⊢
      by_cases h2 : v1.length = 1
      · rw [if_pos h2] at h ⊢
        cases h
        exact ⟨s, rfl, ho⟩
      · rw [if_neg h2] at h ⊢
        cases h3 : take v1 (v1.length - 1) with
        | error f => simp only [h3] at h; cases h
        | ok bv =>
          simp only [h3] at h ⊢
          cases h4 : put bv.2 0 bv.1 with
          | error f => simp only [h4] at h; cases h
          | ok v2 =>
            simp only [h4] at h ⊢
            cases h5 : propagateDown hp v2.dropLast 0 (v2.dropLast.length + 1) with
            | error f => simp only [h5] at h; cases h
            | ok v3 =>
              obtain ⟨s', h6, ho'⟩ := downC_eq hc _ _ _ s _ ho h5
              simp only [h5, h6] at h ⊢
              cases h
              exact ⟨s', rfl, ho'⟩

/-! ### Several queues -/

variable {V : Type} [DecidableEq V]

/-- The concrete queue, the abstract one and the counts of `Legal` agree. -/
def Agree (ord : S → Option (T → T → Bool)) : Option (Queue T S) → Option (List T × Option (T → T → Bool)) → Option (Nat × Bool) → Prop
  | none, none, none => True
  | some q, some (B, o), some (k, g) => ∃ l : List T, q.impl = l.map some ∧ l.Perm B ∧ l.length = k ∧
      (g = true → ∃ hp, ord q.cmp = some hp ∧ o = some hp ∧ Heap hp l) ∧ (g = false → o = none ∧ k ≤ 1)
  | _, _, _ => False

def AgreeAll (ord : S → Option (T → T → Bool)) (env : V → Option (Queue T S)) (W : Bags V T) (w : V → Option (Nat × Bool)) : Prop :=
  ∀ v, Agree ord (env v) (W v) (w v)

theorem AgreeAll.set {ord : S → Option (T → T → Bool)} {env : V → Option (Queue T S)} {W : Bags V T} {w : V → Option (Nat × Bool)} (h : AgreeAll ord env W w) (v : V)
    {a b c} (hv : Agree ord a b c) : AgreeAll ord (qset env v a) (wset W v b) (wset w v c) := by
  intro u
  unfold qset wset
  by_cases e : u = v
  · simp only [e, if_true]; exact hv
  · simp only [e, if_false]; exact h u

omit [DecidableEq V] in
theorem AgreeAll.some {ord : S → Option (T → T → Bool)} {env : V → Option (Queue T S)} {W : Bags V T} {w : V → Option (Nat × Bool)} (h : AgreeAll ord env W w) {v : V}
    {k : Nat} {g : Bool} (hw : w v = some (k, g)) : ∃ (l B : List T) (c : S) (o : Option (T → T → Bool)), env v = some { impl := l.map some, cmp := c } ∧
      W v = some (B, o) ∧ l.Perm B ∧ l.length = k ∧ (g = true → ∃ hp, ord c = some hp ∧ o = some hp ∧ Heap hp l) ∧ (g = false → o = none ∧ k ≤ 1) := by
  have := h v
  rw [hw] at this
  cases he : env v with
  | none => cases hW : W v <;> simp [he, hW, Agree] at this
  | some q =>
    cases hW : W v with
    | none => simp [he, hW, Agree] at this
    | some p =>
      obtain ⟨B, o⟩ := p
      obtain ⟨im, c⟩ := q
      simp only [he, hW, Agree] at this
      obtain ⟨l, rfl, h2, h3, h4, h5⟩ := this
      exact ⟨l, B, c, o, rfl, rfl, h2, h3, h4, h5⟩

theorem best_of_heap {hp : T → T → Bool} (hs : StrictWeak hp) {l B : List T} (hh : Heap hp l) (hperm : l.Perm B) {r : T} (h0 : l[0]? = some r) : Best hp B r := by
  intro y hy
  obtain ⟨i, hi⟩ := List.mem_iff_getElem?.1 (hperm.symm.subset hy)
  exact heap_root hs hh h0 i y hi

theorem qstep_spec {call : Cmp T S} {mv : S → S × S} {ord : S → Option (T → T → Bool)} (hc : IsComparator call mv ord) (keep : Bool)
    (hk : keep = true → ∀ s, ord (mv s).2 = ord s) {env : V → Option (Queue T S)} {W : Bags V T} {w : V → Option (Nat × Bool)} (h : AgreeAll ord env W w)
    (op : QOp V T S) (ops : List (QOp V T S)) (hl : Legal ord keep w (op :: ops)) :
    ∃ env' o W' w', qstep call mv env op = .ok (env', o) ∧ WStep ord keep W op o W' ∧ AgreeAll ord env' W' w' ∧ Legal ord keep w' ops := by
  cases op with
  | ctor v c =>
    obtain ⟨hv, hord, hl⟩ := hl
    refine ⟨_, _, _, _, rfl, .ctor W v c, h.set v (a := some { impl := [], cmp := c }) (b := some ([], ord c)) (c := some (0, true)) ?_, hl⟩
    obtain ⟨hp, ho⟩ := Option.ne_none_iff_exists'.1 hord
    exact ⟨[], rfl, .refl _, rfl, fun _ => ⟨hp, ho, ho, fun i x y _ hx _ => by simp at hx⟩, fun e => by simp at e⟩
  | ctorMove v u =>
    obtain ⟨hv, k, g, hu, hl⟩ := hl
    obtain ⟨l, B, c, o, he, hW, hperm, hlen, hg, hb⟩ := h.some hu
    refine ⟨qset (qset env v (some { impl := l.map some, cmp := (mv c).1 })) u (some { impl := [], cmp := (mv c).2 }), .done, _, _,
      by simp only [qstep, qget, he, bind, Except.bind], .ctorMove hW, (h.set v ?_).set u ?_, hl⟩
    · refine ⟨l, rfl, hperm, hlen, fun e => ?_, hb⟩
      obtain ⟨hp, h1, h2, h3⟩ := hg e
      exact ⟨hp, by rw [hc.moves]; exact h1, h2, h3⟩
    · refine ⟨[], rfl, .refl _, rfl, fun e => ?_, fun e => ?_⟩
      · simp only [Bool.and_eq_true] at e
        obtain ⟨hp, h1, h2, h3⟩ := hg e.2
        exact ⟨hp, by show ord (mv c).2 = _; rw [hk e.1]; exact h1, by simp [e.1, h2], fun i x y _ hx _ => by simp at hx⟩
      · cases keep with
        | false => exact ⟨rfl, by omega⟩
        | true => exact ⟨by simpa using (hb (by simpa using e)).1, by omega⟩
  | dtor v =>
    obtain ⟨hv, hl⟩ := hl
    obtain ⟨⟨k, g⟩, hw⟩ := Option.ne_none_iff_exists'.1 hv
    obtain ⟨l, B, c, o, he, -⟩ := h.some hw
    exact ⟨_, _, _, _, by simp only [qstep, qget, he, bind, Except.bind], .dtor W v, h.set v (a := none) (b := none) (c := none) trivial, hl⟩
  | add v x =>
    obtain ⟨k, g, hw, hgk, hl⟩ := hl
    obtain ⟨l, B, c, o, he, hW, hperm, hlen, hg, hb⟩ := h.some hw
    cases g with
    | true =>
      obtain ⟨hp, h1, h2, h3⟩ := hg rfl
      obtain ⟨l', h4, h5, h6⟩ := add_spec (hp := hp) l x
      obtain ⟨c', h7, h8⟩ := addC_eq (fun s a b => hc.calls s hp a b) h1 h4
      refine ⟨qset env v (some { impl := l'.map some, cmp := c' }), .done, _, _, by simp only [qstep, qget, he, bind, Except.bind, h7], .add x hW, h.set v ?_, hl⟩
      exact ⟨l', rfl, h5.trans (.cons x hperm), by simpa [hlen] using h5.length_eq, fun _ => ⟨hp, h8, h2, h6 (hc.strict c hp h1) h3⟩, fun e => by simp at e⟩
    | false =>
      have hk0 : k = 0 := by simpa using hgk
      subst hk0
      obtain rfl : l = [] := List.length_eq_zero_iff.1 hlen
      obtain rfl : B = [] := hperm.symm.eq_nil
      refine ⟨qset env v (some { impl := [some x], cmp := c }), .done, _, _, by simp only [qstep, qget, he, bind, Except.bind, addC]; rfl, .add x hW, h.set v ?_, hl⟩
      exact ⟨[x], rfl, .refl _, rfl, fun e => by simp at e, fun e => ⟨(hb e).1, by omega⟩⟩
  | pop v =>
    obtain ⟨k, g, hw, hl⟩ := hl
    obtain ⟨l, B, c, o, he, hW, hperm, hlen, hg, hb⟩ := h.some hw
    have hne : l ≠ [] := by rintro rfl; simp at hlen
    cases g with
    | true =>
      obtain ⟨hp, h1, h2, h3⟩ := hg rfl
      obtain ⟨r, l', h0, h4, h5, h6⟩ := pop_spec (hp := hp) l hne
      obtain ⟨c', h7, h8⟩ := popC_eq (fun s a b => hc.calls s hp a b) h1 h4
      have hl' : l'.length = k := by have := h5.length_eq; simp only [List.length_cons] at this; omega
      refine ⟨qset env v (some { impl := l'.map some, cmp := c' }), .item r, _, _, by simp only [qstep, qget, he, bind, Except.bind, h7],
        .pop (B' := l') hW (hperm.symm.trans h5) ?_, h.set v ?_, hl⟩
      · intro hp' e
        obtain rfl : hp = hp' := Option.some.inj (h2.symm.trans e)
        exact best_of_heap (hc.strict c hp h1) h3 hperm h0
      · exact ⟨l', rfl, .refl _, hl', fun _ => ⟨hp, h8, h2, h6 (hc.strict c hp h1) h3⟩, fun e => by simp at e⟩
    | false =>
      obtain ⟨ho, hk1⟩ := hb rfl
      have hk0 : k = 0 := by omega
      subst hk0
      match l, hlen with
      | [r], _ =>
        refine ⟨qset env v (some { impl := [], cmp := c }), .item r, _, _, by simp only [qstep, qget, he, bind, Except.bind]; rfl,
          .pop (B' := []) hW hperm.symm (fun hp e => by rw [ho] at e; cases e), h.set v ?_, hl⟩
        exact ⟨[], rfl, .refl _, rfl, fun e => by simp at e, fun _ => ⟨ho, by omega⟩⟩
  | peek v =>
    obtain ⟨⟨k, g, hw⟩, hl⟩ := hl
    obtain ⟨l, B, c, o, he, hW, hperm, hlen, hg, hb⟩ := h.some hw
    match l, hlen with
    | r :: t, hlen =>
      refine ⟨env, .item r, W, w, by simp only [qstep, qget, he, bind, Except.bind]; rfl, .peek hW (hperm.subset (by simp)) ?_, h, hl⟩
      intro hp' e
      cases g with
      | true =>
        obtain ⟨hp, h1, h2, h3⟩ := hg rfl
        obtain rfl : hp = hp' := Option.some.inj (h2.symm.trans e)
        exact best_of_heap (hc.strict c hp h1) h3 hperm rfl
      | false => rw [(hb rfl).1] at e; cases e
  | empty v =>
    obtain ⟨hv, hl⟩ := hl
    obtain ⟨⟨k, g⟩, hw⟩ := Option.ne_none_iff_exists'.1 hv
    obtain ⟨l, B, c, o, he, hW, hperm, hlen, -⟩ := h.some hw
    have hE : empty (l.map some) = B.isEmpty := by
      have := hperm.length_eq
      cases l <;> cases B <;> simp_all [empty]
    exact ⟨env, .flag B.isEmpty, W, w, by simp only [qstep, qget, he, bind, Except.bind, hE], .empty hW, h, hl⟩

theorem qrun_spec {call : Cmp T S} {mv : S → S × S} {ord : S → Option (T → T → Bool)} (hc : IsComparator call mv ord) (keep : Bool)
    (hk : keep = true → ∀ s, ord (mv s).2 = ord s) : ∀ (ops : List (QOp V T S)) (env : V → Option (Queue T S)) (W : Bags V T) (w : V → Option (Nat × Bool)),
    AgreeAll ord env W w → Legal ord keep w ops → ∃ env' outs W', qrun call mv ops env = .ok (env', outs) ∧ WSteps ord keep W ops outs W' := by
  intro ops
  induction ops with
  | nil => intro env W w _ _; exact ⟨env, [], W, rfl, .nil W⟩
  | cons op ops ih =>
    intro env W w h hl
    obtain ⟨env1, o, W1, w1, h1, h2, h3, h4⟩ := qstep_spec hc keep hk h op ops hl
    obtain ⟨env2, os, W2, h5, h6⟩ := ih env1 W1 w1 h3 h4
    exact ⟨env2, o :: os, W2, by simp only [qrun, bind, Except.bind, h1, h5], .cons h2 h6⟩

/-- **C117 (comparators that survive a move).** If a moved-from comparator still compares by the same order (as `std::less` or a function pointer does), queues can be
moved and reused at will: every program runs without a fault, a moved-to queue holds what the source held, the source is an empty queue, and every queue answers as
its own multiset of items and its own order prescribe. Other comparators are missing: `C117_moved_queue_refuted`. -/
theorem C117_reuse_partial {call : Cmp T S} {mv : S → S × S} {ord : S → Option (T → T → Bool)} (hc : IsComparator call mv ord)
    (hsurvive : ∀ s, ord (mv s).2 = ord s) (ops : List (QOp V T S)) (hl : Legal ord true (fun _ => none) ops) :
    ∃ env outs W, qrun call mv ops (fun _ => none) = .ok (env, outs) ∧ WSteps ord true (fun _ => none) ops outs W :=
  qrun_spec hc true (fun _ => hsurvive) ops _ _ (fun _ => none) (fun _ => trivial) hl

/-- **C117 (any comparator).** With no promise about moved-from comparators, the same holds as long as a moved-from queue gets no second item. -/
theorem C117_moved_partial {call : Cmp T S} {mv : S → S × S} {ord : S → Option (T → T → Bool)} (hc : IsComparator call mv ord)
    (ops : List (QOp V T S)) (hl : Legal ord false (fun _ => none) ops) :
    ∃ env outs W, qrun call mv ops (fun _ => none) = .ok (env, outs) ∧ WSteps ord false (fun _ => none) ops outs W :=
  qrun_spec hc false (fun e => by simp at e) ops _ _ (fun _ => none) (fun _ => trivial) hl

/-- A comparator like `std::function<bool(int, int)>` holding `<`: moving from it leaves it without a target, and calling it then ends the program. -/
def fnCall : Cmp Nat Bool := fun a b s => if s then .ok (decide (a < b), s) else .error .abort
def fnMove : Bool → Bool × Bool := fun s => (s, false)
def fnOrd : Bool → Option (Nat → Nat → Bool) := fun s => if s then some (fun a b => decide (a < b)) else none

theorem fnIsComparator : IsComparator fnCall fnMove fnOrd := by
  refine ⟨fun s hp a b h => ?_, fun s => rfl, fun s hp h => ?_⟩
  · cases s with
    | false => simp [fnOrd] at h
    | true => simp only [fnOrd, if_true, Option.some.injEq] at h; subst h; exact ⟨true, rfl, rfl⟩
  · cases s with
    | false => simp [fnOrd] at h
    | true => simp only [fnOrd, if_true, Option.some.injEq] at h; subst h; exact natStrictWeak

/-- **C117 does not hold in full.** A queue ordered by a `std::function` is moved from; adding two items to it calls the empty function. -/
theorem C117_moved_queue_refuted : ¬ QueueMoveCorrect := by
  intro h
  obtain ⟨env, outs, W, h1, -⟩ := h Nat Bool fnCall fnMove fnOrd fnIsComparator [.ctor 0 true, .ctorMove 1 0, .add 0 5, .add 0 3]
    ⟨rfl, by simp [fnOrd], rfl, 0, true, rfl, 0, true, rfl, .inl rfl, 1, true, rfl, .inl rfl, trivial⟩
  have : (match qrun fnCall fnMove [QOp.ctor 0 true, .ctorMove 1 0, .add 0 5, .add 0 3] (fun _ : Nat => none) with | .ok _ => true | .error _ => false) = false := by
    decide +kernel
  rw [h1] at this
  cases this

/-- The hypotheses are met: `<` without state survives moves; a program that reuses the moved-from queue; one with the fragile comparator. -/
example : IsComparator ltCmp (fun s => (s, s)) (fun _ => some (fun a b : Nat => decide (a < b))) :=
  ⟨fun s hp a b h => by cases h; exact ⟨s, rfl, rfl⟩, fun _ => rfl, fun s hp h => by cases h; exact natStrictWeak⟩
example : Legal (T := Nat) (S := Unit) (fun _ => some (fun a b : Nat => decide (a < b))) true (fun _ : Nat => none)
    [.ctor 0 (), .add 0 5, .ctorMove 1 0, .add 0 7, .add 0 2, .pop 0, .peek 1, .dtor 1, .empty 0] :=
  ⟨rfl, by simp, 0, true, rfl, .inl rfl, rfl, 1, true, rfl, 0, true, rfl, .inl rfl, 1, true, rfl, .inl rfl, 1, true, rfl, ⟨0, true, rfl⟩, by decide, by decide, trivial⟩
example : (match qrun ltCmp (fun s => (s, s)) [QOp.ctor 0 (), .add 0 5, .ctorMove 1 0, .add 0 7, .add 0 2, .pop 0, .peek 1, .dtor 1, .empty 0] (fun _ : Nat => none) with
    | .ok (_, outs) => outs | .error _ => []) = [.done, .done, .done, .done, .done, .item 2, .item 5, .done, .flag false] := by decide +kernel
example : Legal fnOrd false (fun _ : Nat => none) [.ctor 0 true, .add 0 5, .add 0 3, .ctorMove 1 0, .add 0 7, .pop 0, .pop 1, .dtor 0] :=
  ⟨rfl, by simp [fnOrd], 0, true, rfl, .inl rfl, 1, true, rfl, .inl rfl, rfl, 2, true, rfl, 0, false, rfl, .inr rfl, 0, false, rfl, 1, true, rfl, by decide, trivial⟩

end Verif.PQueue
