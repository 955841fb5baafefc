import Verif.PQueue.SpecThrows
import Verif.PQueue.Props
/-!
# C142: `PriorityQueue` with a comparator that throws
-/
namespace Verif.PQueue
open Verif

variable {T S : Type}

theorem upLoopT_spec (cmp : TCmp T S) (moved : T → T) (key : T) : ∀ (fuel c : Nat) (v : List T) (s : S) (last : T), c < fuel → v[c]? = some key → last ∈ v →
    ∃ (v' : List T) (s' : S) (t : Bool), upLoopT cmp moved key last ((v.map some).set c none) c s fuel = .ok (v'.map some, s', t) ∧
      (t = false → v'.Perm v) ∧ (t = true → ∃ y ∈ v, ∃ B, v.Perm (key :: B) ∧ v'.Perm (moved y :: B)) := by
  intro fuel
  induction fuel with
  | zero => intro c v s last h; omega
  | succ fuel ih =>
    intro c v s last hf hc hlast
    have hcl : c < v.length := (List.getElem?_eq_some_iff.1 hc).1
    have hput : ∀ z, put ((v.map some).set c none) c z = .ok ((v.set c z).map some) := by
      intro z
      rw [put, if_pos (by simpa using hcl), List.set_set, List.map_set]
    have hself : v.set c key = v := by
      apply List.ext_getElem?
      intro i
      rw [List.getElem?_set]
      split
      · rename_i h; subst h; rw [hc]
      · rfl
    have hperm : ∃ B, v.Perm (key :: B) ∧ ∀ z, (v.set c z).Perm (z :: B) := by
      refine ⟨v.take c ++ v.drop (c + 1), ?_, fun z => ?_⟩
      · rw [← hself, List.set_eq_take_append_cons_drop, if_pos hcl]
        exact List.perm_middle.trans (by
          rw [show (List.take c v ++ key :: List.drop (c + 1) v) = v from by
            have := List.set_eq_take_append_cons_drop (l := v) (i := c) (a := key); rw [if_pos hcl, hself] at this; exact this.symm])
      · rw [List.set_eq_take_append_cons_drop, if_pos hcl]
        exact List.perm_middle
    unfold upLoopT
    by_cases h0 : c = 0
    · subst h0
      rw [if_pos rfl, hput, hself]
      exact ⟨v, s, false, rfl, fun _ => .refl _, fun h => nomatch h⟩
    · rw [if_neg h0]
      have hpl : parentOf c < c := by unfold parentOf; omega
      obtain ⟨p, hp'⟩ : ∃ p, v[parentOf c]? = some p := ⟨v[parentOf c], List.getElem?_eq_getElem (by omega)⟩
      have hget : get ((v.map some).set c none) (parentOf c) = .ok p := by
        unfold get
        rw [List.getElem?_set_ne (by omega)]
        simp [hp']
      simp only [take, bind, Except.bind, hget]
      cases hr : cmp key p s with
      | mk r s1 =>
      cases r with
      | none =>
        simp only [hput]
        obtain ⟨B, h1, h2⟩ := hperm
        exact ⟨_, s1, true, rfl, (fun h => nomatch h), fun _ => ⟨last, hlast, B, h1, h2 _⟩⟩
      | some r =>
        cases r with
        | false =>
          simp only [hput, hself]
          exact ⟨v, s1, false, rfl, fun _ => .refl _, fun h => nomatch h⟩
        | true =>
          have e1 : put (((v.map some).set c none).set (parentOf c) none) c p =
              .ok (((swp v c (parentOf c) key p).map some).set (parentOf c) none) := by
            rw [put, if_pos (by simpa using hcl)]
            congr 1
            apply List.ext_getElem?
            intro i
            simp only [List.getElem?_set, List.getElem?_map, List.length_set, List.length_map,
              swp_get hc hp', swp_length]
            by_cases hic : c = i
            · subst hic
              have hne : parentOf c ≠ c := by omega
              have hne' : c ≠ parentOf c := by omega
              simp [hcl, hne, hne']
            · by_cases hip : parentOf c = i
              · subst hip
                simp [hic]
              · have h1 : i ≠ c := fun e => hic e.symm
                have h2 : i ≠ parentOf c := fun e => hip e.symm
                simp [hic, hip, h1, h2]
          simp only [e1]
          have hsw : (swp v c (parentOf c) key p)[parentOf c]? = some key := by
            rw [swp_get hc hp', if_pos rfl]
          have hpm := swp_perm hc hp'
          have hpmem : p ∈ v := List.mem_of_getElem? hp'
          obtain ⟨v', s', t, hv', h1, h2⟩ := ih (parentOf c) (swp v c (parentOf c) key p) s1 p (by omega) hsw (hpm.symm.subset hpmem)
          refine ⟨v', s', t, hv', fun ht => (h1 ht).trans hpm, fun ht => ?_⟩
          obtain ⟨y, hy, B, h3, h4⟩ := h2 ht
          exact ⟨y, hpm.subset hy, B, hpm.symm.trans h3, h4⟩

theorem addT_spec (cmp : TCmp T S) (moved : T → T) (v : List T) (x : T) (s : S) :
    ∃ (v' : List T) (s' : S) (t : Bool), addT cmp moved (v.map some) x s = .ok (v'.map some, s', t) ∧
      (t = false → v'.Perm (x :: v)) ∧ (t = true → ∃ y ∈ x :: v, v'.Perm (moved y :: v)) := by
  unfold addT
  have hm : v.map some ++ [some x] = (v ++ [x]).map some := by simp
  have hp1 : (v ++ [x]).Perm (x :: v) := List.perm_append_singleton x v
  simp only [hm]
  by_cases h1 : ((v ++ [x]).map some).length > 1
  · rw [if_pos h1]
    have hlen : ((v ++ [x]).map some).length - 1 = v.length := by simp
    rw [hlen]
    have hx : (v ++ [x])[v.length]? = some x := by simp
    unfold propagateUpT take
    simp only [bind, Except.bind, get_map hx]
    obtain ⟨v', s', t, hv', h2, h3⟩ := upLoopT_spec cmp moved x
      ((((v ++ [x]).map some).set v.length none).length + 1) v.length (v ++ [x]) s x (by simp; omega) hx (by simp)
    refine ⟨v', s', t, hv', fun ht => (h2 ht).trans hp1, fun ht => ?_⟩
    obtain ⟨y, hy, B, h4, h5⟩ := h3 ht
    have hB : B.Perm v := ((h4.symm.trans hp1).cons_inv)
    exact ⟨y, hp1.subset hy, h5.trans (.cons _ hB)⟩
  · rw [if_neg h1]
    exact ⟨v ++ [x], s, false, rfl, fun _ => hp1, fun h => nomatch h⟩

theorem bestChildT_spec (cmp : TCmp T S) {v : List T} {c : Nat} (s : S) (hl : c * 2 + 1 < v.length) :
    ∃ (b : Option Nat) (s' : S), bestChildT cmp (v.map some) c s = .ok (b, s') ∧ ∀ i, b = some i → i < v.length ∧ c < i := by
  obtain ⟨l, hll⟩ : ∃ l, v[c * 2 + 1]? = some l := ⟨v[c * 2 + 1], List.getElem?_eq_getElem hl⟩
  unfold bestChildT hasRightChild rightChildOf leftChildOf
  by_cases hr : c * 2 + 2 < v.length
  · obtain ⟨r, hrr⟩ : ∃ r, v[c * 2 + 2]? = some r := ⟨v[c * 2 + 2], List.getElem?_eq_getElem hr⟩
    rw [if_pos (by simpa using hr)]
    simp only [bind, Except.bind, get_map hll, get_map hrr]
    cases hb : cmp r l s with
    | mk b s' =>
    cases b with
    | none => exact ⟨none, s', rfl, fun i h => nomatch h⟩
    | some b =>
      refine ⟨_, s', rfl, fun i h => ?_⟩
      cases b <;> simp at h <;> omega
  · rw [if_neg (by simpa using hr)]
    exact ⟨_, s, rfl, fun i h => by simp at h; omega⟩

theorem downT_spec (cmp : TCmp T S) : ∀ (fuel c : Nat) (v : List T) (s : S), c < v.length → v.length < fuel + c →
    ∃ (v' : List T) (s' : S) (t : Bool), propagateDownT cmp (v.map some) c s fuel = .ok (v'.map some, s', t) ∧ v'.Perm v := by
  intro fuel
  induction fuel with
  | zero => intro c v s h1 h2; omega
  | succ fuel ih =>
    intro c v s hc hf
    unfold propagateDownT hasLeftChild leftChildOf
    by_cases hl : c * 2 + 1 < v.length
    · rw [if_pos (by simpa using hl)]
      obtain ⟨b, s1, hb, hbl⟩ := bestChildT_spec cmp s hl
      simp only [bind, Except.bind, hb]
      cases b with
      | none => exact ⟨v, s1, true, rfl, .refl _⟩
      | some b =>
        obtain ⟨hbv, hcb⟩ := hbl b rfl
        obtain ⟨x, hx⟩ : ∃ x, v[b]? = some x := ⟨v[b], List.getElem?_eq_getElem hbv⟩
        obtain ⟨k, hk⟩ : ∃ k, v[c]? = some k := ⟨v[c], List.getElem?_eq_getElem hc⟩
        simp only [get_map hx, get_map hk]
        cases hr : cmp x k s1 with
        | mk r s2 =>
        cases r with
        | none => exact ⟨v, s2, true, rfl, .refl _⟩
        | some r =>
          cases r with
          | false => exact ⟨v, s2, false, rfl, .refl _⟩
          | true =>
            simp only []
            rw [put_map hbv]
            simp only []
            rw [put_map (by simpa using hc)]
            simp only []
            have hsw : (v.set b k).set c x = swp v b c x k := rfl
            rw [hsw]
            obtain ⟨v', s', t, hv', hperm⟩ := ih b (swp v b c x k) s2 (by rw [swp_length]; exact hbv) (by rw [swp_length]; omega)
            exact ⟨v', s', t, hv', hperm.trans (swp_perm hx hk)⟩
    · rw [if_neg (by simpa using hl)]
      exact ⟨v, s, false, rfl, .refl _⟩

theorem popT_spec (cmp : TCmp T S) (v : List T) (hne : v ≠ []) (s : S) :
    ∃ (r : T) (o : Option T) (v' : List T) (s' : S), popT cmp (v.map some) s = .ok (o, v'.map some, s') ∧ v[0]? = some r ∧ v.Perm (r :: v') ∧ (o = some r ∨ o = none) := by
  cases v with
  | nil => exact absurd rfl hne
  | cons r t =>
    have he : empty ((r :: t).map some) = false := rfl
    unfold popT
    rw [he, if_neg (by decide)]
    have hg : get (some r :: t.map some) 0 = .ok r := rfl
    simp only [take, bind, Except.bind, List.map_cons, List.set_cons_zero, hg]
    by_cases ht : t = []
    · subst ht
      exact ⟨r, some r, [], s, rfl, rfl, .refl _, .inl rfl⟩
    · obtain ⟨m, z, rfl⟩ : ∃ m z, t = m ++ [z] := ⟨t.dropLast, t.getLast ht, (List.dropLast_concat_getLast ht).symm⟩
      rw [if_neg (by simp)]
      have hlen : (none :: (m ++ [z]).map some).length - 1 = m.length + 1 := by simp
      rw [hlen]
      have hgz : get (none :: (m ++ [z]).map some) (m.length + 1) = .ok z := by simp [get]
      simp only [hgz]
      have hput : put ((none :: (m ++ [z]).map some).set (m.length + 1) none) 0 z =
          .ok (((z :: m).map some) ++ [none]) := by
        rw [put, if_pos (by simp)]
        simp
      simp only [hput, List.dropLast_concat]
      obtain ⟨v', s', t, hv', hperm⟩ := downT_spec cmp (((z :: m).map some).length + 1) 0 (z :: m) s (by simp) (by simp)
      rw [hv']
      refine ⟨r, _, v', s', rfl, rfl, .cons r (((List.perm_append_singleton z m)).trans hperm.symm), ?_⟩
      cases t
      · exact .inl rfl
      · exact .inr rfl

/-- C142, `add` when the comparator throws, at whatever comparison: the items that were queued are all there; in place of the new item the queue has what a move left of the new
item or of one of the others. Without an exception the new item is added. -/
theorem C142_add_partial (cmp : TCmp T S) (moved : T → T) (v : List T) (x : T) (s : S) :
    ∃ (v' : List T) (s' : S) (threw : Bool), addT cmp moved (v.map some) x s = .ok (v'.map some, s', threw) ∧
      (threw = false → v'.Perm (x :: v)) ∧ (threw = true → ∃ y ∈ x :: v, v'.Perm (moved y :: v)) :=
  addT_spec cmp moved v x s

/-- C142, `pop` when the comparator throws, at whatever comparison: the top item is gone, all others are there and no other. -/
theorem C142_pop_partial (cmp : TCmp T S) (v : List T) (hne : v ≠ []) (s : S) :
    ∃ (top : T) (o : Option T) (v' : List T) (s' : S), peek (v.map some) = .ok top ∧ popT cmp (v.map some) s = .ok (o, v'.map some, s') ∧ v.Perm (top :: v') ∧
      (o = some top ∨ o = none) := by
  obtain ⟨r, o, v', s', h1, h2, h3, h4⟩ := popT_spec cmp v hne s
  refine ⟨r, o, v', s', ?_, h1, h3, h4⟩
  cases v with
  | nil => exact absurd rfl hne
  | cons a t => cases h2; rfl

theorem execT_spec (cmp : TCmp T S) (moved : T → T) (v B : List T) (s : S) (op : Op T) (ops : List (Op T)) (hperm : v.Perm B) (hl : legal v.length (op :: ops) = true) :
    ∃ (v' B' : List T) (s' : S) (o : Option (Out T)), execT cmp moved (v.map some) s op = .ok (v'.map some, s', o) ∧ TStep moved B op o B' ∧ v'.Perm B' ∧
      legal v'.length ops = true := by
  cases op with
  | add x =>
    obtain ⟨v', s', t, h1, h2, h3⟩ := addT_spec cmp moved v x s
    simp only [legal] at hl
    cases t with
    | false =>
      have hp := h2 rfl
      exact ⟨v', x :: B, s', some .done, by simp only [execT, bind, Except.bind, h1]; rfl, .add B x, hp.trans (.cons x hperm), by rw [hp.length_eq]; exact hl⟩
    | true =>
      obtain ⟨y, hy, hp⟩ := h3 rfl
      exact ⟨v', moved y :: B, s', none, by simp only [execT, bind, Except.bind, h1]; rfl, .addThrows ((List.Perm.cons x hperm).subset hy), hp.trans (.cons _ hperm),
        by rw [hp.length_eq]; exact hl⟩
  | pop =>
    have hne : v ≠ [] := by rintro rfl; simp [legal] at hl
    obtain ⟨r, o, v', s', h1, h2, h3, h4⟩ := popT_spec cmp v hne s
    have hl' : legal v'.length ops = true := by
      have := h3.length_eq
      rw [this] at hl
      exact hl
    rcases h4 with rfl | rfl
    · exact ⟨v', v', s', _, by simp only [execT, bind, Except.bind, h1]; rfl, .pop (hperm.symm.trans h3), .refl _, hl'⟩
    · exact ⟨v', v', s', _, by simp only [execT, bind, Except.bind, h1]; rfl, .popThrows (hperm.symm.trans h3), .refl _, hl'⟩
  | peek =>
    cases v with
    | nil => simp [legal] at hl
    | cons a t => exact ⟨a :: t, B, s, _, rfl, .peek (hperm.subset (by simp)), hperm, hl⟩
  | empty =>
    have hE : empty (v.map some) = B.isEmpty := by
      have := hperm.length_eq
      cases v <;> cases B <;> simp_all [empty]
    exact ⟨v, B, s, _, by simp only [execT, hE], .empty B, hperm, by cases v <;> exact hl⟩

/-- C142, histories: whatever the comparator answers and whenever it throws, a history that pops and peeks only what is there runs to its end without undefined behaviour, and every
call does to the multiset of queued items what `TStep` says. In particular `pop`, throwing or not, removes one item, and no item is ever lost otherwise; a throwing `add` loses
the new item only. -/
theorem C142_history_partial (cmp : TCmp T S) (moved : T → T) (ops : List (Op T)) (hl : legal 0 ops = true) (s : S) :
    ∃ (v B : List T) (s' : S) (os : List (Option (Out T))), runT cmp moved [] s ops = .ok (v.map some, s', os) ∧ TSteps moved [] ops os B ∧ v.Perm B := by
  have key : ∀ (ops : List (Op T)) (v B : List T) (s : S), v.Perm B → legal v.length ops = true →
      ∃ (v' B' : List T) (s' : S) (os : List (Option (Out T))), runT cmp moved (v.map some) s ops = .ok (v'.map some, s', os) ∧ TSteps moved B ops os B' ∧ v'.Perm B' := by
    intro ops
    induction ops with
    | nil => intro v B s hp _; exact ⟨v, B, s, [], rfl, .nil B, hp⟩
    | cons op ops ih =>
      intro v B s hp hl
      obtain ⟨v1, B1, s1, o, h1, h2, h3, h4⟩ := execT_spec cmp moved v B s op ops hp hl
      obtain ⟨v2, B2, s2, os, h5, h6, h7⟩ := ih v1 B1 s1 h3 h4
      exact ⟨v2, B2, s2, o :: os, by simp only [runT, bind, Except.bind, h1, h5], .cons h2 h6, h7⟩
  exact key ops [] [] s (.refl _) hl

/-- A comparator that compares by `<` for the first `n` calls and throws at call `n`, then compares again. -/
def failAt : TCmp Nat Nat := fun a b n => if n = 0 then (none, 1000) else (some (decide (a < b)), n - 1)

/-- C142 is false: adding 0 to a queue of 1, 5 and 7; the comparator throws at the second comparison. The queue then has 5 twice, and the 0 is lost. -/
theorem C142_add_refuted : ¬ AddThrowSafe := by
  intro h
  have h1 := h Nat failAt 1 1000 [1, 5, 7] [1, 5, 7, 5] 0 (by decide +kernel)
  rcases h1 with h1 | h1
  · exact absurd h1.length_eq (by decide)
  · have := h1.subset (a := 5) (by simp)
    have h0 : (0 : Nat) ∈ [1, 5, 7, 5] := h1.symm.subset (by simp)
    simp at h0

/-- C142 is false also of the order: after a `pop` that threw, the next one gives an item although a better one is queued. -/
theorem C142_order_refuted : ¬ PopThrowOrdered := by
  intro h
  have hb := h Nat failAt (fun a b => decide (a < b)) natStrictWeak (by
    intro a b s r s' hc
    unfold failAt at hc
    split at hc
    · simp at hc
    · simp at hc; exact hc.1.symm)
    [.add 1, .add 2, .add 3, .add 4, .pop] 4 1000 [4, 2, 3] [some .done, some .done, some .done, some .done, none] (by rfl)
    4 [some 2, some 3] 999 (by rfl) 2 (by simp)
  simp at hb

-- the throwing calls of the theorems occur: a throwing `add` that loses the new item although no item was moved, and one after a move
example : addT failAt (fun _ => 99) [some 1, some 5] 0 0 = .ok ([some 1, some 5, some 99], 1000, true) := by decide +kernel
example : addT failAt (fun _ => 99) [some 1, some 5, some 7] 0 1 = .ok ([some 1, some 99, some 7, some 5], 1000, true) := by decide +kernel
example : popT failAt [some 1, some 2, some 3, some 4] 0 = .ok (none, [some 4, some 2, some 3], 1000) := by decide +kernel
example : legal 0 [Op.add 1, .add 5, .add 7, .add 0, .pop, .peek, .pop, .empty] = true := by decide

end Verif.PQueue
