import Verif.PQueue.ItemsLemmas
/-!
# C151: `PriorityQueue` when moving an item throws
-/
namespace Verif.PQueue
open Verif

variable {T : Type}

/-- **C151**, `add` and `emplace`, wherever they throw: all the queued items are there and unchanged but at most one, and the new item is there unless it threw. No undefined behaviour,
whatever the comparator answers. -/
theorem C151_add_partial (hp : T → T → Bool) (p : Items T) (v : List T) (x : T) (n : Nat) :
    ∃ v' n' threw, addI hp p v x n = .ok (v', n', threw) ∧ (threw = false → v'.Perm (x :: v)) ∧ (threw = true → AddDamage p v x v') :=
  addI_spec hp p v x n

/-- **C151**, `pop`, wherever it throws: the top item is returned or lost (but if making `top` threw, what that left of it is queued), and all the others are there and unchanged but at
most two. -/
theorem C151_pop_partial (hp : T → T → Bool) (p : Items T) (elided : Bool) (top : T) (rest : List T) (n : Nat) :
    ∃ o v' n', popI hp p elided (top :: rest) n = .ok (o, v', n') ∧ (o = some top ∧ v'.Perm rest ∨ o = none ∧ PopDamage p top rest v') :=
  popI_spec hp p elided top rest n

/-- **C151**: if throwing moves and assignments change nothing, no `add` loses or changes a queued item; it may leave a moved-from one besides. -/
theorem C151_add_strong (hp : T → T → Bool) (p : Items T) (hs : p.Strong) (v v' : List T) (x : T) (n n' : Nat) (threw : Bool)
    (hrun : addI hp p v x n = .ok (v', n', threw)) : ∃ more, v'.Perm (v ++ more) ∧ more.length ≤ 1 := by
  obtain ⟨u, m, t, h1, h2, h3⟩ := addI_spec hp p v x n
  rw [h1] at hrun
  injection hrun with hrun; injection hrun with hu hrun; injection hrun with _ ht
  subst hu; subst ht
  have app : ∀ (a : T) (l : List T), (a :: l).Perm (l ++ [a]) := fun a l => (List.perm_append_singleton a l).symm
  cases t with
  | false => exact ⟨[x], (h2 rfl).trans (app x v), by simp⟩
  | true =>
    cases h3 rfl with
    | none => exact ⟨[], by simp, by simp⟩
    | key h => exact ⟨[p.torn x], h.trans (app _ v), by simp⟩
    | store _ h => exact ⟨_, h.trans (app _ v), by simp⟩
    | step _ hq h =>
      rw [hs.1, hs.2] at h
      exact ⟨_, (h.trans (.cons _ hq.symm)).trans (app _ v), by simp⟩

/-- **C151**: for such items, a `pop` that throws loses the top item and at most one other. -/
theorem C151_pop_strong (hp : T → T → Bool) (p : Items T) (hs : p.Strong) (elided : Bool) (top : T) (rest v' : List T) (o : Option T) (n n' : Nat)
    (hrun : popI hp p elided (top :: rest) n = .ok (o, v', n')) : ∃ lost kept, rest.Perm (lost ++ kept) ∧ lost.length ≤ 1 ∧ ∃ more, v'.Perm (kept ++ more) ∧ more.length ≤ 1 := by
  obtain ⟨u, m, t, h1, h2⟩ := popI_spec hp p elided top rest n
  rw [h1] at hrun
  injection hrun with hrun; injection hrun with ho hrun; injection hrun with hu _
  subst hu; subst ho
  have app : ∀ (a : T) (l : List T), (a :: l).Perm (l ++ [a]) := fun a l => (List.perm_append_singleton a l).symm
  rcases h2 with ⟨_, h2⟩ | ⟨_, h2⟩
  · exact ⟨[], rest, .refl _, by simp, [], by simpa using h2, by simp⟩
  · cases h2 with
    | top h => exact ⟨[], rest, .refl _, by simp, _, h.trans (app _ rest), by simp⟩
    | back hr h =>
      rw [hs.1, hs.2] at h
      exact ⟨[], rest, .refl _, by simp, _, (h.trans (.cons _ hr.symm)).trans (app _ rest), by simp⟩
    | first hr h =>
      rw [hs.1] at h
      exact ⟨[], rest, .refl _, by simp, [], by simpa using h.trans hr.symm, by simp⟩
    | @second a b K hr h =>
      rw [hs.1, hs.2] at h
      exact ⟨[a], b :: K, hr, by simp, _, h.trans (app _ _), by simp⟩
    | @third a b K hr h =>
      rw [hs.2] at h
      exact ⟨[a], b :: K, hr, by simp, [p.moved b], (h.trans (.swap _ _ K)).trans (app _ _), by simp⟩
    | result h => exact ⟨[], rest, .refl _, by simp, [], by simpa using h, by simp⟩

theorem upLoopI_model (hp : T → T → Bool) (p : Items T) (hn : ∀ n, p.throws n = false) (key : T) : ∀ (fuel c n : Nat) (u : List T), c < fuel → c < u.length →
    ∃ u' n', upLoopI hp p key u c n fuel = .ok (u', n', false) ∧ upLoop hp key ((u.map some).set c none) c fuel = .ok (u'.map some) := by
  intro fuel
  induction fuel with
  | zero => intro c n u h; omega
  | succ fuel ih =>
    intro c n u hf hc
    obtain ⟨k, hk⟩ := at_of_lt hc
    have hin : moveIn p u c key n = .ok (u.set c key, n + 1, false) := by
      simp only [moveIn, look_some hk, bind, Except.bind, hn, Bool.false_eq_true, if_false]
    have hput : ∀ z, put ((u.map some).set c none) c z = .ok ((u.set c z).map some) := by
      intro z
      rw [put, if_pos (by simpa using hc), List.set_set, List.map_set]
    unfold upLoopI upLoop
    by_cases h0 : c = 0
    · rw [if_pos h0, if_pos h0, hin, hput]; exact ⟨_, _, rfl, rfl⟩
    · rw [if_neg h0, if_neg h0]
      have hpl : parentOf c < c := by unfold parentOf; omega
      obtain ⟨q, hq⟩ := at_of_lt (v := u) (i := parentOf c) (by omega)
      have hget : get ((u.map some).set c none) (parentOf c) = .ok q := by
        unfold get
        rw [List.getElem?_set_ne (by omega)]
        simp [hq]
      simp only [look_some hq, hget, take, bind, Except.bind]
      by_cases hb : (!hp key q) = true
      · rw [if_pos hb, if_pos hb, hin, hput]; exact ⟨_, _, rfl, rfl⟩
      · rw [if_neg hb, if_neg hb]
        simp only [moveTo, look_some hk, look_some hq, bind, Except.bind, hn, Bool.false_eq_true, if_false]
        have e1 : put (((u.map some).set c none).set (parentOf c) none) c q =
            .ok ((((u.set c q).set (parentOf c) (p.moved q)).map some).set (parentOf c) none) := by
          rw [put, if_pos (by simpa using hc)]
          rw [List.map_set, List.map_set, List.set_set, List.set_comm _ _ (by omega : c ≠ parentOf c), List.set_comm _ _ (by omega : c ≠ parentOf c), List.set_set]
        simp only [e1]
        exact ih (parentOf c) (n + 1) _ (by omega) (by simp; omega)

/-- **C151**: when nothing throws, `add` does what C38 to C40 are about, whatever moves leave behind. -/
theorem C151_add_no_throw (hp : T → T → Bool) (p : Items T) (hn : ∀ n, p.throws n = false) (v : List T) (x : T) (n : Nat) :
    ∃ v' n', addI hp p v x n = .ok (v', n', false) ∧ add hp (v.map some) x = .ok (v'.map some) := by
  unfold addI add
  rw [if_neg (by simp [hn])]
  have hm : v.map some ++ [some x] = (v ++ [x]).map some := by simp
  simp only [hm, List.length_map]
  by_cases hl : (v ++ [x]).length > 1
  · simp only [hl, if_true]
    have hlen : (v ++ [x]).length - 1 = v.length := by simp
    rw [hlen]
    have hx : (v ++ [x])[v.length]? = some x := by simp
    simp only [propagateUpI, moveOut, look_some hx, propagateUp, take, get_map hx, bind, Except.bind, hn, Bool.false_eq_true, if_false]
    have e : ((v ++ [x]).map some).set v.length none = (((v ++ [x]).set v.length (p.moved x)).map some).set v.length none := by
      rw [List.map_set, List.set_set]
    rw [e]
    have e2 : ((((v ++ [x]).set v.length (p.moved x)).map some).set v.length none).length = ((v ++ [x]).set v.length (p.moved x)).length := by simp
    rw [e2]
    exact upLoopI_model hp p hn x _ v.length (n + 1 + 1) _ (by simp; omega) (by simp)
  · simp only [hl, if_false]
    exact ⟨_, _, rfl, rfl⟩

theorem swapI_model (p : Items T) (hn : ∀ n, p.throws n = false) {v : List T} {i j : Nat} {a b : T} (hne : i ≠ j) (hi : v[i]? = some a) (hj : v[j]? = some b) (n : Nat) :
    ∃ n', swapI p v i j n = .ok ((v.set i b).set j a, n', false) := by
  have hil : i < v.length := (List.getElem?_eq_some_iff.1 hi).1
  have hjl : j < v.length := (List.getElem?_eq_some_iff.1 hj).1
  have hi' : (v.set i (p.moved a))[i]? = some (p.moved a) := by rw [List.getElem?_set, if_pos rfl, if_pos hil]
  have hj' : (v.set i (p.moved a))[j]? = some b := by rw [List.getElem?_set, if_neg hne]; exact hj
  have hj2 : (((v.set i (p.moved a)).set i b).set j (p.moved b))[j]? = some (p.moved b) := by
    rw [List.getElem?_set, if_pos rfl, if_pos (by simpa using hjl)]
  rw [List.set_set] at hj2
  simp only [swapI, moveOut, look_some hi, bind, Except.bind, hn, Bool.false_eq_true, if_false, moveTo, look_some hi', look_some hj', moveIn, look_some hj2, List.set_set]
  exact ⟨_, rfl⟩

theorem bestChildI_model (hp : T → T → Bool) (v : List T) (c : Nat) (hl : leftChildOf c < v.length) : bestChildI hp v c = bestChild hp (v.map some) c := by
  unfold bestChildI bestChild hasRightChild
  obtain ⟨l, hl'⟩ := at_of_lt hl
  by_cases hr : rightChildOf c < v.length
  · obtain ⟨r, hr'⟩ := at_of_lt hr
    rw [if_pos hr, if_pos (by simpa using hr)]
    simp only [look_some hr', look_some hl', get_map hr', get_map hl', bind, Except.bind]
  · rw [if_neg hr, if_neg (by simpa using hr)]

theorem downI_model (hp : T → T → Bool) (p : Items T) (hn : ∀ n, p.throws n = false) : ∀ (fuel c n : Nat) (v : List T), v.length < fuel + c → c < v.length →
    ∃ v' n', propagateDownI hp p v c n fuel = .ok (v', n', false) ∧ propagateDown hp (v.map some) c fuel = .ok (v'.map some) := by
  intro fuel
  induction fuel with
  | zero => intro c n v h1 h2; omega
  | succ fuel ih =>
    intro c n v hf hc
    unfold propagateDownI propagateDown hasLeftChild
    by_cases hl : leftChildOf c < v.length
    · rw [if_pos hl, if_pos (by simpa using hl)]
      obtain ⟨b, hb, hbv, hcb⟩ := bestChildI_spec hp hl
      obtain ⟨x, hx⟩ := at_of_lt hbv
      obtain ⟨k, hk⟩ := at_of_lt (v := v) (i := c) (by omega)
      rw [← bestChildI_model hp v c hl]
      simp only [hb, look_some hx, look_some hk, get_map hx, get_map hk, bind, Except.bind]
      by_cases hh : (!hp x k) = true
      · rw [if_pos hh, if_pos hh]; exact ⟨_, _, rfl, rfl⟩
      · rw [if_neg hh, if_neg hh]
        obtain ⟨n1, h1⟩ := swapI_model p hn (by omega : b ≠ c) hx hk n
        simp only [h1, Bool.false_eq_true, if_false]
        rw [put_map hbv]
        simp only []
        rw [put_map (by simpa using hc)]
        simp only []
        exact ih b n1 _ (by simp; omega) (by simpa using hbv)
    · rw [if_neg hl, if_neg (by simpa using hl)]
      exact ⟨_, _, rfl, rfl⟩

/-- **C151**: when nothing throws, `pop` does what C38 to C40 are about. -/
theorem C151_pop_no_throw (hp : T → T → Bool) (p : Items T) (hn : ∀ n, p.throws n = false) (elided : Bool) (v : List T) (hne : v ≠ []) (n : Nat) :
    ∃ top v' n', popI hp p elided v n = .ok (some top, v', n') ∧ pop hp (v.map some) = .ok (top, v'.map some) := by
  cases v with
  | nil => exact absurd rfl hne
  | cons top rest =>
    have h0 : (top :: rest)[0]? = some top := rfl
    have he : empty ((top :: rest).map some) = false := rfl
    have hg : get (some top :: rest.map some) 0 = .ok top := rfl
    unfold popI pop
    rw [he, if_neg (by simp), if_neg (by decide)]
    simp only [moveOut, look_some h0, take, bind, Except.bind, List.map_cons, List.set_cons_zero, hg, hn, Bool.false_eq_true, if_false]
    have fin : ∀ (w : List T) (m : Nat), ∃ n', (if elided = true then (.ok (some top, w, m) : Exec (Option T × List T × Nat)) else .ok (some top, w, m + 1)) = .ok (some top, w, n') := by
      intro w m
      by_cases h : elided = true
      · rw [if_pos h]; exact ⟨_, rfl⟩
      · rw [if_neg h]; exact ⟨_, rfl⟩
    by_cases hr : rest = []
    · subst hr
      have e : (p.moved top :: ([] : List T)).length = 1 := rfl
      simp only [e, if_true, List.dropLast_singleton, Bool.false_eq_true, if_false]
      obtain ⟨n', hn'⟩ := fin [] (n + 1)
      exact ⟨top, [], n', hn', rfl⟩
    · obtain ⟨m, z, rfl⟩ : ∃ m z, rest = m ++ [z] := ⟨rest.dropLast, rest.getLast hr, (List.dropLast_concat_getLast hr).symm⟩
      have e : ¬ (p.moved top :: (m ++ [z])).length = 1 := by simp
      have e' : ¬ (none :: (m ++ [z]).map some : List (Option T)).length = 1 := by simp
      have e2 : (p.moved top :: (m ++ [z])).length - 1 = m.length + 1 := by simp
      have e2' : (none :: (m ++ [z]).map some : List (Option T)).length - 1 = m.length + 1 := by simp
      simp only [e, e', if_false, e2, e2']
      have g0 : (p.moved top :: (m ++ [z]))[0]? = some (p.moved top) := rfl
      have g1 : (p.moved top :: (m ++ [z]))[m.length + 1]? = some z := by simp
      have hgz : get (none :: (m ++ [z]).map some) (m.length + 1) = .ok z := by simp [get]
      have hput : put ((none :: (m ++ [z]).map some).set (m.length + 1) none) 0 z = .ok (((z :: m).map some) ++ [none]) := by
        rw [put, if_pos (by simp)]
        simp
      have es : ∀ y w, ((p.moved top :: (m ++ [z])).set 0 y).set (m.length + 1) w = y :: (m ++ [w]) := by intro y w; simp
      have ed : (z :: (m ++ [p.moved z])).dropLast = z :: m := by
        rw [← List.cons_append, List.dropLast_concat]
      simp only [moveTo, look_some g0, look_some g1, bind, Except.bind, hn, Bool.false_eq_true, if_false, es, ed, hgz, hput, List.dropLast_concat]
      obtain ⟨v', n1, h5, h6⟩ := downI_model hp p hn ((z :: m).length + 1) 0 (n + 1 + 1) (z :: m) (by omega) (by simp)
      rw [h5]
      simp only [List.length_map, h6, Bool.false_eq_true, if_false]
      obtain ⟨n', hn'⟩ := fin v' n1
      exact ⟨top, v', n', hn', rfl⟩

/-- Integers that a move sets to 0; operation `k` throws and changes nothing. -/
def failMove (k : Nat) : Items Nat := { throws := fun n => n == k, moved := fun _ => 0, torn := id, spoilt := fun old _ => old }

/-- **C151** is violated: `pop` of a queue of 1, 2, 3, where the second move throws: 1 is lost, though the caller did not get it. -/
theorem C151_pop_refuted : ¬ ThrowSafe := by
  intro h
  have := (h (fun a b => decide (a < b)) (failMove 1) [1, 2, 3] [0, 2, 3] 0 2 ⟨fun _ => rfl, fun _ _ => rfl⟩).2 true (by decide +kernel)
  have := this.symm.subset (a := 1) (by simp)
  simp at this

/-- **C151** is violated by `add`, too: the new item is lost and a moved-from one is queued instead. -/
theorem C151_add_refuted : ¬ ∀ (hp : Nat → Nat → Bool) (p : Items Nat) (v v' : List Nat) (n n' x : Nat), p.Strong → addI hp p v x n = .ok (v', n', true) → v'.Perm v ∨ v'.Perm (x :: v) := by
  intro h
  have := h (fun a b => decide (a < b)) (failMove 3) [2, 5] [0, 5, 2] 0 4 1 ⟨fun _ => rfl, fun _ _ => rfl⟩ (by decide +kernel)
  rcases this with this | this
  · exact absurd this.length_eq (by decide)
  · have := this.symm.subset (a := 1) (by simp)
    simp at this

/-- A swap that throws loses an item besides the top. -/
example : popI (fun a b => decide (a < b)) (failMove 3) true [1, 2, 3, 4] 0 = .ok (none, [4, 0, 3], 4) := by decide +kernel

/-- The result cannot be made: the top item is lost, the rest is a queue. -/
example : popI (fun a b => decide (a < b)) (failMove 5) false [1, 2, 3, 4] 0 = .ok (none, [2, 4, 3], 6) := by decide +kernel

end Verif.PQueue
