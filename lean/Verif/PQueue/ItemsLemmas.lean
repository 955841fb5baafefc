import Verif.PQueue.SpecItems
import Verif.PQueue.Lemmas
/-!
# Lemmas for C151
-/
namespace Verif.PQueue
open Verif

variable {T : Type}

theorem split_at {v : List T} {i : Nat} {a : T} (h : v[i]? = some a) : ∃ A B, v = A ++ a :: B ∧ A.length = i := by
  obtain ⟨hl, rfl⟩ := List.getElem?_eq_some_iff.1 h
  exact ⟨v.take i, v.drop (i + 1), (by rw [← List.drop_eq_getElem_cons hl, List.take_append_drop]), by simp; omega⟩

theorem one_perm {v : List T} {i : Nat} {a : T} (h : v[i]? = some a) : ∃ K, v.Perm (a :: K) ∧ ∀ z, (v.set i z).Perm (z :: K) := by
  obtain ⟨A, B, rfl, rfl⟩ := split_at h
  refine ⟨A ++ B, List.perm_middle, fun z => ?_⟩
  have : (A ++ a :: B).set A.length z = A ++ z :: B := by simp
  rw [this]; exact List.perm_middle

theorem two_perm_lt {v : List T} {i j : Nat} {a b : T} (hlt : i < j) (hi : v[i]? = some a) (hj : v[j]? = some b) :
    ∃ K, v.Perm (a :: b :: K) ∧ ∀ y z, ((v.set i y).set j z).Perm (y :: z :: K) := by
  obtain ⟨A, R, rfl, hA⟩ := split_at hi
  have hj' : R[j - i - 1]? = some b := by
    rw [List.getElem?_append_right (by omega), hA, List.getElem?_cons, if_neg (by omega)] at hj
    exact hj
  obtain ⟨B, C, rfl, hB⟩ := split_at hj'
  have hp : ∀ y z, (A ++ y :: (B ++ z :: C)).Perm (y :: z :: (A ++ (B ++ C))) := by
    intro y z
    refine List.perm_middle.trans (.cons y ?_)
    rw [← List.append_assoc, ← List.append_assoc]
    exact List.perm_middle
  refine ⟨A ++ (B ++ C), hp a b, fun y z => ?_⟩
  have e1 : (A ++ a :: (B ++ b :: C)).set i y = A ++ y :: (B ++ b :: C) := by subst hA; simp
  have e2 : (A ++ y :: (B ++ b :: C)).set j z = A ++ y :: (B ++ z :: C) := by
    rw [List.set_append, if_neg (by omega)]
    congr 1
    obtain ⟨k, hk⟩ : ∃ k, j - A.length = k + 1 := ⟨j - i - 1, by omega⟩
    rw [hk, List.set_cons_succ]
    congr 1
    have : k = B.length := by omega
    subst this; simp
  rw [e1, e2]; exact hp y z

theorem two_perm {v : List T} {i j : Nat} {a b : T} (hne : i ≠ j) (hi : v[i]? = some a) (hj : v[j]? = some b) :
    ∃ K, v.Perm (a :: b :: K) ∧ ∀ y z, ((v.set i y).set j z).Perm (y :: z :: K) := by
  rcases Nat.lt_or_gt_of_ne hne with h | h
  · exact two_perm_lt h hi hj
  · obtain ⟨K, h1, h2⟩ := two_perm_lt h hj hi
    refine ⟨K, h1.trans (.swap a b K), fun y z => ?_⟩
    rw [List.set_comm _ _ hne]
    exact (h2 z y).trans (.swap y z K)

theorem look_some {v : List T} {i : Nat} {a : T} (h : v[i]? = some a) : look v i = .ok a := by
  unfold look; rw [h]

theorem at_of_lt {v : List T} {i : Nat} (h : i < v.length) : ∃ a, v[i]? = some a := ⟨v[i], List.getElem?_eq_getElem h⟩

/-- What `propagateUp` left when it threw, with the key `x` in hand and the others `B`. -/
def UpDamage (p : Items T) (B : List T) (x : T) (u : List T) : Prop :=
  (∃ y, y ∈ x :: B ∧ u.Perm (p.spoilt (p.moved y) x :: B)) ∨
  (∃ y q K, y ∈ x :: B ∧ B.Perm (q :: K) ∧ u.Perm (p.spoilt (p.moved y) q :: p.torn q :: K))

theorem upLoopI_spec (hp : T → T → Bool) (p : Items T) (x : T) (B : List T) : ∀ (fuel c n : Nat) (u : List T) (y : T), c < fuel → c < u.length → u[c]? = some (p.moved y) →
    u.Perm (p.moved y :: B) → y ∈ x :: B →
    ∃ u' n' t, upLoopI hp p x u c n fuel = .ok (u', n', t) ∧ u'.length = u.length ∧ (t = false → u'.Perm (x :: B)) ∧ (t = true → UpDamage p B x u') := by
  intro fuel
  induction fuel with
  | zero => intro c n u y h; omega
  | succ fuel ih =>
    intro c n u y hf hcl hc hperm hy
    have hin : ∃ u' n' t, moveIn p u c x n = .ok (u', n', t) ∧ u'.length = u.length ∧ (t = false → u'.Perm (x :: B)) ∧ (t = true → UpDamage p B x u') := by
      obtain ⟨K, h1, h2⟩ := one_perm hc
      have hK : K.Perm B := (h1.symm.trans hperm).cons_inv
      simp only [moveIn, look_some hc, bind, Except.bind]
      by_cases ht : p.throws n = true
      · rw [if_pos ht]
        exact ⟨_, _, true, rfl, by simp, (fun h => nomatch h), fun _ => Or.inl ⟨y, hy, (h2 _).trans (.cons _ hK)⟩⟩
      · rw [if_neg ht]
        exact ⟨_, _, false, rfl, by simp, (fun _ => (h2 _).trans (.cons _ hK)), fun h => nomatch h⟩
    unfold upLoopI
    by_cases h0 : c = 0
    · rw [if_pos h0]; exact hin
    · rw [if_neg h0]
      have hpl : parentOf c < c := by unfold parentOf; omega
      obtain ⟨q, hq⟩ := at_of_lt (v := u) (i := parentOf c) (by omega)
      simp only [look_some hq, bind, Except.bind]
      by_cases hb : (!hp x q) = true
      · rw [if_pos hb]; exact hin
      · rw [if_neg hb]
        obtain ⟨K, h1, h2⟩ := two_perm (by omega : c ≠ parentOf c) hc hq
        have hK : B.Perm (q :: K) := (hperm.symm.trans h1).cons_inv
        simp only [moveTo, look_some hc, look_some hq, bind, Except.bind]
        by_cases ht : p.throws n = true
        · simp only [ht, if_true]
          exact ⟨_, _, true, rfl, by simp, (fun h => nomatch h), fun _ => Or.inr ⟨y, q, K, hy, hK, h2 _ _⟩⟩
        · simp only [ht, if_false, Bool.false_eq_true]
          have hlen : parentOf c < ((u.set c q).set (parentOf c) (p.moved q)).length := by simp; omega
          obtain ⟨u', n', t, h3, h4, h5, h6⟩ := ih (parentOf c) (n + 1) ((u.set c q).set (parentOf c) (p.moved q)) q (by omega) hlen
            (by rw [List.getElem?_set, if_pos rfl, if_pos (by simp; omega)])
            (((h2 q (p.moved q)).trans (.swap _ _ K)).trans (.cons _ hK.symm))
            (List.mem_cons_of_mem _ (hK.symm.subset (by simp)))
          exact ⟨u', n', t, h3, by simpa using h4, h5, h6⟩

theorem addI_spec (hp : T → T → Bool) (p : Items T) (v : List T) (x : T) (n : Nat) :
    ∃ v' n' t, addI hp p v x n = .ok (v', n', t) ∧ (t = false → v'.Perm (x :: v)) ∧ (t = true → AddDamage p v x v') := by
  unfold addI
  by_cases ht : p.throws n = true
  · rw [if_pos ht]; exact ⟨_, _, true, rfl, (fun h => nomatch h), fun _ => .none⟩
  · rw [if_neg ht]
    have hpa : (v ++ [x]).Perm (x :: v) := List.perm_append_singleton x v
    by_cases hl : (v ++ [x]).length > 1
    · simp only [hl, if_true]
      have hlen : (v ++ [x]).length - 1 = v.length := by simp
      rw [hlen]
      have hx : (v ++ [x])[v.length]? = some x := by simp
      simp only [propagateUpI, moveOut, look_some hx, bind, Except.bind]
      have hset : ∀ z, ((v ++ [x]).set v.length z) = v ++ [z] := by intro z; simp
      rw [hset, hset]
      by_cases ht2 : p.throws (n + 1) = true
      · simp only [ht2, if_true]
        exact ⟨_, _, true, rfl, (fun h => nomatch h), fun _ => .key (List.perm_append_singleton _ v)⟩
      · simp only [ht2, if_false, Bool.false_eq_true]
        obtain ⟨u', n', t, h3, _, h5, h6⟩ := upLoopI_spec hp p x v ((v ++ [p.moved x]).length + 1) v.length (n + 1 + 1) (v ++ [p.moved x]) x (by simp; omega)
          (by simp) (by simp) (List.perm_append_singleton _ v) (by simp)
        refine ⟨u', n', t, h3, h5, fun h => ?_⟩
        rcases h6 h with ⟨y, hy, h7⟩ | ⟨y, q, K, hy, hq, h7⟩
        · exact .store hy h7
        · exact .step hy hq h7
    · simp only [hl, if_false]
      exact ⟨_, _, false, rfl, (fun _ => hpa), fun h => nomatch h⟩

/-- What a swap that threw left of the items `B`. -/
def SwapDamage (p : Items T) (B : List T) (u : List T) : Prop :=
  (∃ a K, B.Perm (a :: K) ∧ u.Perm (p.torn a :: K)) ∨
  (∃ a b K, B.Perm (a :: b :: K) ∧ u.Perm (p.spoilt (p.moved a) b :: p.torn b :: K)) ∨
  (∃ a b K, B.Perm (a :: b :: K) ∧ u.Perm (b :: p.spoilt (p.moved b) a :: K))

theorem swapI_spec (p : Items T) {v : List T} {i j : Nat} {a b : T} (hne : i ≠ j) (hi : v[i]? = some a) (hj : v[j]? = some b) (n : Nat) :
    ∃ v' n' t, swapI p v i j n = .ok (v', n', t) ∧ v'.length = v.length ∧ (t = false → v' = swp v i j a b) ∧ (t = true → SwapDamage p v v') := by
  have hil : i < v.length := (List.getElem?_eq_some_iff.1 hi).1
  have hjl : j < v.length := (List.getElem?_eq_some_iff.1 hj).1
  obtain ⟨K1, h1, h2⟩ := one_perm hi
  obtain ⟨K, h3, h4⟩ := two_perm hne hi hj
  simp only [swapI, moveOut, look_some hi, bind, Except.bind]
  by_cases t1 : p.throws n = true
  · simp only [t1, if_true]
    exact ⟨_, _, true, rfl, by simp, (fun h => nomatch h), fun _ => Or.inl ⟨a, K1, h1, h2 _⟩⟩
  · simp only [t1, if_false, Bool.false_eq_true]
    have hi' : (v.set i (p.moved a))[i]? = some (p.moved a) := by rw [List.getElem?_set, if_pos rfl, if_pos hil]
    have hj' : (v.set i (p.moved a))[j]? = some b := by rw [List.getElem?_set, if_neg hne]; exact hj
    simp only [moveTo, look_some hi', look_some hj', bind, Except.bind]
    by_cases t2 : p.throws (n + 1) = true
    · simp only [t2, if_true]
      refine ⟨_, _, true, rfl, by simp, (fun h => nomatch h), fun _ => Or.inr (Or.inl ⟨a, b, K, h3, ?_⟩)⟩
      rw [List.set_set]; exact h4 _ _
    · simp only [t2, if_false, Bool.false_eq_true]
      have hj2 : (((v.set i (p.moved a)).set i b).set j (p.moved b))[j]? = some (p.moved b) := by
        rw [List.getElem?_set, if_pos rfl, if_pos (by simpa using hjl)]
      simp only [moveIn, look_some hj2, bind, Except.bind]
      by_cases t3 : p.throws (n + 1 + 1) = true
      · simp only [t3, if_true]
        refine ⟨_, _, true, rfl, by simp, (fun h => nomatch h), fun _ => Or.inr (Or.inr ⟨a, b, K, h3, ?_⟩)⟩
        rw [List.set_set, List.set_set]; exact h4 _ _
      · simp only [t3, if_false, Bool.false_eq_true]
        refine ⟨_, _, false, rfl, by simp, (fun _ => ?_), fun h => nomatch h⟩
        rw [List.set_set, List.set_set]; rfl

theorem bestChildI_spec (hp : T → T → Bool) {v : List T} {c : Nat} (hl : leftChildOf c < v.length) :
    ∃ b, bestChildI hp v c = .ok b ∧ b < v.length ∧ c < b := by
  obtain ⟨l, hl'⟩ := at_of_lt hl
  unfold bestChildI
  by_cases hr : rightChildOf c < v.length
  · obtain ⟨r, hr'⟩ := at_of_lt hr
    rw [if_pos hr]
    simp only [look_some hr', look_some hl', bind, Except.bind]
    refine ⟨_, rfl, ?_, ?_⟩ <;> split <;> simp only [leftChildOf, rightChildOf] at * <;> omega
  · rw [if_neg hr]
    exact ⟨_, rfl, hl, by simp only [leftChildOf]; omega⟩

theorem downI_spec (hp : T → T → Bool) (p : Items T) : ∀ (fuel c n : Nat) (v : List T), v.length < fuel + c → c < v.length →
    ∃ v' n' t, propagateDownI hp p v c n fuel = .ok (v', n', t) ∧ (t = false → v'.Perm v) ∧ (t = true → SwapDamage p v v') := by
  intro fuel
  induction fuel with
  | zero =>
    intro c n v h1 h2
    omega
  | succ fuel ih =>
    intro c n v hf hc
    unfold propagateDownI
    by_cases hl : leftChildOf c < v.length
    · rw [if_pos hl]
      obtain ⟨b, hb, hbv, hcb⟩ := bestChildI_spec hp hl
      obtain ⟨x, hx⟩ := at_of_lt hbv
      obtain ⟨k, hk⟩ := at_of_lt (v := v) (i := c) (by omega)
      simp only [hb, look_some hx, look_some hk, bind, Except.bind]
      by_cases hh : (!hp x k) = true
      · rw [if_pos hh]; exact ⟨_, _, false, rfl, (fun _ => .refl _), fun h => nomatch h⟩
      · rw [if_neg hh]
        obtain ⟨v1, n1, t1, h1, h2, h3, h4⟩ := swapI_spec p (by omega : b ≠ c) hx hk n
        simp only [h1]
        cases t1 with
        | true =>
          simp only [if_true]
          exact ⟨_, _, true, rfl, (fun h => nomatch h), fun _ => h4 rfl⟩
        | false =>
          simp only [Bool.false_eq_true, if_false]
          have e := h3 rfl
          have hpm : v1.Perm v := by rw [e]; exact swp_perm hx hk
          obtain ⟨v', n', t, h5, h6, h7⟩ := ih b n1 v1 (by omega) (by omega)
          refine ⟨v', n', t, h5, (fun h => (h6 h).trans hpm), fun h => ?_⟩
          rcases h7 h with ⟨a, K, g1, g2⟩ | ⟨a, b', K, g1, g2⟩ | ⟨a, b', K, g1, g2⟩
          · exact Or.inl ⟨a, K, hpm.symm.trans g1, g2⟩
          · exact Or.inr (Or.inl ⟨a, b', K, hpm.symm.trans g1, g2⟩)
          · exact Or.inr (Or.inr ⟨a, b', K, hpm.symm.trans g1, g2⟩)
    · rw [if_neg hl]
      exact ⟨_, _, false, rfl, (fun _ => .refl _), fun h => nomatch h⟩

theorem popI_spec (hp : T → T → Bool) (p : Items T) (elided : Bool) (top : T) (rest : List T) (n : Nat) :
    ∃ o v' n', popI hp p elided (top :: rest) n = .ok (o, v', n') ∧ (o = some top ∧ v'.Perm rest ∨ o = none ∧ PopDamage p top rest v') := by
  have h0 : (top :: rest)[0]? = some top := rfl
  unfold popI
  rw [if_neg (by simp)]
  simp only [moveOut, look_some h0, bind, Except.bind, List.set_cons_zero]
  by_cases t1 : p.throws n = true
  · simp only [t1, if_true]
    exact ⟨none, _, _, rfl, Or.inr ⟨rfl, .top (.refl _)⟩⟩
  · simp only [t1, if_false, Bool.false_eq_true]
    have fin : ∀ (v : List T) (m : Nat), v.Perm rest →
        ∃ o v' n', (if elided = true then (.ok (some top, v, m) : Exec (Option T × List T × Nat)) else if p.throws m = true then .ok (none, v, m + 1) else .ok (some top, v, m + 1))
          = .ok (o, v', n') ∧ (o = some top ∧ v'.Perm rest ∨ o = none ∧ PopDamage p top rest v') := by
      intro v m hv
      by_cases he : elided = true
      · rw [if_pos he]; exact ⟨_, _, _, rfl, Or.inl ⟨rfl, hv⟩⟩
      · rw [if_neg he]
        by_cases tm : p.throws m = true
        · rw [if_pos tm]; exact ⟨_, _, _, rfl, Or.inr ⟨rfl, .result hv⟩⟩
        · rw [if_neg tm]; exact ⟨_, _, _, rfl, Or.inl ⟨rfl, hv⟩⟩
    by_cases hr : rest = []
    · subst hr
      have e : (p.moved top :: ([] : List T)).length = 1 := rfl
      simp only [e, if_true, List.dropLast_singleton, Bool.false_eq_true, if_false]
      exact fin [] (n + 1) (.refl _)
    · obtain ⟨m, z, rfl⟩ : ∃ m z, rest = m ++ [z] := ⟨rest.dropLast, rest.getLast hr, (List.dropLast_concat_getLast hr).symm⟩
      have e : ¬ (p.moved top :: (m ++ [z])).length = 1 := by simp
      have e2 : (p.moved top :: (m ++ [z])).length - 1 = m.length + 1 := by simp
      simp only [e, if_false, e2]
      have g0 : (p.moved top :: (m ++ [z]))[0]? = some (p.moved top) := rfl
      have g1 : (p.moved top :: (m ++ [z]))[m.length + 1]? = some z := by simp
      simp only [moveTo, look_some g0, look_some g1, bind, Except.bind]
      have es : ∀ y w, ((p.moved top :: (m ++ [z])).set 0 y).set (m.length + 1) w = y :: (m ++ [w]) := by intro y w; simp
      rw [es, es]
      by_cases t2 : p.throws (n + 1) = true
      · simp only [t2, if_true]
        exact ⟨none, _, _, rfl, Or.inr ⟨rfl, .back (List.perm_append_singleton z m) (.cons _ (List.perm_append_singleton _ m))⟩⟩
      · simp only [t2, if_false, Bool.false_eq_true]
        have ed : (z :: (m ++ [p.moved z])).dropLast = z :: m := by
          rw [← List.cons_append, List.dropLast_concat]
        rw [ed]
        have hzm : (z :: m).Perm (m ++ [z]) := (List.perm_append_singleton z m).symm
        obtain ⟨v', n', t, h5, h6, h7⟩ := downI_spec hp p ((z :: m).length + 1) 0 (n + 1 + 1) (z :: m) (by omega) (by simp)
        simp only [h5]
        cases t with
        | true =>
          simp only [if_true]
          refine ⟨none, v', n', rfl, Or.inr ⟨rfl, ?_⟩⟩
          rcases h7 rfl with ⟨a, K, k1, k2⟩ | ⟨a, b, K, k1, k2⟩ | ⟨a, b, K, k1, k2⟩
          · exact .first (hzm.symm.trans k1) k2
          · exact .second (hzm.symm.trans k1) k2
          · exact .third (hzm.symm.trans k1) k2
        | false =>
          simp only [Bool.false_eq_true, if_false]
          exact fin v' n' ((h6 rfl).trans hzm)

end Verif.PQueue
