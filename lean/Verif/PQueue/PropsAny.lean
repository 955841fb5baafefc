import Verif.PQueue.PropsCmp
/-!
# C38 and C39 at their edges: comparators with a state, and orders that are not strict weak
-/
namespace Verif.PQueue
open Verif

variable {T S : Type}

/-- The calls counted are the calls made: without the counter the same happens. -/
theorem uncount {cmp : Cmp T S} (hcmp : Returns cmp) :
    (∀ (fuel : Nat) (key : T) (v : Vec T) (c : Nat) (s : S) (n : Nat), (upLoopC (counted cmp) key v c (s, n) fuel).map (fun x => (x.1, x.2.1)) = upLoopC cmp key v c s fuel) ∧
    (∀ (fuel : Nat) (v : Vec T) (c : Nat) (s : S) (n : Nat), (propagateDownC (counted cmp) v c (s, n) fuel).map (fun x => (x.1, x.2.1)) = propagateDownC cmp v c s fuel) := by
  constructor
  · intro fuel
    induction fuel with
    | zero => intros; rfl
    | succ fuel ih =>
      intro key v c s n
      unfold upLoopC
      by_cases h0 : c = 0
      · rw [if_pos h0, if_pos h0]
        cases put v c key <;> rfl
      · rw [if_neg h0, if_neg h0]
        cases hg : get v (parentOf c) with
        | error f => simp only [bind, Except.bind, hg, Except.map]
        | ok p =>
          obtain ⟨b, s', hb⟩ := hcmp key p s
          simp only [bind, Except.bind, hg, counted, hb]
          cases b with
          | false =>
            simp only [Bool.not_false, if_true]
            cases put v c key <;> rfl
          | true =>
            simp only [Bool.not_true, Bool.false_eq_true, if_false]
            cases take v (parentOf c) with
            | error f => rfl
            | ok x =>
              obtain ⟨p', v'⟩ := x
              simp only
              cases put v' c p' with
              | error f => rfl
              | ok v'' => exact ih key v'' (parentOf c) s' (n + 1)
  · intro fuel
    induction fuel with
    | zero => intros; rfl
    | succ fuel ih =>
      intro v c s n
      have hbest : (bestChildC (counted cmp) v c (s, n)).map (fun x => (x.1, x.2.1)) = bestChildC cmp v c s := by
        unfold bestChildC
        split
        · cases get v (rightChildOf c) with
          | error f => rfl
          | ok r =>
            cases get v (leftChildOf c) with
            | error f => rfl
            | ok l =>
              obtain ⟨b, s', hb⟩ := hcmp r l s
              simp only [bind, Except.bind, counted, hb]
              rfl
        · rfl
      unfold propagateDownC
      split
      · rw [← hbest]
        cases bestChildC (counted cmp) v c (s, n) with
        | error f => rfl
        | ok x =>
          obtain ⟨best, s1, n1⟩ := x
          simp only [bind, Except.bind, Except.map]
          cases get v best with
          | error f => rfl
          | ok b =>
            cases get v c with
            | error f => rfl
            | ok k =>
              obtain ⟨r, s', hr⟩ := hcmp b k s1
              simp only [counted, hr]
              cases r with
              | false => rfl
              | true =>
                simp only [Bool.not_true, Bool.false_eq_true, if_false]
                cases put v best k with
                | error f => rfl
                | ok v' =>
                  simp only
                  cases put v' c b with
                  | error f => rfl
                  | ok v'' => exact ih v'' best s' (n1 + 1)
      · rfl

theorem addC_any {cmp : Cmp T S} (hcmp : Returns cmp) (v : List T) (x : T) (s : S) :
    ∃ (v' : List T) (s' : S), addC cmp (v.map some) x s = .ok (v'.map some, s') ∧ v'.Perm (x :: v) := by
  obtain ⟨v', s', n', h1, h2, -⟩ := C118_add hcmp v x s 0
  refine ⟨v', s', ?_, h2⟩
  have : (addC (counted cmp) (v.map some) x (s, 0)).map (fun x => (x.1, x.2.1)) = addC cmp (v.map some) x s := by
    unfold addC
    dsimp only
    split
    · unfold propagateUpC
      cases take (v.map some ++ [some x]) ((v.map some ++ [some x]).length - 1) with
      | error f => rfl
      | ok y => exact (uncount hcmp).1 _ _ _ _ _ _
    · rfl
  rw [← this, h1]
  rfl

theorem popC_any {cmp : Cmp T S} (hcmp : Returns cmp) (v : List T) (hne : v ≠ []) (s : S) :
    ∃ (r : T) (v' : List T) (s' : S), popC cmp (v.map some) s = .ok (r, v'.map some, s') ∧ v[0]? = some r ∧ v.Perm (r :: v') := by
  obtain ⟨r, v', s', n', h1, h2, h3, -⟩ := C118_pop hcmp v hne s 0
  refine ⟨r, v', s', ?_, h2, h3⟩
  have : (popC (counted cmp) (v.map some) (s, 0)).map (fun x => (x.1, x.2.1, x.2.2.1)) = popC cmp (v.map some) s := by
    unfold popC
    split
    · rfl
    · cases take (v.map some) 0 with
      | error f => rfl
      | ok y =>
        obtain ⟨top, w⟩ := y
        simp only [bind, Except.bind]
        split
        · rfl
        · cases take w (w.length - 1) with
          | error f => rfl
          | ok z =>
            obtain ⟨back, w⟩ := z
            simp only
            cases put w 0 back with
            | error f => rfl
            | ok w =>
              simp only
              have := (uncount hcmp).2 (w.dropLast.length + 1) w.dropLast 0 s 0
              rw [← this]
              cases propagateDownC (counted cmp) w.dropLast 0 (s, 0) (w.dropLast.length + 1) <;> rfl
  rw [← this, h1]
  rfl

theorem runC_any {cmp : Cmp T S} (hcmp : Returns cmp) : ∀ (ops : List (Op T)) (v B : List T) (s : S), v.Perm B →
    (legal B.length ops = true → ∃ (v' : List T) (s' : S) (outs : List (Out T)) (B' : List T), runC cmp (v.map some) s ops = .ok (v'.map some, s', outs) ∧ Steps (fun _ _ => True) B ops outs B' ∧ v'.Perm B') ∧
    (legal B.length ops = false → runC cmp (v.map some) s ops = .error .assertFail) := by
  intro ops
  induction ops with
  | nil =>
    intro v B s hp
    exact ⟨fun _ => ⟨v, s, [], B, rfl, .nil B, hp⟩, fun h => by simp [legal] at h⟩
  | cons op ops ih =>
    intro v B s hp
    cases op with
    | add x =>
      obtain ⟨v', s', h1, h2⟩ := addC_any hcmp v x s
      obtain ⟨h3, h4⟩ := ih v' (x :: B) s' (h2.trans (.cons x hp))
      have hex : execC cmp (v.map some) s (.add x) = .ok (v'.map some, s', .done) := by simp only [execC, bind, Except.bind, h1]
      simp only [legal, runC, bind, Except.bind, hex]
      refine ⟨fun hl => ?_, fun hl => by rw [h4 hl]⟩
      obtain ⟨v'', s'', outs, B', hr, hs, hpp⟩ := h3 hl
      exact ⟨v'', s'', .done :: outs, B', by rw [hr], .cons (.add B x) hs, hpp⟩
    | empty =>
      obtain ⟨h3, h4⟩ := ih v B s hp
      have he : empty (v.map some) = B.isEmpty := by
        have := hp.length_eq
        cases v <;> cases B <;> simp_all [empty]
      have hl : legal B.length (.empty :: ops) = legal B.length ops := by cases B <;> rfl
      simp only [hl, runC, execC, bind, Except.bind, he]
      refine ⟨fun hl => ?_, fun hl => by rw [h4 hl]⟩
      obtain ⟨v'', s'', outs, B', hr, hs, hpp⟩ := h3 hl
      exact ⟨v'', s'', .flag B.isEmpty :: outs, B', by rw [hr], .cons (.empty B) hs, hpp⟩
    | pop =>
      by_cases hne : v = []
      · subst hne
        obtain rfl : B = [] := hp.symm.eq_nil
        exact ⟨fun h => by simp [legal] at h, fun _ => rfl⟩
      · obtain ⟨r, v', s', h1, h0, h2⟩ := popC_any hcmp v hne s
        have hrB : r ∈ B := hp.subset (List.mem_of_getElem? h0)
        obtain ⟨a, t, rfl⟩ := List.append_of_mem hrB
        have hB : (a ++ r :: t).Perm (r :: (a ++ t)) := List.perm_middle
        have hv' : v'.Perm (a ++ t) := ((h2.symm.trans hp).trans hB).cons_inv
        obtain ⟨h3, h4⟩ := ih v' (a ++ t) s' hv'
        have hex : execC cmp (v.map some) s .pop = .ok (v'.map some, s', .item r) := by simp only [execC, bind, Except.bind, h1]
        have hleg : legal (a ++ r :: t).length (.pop :: ops) = legal (a ++ t).length ops := by rw [hB.length_eq]; rfl
        rw [hleg]
        simp only [runC, bind, Except.bind, hex]
        refine ⟨fun hl => ?_, fun hl => by rw [h4 hl]⟩
        obtain ⟨v'', s'', outs, B', hr, hs, hpp⟩ := h3 hl
        exact ⟨v'', s'', .item r :: outs, B', by rw [hr], .cons (.pop hB trivial) hs, hpp⟩
    | peek =>
      cases v with
      | nil =>
        obtain rfl : B = [] := hp.symm.eq_nil
        exact ⟨fun h => by simp [legal] at h, fun _ => rfl⟩
      | cons r t =>
        have hrB : r ∈ B := hp.subset (by simp)
        obtain ⟨h3, h4⟩ := ih (r :: t) B s hp
        have hex : execC cmp ((r :: t).map some) s .peek = .ok ((r :: t).map some, s, .item r) := rfl
        have hleg : legal B.length (.peek :: ops) = legal B.length ops := by
          cases B with
          | nil => simp at hrB
          | cons a B => rfl
        rw [hleg]
        simp only [runC, bind, Except.bind, hex]
        refine ⟨fun hl => ?_, fun hl => by rw [h4 hl]⟩
        obtain ⟨v'', s'', outs, B', hr, hs, hpp⟩ := h3 hl
        exact ⟨v'', s'', .item r :: outs, B', by rw [hr], .cons (.peek hrB trivial) hs, hpp⟩

/-- C39 for comparators with a state, whose answers may follow no order and change from call to call: every legal history runs without fault, and the queue holds
exactly the items added and not popped. An illegal history fails the assertion. -/
theorem C39_any_comparator {cmp : Cmp T S} (hcmp : Returns cmp) (ops : List (Op T)) (s : S) :
    (legal 0 ops = true → ∃ (v : List T) (s' : S) (outs : List (Out T)) (B : List T), runC cmp [] s ops = .ok (v.map some, s', outs) ∧
      Steps (fun _ _ => True) [] ops outs B ∧ v.Perm B) ∧
    (legal 0 ops = false → runC cmp [] s ops = .error .assertFail) :=
  runC_any hcmp ops [] [] s (.refl _)

/-- C39: whatever the comparator, `peek` shows what the next `pop` returns. -/
theorem C39_peek_is_next_pop {cmp : Cmp T S} (hcmp : Returns cmp) (v : List T) (hne : v ≠ []) (s : S) :
    ∃ (x : T) (v' : List T) (s' : S), peek (v.map some) = .ok x ∧ popC cmp (v.map some) s = .ok (x, v'.map some, s') := by
  obtain ⟨r, v', s', h1, h0, -⟩ := popC_any hcmp v hne s
  refine ⟨r, v', s', ?_, h1⟩
  cases v with
  | nil => exact absurd rfl hne
  | cons a t =>
    simp only [List.getElem?_cons_zero, Option.some.injEq] at h0
    subst h0
    rfl

/-- The items of a list of results. -/
def items (outs : List (Out Nat)) : List Nat := outs.filterMap (fun o => match o with | .item x => some x | _ => none)

-- a comparator that alternates its answers loses nothing, although the order is none
example : ((runC flip [] false [Op.add 3, .add 1, .add 2, .peek, .pop, .pop, .pop, .empty]).map (fun x => (x.1, items x.2.2))).toOption = some ([], [2, 2, 3, 1]) := by decide +kernel
-- popping too often fails
example : (runC flip [] false [Op.add 3, .pop, .pop]).toOption.isNone = true := by decide +kernel
example : legal 0 [Op.add 3, .add 1, .add 2, .peek, .pop, .pop, .pop, .empty] = true := rfl

/-- Only 2 outranks 0: a strict partial order, in which 1 is not comparable with anything. -/
def partialOrder : Nat → Nat → Bool := fun a b => a == 2 && b == 0

/-- C38 is not true of strict partial orders (irreflexive and transitive): "strict weak" cannot be weakened to that. From 0, 1, 1 and 2 the queue gives 0, which 2
outranks. -/
theorem C38_strict_weak_needed :
    (∀ a, partialOrder a a = false) ∧ (∀ a b c, partialOrder a b = true → partialOrder b c = true → partialOrder a c = true) ∧
    ∃ v, run partialOrder [] [.add 0, .add 1, .add 1, .add 2, .pop] = .ok (v, [.done, .done, .done, .done, .item 0]) ∧
      some 2 ∈ v ∧ partialOrder 2 0 = true := by
  refine ⟨?_, ?_, [some 2, some 1, some 1], rfl, by simp, rfl⟩
  · intro a
    simp only [partialOrder, Bool.and_eq_false_iff, beq_eq_false_iff_ne]
    omega
  · intro a b c h1 h2
    simp only [partialOrder, Bool.and_eq_true, beq_iff_eq] at *
    omega

end Verif.PQueue
