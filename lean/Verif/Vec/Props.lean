import Verif.Vec.Model
/-!
# C65: vector and deque helpers
-/
namespace Verif.Vec
open Verif

variable {A : Type} (moved : A → A)

section
variable {V : Type} [DecidableEq V]

theorem extendLoop_ok (dest src : V) (h : dest ≠ src) (n : Nat) : ∀ (fuel i : Nat) (env : V → List A), (env src).length = i + n → n < fuel →
    ∃ env', extendLoop moved dest src fuel i env = some (.ok env') ∧ env' dest = env dest ++ (env src).drop i ∧
      ∀ v, v ≠ dest → v ≠ src → env' v = env v := by
  induction n with
  | zero =>
    intro fuel i env hl hf
    obtain ⟨f, rfl⟩ : ∃ f, fuel = f + 1 := ⟨fuel - 1, by omega⟩
    refine ⟨env, ?_, ?_, fun _ _ _ => rfl⟩
    · simp only [extendLoop]; rw [if_neg (by omega)]
    · rw [List.drop_eq_nil_of_le (by omega), List.append_nil]
  | succ n ih =>
    intro fuel i env hl hf
    obtain ⟨f, rfl⟩ : ∃ f, fuel = f + 1 := ⟨fuel - 1, by omega⟩
    have hi : i < (env src).length := by omega
    have hne : src ≠ dest := fun e => h e.symm
    obtain ⟨env', h1, h2, h3⟩ := ih f (i + 1) (vset (vset env src ((env src).set i (moved (env src)[i]))) dest (vset env src ((env src).set i (moved (env src)[i])) dest ++ [(env src)[i]]))
      (by simp [vset, hne]; omega) (by omega)
    refine ⟨env', ?_, ?_, ?_⟩
    · simp only [extendLoop, List.getElem?_eq_getElem hi]
      rw [if_pos hi]; exact h1
    · rw [h2]
      simp only [vset, if_true, h, hne, if_false]
      rw [List.drop_set_of_lt (by omega), List.drop_eq_getElem_cons hi, List.append_assoc]
      rfl
    · intro v hv1 hv2
      rw [h3 v hv1 hv2]
      simp [vset, hv1, hv2]

/-- C65: `MoveExtend` of two different vectors ends, appends the elements of the source, in order, to the destination, leaves the source empty
and touches nothing else. (`fuel` bounds the loop tests; any number above the source's size gives this result.) -/
theorem C65_move_extend (dest src : V) (h : dest ≠ src) (env : V → List A) (fuel : Nat) (hf : (env src).length < fuel) :
    ∃ env', moveExtend moved dest src fuel env = some (.ok env') ∧ env' dest = env dest ++ env src ∧ env' src = [] ∧
      ∀ v, v ≠ dest → v ≠ src → env' v = env v := by
  unfold moveExtend
  cases hd : (env dest).isEmpty with
  | true =>
    have : env dest = [] := List.isEmpty_iff.1 hd
    have hne : src ≠ dest := fun e => h e.symm
    refine ⟨vset (vset env src []) dest (if dest = src then [] else env src), rfl, by simp [vset, h, this], by simp [vset, hne], ?_⟩
    intro v h1 h2; simp [vset, h1, h2]
  | false =>
    obtain ⟨env', h1, h2, h3⟩ := extendLoop_ok moved dest src h (env src).length fuel 0 env (by omega) hf
    simp only [h1, Bool.false_eq_true, if_false]
    refine ⟨vset env' src [], rfl, by simp [vset, h, h2], by simp [vset], ?_⟩
    intro v g1 g2; simp [vset, g2, h3 v g1 g2]

/-- C65, the excluded case: `MoveExtend(&v, &v)` of a non-empty vector never ends. -/
theorem C65_move_extend_self (x : V) (env : V → List A) (h : env x ≠ []) (fuel : Nat) : moveExtend moved x x fuel env = none := by
  have loop : ∀ (fuel i : Nat) (env : V → List A), i < (env x).length → extendLoop moved x x fuel i env = none := by
    intro fuel
    induction fuel with
    | zero => intro i env _; rfl
    | succ f ih =>
      intro i env hi
      simp only [extendLoop, List.getElem?_eq_getElem hi]
      rw [if_pos hi]
      apply ih
      simp [vset]; omega
  unfold moveExtend
  have hd : (env x).isEmpty = false := by simpa using h
  rw [hd]
  have := loop fuel 0 env (List.length_pos_iff.2 h)
  simp only [Bool.false_eq_true, if_false, this]
end

/-- C65: `PopBack` returns the last element and leaves the others; on an empty container it is out of bounds. -/
theorem C65_pop_back (v : List A) (a : A) : popBack moved (v ++ [a]) = .ok (a, v) ∧ popBack moved ([] : List A) = .error .outOfBounds := by
  constructor
  · simp [popBack, List.set_append_right]
  · rfl

/-- C65: `PopFront` returns the first element and leaves the others. -/
theorem C65_pop_front (v : List A) (a : A) : popFront moved (a :: v) = .ok (a, v) ∧ popFront moved ([] : List A) = .error .outOfBounds :=
  ⟨rfl, rfl⟩

/-- C65: `InsertAt`/`EmplaceAt` at a position between two parts puts the element there and keeps the order; a position beyond the end is out of bounds. -/
theorem C65_insert_at (l r : List A) (a : A) : insertAt (l ++ r) l.length a = .ok (l ++ a :: r) ∧
    ∀ n, (l ++ r).length < n → insertAt (l ++ r) n a = .error .outOfBounds := by
  constructor
  · simp [insertAt, vInsert]
  · intro n hn; unfold insertAt vInsert; rw [if_neg (by omega)]

/-- C65: `RemoveAt` deletes exactly the element at the position; a position not in the vector is out of bounds. -/
theorem C65_remove_at (l r : List A) (a : A) : removeAt (l ++ a :: r) l.length = .ok (l ++ r) ∧
    ∀ n, (l ++ a :: r).length ≤ n → removeAt (l ++ a :: r) n = .error .outOfBounds := by
  constructor
  · unfold removeAt vErase
    rw [if_pos (by simp)]
    simp [List.eraseIdx_append_of_length_le]
  · intro n hn; unfold removeAt vErase; rw [if_neg (by omega)]

/-- The loop of `remove_if`: `keep` has been kept, `junk` is between, `rest` not yet seen. -/
theorem removeIf_loop (pred : A → Bool) (rest : List A) : ∀ (keep junk log : List A) (res : Option Nat),
    (res = none → junk = []) → (∀ r, res = some r → r = keep.length ∧ junk ≠ []) →
    ∃ tail, removeIf moved pred rest.length (keep.length + junk.length) res (keep ++ junk ++ rest) log =
      .ok ((keep ++ rest.filter (fun a => !pred a)) ++ tail, (keep ++ rest.filter (fun a => !pred a)).length, rest.reverse ++ log) := by
  induction rest with
  | nil =>
    intro keep junk log res h1 h2
    cases res with
    | none => exact ⟨[], by simp [removeIf, h1 rfl]⟩
    | some r => exact ⟨junk, by simp [removeIf, (h2 r rfl).1]⟩
  | cons a rest ih =>
    intro keep junk log res h1 h2
    have hget : vGet (keep ++ junk ++ a :: rest) (keep.length + junk.length) = .ok a := by
      unfold vGet
      rw [List.getElem?_append_right (by simp)]
      simp
    simp only [List.length_cons, removeIf, hget, bind, Except.bind]
    by_cases hp : pred a = true
    · rw [if_pos hp]
      have hr : res.getD (keep.length + junk.length) = keep.length := by
        cases res with
        | none => simp [h1 rfl]
        | some r => simp [(h2 r rfl).1]
      obtain ⟨tail, ht⟩ := ih keep (junk ++ [a]) (a :: log) (some keep.length) (by simp) (by simp)
      refine ⟨tail, ?_⟩
      rw [hr]
      have e1 : keep.length + junk.length + 1 = keep.length + (junk ++ [a]).length := by simp; omega
      have e2 : keep ++ junk ++ a :: rest = keep ++ (junk ++ [a]) ++ rest := by simp
      rw [e1, e2, ht]
      simp [hp]
    · rw [if_neg hp]
      have hp' : pred a = false := by simpa using hp
      cases res with
      | none =>
        have hj := h1 rfl
        subst hj
        obtain ⟨tail, ht⟩ := ih (keep ++ [a]) [] (a :: log) none (fun _ => rfl) (by simp)
        refine ⟨tail, ?_⟩
        have e1 : keep.length + ([] : List A).length + 1 = (keep ++ [a]).length + ([] : List A).length := by simp
        have e2 : keep ++ [] ++ a :: rest = (keep ++ [a]) ++ [] ++ rest := by simp
        rw [e1, e2, ht]
        simp [hp']
      | some r =>
        obtain ⟨hr, hj⟩ := h2 r rfl
        subst hr
        obtain ⟨j, js, rfl⟩ : ∃ j js, junk = j :: js := by
          cases junk with
          | nil => exact (hj rfl).elim
          | cons j js => exact ⟨j, js, rfl⟩
        obtain ⟨tail, ht⟩ := ih (keep ++ [a]) (js ++ [moved a]) (a :: log) (some (keep ++ [a]).length) (by simp) (by simp)
        refine ⟨tail, ?_⟩
        have e1 : keep.length + (j :: js).length + 1 = (keep ++ [a]).length + (js ++ [moved a]).length := by simp; omega
        have e2 : ((keep ++ j :: js ++ a :: rest).set keep.length a).set (keep.length + (j :: js).length) (moved a)
            = (keep ++ [a]) ++ (js ++ [moved a]) ++ rest := by
          rw [List.append_assoc, List.set_append_right _ _ (Nat.le_refl _), List.set_append_right _ _ (by omega)]
          simp only [Nat.sub_self, List.cons_append, List.set_cons_zero, List.length_cons, List.append_assoc]
          rw [show keep.length + (js.length + 1) - keep.length = js.length + 1 by omega, List.set_cons_succ,
            List.set_append_right _ _ (Nat.le_refl _)]
          simp
        have e3 : keep.length + 1 = (keep ++ [a]).length := by simp
        simp only
        rw [e1, e2, e3, ht]
        simp [hp']

/-- C65: `EraseIf` keeps exactly the elements the predicate rejects, in order, and calls the predicate once per element, in order. -/
theorem C65_erase_if (pred : A → Bool) (v : List A) :
    eraseIf moved pred v = .ok (v.filter (fun a => !pred a), v.reverse) := by
  obtain ⟨tail, ht⟩ := removeIf_loop moved pred v [] [] [] none (fun _ => rfl) (by simp)
  simp only [List.length_nil, Nat.add_zero, List.nil_append, List.append_nil] at ht
  simp only [eraseIf, bind, Except.bind]
  rw [ht]
  simp [vTruncate]

example : eraseIf (fun _ => 0) (fun n => n % 2 = 0) [1, 2, 3, 4, 4, 5] = .ok ([1, 3, 5], [5, 4, 4, 3, 2, 1]) := by decide
example : (moveExtend (fun _ => 0) true false 4 (fun b => if b then [1, 2] else [3, 4, 5])).map
    (fun r => match r with | .ok e => (e true, e false) | .error _ => ([], [])) = some ([1, 2, 3, 4, 5], []) := by decide

end Verif.Vec
