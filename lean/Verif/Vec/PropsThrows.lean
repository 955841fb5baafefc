import Verif.Vec.SpecThrows
/-!
# C149: the vector and deque helpers when elements, the allocator or the predicate throw
-/
namespace Verif.Vec
open Verif
variable {A : Type}

/-! ## PopBack, PopFront -/

theorem returnT_cases (p : Plan A) (elide : Bool) (n : Nat) (t : A) (v : List A) :
    ∃ n', returnT p elide n t v = (some t, v, n') ∨ (elide = false ∧ returnT p elide n t v = (none, v, n')) := by
  unfold returnT
  cases elide
  · by_cases h : p.throws n = true
    · exact ⟨n + 1, .inr ⟨rfl, by simp [h]⟩⟩
    · exact ⟨n + 1, .inl (by simp [h])⟩
  · exact ⟨n, .inl rfl⟩

/-- `PopBack` on a container with an element returns it and removes it, or throws: then the element is still there, as its move has left it, or (only if the compiler does
not elide the copy of the result) it is lost. The others are there in any case. -/
theorem C149_pop_back_partial (p : Plan A) (elide : Bool) (n : Nat) (v : List A) (a : A) :
    ∃ n', popBackT p elide n (v ++ [a]) = .ok (some a, v, n') ∨ popBackT p elide n (v ++ [a]) = .ok (none, v ++ [p.torn a], n') ∨
      (elide = false ∧ popBackT p elide n (v ++ [a]) = .ok (none, v, n')) := by
  by_cases h : p.throws n = true
  · exact ⟨n + 1, .inr (.inl (by simp [popBackT, h, List.set_append_right]))⟩
  · have e : popBackT p elide n (v ++ [a]) = .ok (returnT p elide (n + 1) a v) := by
      simp [popBackT, h, List.set_append_right]
    obtain ⟨n', h1 | ⟨h1, h2⟩⟩ := returnT_cases p elide (n + 1) a v
    · exact ⟨n', .inl (by rw [e, h1])⟩
    · exact ⟨n', .inr (.inr ⟨h1, by rw [e, h2]⟩)⟩

theorem C149_pop_front_partial (p : Plan A) (elide : Bool) (n : Nat) (v : List A) (a : A) :
    ∃ n', popFrontT p elide n (a :: v) = .ok (some a, v, n') ∨ popFrontT p elide n (a :: v) = .ok (none, p.torn a :: v, n') ∨
      (elide = false ∧ popFrontT p elide n (a :: v) = .ok (none, v, n')) := by
  by_cases h : p.throws n = true
  · exact ⟨n + 1, .inr (.inl (by simp [popFrontT, h]))⟩
  · have e : popFrontT p elide n (a :: v) = .ok (returnT p elide (n + 1) a v) := by simp [popFrontT, h]
    obtain ⟨n', h1 | ⟨h1, h2⟩⟩ := returnT_cases p elide (n + 1) a v
    · exact ⟨n', .inl (by rw [e, h1])⟩
    · exact ⟨n', .inr (.inr ⟨h1, by rw [e, h2]⟩)⟩

/-- The strong guarantee holds if the compiler elides the copy of the result. -/
theorem C149_pop_strong_partial (p : Plan A) (n n' : Nat) (v v' : List A) (ht : ∀ a, p.torn a = a) :
    (popBackT p true n v = .ok (none, v', n') → v' = v) ∧ (popFrontT p true n v = .ok (none, v', n') → v' = v) := by
  constructor
  · intro h
    rcases List.eq_nil_or_concat v with rfl | ⟨l, a, hl⟩
    · simp [popBackT] at h
    · rw [List.concat_eq_append] at hl
      subst hl
      obtain ⟨m, h1 | h1 | ⟨h1, -⟩⟩ := C149_pop_back_partial p true n l a
      · rw [h1] at h; cases h
      · rw [h1, ht] at h; cases h; rfl
      · cases h1
  · intro h
    cases v with
    | nil => simp [popFrontT] at h
    | cons a l =>
      obtain ⟨m, h1 | h1 | ⟨h1, -⟩⟩ := C149_pop_front_partial p true n l a
      · rw [h1] at h; cases h
      · rw [h1, ht] at h; cases h; rfl
      · cases h1

/-- It does not otherwise: the last element is gone when the copy of the result throws. -/
theorem C149_pop_refuted : ¬ PopStrong := by
  intro h
  have := (h { throws := fun k => k == 1, moved := id, torn := id, spoilt := fun _ a => a } false 0 2 [1, 2, 3] [1, 2] (fun _ => rfl)).1 rfl
  cases this

/-! ## MoveExtend -/

theorem extendLoopT_spec (p : Plan A) (dest : List A) (src : List A) : ∀ (rest done : List A) (n : Nat), src = done ++ rest →
    ∃ d s n' threw, extendLoopT p rest.length done.length n (dest ++ done) (done.map p.moved ++ rest) = .ok (d, s, n', threw) ∧
      (threw = false → d = dest ++ src) ∧
      (threw = true → ∃ l a r x, src = l ++ a :: r ∧ d = dest ++ l ∧ s = l.map p.moved ++ x :: r ∧ (x = a ∨ x = p.torn a)) := by
  intro rest
  induction rest with
  | nil => intro done n h; exact ⟨_, _, n, false, rfl, fun _ => by simp [h], fun h => by cases h⟩
  | cons a rest ih =>
    intro done n h
    have hget : (done.map p.moved ++ a :: rest)[done.length]? = some a := by
      rw [List.getElem?_append_right (by simp)]; simp
    have hset : ∀ y, (done.map p.moved ++ a :: rest).set done.length y = done.map p.moved ++ y :: rest := by
      intro y; rw [List.set_append_right _ _ (by simp)]; simp
    simp only [List.length_cons, extendLoopT, emplaceT, hget, bind, Except.bind]
    by_cases h1 : p.throws n = true
    · simp only [h1, if_true]
      exact ⟨_, _, _, true, rfl, (fun h => nomatch h), fun _ => ⟨done, a, rest, a, h, rfl, rfl, .inl rfl⟩⟩
    · simp only [h1]
      by_cases h2 : p.throws (n + 1) = true
      · simp only [h2, if_true, hset]
        exact ⟨_, _, _, true, rfl, (fun h => nomatch h), fun _ => ⟨done, a, rest, p.torn a, h, rfl, rfl, .inr rfl⟩⟩
      · simp only [h2, hset]
        have := ih (done ++ [a]) (n + 2) (by simp [h])
        simpa using this

/-- `MoveExtend` to an empty vector does not throw. Otherwise it appends all elements and empties the source, or throws: then it has appended those before some point,
whose shells are still in the source, with the rest of it unchanged but for the element at that point if its move threw. -/
theorem C149_move_extend_partial (p : Plan A) (n : Nat) (dest src : List A) :
    ∃ d s n' threw, moveExtendT p n dest src = .ok (d, s, n', threw) ∧ (threw = false → d = dest ++ src ∧ s = []) ∧
      (threw = true → dest ≠ [] ∧ ∃ l a r x, src = l ++ a :: r ∧ d = dest ++ l ∧ s = l.map p.moved ++ x :: r ∧ (x = a ∨ x = p.torn a)) := by
  cases hd : dest.isEmpty with
  | true =>
    have : dest = [] := List.isEmpty_iff.1 hd
    subst this
    exact ⟨src, [], n, false, rfl, fun _ => ⟨rfl, rfl⟩, fun h => by cases h⟩
  | false =>
    obtain ⟨d, s, n', threw, h1, h2, h3⟩ := extendLoopT_spec p dest src src [] n rfl
    simp only [List.length_nil, List.append_nil, List.map_nil, List.nil_append] at h1
    have hne : dest ≠ [] := by simpa using hd
    cases threw with
    | false => exact ⟨d, [], n', false, by simp [moveExtendT, hd, h1, bind, Except.bind], fun _ => ⟨h2 rfl, rfl⟩, fun h => by cases h⟩
    | true => exact ⟨d, s, n', true, by simp [moveExtendT, hd, h1, bind, Except.bind], fun h => by (cases h), fun _ => ⟨hne, h3 rfl⟩⟩

/-- The plan of the examples: operation `k` throws, moves leave 0. -/
def failing (k : Nat) : Plan Nat := { throws := fun n => n == k, moved := fun _ => 0, torn := id, spoilt := fun old _ => old }

theorem C149_extend_strong_refuted : ¬ ExtendStrong := by
  intro h
  have := h (failing 3) 0 4 [1] [2, 3, 4] [1, 2] [0, 3, 4] (fun _ => rfl) rfl
  exact absurd this (by decide)

/-- Calling it again appends the shells. -/
theorem C149_extend_retry_refuted : ¬ ExtendRetry := by
  intro h
  have := h (failing 3) 0 4 10 [1] [2, 3, 4] [1, 2] [0, 3, 4] [1, 2, 0, 3, 4] [] (fun _ => rfl) rfl rfl
  exact absurd this (by decide)

/-! ## EraseIf -/

theorem survivors_append (pred : Nat → A → Option Bool) : ∀ (l : List A) (i : Nat) (a : A),
    survivors pred i (l ++ [a]) = survivors pred i l ++ if pred (i + l.length) a = some false then [a] else [] := by
  intro l
  induction l with
  | nil => intro i a; simp [survivors]
  | cons b l ih =>
    intro i a
    simp only [List.cons_append, survivors, ih, List.length_cons]
    rw [show i + 1 + l.length = i + (l.length + 1) by omega]
    by_cases h : pred i b = some false
    · simp [h]
    · simp [h]

theorem leftover_mono {p : Plan A} {pred : Nat → A → Option Bool} {seen : List A} {x a : A} (h : Leftover p pred seen x) : Leftover p pred (seen ++ [a]) x := by
  rcases h with ⟨j, h1, h2⟩ | ⟨y, h1, h2⟩
  · refine .inl ⟨j, ?_, h2⟩
    rw [List.getElem?_append_left]
    · exact h1
    · exact (List.getElem?_eq_some_iff.1 h1).1
  · refine .inr ⟨y, ?_, h2⟩
    rw [survivors_append]
    exact List.mem_append_left _ h1

theorem removeIfT_spec (p : Plan A) (pred : Nat → A → Option Bool) : ∀ (rest seen junk : List A) (n : Nat) (res : Option Nat),
    (∀ j x, seen[j]? = some x → pred j x ≠ none) → (∀ x ∈ junk, Leftover p pred seen x) → (survivors pred 0 seen).length + junk.length = seen.length →
    (res = none → junk = []) → (∀ r, res = some r → r = (survivors pred 0 seen).length ∧ junk ≠ []) →
    ∃ v' n' it, removeIfT p pred rest.length seen.length n res (survivors pred 0 seen ++ junk ++ rest) = .ok (v', n', it) ∧
      (it = none → Stopped p pred (seen ++ rest) v' ∧ ((∀ k, p.throws k = false) → ∃ s a r mid, seen ++ rest = s ++ a :: r ∧ pred s.length a = none ∧ (∀ x ∈ mid, Leftover p pred s x) ∧ (∀ j x, s[j]? = some x → pred j x ≠ none) ∧
        v' = survivors pred 0 s ++ mid ++ a :: r)) ∧
      ∀ k, it = some k → k = (survivors pred 0 (seen ++ rest)).length ∧ (∃ tail, v' = survivors pred 0 (seen ++ rest) ++ tail) ∧
        ∀ j x, (seen ++ rest)[j]? = some x → pred j x ≠ none := by
  intro rest
  induction rest with
  | nil =>
    intro seen junk n res hs hj hl h1 h2
    refine ⟨_, _, _, rfl, fun h => (nomatch h), fun k hk => ?_⟩
    cases hk
    refine ⟨?_, ⟨junk, by simp⟩, by simpa using hs⟩
    cases res with
    | none => simp [h1 rfl] at hl ⊢; omega
    | some r => simp [(h2 r rfl).1]
  | cons a rest ih =>
    intro seen junk n res hs hj hl h1 h2
    have hget : vGet (survivors pred 0 seen ++ junk ++ a :: rest) seen.length = .ok a := by
      unfold vGet
      rw [List.getElem?_append_right (by simp; omega)]
      simp [hl]
    have hs' : pred seen.length a ≠ none → ∀ j x, (seen ++ [a])[j]? = some x → pred j x ≠ none := by
      intro h j x hx
      rcases Nat.lt_trichotomy j seen.length with hlt | rfl | hgt
      · rw [List.getElem?_append_left hlt] at hx; exact hs j x hx
      · simp at hx; rw [← hx]; exact h
      · rw [List.getElem?_append_right (by omega)] at hx
        rw [List.getElem?_eq_none (by simp; omega)] at hx
        cases hx
    have hslen : seen.length + 1 = (seen ++ [a]).length := by simp
    simp only [List.length_cons, removeIfT, hget, bind, Except.bind]
    cases hp : pred seen.length a with
    | none =>
      simp only
      refine ⟨_, _, _, rfl, fun _ => ⟨⟨seen, a, rest, junk, rfl, hs, hj, .inl ⟨hp, hl, by simp⟩⟩, fun _ => ⟨seen, a, rest, junk, rfl, hp, hj, hs, by simp⟩⟩, fun k hk => (nomatch hk)⟩
    | some b =>
      cases b with
      | true =>
        simp only
        have hsv : survivors pred 0 (seen ++ [a]) = survivors pred 0 seen := by
          rw [survivors_append]; simp [hp]
        have hr : res.getD seen.length = (survivors pred 0 seen).length := by
          cases res with
          | none => simp [h1 rfl] at hl ⊢; omega
          | some r => simp [(h2 r rfl).1]
        have := ih (seen ++ [a]) (junk ++ [a]) n (some (survivors pred 0 seen).length) (hs' (by simp [hp]))
          (by
            intro x hx
            rcases List.mem_append.1 hx with hx | hx
            · exact leftover_mono (hj x hx)
            · simp at hx
              subst hx
              exact .inl ⟨seen.length, by simp, hp⟩)
          (by rw [hsv]; simp; omega) (by simp) (by simp [hsv])
        rw [hsv] at this
        rw [hr, hslen]
        simpa using this
      | false =>
        simp only
        have hsv : survivors pred 0 (seen ++ [a]) = survivors pred 0 seen ++ [a] := by
          rw [survivors_append]; simp [hp]
        cases res with
        | none =>
          have hj0 := h1 rfl
          subst hj0
          have := ih (seen ++ [a]) [] n none (hs' (by simp [hp])) (by simp) (by rw [hsv]; simp at hl ⊢; omega) (fun _ => rfl) (by simp)
          rw [hsv] at this
          rw [hslen]
          simpa using this
        | some r =>
          obtain ⟨hr, hjn⟩ := h2 r rfl
          subst hr
          obtain ⟨j, js, rfl⟩ : ∃ j js, junk = j :: js := by
            cases junk with
            | nil => exact (hjn rfl).elim
            | cons j js => exact ⟨j, js, rfl⟩
          have hget2 : vGet (survivors pred 0 seen ++ j :: js ++ a :: rest) (survivors pred 0 seen).length = .ok j := by
            unfold vGet
            rw [List.append_assoc, List.getElem?_append_right (by simp)]
            simp
          have hset : ∀ y z, ((survivors pred 0 seen ++ j :: js ++ a :: rest).set (survivors pred 0 seen).length y).set seen.length z =
              survivors pred 0 seen ++ y :: js ++ z :: rest := by
            intro y z
            rw [List.append_assoc, List.set_append_right _ _ (Nat.le_refl _), ← hl]
            simp only [Nat.sub_self, List.cons_append, List.set_cons_zero, List.append_assoc]
            rw [List.set_append_right _ _ (by omega)]
            simp only [Nat.add_sub_cancel_left, List.length_cons, List.set_cons_succ]
            rw [List.set_append_right _ _ (Nat.le_refl _)]
            simp
          simp only [hget2, hset]
          by_cases ht : p.throws n = true
          · simp only [ht, if_true]
            refine ⟨_, _, _, rfl, fun _ => ⟨⟨seen, a, rest, js, rfl, hs, fun x hx => hj x (by simp [hx]), .inr ⟨hp, by simp at hl; omega, j, hj j (by simp), rfl⟩⟩, fun hno => ?_⟩,
              fun k hk => (nomatch hk)⟩
            rw [hno n] at ht; cases ht
          · simp only [ht]
            have := ih (seen ++ [a]) (js ++ [p.moved a]) (n + 1) (some (survivors pred 0 (seen ++ [a])).length) (hs' (by simp [hp]))
              (by
                intro x hx
                rcases List.mem_append.1 hx with hx | hx
                · exact leftover_mono (hj x (by simp [hx]))
                · simp at hx
                  subst hx
                  exact .inr ⟨a, by rw [hsv]; simp, rfl⟩)
              (by rw [hsv]; simp at hl ⊢; omega) (by simp) (by simp)
            rw [hsv] at this
            rw [hslen]
            simpa using this

/-- `EraseIf` leaves exactly the elements the predicate kept, or throws: then all elements are tested up to some point, those kept are at the front in order, those from that
point on are unchanged, and between them lie removed elements and shells. If it is an assignment that threw, only the element being assigned is affected.
Nothing is lost, and the length is unchanged. -/
theorem C149_erase_if_partial (p : Plan A) (pred : Nat → A → Option Bool) (n : Nat) (v : List A) :
    ∃ v' n' threw, eraseIfT p pred n v = .ok (v', n', threw) ∧
      (threw = false → v' = survivors pred 0 v ∧ ∀ j x, v[j]? = some x → pred j x ≠ none) ∧
      (threw = true → Stopped p pred v v' ∧ v'.length = v.length) := by
  obtain ⟨v', n', it, h1, h2, h3⟩ := removeIfT_spec p pred v [] [] n none (by simp) (by simp) rfl (fun _ => rfl) (by simp)
  simp only [List.length_nil, survivors, List.nil_append] at h1 h2 h3
  cases it with
  | none =>
    refine ⟨v', n', true, by simp [eraseIfT, h1, bind, Except.bind], fun h => (nomatch h), fun _ => ⟨(h2 rfl).1, ?_⟩⟩
    obtain ⟨seen, a, rest, mid, rfl, -, -, ⟨-, hl, rfl⟩ | ⟨-, hl, old, -, rfl⟩⟩ := (h2 rfl).1
    · simp; omega
    · simp; omega
  | some k =>
    obtain ⟨rfl, ⟨tail, rfl⟩, h4⟩ := h3 k rfl
    exact ⟨survivors pred 0 v, n', false, by simp [eraseIfT, h1, bind, Except.bind, vTruncate], fun _ => ⟨rfl, h4⟩, fun h => (nomatch h)⟩

/-- A second call does not finish the work: shells are taken for elements. Here 2, 4, 6 are to go, the predicate throws at 5, and a shell (1) stays. -/
theorem C149_erase_retry_refuted : ¬ EraseRetry := by
  intro h
  obtain ⟨m, hm⟩ := h { throws := fun _ => false, moved := fun _ => 1, torn := id, spoilt := fun old _ => old } (fun a => decide (a % 2 = 0))
    (fun _ a => if a = 5 then none else some (decide (a % 2 = 0))) 0 1 [2, 3, 5, 6] [3, 1, 5, 6] (fun _ => rfl)
    (by intro i a b hb; by_cases e : a = 5 <;> simp [e] at hb; exact hb.symm) (by decide +kernel)
  have : eraseIfT { throws := fun _ => false, moved := fun _ => 1, torn := id, spoilt := fun old _ => old } (fun _ a => some (decide (a % 2 = 0))) 1 [3, 1, 5, 6] =
      .ok ([3, 1, 5], 1, false) := by decide +kernel
  rw [this] at hm
  injection hm with hm
  exact absurd hm (by simp)

theorem survivors_pure (q : A → Bool) : ∀ (l : List A) (i : Nat), survivors (fun _ a => some (q a)) i l = l.filter (fun a => !q a) := by
  intro l
  induction l with
  | nil => intro i; rfl
  | cons a l ih => intro i; cases hq : q a <;> simp [survivors, hq, ih]

theorem survivors_filter (pred : Nat → A → Option Bool) (q : A → Bool) (hq : ∀ i a b, pred i a = some b → b = q a) : ∀ (l : List A) (i : Nat),
    (∀ j x, l[j]? = some x → pred (i + j) x ≠ none) → survivors pred i l = l.filter (fun a => !q a) := by
  intro l
  induction l with
  | nil => intro i _; rfl
  | cons a l ih =>
    intro i h
    have h0 := h 0 a rfl
    have ih' := ih (i + 1) (fun j x hx => by have := h (j + 1) x hx; rwa [show i + (j + 1) = i + 1 + j by omega] at this)
    cases hp : pred i a with
    | none => exact (h0 hp).elim
    | some b =>
      have hb := hq i a b hp
      cases b <;> simp [survivors, hp, ih', ← hb]

theorem eraseIfT_pure (p : Plan A) (q : A → Bool) (hno : ∀ k, p.throws k = false) (n : Nat) (v : List A) :
    ∃ m, eraseIfT p (fun _ a => some (q a)) n v = .ok (v.filter (fun a => !q a), m, false) := by
  obtain ⟨w, m, it, h1, h2, h3⟩ := removeIfT_spec p (fun _ a => some (q a)) v [] [] n none (by simp) (by simp) rfl (fun _ => rfl) (by simp)
  simp only [List.length_nil, survivors, List.nil_append] at h1 h2 h3
  cases it with
  | none => obtain ⟨s3, a3, r3, mid3, -, hc, -⟩ := (h2 rfl).2 hno; cases hc
  | some k =>
    obtain ⟨rfl, ⟨tail, rfl⟩, -⟩ := h3 k rfl
    rw [survivors_pure] at h1
    exact ⟨m, by simp [eraseIfT, h1, bind, Except.bind, vTruncate]⟩

/-- It does if the predicate asks for shells to be removed. -/
theorem C149_erase_retry_partial (p : Plan A) (q : A → Bool) (pred : Nat → A → Option Bool) (n n' : Nat) (v v' : List A) (hno : ∀ k, p.throws k = false)
    (hq : ∀ i a b, pred i a = some b → b = q a) (hm : ∀ a ∈ v, q (p.moved a) = true) (h : eraseIfT p pred n v = .ok (v', n', true)) :
    ∃ m, eraseIfT p (fun _ a => some (q a)) n' v' = .ok (v.filter (fun a => !q a), m, false) := by
  obtain ⟨w, m, it, h1, h2, h3⟩ := removeIfT_spec p pred v [] [] n none (by simp) (by simp) rfl (fun _ => rfl) (by simp)
  simp only [List.length_nil, survivors, List.nil_append] at h1 h2 h3
  have hit : it = none ∧ w = v' := by
    cases it with
    | none => simp [eraseIfT, h1, bind, Except.bind] at h; exact ⟨rfl, h.1⟩
    | some k =>
      obtain ⟨rfl, ⟨tail, rfl⟩, h4⟩ := h3 k rfl
      simp [eraseIfT, h1, bind, Except.bind, vTruncate] at h
  obtain ⟨rfl, rfl⟩ := hit
  obtain ⟨s, a, r, mid, hv, hpa, hmid, hs, rfl⟩ := (h2 rfl).2 hno
  obtain ⟨m2, g1⟩ := eraseIfT_pure p q hno n' (survivors pred 0 s ++ mid ++ a :: r)
  refine ⟨m2, ?_⟩
  rw [g1]
  have e1 : survivors pred 0 s = s.filter (fun a => !q a) := survivors_filter pred q hq s 0 (fun j x hx => by rw [Nat.zero_add]; exact hs j x hx)
  have e2 : mid.filter (fun a => !q a) = [] := by
    rw [List.filter_eq_nil_iff]
    intro x hx
    rcases hmid x hx with ⟨j, -, hj⟩ | ⟨y, hy, rfl⟩
    · simp [← hq j x true hj]
    · have : y ∈ v := by
        rw [e1] at hy
        rw [hv]
        exact List.mem_append_left _ (List.mem_filter.1 hy).1
      simp [hm y this]
  rw [List.filter_append, List.filter_append, e2, List.append_nil, e1, hv, List.filter_append]
  simp [List.filter_filter]

-- the throwing outcomes occur: in `PopBack` at the move and at the return, in `MoveExtend` at an allocation and at a move, in `EraseIf` at the predicate and at an assignment
example : popBackT (failing 0) true 0 [1, 2] = .ok (none, [1, 2], 1) ∧ popBackT (failing 1) true 0 [1, 2] = .ok (some 2, [1], 1) ∧
    popFrontT (failing 1) false 0 [1, 2] = .ok (none, [2], 2) := by decide +kernel
example : moveExtendT (failing 2) 0 [1] [2, 3, 4] = .ok ([1, 2], [0, 3, 4], 3, true) ∧ moveExtendT (failing 9) 0 [1] [2, 3, 4] = .ok ([1, 2, 3, 4], [], 6, false) := by decide +kernel
example : eraseIfT (failing 1) (fun _ a => some (decide (a % 2 = 0))) 0 [2, 3, 5, 6, 7] = .ok ([3, 0, 5, 6, 7], 2, true) := by decide +kernel

end Verif.Vec
