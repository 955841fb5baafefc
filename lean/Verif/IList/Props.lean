import Verif.IList.Lemmas
/-!
# Properties C41-C44: `InlineList`
-/
namespace Verif.IList
open Verif

variable {L N : Type} [DecidableEq L] [DecidableEq N]

/-- One operation of a legal history. -/
theorem exec_spec {debug lens : Bool} {fuel : Nat} {S : Seqs L N} {s : State L N} (hi : Inv debug lens S s)
    (op : Op L N) (hleg : Legal S op) (hf : ∀ l, (S l).length < fuel)
    (hl : lens = true → usesParentRemoval [op] = false) :
    ∃ s' o, exec debug fuel s op = .ok (s', o) ∧ Inv debug lens (after S op) s' ∧ SeqAnswer S op o ∧
      (lens = true → LenAnswer S op o) ∧ (debug = true → MemberAnswer S op o) := by
  cases op with
  | append l n =>
    obtain ⟨s', h1, h2⟩ := append_spec hi l hleg
    exact ⟨s', .done, by simp only [exec, h1, bind, Except.bind], h2, trivial, fun _ => trivial, fun _ => trivial⟩
  | remove l n =>
    obtain ⟨s', h1, h2⟩ := remove_spec hi hleg
    exact ⟨s', .done, by simp only [exec, h1, bind, Except.bind], h2, trivial, fun _ => trivial, fun _ => trivial⟩
  | removeFromParentList n =>
    obtain ⟨l, hn⟩ := hleg
    obtain ⟨s', h1, h2⟩ := removeFromParentList_spec hi hn
    have hlf : lens = false := by
      cases lens with
      | false => rfl
      | true => have := hl rfl; simp [usesParentRemoval] at this
    subst hlf
    exact ⟨s', .done, by simp only [exec, h1, bind, Except.bind], h2, trivial, fun _ => trivial, fun _ => trivial⟩
  | sweep rev l pick =>
    obtain ⟨s', h1, h2⟩ := sweep_spec hi rev pick l fuel (hf l)
    exact ⟨s', _, by simp only [exec, h1, bind, Except.bind], h2, rfl, fun _ => trivial, fun _ => trivial⟩
  | empty l =>
    refine ⟨s, _, rfl, hi, ⟨_, rfl, ?_⟩, fun _ => trivial, fun _ => trivial⟩
    rw [empty_spec hi, List.isEmpty_iff]
  | length l =>
    exact ⟨s, _, rfl, hi, trivial, fun h => by simp only [LenAnswer, length, hi.lens h], fun _ => trivial⟩
  | isInList n =>
    obtain ⟨h1, h2⟩ := isInList_spec hi n
    by_cases hn : ∃ l, n ∈ S l
    · refine ⟨s, .flag true, by simp only [exec, h1 hn, bind, Except.bind], hi, trivial, fun _ => trivial, fun _ => ?_⟩
      exact ⟨true, rfl, by simp [hn]⟩
    · by_cases hd : debug = true
      · refine ⟨s, .flag false, ?_, hi, trivial, fun _ => trivial, fun _ => ⟨false, rfl, by simp [hn]⟩⟩
        simp only [exec, h2 hd (fun l h => hn ⟨l, h⟩), bind, Except.bind]
      · refine ⟨s, .flag (s.mem (.node n)).next.isSome, ?_, hi, trivial, fun _ => trivial, fun h => (hd h).elim⟩
        simp [exec, isInList, hd, bind, Except.bind]
  | recreate l =>
    obtain ⟨s', h1, h2⟩ := recreate_spec hi l fuel (hf l)
    exact ⟨s', .done, by simp only [exec, h1, bind, Except.bind], h2, trivial, fun _ => trivial, fun _ => trivial⟩

theorem after_length (S : Seqs L N) (op : Op L N) (l : L) : ((after S op) l).length ≤ (S l).length + 1 := by
  have hfil : ∀ (xs : List N) (f : N → Bool), (xs.filter f).length ≤ xs.length + 1 :=
    fun xs f => Nat.le_succ_of_le (List.length_filter_le _ _)
  cases op <;> simp only [after, Seqs.set] <;> (try split) <;> (try subst_vars) <;>
    first | exact hfil _ _ | simp

theorem run_spec {debug lens : Bool} {fuel : Nat} : ∀ (ops : List (Op L N)) (S : Seqs L N) (s : State L N),
    Inv debug lens S s → LegalAll S ops → (∀ l, (S l).length + ops.length ≤ fuel) → (0 < ops.length → ∀ l, (S l).length < fuel) →
    (lens = true → usesParentRemoval ops = false) →
    ∃ s' os, run debug fuel s ops = .ok (s', os) ∧ Inv debug lens (afterAll S ops) s' ∧ Answers SeqAnswer S ops os ∧
      (lens = true → Answers LenAnswer S ops os) ∧ (debug = true → Answers MemberAnswer S ops os) := by
  intro ops
  induction ops with
  | nil => intro S s hi _ _ _ _; exact ⟨s, [], rfl, hi, .nil S, fun _ => .nil S, fun _ => .nil S⟩
  | cons op ops ih =>
    intro S s hi hleg hf hf' hl
    obtain ⟨hleg1, hleg2⟩ := hleg
    have hl1 : lens = true → usesParentRemoval [op] = false := by
      intro h; have := hl h; simp only [usesParentRemoval, List.any_cons, Bool.or_eq_false_iff] at this ⊢
      exact ⟨this.1, rfl⟩
    have hl2 : lens = true → usesParentRemoval ops = false := by
      intro h; have := hl h; simp only [usesParentRemoval, List.any_cons, Bool.or_eq_false_iff] at this ⊢
      exact this.2
    obtain ⟨s1, o, h1, hi1, ha1, hb1, hc1⟩ := exec_spec hi op hleg1 (hf' (by simp)) hl1
    have hfs : ∀ l, ((after S op) l).length + ops.length ≤ fuel := by
      intro l
      have := hf l
      have := after_length S op l
      simp only [List.length_cons] at *
      omega
    obtain ⟨s2, os, h2, hi2, ha2, hb2, hc2⟩ := ih (after S op) s1 hi1 hleg2 hfs
      (fun h0 l => by have := hfs l; omega) hl2
    exact ⟨s2, o :: os, by simp only [run, h1, h2, bind, Except.bind], hi2, .cons ha1 ha2,
      fun h => .cons (hb1 h) (hb2 h), fun h => .cons (hc1 h) (hc2 h)⟩

/-- C41: in debug and in release builds, every legal history over any lists and nodes (append, remove,
removal through the node, erase while iterating, destruction and reconstruction of lists) runs without
fault, every traversal visits exactly the sequence of its list (or its reverse) and `empty` tells
whether there is none. `after` gives the sequences: operations on one list leave all others alone.
The loop bound `fuel` only has to exceed the number of operations: no traversal diverges. -/
theorem C41_sequence (debug : Bool) (ops : List (Op L N)) (hl : LegalAll (fun _ => []) ops) (fuel : Nat)
    (hf : ops.length < fuel) :
    ∃ s outs, run debug fuel State.new ops = .ok (s, outs) ∧ Answers SeqAnswer (fun _ => []) ops outs := by
  obtain ⟨s, os, h1, -, h2, -⟩ := run_spec (lens := false) ops _ _ (inv_new debug false) hl
    (by intro l; simp; omega) (by intro _ l; simp; omega) (by simp) (fuel := fuel)
  exact ⟨s, os, h1, h2⟩

/-- C42, full statement. -/
def LengthCorrect : Prop :=
  ∀ (debug : Bool) (ops : List (Op Nat Nat)), LegalAll (fun _ => []) ops →
    ∀ s outs, run debug (ops.length + 1) State.new ops = .ok (s, outs) → Answers LenAnswer (fun _ => []) ops outs

/-- C42 is false: `removeFromParentList` does not update the list's length. -/
theorem C42_length_refuted : ¬ LengthCorrect := by
  intro h
  have h1 := h true [.append 0 0, .removeFromParentList 0, .length 0]
    ⟨by simp [Legal], ⟨0, by simp [after, Seqs.set]⟩, trivial, trivial⟩
  obtain ⟨s, outs, hr⟩ : ∃ s outs, run true 4 State.new
      [Op.append 0 0, .removeFromParentList 0, Op.length (L := Nat) (N := Nat) 0] = .ok (s, outs) ∧
      outs = [.done, .done, .count 1] := ⟨_, _, rfl, rfl⟩
  have h2 := h1 s outs hr.1
  rw [hr.2] at h2
  cases h2 with
  | cons _ h2 => cases h2 with
    | cons _ h2 => cases h2 with
      | cons h2 _ => simp [LenAnswer, after, Seqs.set] at h2

/-- C42, what holds: in histories without `removeFromParentList`, `length` is the number of nodes (as a
64-bit number), in both builds.
Missing: histories with `removeFromParentList`, for which it is false. -/
theorem C42_length_partial (debug : Bool) (ops : List (Op L N)) (hl : LegalAll (fun _ => []) ops)
    (hp : usesParentRemoval ops = false) (fuel : Nat) (hf : ops.length < fuel) :
    ∃ s outs, run debug fuel State.new ops = .ok (s, outs) ∧ Answers LenAnswer (fun _ => []) ops outs := by
  obtain ⟨s, os, h1, -, -, h2, -⟩ := run_spec (lens := true) ops _ _ (inv_new debug true) hl
    (by intro l; simp; omega) (by intro _ l; simp; omega) (fun _ => hp) (fuel := fuel)
  exact ⟨s, os, h1, h2 rfl⟩

/-- C43: after any legal history, the loop that erases an arbitrary subset while it iterates, in either
direction, visits every node once in order, and a following forward traversal finds exactly the nodes
that were not chosen, in their order; all other lists are as before. -/
theorem C43_erase_while_iterating (debug : Bool) (ops : List (Op L N)) (hl : LegalAll (fun _ => []) ops)
    (rev : Bool) (l k : L) (pick : N → Bool) :
    let S := afterAll (fun _ => []) ops
    ∃ s outs, run debug (ops.length + 4) State.new (ops ++ [.sweep rev l pick, .sweep false k (fun _ => false)]) =
        .ok (s, outs ++ [.visited (if rev then (S l).reverse else S l),
          .visited (if k = l then (S l).filter (fun n => !pick n) else S k)]) := by
  intro S
  have hfl : ∀ (ops : List (Op L N)) (S : Seqs L N) (l : L), ((afterAll S ops) l).length ≤ (S l).length + ops.length := by
    intro ops
    induction ops with
    | nil => intro S l; simp [afterAll]
    | cons op ops ih =>
      intro S l
      have := ih (after S op) l
      have := after_length S op l
      simp only [afterAll, List.foldl_cons, List.length_cons] at *
      omega
  obtain ⟨s, os, h1, hi, -⟩ := run_spec (lens := false) ops _ _ (inv_new debug false) hl
    (by intro l; simp) (by intro _ l; simp) (by simp) (fuel := ops.length + 4)
  have hS : ∀ l, (S l).length < ops.length + 4 := by
    intro l; have := hfl ops (fun _ => []) l; simp only [List.length_nil, S] at *; omega
  obtain ⟨s1, h2, hi1⟩ := sweep_spec hi rev pick l (ops.length + 4) (hS l)
  obtain ⟨s2, h3, -⟩ := sweep_spec hi1 false (fun _ => false) k (ops.length + 4) (by
    simp only [Seqs.set]; split
    · exact Nat.lt_of_le_of_lt (List.length_filter_le _ _) (hS l)
    · exact hS k)
  have happ : ∀ (ops : List (Op L N)) (t u : State L N) os (ops' : List (Op L N)) fuel, run debug fuel t ops = .ok (u, os) →
      run debug fuel t (ops ++ ops') = (do let (s, os') ← run debug fuel u ops'; .ok (s, os ++ os')) := by
    intro ops
    induction ops with
    | nil =>
      intro t u os ops' fuel h
      simp only [run, Except.ok.injEq, Prod.mk.injEq] at h
      obtain ⟨rfl, rfl⟩ := h
      simp only [List.nil_append, bind, Except.bind]
      cases run debug fuel t ops' <;> rfl
    | cons op ops ih =>
      intro t u os ops' fuel h
      simp only [run, bind, Except.bind, List.cons_append] at h ⊢
      cases he : exec debug fuel t op with
      | error e => rw [he] at h; cases h
      | ok r =>
        rw [he] at h
        dsimp only at h ⊢
        cases hr : run debug fuel r.1 ops with
        | error e => rw [hr] at h; cases h
        | ok r2 =>
          rw [hr] at h
          simp only [Except.ok.injEq, Prod.mk.injEq] at h
          obtain ⟨rfl, rfl⟩ := h
          rw [ih _ _ _ ops' fuel hr]
          simp only [bind, Except.bind]
          cases run debug fuel r2.1 ops' <;> rfl
  refine ⟨s2, os, ?_⟩
  rw [happ _ _ _ _ _ _ h1]
  simp only [run, exec, h2, h3, bind, Except.bind, Bool.false_eq_true, if_false, Seqs.set]
  rfl

/-- C44, full statement for a build. -/
def MembershipCorrect (debug : Bool) : Prop :=
  ∀ (ops : List (Op Nat Nat)), LegalAll (fun _ => []) ops →
    ∀ s outs, run debug (ops.length + 1) State.new ops = .ok (s, outs) → Answers MemberAnswer (fun _ => []) ops outs

/-- C44 is false in release builds: `remove` leaves the links in place, so a removed node still claims
to be in a list. -/
theorem C44_membership_refuted : ¬ ∀ debug, MembershipCorrect debug := by
  intro h
  have h1 := h false [.append 0 0, .remove 0 0, .isInList 0]
    ⟨by simp [Legal], by simp [Legal, after, Seqs.set], trivial, trivial⟩
  obtain ⟨s, outs, hr⟩ : ∃ s outs, run false 4 State.new
      [Op.append 0 0, .remove 0 0, Op.isInList (L := Nat) (N := Nat) 0] = .ok (s, outs) ∧
      outs = [.done, .done, .flag true] := ⟨_, _, rfl, rfl⟩
  have h2 := h1 s outs hr.1
  rw [hr.2] at h2
  cases h2 with
  | cons _ h2 => cases h2 with
    | cons _ h2 => cases h2 with
      | cons h2 _ => simp [MemberAnswer, after, Seqs.set] at h2

/-- C44, what holds: in debug builds `isInList` is exactly membership, in every legal history (and by C41
appending a removed node again passes the assertions).
Missing: release builds, where it is false. -/
theorem C44_membership_debug_partial (ops : List (Op L N)) (hl : LegalAll (fun _ => []) ops) (fuel : Nat)
    (hf : ops.length < fuel) :
    ∃ s outs, run true fuel State.new ops = .ok (s, outs) ∧ Answers MemberAnswer (fun _ => []) ops outs := by
  obtain ⟨s, os, h1, -, -, -, h2⟩ := run_spec (lens := false) ops _ _ (inv_new true false) hl
    (by intro l; simp; omega) (by intro _ l; simp; omega) (by simp) (fuel := fuel)
  exact ⟨s, os, h1, h2 rfl⟩

/-! ### Non-vacuity: a legal history over two lists with a node that moves between them -/

def demo : List (Op Bool Nat) :=
  [.append true 1, .append true 2, .append true 3, .append false 9, .sweep false true (fun n => n == 2),
   .append false 2, .removeFromParentList 1, .isInList 2, .sweep true false (fun _ => false), .recreate true,
   .append true 3, .empty true]

example : LegalAll (fun _ => []) demo := by
  simp [demo, LegalAll, Legal, after, Seqs.set]

example : (run true 20 State.new demo).toOption.map Prod.snd =
    some [.done, .done, .done, .done, .visited [1, 2, 3], .done, .done, .flag true, .visited [2, 9], .done, .done,
      .flag false] := by decide +kernel

end Verif.IList
