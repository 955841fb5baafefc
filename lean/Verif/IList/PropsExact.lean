import Verif.IList.Props
import Verif.IList.SpecExact
/-!
# C42, C44: the exact answers of `length`, and of `isInList` in release builds
-/
namespace Verif.IList
open Verif

set_option linter.unusedSectionVars false
set_option linter.unusedSimpArgs false

variable {L N : Type} [DecidableEq L] [DecidableEq N]

/-- `length_` is the number of nodes and the missed removals. -/
def Lens (d : L → Nat) (S : Seqs L N) (s : State L N) : Prop :=
  ∀ l, s.len l = BitVec.ofNat 64 ((S l).length + d l)

/-- A node looks linked exactly if it is in `T`. -/
def Marks (T : N → Bool) (_ : Seqs L N) (s : State L N) : Prop :=
  ∀ n, (s.mem (.node n)).next.isSome = T n

theorem unlink_len {s s' : State L N} {t : Addr L N} (h : unlink s t = .ok s') : s'.len = s.len := by
  simp only [unlink, nonNull] at h
  cases hp : (s.mem t).prev with
  | none => simp [hp, bind, Except.bind] at h
  | some p =>
    simp only [hp, bind, Except.bind] at h
    split at h
    · cases h
    · injection h with h; subst h; rfl

theorem remove_len {debug : Bool} {s s' : State L N} {l : L} {t : Addr L N} (h : remove debug s l t = .ok s') :
    s'.len = fun k => if k = l then s.len l - 1 else s.len k := by
  simp only [remove, bind, Except.bind] at h
  cases hu : unlink s t with
  | error e => simp [hu] at h
  | ok s1 =>
    simp only [hu] at h
    have := unlink_len hu
    split at h <;> (injection h with h; subst h; simp [nullify, setPrev, setNext, setLen, this])

theorem lens_survives (debug : Bool) (d : L → Nat) : Survives (N := N) debug false (Lens d) := by
  intro S s s' l n hi hn hj h k
  rw [remove_len h]
  have hln := filter_ne_length hn (hi.nodup l)
  by_cases hk : k = l
  · subst hk
    simp only [if_true, Seqs.set, hj k, hln]
    exact BitVec.eq_of_toNat_eq (by simp [BitVec.toNat_sub]; omega)
  · simp only [if_neg hk, Seqs.set, hj k]

/-- The predecessor of a node of a list looks linked, or is a sentinel. -/
theorem unlink_marks {debug lens : Bool} {S : Seqs L N} {s s' : State L N} (hi : Inv debug lens S s) {l : L} {n : N}
    (hn : n ∈ S l) (h : unlink s (.node n) = .ok s') (m : N) :
    (s'.mem (.node m)).next.isSome = (s.mem (.node m)).next.isSome := by
  obtain ⟨xs, ys, hS⟩ := List.append_of_mem hn
  have hnd := hi.nodup l
  have hL := hi.linked l
  rw [hS] at hnd hL
  obtain ⟨p, q, hp, hq, hu, hpm, hqm, -, -, -⟩ := unlink_spec hL hnd
  rw [hu] at h
  injection h with h
  subst h
  simp only [setPrev, setNext]
  by_cases hmp : Addr.node m = p
  · have hmm : m ∈ S l := by
      rw [← hmp] at hpm
      simp only [List.mem_cons, List.mem_map, reduceCtorEq, Addr.node.injEq, false_or] at hpm
      obtain ⟨a, ha, rfl⟩ := hpm
      rw [hS]; simp [ha]
    obtain ⟨p', q', -, -, hq', -⟩ := unlinked_inv hi hmm true (fun _ => rfl)
    rw [hq']
    split <;> simp [hmp]
  · split <;> simp [hmp]

theorem marks_survives (T : N → Bool) : Survives (L := L) false false (Marks T) := by
  intro S s s' l n hi hn hj h m
  simp only [remove, bind, Except.bind] at h
  cases hu : unlink s (.node n) with
  | error e => simp [hu] at h
  | ok s1 =>
    simp only [hu, Bool.false_eq_true, if_false, Except.ok.injEq] at h
    subst h
    have := unlink_marks hi hn hu m
    simp only [setLen]
    rw [this]; exact hj m

theorem destroyLoop_len {l : L} : ∀ {fuel : Nat} {s s' : State L N}, destroyLoop s l fuel = .ok s' →
    ∀ k, k ≠ l → s'.len k = s.len k := by
  intro fuel
  induction fuel with
  | zero => intro s s' h; simp [destroyLoop] at h
  | succ fuel ih =>
    intro s s' h k hk
    simp only [destroyLoop] at h
    split at h
    · injection h with h; subst h; rfl
    · simp only [bind, Except.bind, nonNull] at h
      split at h
      · cases h
      · cases hr : remove true s l ‹_› with
        | error e => simp [hr] at h
        | ok s1 =>
          simp only [hr] at h
          rw [ih h k hk, remove_len hr]
          simp [hk]

theorem append_len {debug : Bool} {s s' : State L N} {l : L} {n : N} (h : append debug s l n = .ok s') :
    s'.len = fun k => if k = l then s.len l + 1 else s.len k := by
  simp only [append] at h
  split at h
  · cases h
  · split at h
    · cases h
    · simp only [bind, Except.bind, nonNull] at h
      split at h
      · cases h
      · injection h with h; subst h; rfl

theorem append_marks {debug lens : Bool} {S : Seqs L N} {s s' : State L N} (hi : Inv debug lens S s) {l : L} {n : N}
    (h : append debug s l n = .ok s') (m : N) :
    (s'.mem (.node m)).next.isSome = if m = n then true else (s.mem (.node m)).next.isSome := by
  have hprev : ∀ x, (s.mem (.head l)).prev = some (.node x) → x ∈ S l := by
    intro x hx
    rw [(first_of_linked (hi.linked l)).2] at hx
    have := List.mem_of_getLast? hx
    simpa using this
  simp only [append] at h
  split at h
  · cases h
  · split at h
    · cases h
    · simp only [bind, Except.bind, nonNull] at h
      split at h
      · cases h
      · rename_i p hp
        injection h with h; subst h
        split at hp
        · rename_i a ha
          injection hp with hp; subst hp
          have ha' : (s.mem (.head l)).prev = some a := by
            simpa [setPrev, setNext] using ha
          by_cases hmn : m = n
          · subst hmn
            simp only [setLen, setPrev, setNext, reduceCtorEq, if_false, if_true]
            split <;> rfl
          · have hne : (Addr.node m : Addr L N) ≠ .node n := fun h => hmn (by injection h)
            simp only [setLen, setPrev, setNext, reduceCtorEq, if_false, if_neg hne, if_neg hmn]
            split
            · rename_i he
              subst he
              obtain ⟨p', q', -, -, hq', -⟩ := unlinked_inv hi (hprev m ha') true (fun _ => rfl)
              simp [hq']
            · rfl
        · cases hp

/-- One operation keeps the length invariant. -/
theorem exec_lens {debug : Bool} {fuel : Nat} {S : Seqs L N} {d : L → Nat} {s : State L N} (hi : Inv debug false S s)
    (hj : Lens d S s) (op : Op L N) (hleg : Legal S op) (hf : ∀ l, (S l).length < fuel) :
    ∃ s' o, exec debug fuel s op = .ok (s', o) ∧ Inv debug false (after S op) s' ∧
      Lens (missedAfter S d op) (after S op) s' ∧
      (∀ l, op = .length l → o = .count (BitVec.ofNat 64 ((S l).length + d l))) := by
  cases op with
  | append l n =>
    obtain ⟨s', h1, h2⟩ := append_spec hi l hleg
    refine ⟨s', .done, by simp only [exec, h1, bind, Except.bind], h2, fun k => ?_, by simp⟩
    rw [append_len h1]
    by_cases hk : k = l
    · subst hk
      simp only [if_true, after, Seqs.set, missedAfter, hj k]
      exact BitVec.eq_of_toNat_eq (by simp; omega)
    · simp only [if_neg hk, after, Seqs.set, missedAfter, hj k]
  | remove l n =>
    obtain ⟨s', h1, h2⟩ := remove_spec hi hleg
    exact ⟨s', .done, by simp only [exec, h1, bind, Except.bind], h2, lens_survives debug d _ _ _ _ _ hi hleg hj h1,
      by simp⟩
  | removeFromParentList n =>
    obtain ⟨l, hn⟩ := hleg
    obtain ⟨s', h1, h2⟩ := removeFromParentList_spec hi hn
    refine ⟨s', .done, by simp only [exec, h1, bind, Except.bind], h2, fun k => ?_, by simp⟩
    have hlen : s'.len = s.len := by
      simp only [removeFromParentList, bind, Except.bind] at h1
      cases hu : unlink s (.node n) with
      | error e => simp [hu] at h1
      | ok s1 =>
        simp only [hu, Except.ok.injEq] at h1
        subst h1
        have := unlink_len hu
        simpa [nullify, setPrev, setNext] using this
    rw [hlen, hj k]
    simp only [after, missedAfter]
    by_cases hk : n ∈ S k
    · have := filter_ne_length hk (hi.nodup k)
      rw [if_pos hk]
      congr 1
      omega
    · rw [if_neg hk, List.filter_eq_self.2]
      intro a ha; simp; rintro rfl; exact hk ha
  | sweep rev l pick =>
    obtain ⟨s', h1, h2, h3⟩ := sweep_spec_J (lens_survives debug d) hi hj rev pick l fuel (hf l)
    exact ⟨s', .visited (if rev then (S l).reverse else S l), by simp only [exec, h1, bind, Except.bind], h2, h3, by simp⟩
  | empty l => exact ⟨s, _, rfl, hi, hj, by simp⟩
  | length l => exact ⟨s, _, rfl, hi, hj, by rintro k ⟨⟩; rw [length, hj]⟩
  | isInList n =>
    obtain ⟨h1, h2⟩ := isInList_spec hi n
    by_cases hn : ∃ l, n ∈ S l
    · exact ⟨s, .flag true, by simp only [exec, h1 hn, bind, Except.bind], hi, hj, by simp⟩
    · by_cases hd : debug = true
      · refine ⟨s, .flag false, ?_, hi, hj, by simp⟩
        simp only [exec, h2 hd (fun l h => hn ⟨l, h⟩), bind, Except.bind]
      · refine ⟨s, .flag (s.mem (.node n)).next.isSome, ?_, hi, hj, by simp⟩
        simp [exec, isInList, hd, bind, Except.bind]
  | recreate l =>
    obtain ⟨s', h1, h2⟩ := recreate_spec hi l fuel (hf l)
    refine ⟨s', .done, by simp only [exec, h1, bind, Except.bind], h2, fun k => ?_, by simp⟩
    have key : ∀ t : State L N, (∀ k, k ≠ l → t.len k = s.len k) →
        s' = setLen (setPrev (setNext t (.head l) (some (.head l))) (.head l) (some (.head l))) l 0 →
        s'.len k = BitVec.ofNat 64 ((after S (.recreate l) k).length + missedAfter S d (.recreate l) k) := by
      rintro t ht rfl
      simp only [setLen, setPrev, setNext, after, Seqs.set, missedAfter]
      by_cases hk : k = l
      · subst hk; simp
      · simp only [if_neg hk]
        rw [ht k hk, hj k]
    simp only [recreate, bind, Except.bind] at h1
    cases debug with
    | false =>
      simp only [Bool.false_eq_true, if_false, Except.ok.injEq] at h1
      exact key s (fun _ _ => rfl) h1.symm
    | true =>
      simp only [if_true] at h1
      cases hd : destroyLoop s l fuel with
      | error e => simp [hd] at h1
      | ok t =>
        simp only [hd, Except.ok.injEq] at h1
        exact key t (destroyLoop_len hd) h1.symm

theorem run_lens {debug : Bool} {fuel : Nat} : ∀ (ops : List (Op L N)) (S : Seqs L N) (d : L → Nat) (s : State L N),
    Inv debug false S s → Lens d S s → LegalAll S ops → (∀ l, (S l).length + ops.length < fuel) →
    ∃ s' os, run debug fuel s ops = .ok (s', os) ∧ ExactLengths S d ops os := by
  intro ops
  induction ops with
  | nil => intro S d s _ _ _ _; exact ⟨s, [], rfl, rfl⟩
  | cons op ops ih =>
    intro S d s hi hj hleg hf
    obtain ⟨s1, o, h1, hi1, hj1, ho⟩ := exec_lens (fuel := fuel) hi hj op hleg.1 (fun l => by have := hf l; omega)
    obtain ⟨s2, os, h2, hos⟩ := ih _ _ s1 hi1 hj1 hleg.2 (fun l => by
      have := hf l
      have := after_length S op l
      simp only [List.length_cons] at *
      omega)
    exact ⟨s2, o :: os, by simp only [run, h1, h2, bind, Except.bind], ho, hos⟩

/-- C42, the exact answer: in every legal history, in both builds, `length` is the number of nodes plus
the number of nodes that left this list through `removeFromParentList` since it was constructed. So it
never falls below the number of nodes, and is right from then on only if the list is constructed anew. -/
theorem C42_length_exact (debug : Bool) (ops : List (Op L N)) (hl : LegalAll (fun _ => []) ops) (fuel : Nat)
    (hf : ops.length < fuel) :
    ∃ s outs, run debug fuel State.new ops = .ok (s, outs) ∧ ExactLengths (fun _ => []) (fun _ => 0) ops outs :=
  run_lens ops _ _ _ (inv_new debug false) (fun _ => rfl) hl (by intro l; simpa using hf)

/-- One operation of a release build keeps the marks. -/
theorem exec_marks {fuel : Nat} {S : Seqs L N} {T : N → Bool} {s : State L N} (hi : Inv false false S s)
    (hj : Marks T S s) (op : Op L N) (hleg : Legal S op) (hf : ∀ l, (S l).length < fuel) :
    ∃ s' o, exec false fuel s op = .ok (s', o) ∧ Inv false false (after S op) s' ∧
      Marks (everAfter T op) (after S op) s' ∧ (∀ n, op = .isInList n → o = .flag (T n)) := by
  cases op with
  | append l n =>
    obtain ⟨s', h1, h2⟩ := append_spec hi l hleg
    refine ⟨s', .done, by simp only [exec, h1, bind, Except.bind], h2, fun m => ?_, by simp⟩
    rw [append_marks hi h1 m, hj m]
    rfl
  | remove l n =>
    obtain ⟨s', h1, h2⟩ := remove_spec hi hleg
    exact ⟨s', .done, by simp only [exec, h1, bind, Except.bind], h2, marks_survives T _ _ _ _ _ hi hleg hj h1, by simp⟩
  | removeFromParentList n =>
    obtain ⟨l, hn⟩ := hleg
    obtain ⟨s', h1, h2⟩ := removeFromParentList_spec hi hn
    refine ⟨s', .done, by simp only [exec, h1, bind, Except.bind], h2, fun m => ?_, by simp⟩
    simp only [removeFromParentList, bind, Except.bind] at h1
    cases hu : unlink s (.node n) with
    | error e => simp [hu] at h1
    | ok s1 =>
      simp only [hu, Except.ok.injEq] at h1
      subst h1
      have := unlink_marks hi hn hu m
      simp only [everAfter]
      by_cases hmn : m = n
      · subst hmn; simp [nullify, setPrev, setNext]
      · have hne : (Addr.node m : Addr L N) ≠ .node n := fun h => hmn (by injection h)
        simp only [nullify, setPrev, setNext, if_neg hne, if_neg hmn, this]
        exact hj m
  | sweep rev l pick =>
    obtain ⟨s', h1, h2, h3⟩ := sweep_spec_J (marks_survives T) hi hj rev pick l fuel (hf l)
    exact ⟨s', .visited (if rev then (S l).reverse else S l), by simp only [exec, h1, bind, Except.bind], h2, h3, by simp⟩
  | empty l => exact ⟨s, _, rfl, hi, hj, by simp⟩
  | length l => exact ⟨s, _, rfl, hi, hj, by simp⟩
  | isInList n =>
    refine ⟨s, .flag (s.mem (.node n)).next.isSome, ?_, hi, hj, ?_⟩
    · simp [exec, isInList, bind, Except.bind]
    · rintro m ⟨⟩; rw [hj n]
  | recreate l =>
    obtain ⟨s', h1, h2⟩ := recreate_spec hi l fuel (hf l)
    refine ⟨s', .done, by simp only [exec, h1, bind, Except.bind], h2, fun m => ?_, by simp⟩
    simp only [recreate, bind, Except.bind, Bool.false_eq_true, if_false, Except.ok.injEq] at h1
    subst h1
    simp only [setLen, setPrev, setNext, reduceCtorEq, if_false]
    exact hj m

theorem run_marks {fuel : Nat} : ∀ (ops : List (Op L N)) (S : Seqs L N) (T : N → Bool) (s : State L N),
    Inv false false S s → Marks T S s → LegalAll S ops → (∀ l, (S l).length + ops.length < fuel) →
    ∃ s' os, run false fuel s ops = .ok (s', os) ∧ ExactMembers T ops os := by
  intro ops
  induction ops with
  | nil => intro S d s _ _ _ _; exact ⟨s, [], rfl, rfl⟩
  | cons op ops ih =>
    intro S d s hi hj hleg hf
    obtain ⟨s1, o, h1, hi1, hj1, ho⟩ := exec_marks (fuel := fuel) hi hj op hleg.1 (fun l => by have := hf l; omega)
    obtain ⟨s2, os, h2, hos⟩ := ih _ _ s1 hi1 hj1 hleg.2 (fun l => by
      have := hf l
      have := after_length S op l
      simp only [List.length_cons] at *
      omega)
    exact ⟨s2, o :: os, by simp only [run, h1, h2, bind, Except.bind], ho, hos⟩

/-- C44, the exact answer of release builds: `isInList` is true exactly if the node has been appended
and has not left through `removeFromParentList` since: removal by the list, erasure and the destruction
of the list do not show. -/
theorem C44_membership_release (ops : List (Op L N)) (hl : LegalAll (fun _ => []) ops) (fuel : Nat)
    (hf : ops.length < fuel) :
    ∃ s outs, run false fuel State.new ops = .ok (s, outs) ∧ ExactMembers (fun _ => false) ops outs :=
  run_marks ops _ _ _ (inv_new false false) (fun _ => rfl) hl (by intro l; simpa using hf)

/-- Hence a node that is in a list is always reported, and a node that never was is not. -/
theorem C44_membership_release_sound (ops : List (Op L N)) (hl : LegalAll (fun _ => []) ops) (n : N)
    (hn : ∃ l, n ∈ afterAll (fun _ => []) ops l) : ops.foldl everAfter (fun _ => false) n = true := by
  have key : ∀ (ops : List (Op L N)) (S : Seqs L N) (T : N → Bool), LegalAll S ops →
      (∀ l k m, m ∈ S l → m ∈ S k → l = k) → (∀ m, (∃ l, m ∈ S l) → T m = true) →
      (∃ l, n ∈ afterAll S ops l) → ops.foldl everAfter T n = true := by
    intro ops
    induction ops with
    | nil => intro S T _ _ hT hn; exact hT n hn
    | cons op ops ih =>
      intro S T hleg hd hT hn
      refine ih (after S op) (everAfter T op) hleg.2 ?_ ?_ hn
      · have hsub : ∀ k m, (∀ l' n', op ≠ .append l' n') → m ∈ after S op k → m ∈ S k := by
          intro k m hop
          cases op with
          | append l' n' => exact (hop _ _ rfl).elim
          | _ =>
            simp only [after, Seqs.set]
            first
              | exact id
              | exact fun h => (List.mem_filter.1 h).1
              | (split
                 · rename_i hk; subst hk
                   first | exact fun h => (List.mem_filter.1 h).1 | simp
                 · exact id)
        intro l k m hm hm'
        by_cases hop : ∀ l' n', op ≠ .append l' n'
        · exact hd l k m (hsub l m hop hm) (hsub k m hop hm')
        · have ⟨l', n', ho⟩ : ∃ l' n', op = .append l' n' := by
            cases op <;> simp_all
          subst ho
          have hfresh : ∀ k, n' ∉ S k := hleg.1
          simp only [after, Seqs.set] at hm hm'
          split at hm <;> split at hm'
          · simp_all
          · rename_i h1 h2; subst h1
            simp only [List.mem_append, List.mem_singleton] at hm
            rcases hm with hm | rfl
            · exact hd _ _ _ hm hm'
            · exact (hfresh _ hm').elim
          · rename_i h1 h2; subst h2
            simp only [List.mem_append, List.mem_singleton] at hm'
            rcases hm' with hm' | rfl
            · exact hd _ _ _ hm hm'
            · exact (hfresh _ hm).elim
          · exact hd _ _ _ hm hm'
      · rintro m ⟨l, hm⟩
        cases op with
        | append l' n' =>
          simp only [everAfter]
          split
          · rfl
          · rename_i hne
            simp only [after, Seqs.set] at hm
            split at hm
            · rename_i h1; subst h1
              simp only [List.mem_append, List.mem_singleton, hne, or_false] at hm
              exact hT m ⟨_, hm⟩
            · exact hT m ⟨_, hm⟩
        | removeFromParentList n' =>
          simp only [after, List.mem_filter, decide_eq_true_eq] at hm
          simp only [everAfter, if_neg hm.2]
          exact hT m ⟨_, hm.1⟩
        | remove l' n' =>
          simp only [after, Seqs.set] at hm
          split at hm
          · exact hT m ⟨_, (List.mem_filter.1 hm).1⟩
          · exact hT m ⟨_, hm⟩
        | sweep r l' pk =>
          simp only [after, Seqs.set] at hm
          split at hm
          · exact hT m ⟨_, (List.mem_filter.1 hm).1⟩
          · exact hT m ⟨_, hm⟩
        | recreate l' =>
          simp only [after, Seqs.set] at hm
          split at hm
          · simp at hm
          · exact hT m ⟨_, hm⟩
        | empty l' => exact hT m ⟨_, hm⟩
        | length l' => exact hT m ⟨_, hm⟩
        | isInList n' => exact hT m ⟨_, hm⟩
  exact key ops _ _ hl (by simp) (by simp) hn

/-! ### Non-vacuity: one removal through the node, then the list is one longer than its nodes, until it
is constructed anew; a node removed by its list still looks linked in a release build -/

def demoExact : List (Op Bool Nat) :=
  [.append true 1, .append true 2, .removeFromParentList 1, .length true, .remove true 2, .length true, .isInList 2,
   .isInList 1, .append false 1, .length false, .recreate true, .length true]

example : LegalAll (fun _ => []) demoExact := by
  simp [demoExact, LegalAll, Legal, after, Seqs.set]

example : (run false 20 State.new demoExact).toOption.map (·.2) = some
    [.done, .done, .done, .count 2, .done, .count 1, .flag true, .flag false, .done, .count 1, .done, .count 0] := by
  decide +kernel

end Verif.IList
