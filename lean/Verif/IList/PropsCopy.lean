import Verif.IList.Copy
import Verif.IList.Props
/-!
# Property C105: copies of nodes and lists
-/
namespace Verif.IList
open Verif

variable {L N : Type} [DecidableEq L] [DecidableEq N]

/-- C105, full statement for nodes: the copy of a node is a node in no list, so it says so and can be appended to one. -/
def NodeCopyFree : Prop :=
  ∀ (debug : Bool) (ops : List (Op Nat Nat)), LegalAll (fun _ => []) ops → ∀ s outs, run debug (ops.length + 1) State.new ops = .ok (s, outs) →
    ∀ m n : Nat, (∀ l, m ∉ afterAll (fun _ => []) ops l) →
      isInList debug (copyNode s m n) m = .ok false ∧ ∀ l, ∃ s', append debug (copyNode s m n) l m = .ok s'

/-- C105, full statement for lists: the copy of a list can be traversed and shows the same nodes. -/
def ListCopySame : Prop :=
  ∀ (debug : Bool) (ops : List (Op Nat Nat)), LegalAll (fun _ => []) ops → ∀ s outs, run debug (ops.length + 1) State.new ops = .ok (s, outs) →
    ∀ k l : Nat, k ≠ l → ∃ fuel s', sweepLoop debug false (fun _ => false) k (copyList s k l) (beginIt false (copyList s k l) k) fuel =
      .ok (s', afterAll (fun _ => []) ops l)

/-- Plain traversal does not depend on the build. -/
theorem traverse_build (debug debug' rev : Bool) (l : L) : ∀ (fuel : Nat) (s : State L N) (it : Option (Addr L N)),
    sweepLoop debug rev (fun _ => false) l s it fuel = sweepLoop debug' rev (fun _ => false) l s it fuel := by
  intro fuel
  induction fuel with
  | zero => intro s it; rfl
  | succ fuel ih =>
    intro s it
    simp only [sweepLoop, Bool.false_eq_true, if_false, ih]

theorem traverse_same (debug rev : Bool) (l : L) : ∀ (fuel : Nat) (s s' : State L N) (it : Option (Addr L N)) (ns : List N),
    sweepLoop debug rev (fun _ => false) l s it fuel = .ok (s', ns) → s' = s := by
  intro fuel
  induction fuel with
  | zero => intro s s' it ns h; cases h
  | succ fuel ih =>
    intro s s' it ns h
    simp only [sweepLoop] at h
    split at h
    · cases h; rfl
    · split at h
      · cases h
      · cases h
      · simp only [Bool.false_eq_true, if_false, nextIt, nonNull, bind, Except.bind] at h
        split at h
        · cases h
        · rename_i v hv
          cases h
          exact ih _ _ _ _ hv

/-- What a traversal of list `l` in direction `rev` shows. -/
def Shows (debug : Bool) (s : State L N) (rev : Bool) (l : L) (ns : List N) : Prop :=
  ∀ fuel, ns.length < fuel → sweepLoop debug rev (fun _ => false) l s (beginIt rev s l) fuel = .ok (s, ns)

theorem shows_of_inv {debug debug' lens : Bool} {S : Seqs L N} {s : State L N} (hi : Inv debug' lens S s) (rev : Bool) (l : L) :
    Shows debug s rev l (if rev then (S l).reverse else S l) := by
  intro fuel hf
  have hf' : (S l).length < fuel := by cases rev <;> simpa using hf
  obtain ⟨s', h, -⟩ := sweep_spec hi rev (fun _ => false) l fuel hf'
  rw [traverse_same _ _ _ _ _ _ _ _ h] at h
  rw [traverse_build debug debug', h]

/-- Changing a node that is in no list. -/
theorem inv_free {lens : Bool} {S : Seqs L N} {s : State L N} {debug : Bool} (hi : Inv debug lens S s) {m : N} (hm : ∀ l, m ∉ S l) (v : Links L N) :
    Inv false lens S { s with mem := fun a => if a = .node m then v else s.mem a } := by
  refine ⟨fun l => linked_frame' (hi.linked l) (fun a ha => ?_), hi.nodup, hi.disj, by simp, hi.lens⟩
  have : a ≠ .node m := by
    rintro rfl
    rcases mem_ring.1 ha with h | ⟨n, hn, h⟩
    · cases h
    · injection h with h; subst h; exact hm l hn
  simp [this]

theorem reached {debug : Bool} (ops : List (Op L N)) (hl : LegalAll (fun _ => []) ops) (s : State L N) (outs : List (Out N))
    (hr : run debug (ops.length + 1) State.new ops = .ok (s, outs)) : Inv debug false (afterAll (fun _ => []) ops) s := by
  obtain ⟨s1, os, h1, hi, -⟩ := run_spec (lens := false) ops _ _ (inv_new debug false) hl
    (by intro l; simp) (by intro _ l; simp) (by simp) (fuel := ops.length + 1)
  rw [h1] at hr
  cases hr
  exact hi

/-- C105 is false for nodes: the copy of a node in a list claims to be in a list, and appending it fails an assertion. -/
theorem C105_node_refuted : ¬ NodeCopyFree := by
  intro h
  obtain ⟨s, outs, hr, -⟩ := C41_sequence true [Op.append (L := Nat) (N := Nat) 0 0] ⟨by simp [Legal], trivial⟩ 2 (by simp)
  have h1 := (h true [Op.append 0 0] ⟨by simp [Legal], trivial⟩ s outs hr 1 0 (by
    intro l; simp only [afterAll, List.foldl, after, Seqs.set]; split <;> simp)).1
  have hc : (run true 2 State.new [Op.append (L := Nat) (N := Nat) 0 0]).toOption.map (fun r => isInList true (copyNode r.1 1 0) 1) = some (.ok true) := by
    decide +kernel
  rw [hr] at hc
  simp only [Except.toOption, Option.map_some, Option.some.injEq] at hc
  rw [hc] at h1
  cases h1

/-- C105, what holds for nodes: copying to a node that is in no list leaves every list as it is, in both directions. The copy of a node in
no list is (in debug builds) a node in no list, so that C41-C44 go on to hold. -/
theorem C105_node_partial (debug : Bool) (ops : List (Op L N)) (hl : LegalAll (fun _ => []) ops) (s : State L N) (outs : List (Out N))
    (hr : run debug (ops.length + 1) State.new ops = .ok (s, outs)) (m n : N) (hm : ∀ l, m ∉ afterAll (fun _ => []) ops l) :
    let S := afterAll (fun _ => []) ops
    (∀ rev l, Shows debug (copyNode s m n) rev l (if rev then (S l).reverse else S l)) ∧
    ((∀ l, n ∉ S l) → debug = true → isInList debug (copyNode s m n) m = .ok false ∧
      ∀ l, ∃ s', append debug (copyNode s m n) l m = .ok s' ∧
        ∀ rev k, Shows debug s' rev k (if rev then (S.set l (S l ++ [m]) k).reverse else S.set l (S l ++ [m]) k)) := by
  intro S
  have hi := reached ops hl s outs hr
  have hi' : Inv false false S (copyNode s m n) := inv_free hi hm _
  refine ⟨fun rev l => shows_of_inv hi' rev l, fun hn hd => ?_⟩
  subst hd
  have hit : Inv true false S (copyNode s m n) := by
    refine ⟨hi'.linked, hi'.nodup, hi'.disj, fun _ a ha => ?_, by simp⟩
    by_cases ham : a = m
    · subst ham
      have := hi.nulls rfl n hn
      simpa [copyNode] using this
    · have := hi.nulls rfl a ha
      simpa [copyNode, ham] using this
  refine ⟨(isInList_spec hit m).2 rfl hm, fun l => ?_⟩
  obtain ⟨s', h1, h2⟩ := append_spec hit l hm
  exact ⟨s', h1, fun rev k => shows_of_inv h2 rev k⟩

/-- C105, what happens if the source is in a list: the copy claims to be in a list although no list shows it; in debug builds
it cannot be appended anywhere; and removing the copy removes the source instead, which then goes on claiming to be in a list. -/
theorem C105_node_linked (debug : Bool) (ops : List (Op L N)) (hl : LegalAll (fun _ => []) ops) (s : State L N) (outs : List (Out N))
    (hr : run debug (ops.length + 1) State.new ops = .ok (s, outs)) (m n : N) (l : L) (hm : ∀ k, m ∉ afterAll (fun _ => []) ops k)
    (hn : n ∈ afterAll (fun _ => []) ops l) :
    let S := afterAll (fun _ => []) ops
    isInList debug (copyNode s m n) m = .ok true ∧ (debug = true → ∀ k, append debug (copyNode s m n) k m = .error .assertFail) ∧
    ∃ s', remove debug (copyNode s m n) l (.node m) = .ok s' ∧ isInList debug s' n = .ok true ∧
      ∀ rev k, Shows debug s' rev k (if rev then (S.set l ((S l).filter (fun x => decide (x ≠ n))) k).reverse
        else S.set l ((S l).filter (fun x => decide (x ≠ n))) k) := by
  intro S
  have hi := reached ops hl s outs hr
  obtain ⟨xs, ys, hS⟩ := List.append_of_mem hn
  have hnd := hi.nodup l
  have hL := hi.linked l
  rw [hS] at hnd hL
  obtain ⟨p, q, hp, hq, hu, hpm, hqm, -, -, -⟩ := unlink_spec hL hnd
  have hne : n ≠ m := by rintro rfl; exact hm l hn
  have hin : ∀ a, a ∈ ring l (S l) → a ≠ .node m := by
    rintro a ha rfl
    rcases mem_ring.1 ha with h | ⟨x, hx, h⟩
    · cases h
    · injection h with h; subst h; exact hm l hx
  have hpr : p ≠ .node m ∧ p ≠ .node n := by
    refine ⟨hin p ?_, ?_⟩
    · rw [mem_ring]
      show p = .head l ∨ ∃ n ∈ afterAll (fun _ => []) ops l, p = Addr.node n
      rw [hS]
      simp only [List.mem_cons, List.mem_map] at hpm
      rcases hpm with h | ⟨a, ha, rfl⟩
      · exact .inl h
      · exact .inr ⟨a, by simp [ha], rfl⟩
    · rintro rfl
      simp only [List.mem_cons, List.mem_map, reduceCtorEq, Addr.node.injEq, exists_eq_right, false_or] at hpm
      rw [List.nodup_append] at hnd
      exact hnd.2.2 n hpm n (by simp) rfl
  have hqr : q ≠ .node m ∧ q ≠ .node n := by
    refine ⟨hin q ?_, ?_⟩
    · rw [mem_ring]
      show q = .head l ∨ ∃ n ∈ afterAll (fun _ => []) ops l, q = Addr.node n
      rw [hS]
      simp only [List.mem_append, List.mem_map, List.mem_singleton] at hqm
      rcases hqm with ⟨a, ha, rfl⟩ | h
      · exact .inr ⟨a, by simp [ha], rfl⟩
      · exact .inl h
    · rintro rfl
      simp only [List.mem_append, List.mem_map, List.mem_singleton, reduceCtorEq, Addr.node.injEq, exists_eq_right, or_false] at hqm
      rw [List.nodup_append, List.nodup_cons] at hnd
      exact hnd.2.1.1 hqm
  refine ⟨by simp [isInList, copyNode, hp, hq], fun hd k => ?_, ?_⟩
  · subst hd; simp [append, copyNode, hq]
  · -- removing `n` itself, for comparison, as a release build does
    have hif : Inv false false S s := ⟨hi.linked, hi.nodup, hi.disj, by simp, by simp⟩
    obtain ⟨s1, h1, hi1⟩ := remove_spec hif hn
    have hmS : ∀ k, m ∉ S.set l ((S l).filter (fun x => decide (x ≠ n))) k := by
      intro k hk
      simp only [Seqs.set] at hk
      split at hk
      · exact hm l (List.mem_filter.1 hk).1
      · exact hm k hk
    have hs1 : s1 = setLen (setPrev (setNext s p (some q)) q (some p)) l (s.len l - 1) := by
      simp only [remove, hu, bind, Except.bind, Bool.false_eq_true, if_false] at h1
      injection h1 with h1
      exact h1.symm
    have hunl : unlink (copyNode s m n) (.node m) = .ok (setPrev (setNext (copyNode s m n) p (some q)) q (some p)) := by
      have e1 : (copyNode s m n).mem (.node m) = s.mem (.node n) := by simp [copyNode]
      have e2 : (setNext (copyNode s m n) p (some q)).mem (.node m) = s.mem (.node n) := by
        simp [setNext, Ne.symm hpr.1, e1]
      simp only [unlink, e1, hp, hq, nonNull, bind, Except.bind, e2]
    -- the result is the state `n` was removed from, apart from `m`
    have hres : ∃ v, remove debug (copyNode s m n) l (.node m) = .ok { s1 with mem := fun a => if a = .node m then v else s1.mem a } := by
      cases debug with
      | false =>
        refine ⟨s.mem (.node n), ?_⟩
        simp only [remove, hunl, bind, Except.bind, Bool.false_eq_true, if_false, hs1]
        congr 1
        simp only [setLen, setPrev, setNext, copyNode, State.mk.injEq, and_true]
        funext a
        by_cases ha : a = .node m
        · subst ha; simp [Ne.symm hpr.1, Ne.symm hqr.1]
        · simp [ha]
      | true =>
        refine ⟨⟨none, none⟩, ?_⟩
        simp only [remove, hunl, bind, Except.bind, if_true, hs1]
        congr 1
        simp only [setLen, setPrev, setNext, copyNode, nullify, State.mk.injEq, and_true]
        funext a
        by_cases ha : a = .node m
        · subst ha; simp [Ne.symm hpr.1, Ne.symm hqr.1]
        · simp [ha]
    obtain ⟨v, hv⟩ := hres
    refine ⟨_, hv, ?_, fun rev k => shows_of_inv (inv_free hi1 hmS v) rev k⟩
    have hnn : s1.mem (.node n) = s.mem (.node n) := by
      rw [hs1]; simp [setLen, setPrev, setNext, Ne.symm hpr.2, Ne.symm hqr.2]
    simp [isInList, hne, hnn, hp, hq]

/-- Walking on from inside list `l` while comparing with the end of another list `k`. -/
theorem walk_past {debug : Bool} {s : State L N} {k l : L} (hkl : k ≠ l) : ∀ (rest : List N) (a : Addr L N) (fuel : Nat),
    Linked s.mem (a :: (rest.map Addr.node ++ [.head l])) → rest.length < fuel →
    sweepLoop debug false (fun _ => false) k s ((rest.map Addr.node ++ [Addr.head l]).head?) fuel = .error .outOfBounds := by
  intro rest
  induction rest with
  | nil =>
    intro a fuel _ hf
    obtain ⟨f, rfl⟩ : ∃ f, fuel = f + 1 := ⟨fuel - 1, by simp at hf; omega⟩
    simp [sweepLoop, Ne.symm hkl]
  | cons n rest ih =>
    intro a fuel hl hf
    obtain ⟨f, rfl⟩ : ∃ f, fuel = f + 1 := ⟨fuel - 1, by simp at hf; omega⟩
    simp only [List.map_cons, List.cons_append, Linked] at hl
    have hl' := hl.2.2
    have hnext : (s.mem (.node n)).next = (rest.map Addr.node ++ [Addr.head l]).head? := by
      cases rest with
      | nil => simp only [List.map_nil, List.nil_append, Linked] at hl'; simpa using hl'.1
      | cons b rest => simp only [List.map_cons, List.cons_append, Linked] at hl'; simpa using hl'.1
    have := ih (.node n) f hl' (by simp at hf; omega)
    simp only [List.map_cons, List.cons_append, List.head?_cons, sweepLoop, Option.some.injEq, reduceCtorEq, if_false, Bool.false_eq_true,
      nextIt, nonNull, bind, Except.bind, hnext, this]

/-- C105, what happens to lists: the copy of a list, empty or not, is not empty, has the length of the original, and every
forward traversal of it walks through the nodes of the original and on into the original's sentinel, which is not an object. The other
lists, the original included, show what they showed. -/
theorem C105_list_partial (debug : Bool) (ops : List (Op L N)) (hl : LegalAll (fun _ => []) ops) (s : State L N) (outs : List (Out N))
    (hr : run debug (ops.length + 1) State.new ops = .ok (s, outs)) (k l : L) (hkl : k ≠ l) :
    let S := afterAll (fun _ => []) ops
    let s' := copyList s k l
    empty s' k = false ∧ length s' k = length s l ∧
    (∀ fuel, (S l).length < fuel → sweepLoop debug false (fun _ => false) k s' (beginIt false s' k) fuel = .error .outOfBounds) ∧
    ∀ j, j ≠ k → ∀ rev, Shows debug s' rev j (if rev then (S j).reverse else S j) := by
  intro S s'
  have hi := reached ops hl s outs hr
  have hlk : ∀ j, j ≠ k → Linked s'.mem (ring j (S j)) := by
    intro j hj
    refine linked_frame' (hi.linked j) (fun a ha => ?_)
    have : a ≠ .head k := by
      rintro rfl
      rcases mem_ring.1 ha with h | ⟨n, hn, h⟩
      · injection h with h; exact hj h.symm
      · cases h
    simp [s', copyList, this]
  have hfirst : (s'.mem (.head k)).next = ((S l).map Addr.node ++ [Addr.head l]).head? := by
    have := (first_of_linked (hi.linked l)).1
    simp only [s', copyList, if_true]
    exact this
  refine ⟨?_, by simp [length, s', copyList], fun fuel hf => ?_, fun j hj rev => ?_⟩
  · rw [empty, hfirst]
    cases h : S l with
    | nil => simp [Ne.symm hkl]
    | cons a t => simp
  · rw [beginIt, if_neg (by simp), hfirst]
    exact walk_past hkl (S l) (.head l) fuel (hlk l (Ne.symm hkl)) hf
  · have hi' : Inv false false (fun i => if i = k then [] else S i) { s' with mem := fun a => if a = .head k then ⟨some (.head k), some (.head k)⟩ else s'.mem a } := by
      refine ⟨fun i => ?_, fun i => ?_, fun i i' n h1 h2 => ?_, by simp, by simp⟩
      · by_cases hik : i = k
        · subst hik; simp [ring, Linked]
        · simp only [hik, if_false]
          refine linked_frame' (hlk i hik) (fun a ha => ?_)
          have : a ≠ .head k := by
            rintro rfl
            rcases mem_ring.1 ha with h | ⟨n, hn, h⟩
            · injection h with h; exact hik h.symm
            · cases h
          simp [this]
      · by_cases hik : i = k
        · simp [hik]
        · simp only [hik, if_false]; exact hi.nodup i
      · by_cases hik : i = k
        · simp [hik] at h1
        · by_cases hik' : i' = k
          · simp [hik'] at h2
          · simp only [hik, hik', if_false] at h1 h2; exact hi.disj i i' n h1 h2
    -- a traversal of `j` never reads the sentinel of `k`
    have hind : ∀ (ns : List N) (fuel : Nat) (t u : State L N), (∀ a, a ≠ .head k → u.mem a = t.mem a) → ∀ it, it ≠ some (.head k) →
        (∀ ns' t', sweepLoop debug rev (fun _ => false) j t it fuel = .ok (t', ns') → sweepLoop debug rev (fun _ => false) j u it fuel = .ok (u, ns')) := by
      intro ns fuel
      induction fuel with
      | zero => intro t u _ it _ ns' t' h; cases h
      | succ fuel ih =>
        intro t u htu it hit ns' t' h
        simp only [sweepLoop] at h ⊢
        split at h
        · rename_i hj'; rw [if_pos hj']; cases h; rfl
        · rename_i hj'
          rw [if_neg hj']
          split at h
          · cases h
          · cases h
          · rename_i n
            simp only [Bool.false_eq_true, if_false, nextIt, nonNull, bind, Except.bind] at h ⊢
            rw [htu _ (by simp)]
            split at h
            · cases h
            · rename_i v hv
              cases h
              have hne : (if rev = true then (t.mem (.node n)).prev else (t.mem (.node n)).next) ≠ some (.head k) := by
                intro hk
                rw [hk] at hv
                cases fuel with
                | zero => cases hv
                | succ fuel => simp [sweepLoop, Ne.symm hj] at hv
              have := ih t u htu _ hne v.2 v.1 (by cases v; exact hv)
              rw [this]
    intro fuel hf
    have hsh := shows_of_inv (debug := debug) hi' rev j fuel (by simpa [hj] using hf)
    simp only [hj, if_false] at hsh
    have hb : beginIt rev s' j = beginIt rev { s' with mem := fun a => if a = .head k then ⟨some (.head k), some (.head k)⟩ else s'.mem a } j := by
      simp [beginIt, hj]
    have hne : beginIt rev s' j ≠ some (.head k) := by
      intro h
      rw [← hb, h] at hsh
      cases fuel with
      | zero => cases hsh
      | succ fuel => simp [sweepLoop, Ne.symm hj] at hsh
    rw [← hb] at hsh
    exact hind [] fuel _ s' (fun a ha => by simp [ha]) _ hne _ _ hsh

/-- C105 is false for lists. -/
theorem C105_list_refuted : ¬ ListCopySame := by
  intro h
  obtain ⟨s, outs, hr, -⟩ := C41_sequence true [Op.append (L := Nat) (N := Nat) 0 0] ⟨by simp [Legal], trivial⟩ 2 (by simp)
  obtain ⟨fuel, s', h1⟩ := h true [Op.append 0 0] ⟨by simp [Legal], trivial⟩ s outs hr 1 0 (by decide)
  obtain ⟨-, -, h2, -⟩ := C105_list_partial true [Op.append 0 0] ⟨by simp [Legal], trivial⟩ s outs hr 1 0 (by decide)
  by_cases hf : 1 < fuel
  · rw [h2 fuel (by simpa [afterAll, after, Seqs.set] using hf)] at h1; cases h1
  · have hc : ∀ f ≤ 1, (run true 2 State.new [Op.append (L := Nat) (N := Nat) 0 0]).toOption.map
        (fun r => (sweepLoop true false (fun _ => false) 1 (copyList r.1 1 0) (beginIt false (copyList r.1 1 0) 1) f).toOption.isSome) = some false := by
      decide +kernel
    have := hc fuel (by omega)
    rw [hr] at this
    simp only [Except.toOption, Option.map_some, h1] at this
    cases this

/-- Non-vacuity: two lists; the copy of node 1 is removed from the list instead of node 1; the copy of the list runs off. -/
example : (run true 5 State.new [Op.append true 1, .append true 2, .append false 3]).toOption.map (fun r =>
    ((remove true (copyNode r.1 9 1) true (.node 9)).toOption.bind (fun s =>
      (sweepLoop true false (fun _ => false) true s (beginIt false s true) 5).toOption.map (·.2)),
     decide ((sweepLoop true false (fun _ => false) false (copyList r.1 false true) (beginIt false (copyList r.1 false true) false) 9).toOption.isSome = false))) =
    some (some [2], true) := by decide +kernel

end Verif.IList
