import Verif.Function.Spec
import Batteries.Data.List.Perm
/-!
# Lemmas about `ke::Function`
-/
namespace Verif.Function
open Verif

set_option linter.unusedSimpArgs false
set_option linter.unusedSectionVars false

variable {V C : Type} [DecidableEq V]

/-- What a `Function` is to a client. -/
def Fn.abs : Fn C → Val C
  | .empty => .empty
  | .call _ _ c => .fn c
  | .wrap _ _ f => f.abs.copied

/-- `1` if `id` is one of the `k` identities from `n` on. -/
def fresh (n k id : Nat) : Nat := if n ≤ id ∧ id < n + k then 1 else 0

theorem fresh_split (n k id : Nat) : fresh n (k + 1) id = fresh n k id + [n + k].count id := by
  simp only [fresh, List.count_cons, List.count_nil, Nat.zero_add, beq_iff_eq]
  by_cases h1 : n ≤ id ∧ id < n + k
  · rw [if_pos h1, if_pos (by omega), if_neg (by omega)]
  · rw [if_neg h1]
    by_cases h2 : n + k = id
    · rw [if_pos (by omega), if_pos h2]
    · rw [if_neg (by omega), if_neg h2]

theorem fresh_zero (n id : Nat) : fresh n 0 id = 0 := by
  simp only [fresh]; rw [if_neg (by omega)]

theorem destroy_ok (f : Fn C) (m : Mem) (hn : ∀ id ∈ f.ids, id ∉ m.dead) (hd : f.ids.Nodup) :
    destroy f m = .ok { m with dead := f.ids ++ m.dead } := by
  induction f generalizing m with
  | empty => rfl
  | call inl id c => simp only [destroy]; rw [if_neg (hn id (by simp [Fn.ids]))]; rfl
  | wrap inl id f ih =>
    simp only [destroy]
    rw [if_neg (hn id (by simp [Fn.ids]))]
    rw [ih m (fun i hi => hn i (by simp [Fn.ids, hi])) (by simp [Fn.ids] at hd; exact hd.2)]
    rfl

theorem assignConst_ok (f : Fn C) (m : Mem) (hn : ∀ id ∈ f.ids, id ∉ m.dead) :
    ∃ f' k, assignConst f m = .ok (f', { m with next := m.next + k }) ∧ f'.abs = f.abs ∧ f'.inline = f.inline ∧
      ∀ id, f'.ids.count id = fresh m.next k id := by
  induction f generalizing m with
  | empty => exact ⟨.empty, 0, rfl, rfl, rfl, fun id => by rw [fresh_zero]; rfl⟩
  | call inl id c =>
    refine ⟨.call inl m.next c, 1, ?_, rfl, rfl, fun i => ?_⟩
    · simp only [assignConst]; rw [if_neg (hn id (by simp [Fn.ids]))]
    · rw [fresh_split, fresh_zero]; simp [Fn.ids]
  | wrap inl id f ih =>
    obtain ⟨f', k, h1, h2, -, h3⟩ := ih m (fun i hi => hn i (by simp [Fn.ids, hi]))
    refine ⟨.wrap inl (m.next + k) f', k + 1, ?_, by simp [Fn.abs, h2], rfl, fun i => ?_⟩
    · simp only [assignConst]; rw [if_neg (hn id (by simp [Fn.ids])), h1]; rfl
    · rw [fresh_split, ← h3 i]; simp only [Fn.ids, List.count_cons, List.count_nil]; omega

theorem assignNonConst_ok (f : Fn C) (m : Mem) (hn : ∀ id ∈ f.ids, id ∉ m.dead) :
    ∃ f' k, assignNonConst f m = .ok (f', { m with next := m.next + k }) ∧ f'.abs = f.abs.copied ∧
      ∀ id, f'.ids.count id = fresh m.next k id := by
  obtain ⟨f', k, h1, h2, -, h3⟩ := assignConst_ok f m hn
  refine ⟨.wrap (decide (wrapperSize ≤ bufferSize)) (m.next + k) f', k + 1, ?_, by simp [Fn.abs, h2], fun i => ?_⟩
  · simp only [assignNonConst]; rw [h1]; rfl
  · rw [fresh_split, ← h3 i]; simp only [Fn.ids, List.count_cons, List.count_nil]; omega

theorem moveFn_ok (f : Fn C) (m : Mem) (hn : ∀ id ∈ f.ids, id ∉ m.dead) (hd : f.ids.Nodup)
    (hb : ∀ id ∈ f.ids, id < m.next) :
    ∃ f' k K, moveFn f m = .ok (f', .empty, { next := m.next + k, dead := K ++ m.dead }) ∧ f'.abs = f.abs ∧
      f'.inline = f.inline ∧
      (∀ id, K.count id + f'.ids.count id = f.ids.count id + fresh m.next k id) ∧ ∀ id ∈ K, id ∈ f.ids := by
  induction f generalizing m with
  | empty => exact ⟨.empty, 0, [], rfl, rfl, rfl, fun id => by rw [fresh_zero]; rfl, by simp⟩
  | call inl id c =>
    cases inl with
    | false => exact ⟨.call false id c, 0, [], rfl, rfl, rfl, fun i => by rw [fresh_zero]; simp [Fn.ids], by simp⟩
    | true =>
      have hid := hn id (by simp [Fn.ids])
      refine ⟨.call true m.next c, 1, [id], ?_, rfl, rfl, fun i => ?_, by simp [Fn.ids]⟩
      · simp only [moveFn, destroy]; rw [if_neg hid, if_neg hid]; rfl
      · rw [fresh_split, fresh_zero]; simp [Fn.ids]
  | wrap inl id f ih =>
    cases inl with
    | false => exact ⟨.wrap false id f, 0, [], rfl, rfl, rfl, fun i => by rw [fresh_zero]; simp [Fn.ids], by simp⟩
    | true =>
      have hid := hn id (by simp [Fn.ids])
      simp only [Fn.ids, List.nodup_cons] at hd
      obtain ⟨f', k, K, h1, h2, -, h3, h4⟩ := ih m (fun i hi => hn i (by simp [Fn.ids, hi])) hd.2
        (fun i hi => hb i (by simp [Fn.ids, hi]))
      refine ⟨.wrap true (m.next + k) f', k + 1, id :: K, ?_, by simp [Fn.abs, h2], rfl, fun i => ?_, ?_⟩
      · have h5 : id ∉ K ++ m.dead := by
          simp only [List.mem_append, not_or]
          exact ⟨fun h => hd.1 (h4 id h), hid⟩
        simp only [moveFn]
        rw [if_neg hid, h1]
        show (do
          let m' ← destroy (Fn.wrap true id Fn.empty : Fn C) { next := m.next + k + 1, dead := K ++ m.dead }
          (.ok (Fn.wrap true (m.next + k) f', Fn.empty, m') : Exec _)) = _
        simp only [destroy]
        rw [if_neg h5]
        rfl
      · have := h3 i
        rw [fresh_split]; simp only [Fn.ids, List.count_cons, List.count_nil]; omega
      · intro i hi
        rcases List.mem_cons.1 hi with rfl | hi
        · simp [Fn.ids]
        · simp [Fn.ids, h4 i hi]

theorem call_ok (f : Fn C) (m : Mem) (hn : ∀ id ∈ f.ids, id ∉ m.dead) :
    call f m = match f.abs with
      | .fn c => .ok c
      | _ => .error .assertFail := by
  induction f with
  | empty => rfl
  | call inl id c => simp only [call]; rw [if_neg (hn id (by simp [Fn.ids]))]; rfl
  | wrap inl id f ih =>
    simp only [call]
    rw [if_neg (hn id (by simp [Fn.ids])), ih (fun i hi => hn i (by simp [Fn.ids, hi]))]
    cases h : f.abs <;> simp [Fn.abs, Val.copied, h]

/-- The holders a variable owns. -/
def State.own (s : State V C) (v : V) : List Nat :=
  match s.vars v with
  | some f => f.ids
  | none => []

structure Inv (s : State V C) (e : Env V C) : Prop where
  abs : ∀ v, (s.vars v).map Fn.abs = e v
  cnt : ∀ L : List V, L.Nodup → ∀ id, s.mem.dead.count id + (L.flatMap s.own).count id ≤ if id < s.mem.next then 1 else 0
  cover : ∀ id, id < s.mem.next → id ∈ s.mem.dead ∨ ∃ v, id ∈ s.own v

theorem sum_le_of_subset (f : V → Nat) {L M : List V} (hL : L.Nodup) (h : ∀ x ∈ L, x ∈ M) :
    (L.map f).sum ≤ (M.map f).sum := by
  induction L generalizing M with
  | nil => simp
  | cons a L ih =>
    have ha : a ∈ M := h a (by simp)
    have hp := (List.perm_cons_erase ha).map f
    rw [hp.sum_nat]
    simp only [List.map_cons, List.sum_cons]
    have := ih (M := M.erase a) (List.nodup_cons.1 hL).2 (fun x hx => by
      have hne : x ≠ a := by rintro rfl; exact (List.nodup_cons.1 hL).1 hx
      exact (List.mem_erase_of_ne hne).2 (h x (by simp [hx])))
    omega

theorem count_flatMap (f : V → List Nat) (L : List V) (id : Nat) : (L.flatMap f).count id = (L.map (fun v => (f v).count id)).sum := by
  induction L with
  | nil => rfl
  | cons a L ih => simp [List.flatMap_cons, List.count_append, ih]

/-- Change some variables: holders move between them, some are destroyed, some are new. -/
theorem inv_update {s s' : State V C} {e e' : Env V C} (hi : Inv s e) (L0 : List V) (hL0 : L0.Nodup) (k : Nat) (K : List Nat)
    (ho : ∀ u, u ∉ L0 → s'.own u = s.own u) (hnext : s'.mem.next = s.mem.next + k)
    (hdead : ∀ id, s'.mem.dead.count id = K.count id + s.mem.dead.count id)
    (hcnt : ∀ id, K.count id + (L0.flatMap s'.own).count id = (L0.flatMap s.own).count id + fresh s.mem.next k id)
    (habs : ∀ v, (s'.vars v).map Fn.abs = e' v) : Inv s' e' := by
  refine ⟨habs, ?_, ?_⟩
  · intro L hL id
    have hsub : ∀ x ∈ L, x ∈ L0 ++ L.filter (fun u => decide (u ∉ L0)) := by
      intro x hx
      by_cases h : x ∈ L0
      · simp [h]
      · simp [h, hx]
    have hle : (L.flatMap s'.own).count id ≤ ((L0 ++ L.filter (fun u => decide (u ∉ L0))).flatMap s'.own).count id := by
      rw [count_flatMap, count_flatMap]
      exact sum_le_of_subset _ hL hsub
    rw [List.flatMap_append, List.count_append] at hle
    have hR : ((L.filter (fun u => decide (u ∉ L0))).flatMap s'.own).count id = ((L.filter (fun u => decide (u ∉ L0))).flatMap s.own).count id := by
      rw [count_flatMap, count_flatMap]
      congr 1
      apply List.map_congr_left
      intro u hu
      rw [ho u (by simpa using (List.mem_filter.1 hu).2)]
    have hold := hi.cnt (L0 ++ L.filter (fun u => decide (u ∉ L0)))
      (List.nodup_append.2 ⟨hL0, hL.sublist List.filter_sublist, by
        intro a ha b hb hab
        subst hab
        exact absurd ha (by simpa using (List.mem_filter.1 hb).2)⟩) id
    rw [List.flatMap_append, List.count_append] at hold
    have h1 := hcnt id
    have h2 := hdead id
    rw [hnext]
    unfold fresh at h1
    by_cases hc : s.mem.next ≤ id ∧ id < s.mem.next + k
    · rw [if_pos hc] at h1
      rw [if_neg (show ¬ id < s.mem.next by omega)] at hold
      rw [if_pos hc.2]
      omega
    · rw [if_neg hc] at h1
      by_cases hlt : id < s.mem.next
      · rw [if_pos hlt] at hold; rw [if_pos (by omega)]; omega
      · rw [if_neg hlt] at hold; omega
  · intro id hid
    rw [hnext] at hid
    have h1 := hcnt id
    have h2 := hdead id
    by_cases hd : id ∈ s'.mem.dead
    · exact .inl hd
    right
    have hz : s'.mem.dead.count id = 0 := List.count_eq_zero.2 hd
    have key : 0 < (L0.flatMap s'.own).count id → ∃ v, id ∈ s'.own v := by
      intro h
      have := List.count_pos_iff.1 h
      rw [List.mem_flatMap] at this
      obtain ⟨v, -, hv⟩ := this
      exact ⟨v, hv⟩
    unfold fresh at h1
    by_cases hlt : id < s.mem.next
    · rcases hi.cover id hlt with h | ⟨v, hv⟩
      · have := List.count_pos_iff.2 h; omega
      · by_cases hm : v ∈ L0
        · apply key
          have : 0 < (L0.flatMap s.own).count id := List.count_pos_iff.2 (List.mem_flatMap.2 ⟨v, hm, hv⟩)
          omega
        · exact ⟨v, by rw [ho v hm]; exact hv⟩
    · apply key
      rw [if_pos (by omega)] at h1
      omega

theorem own_none {s : State V C} {v : V} (h : s.vars v = none) : s.own v = [] := by simp [State.own, h]
theorem own_some {s : State V C} {v : V} {f : Fn C} (h : s.vars v = some f) : s.own v = f.ids := by simp [State.own, h]

theorem Inv.absent {s : State V C} {e : Env V C} (hi : Inv s e) {v : V} (h : e v = none) : s.vars v = none := by
  have := hi.abs v; rw [h] at this
  cases hv : s.vars v with
  | none => rfl
  | some f => rw [hv] at this; cases this

theorem Inv.present {s : State V C} {e : Env V C} (hi : Inv s e) {v : V} (h : e v ≠ none) :
    ∃ f, s.vars v = some f ∧ e v = some f.abs := by
  have := hi.abs v
  cases hv : s.vars v with
  | none => rw [hv] at this; exact (h this.symm).elim
  | some f => rw [hv] at this; exact ⟨f, rfl, this.symm⟩

/-- What the primitives need about the holders of a variable. -/
theorem Inv.good {s : State V C} {e : Env V C} (hi : Inv s e) {v : V} {f : Fn C} (h : s.vars v = some f) :
    (∀ id ∈ f.ids, id ∉ s.mem.dead) ∧ f.ids.Nodup ∧ ∀ id ∈ f.ids, id < s.mem.next := by
  have hc := hi.cnt [v] (by simp)
  simp only [List.flatMap_cons, List.flatMap_nil, List.append_nil, own_some h] at hc
  refine ⟨?_, ?_, ?_⟩
  · intro id h1 h2
    have h3 := hc id
    have := List.count_pos_iff.2 h1
    have := List.count_pos_iff.2 h2
    split at h3 <;> omega
  · rw [List.nodup_iff_count]
    intro id
    have := hc id
    split at this <;> omega
  · intro id h1
    have h3 := hc id
    have := List.count_pos_iff.2 h1
    split at h3 <;> omega

/-- Set one variable. -/
theorem inv_set {s : State V C} {e : Env V C} (hi : Inv s e) (v : V) (x : Option (Fn C)) (m : Mem) (k : Nat) (K : List Nat)
    (hm : m = { next := s.mem.next + k, dead := K ++ s.mem.dead })
    (hc : ∀ id, K.count id + ((x.map Fn.ids).getD []).count id = (s.own v).count id + fresh s.mem.next k id) :
    Inv (({ s with mem := m } : State V C).set v x) (e.set v (x.map Fn.abs)) := by
  have ho : (({ s with mem := m } : State V C).set v x).own v = (x.map Fn.ids).getD [] := by
    simp only [State.own, State.set, if_pos]
    cases x <;> rfl
  refine inv_update hi [v] (by simp) k K ?_ (by rw [hm]; rfl) ?_ ?_ ?_
  · intro u hu
    have : u ≠ v := by simpa using hu
    simp [State.own, State.set, this]
  · intro id; subst hm; simp [State.set, List.count_append]
  · intro id
    simp only [List.flatMap_cons, List.flatMap_nil, List.append_nil, ho]
    exact hc id
  · intro u
    simp only [State.set, Env.set]
    split
    · rfl
    · exact hi.abs u

/-- Move from `w` to `v`. -/
theorem inv_move {s : State V C} {e : Env V C} (hi : Inv s e) {v w : V} (hvw : v ≠ w) (f : Fn C) (m : Mem) (k : Nat) (K : List Nat)
    (hm : m = { next := s.mem.next + k, dead := K ++ s.mem.dead })
    (hc : ∀ id, K.count id + f.ids.count id = (s.own v).count id + (s.own w).count id + fresh s.mem.next k id) :
    Inv ((({ s with mem := m } : State V C).set v (some f)).set w (some .empty)) ((e.set v (some f.abs)).set w (some .empty)) := by
  generalize hs' : (({ s with mem := m } : State V C).set v (some f)).set w (some .empty) = s'
  have hv : s'.vars v = some f := by rw [← hs']; simp [State.set, hvw]
  have hw : s'.vars w = some .empty := by rw [← hs']; simp [State.set]
  have hu : ∀ u, u ≠ v → u ≠ w → s'.vars u = s.vars u := by
    intro u h1 h2; rw [← hs']; simp [State.set, h1, h2]
  have hmem : s'.mem = m := by rw [← hs']; rfl
  refine inv_update hi [v, w] (by simp [hvw]) k K ?_ (by rw [hmem, hm]) ?_ ?_ ?_
  · intro u h
    simp only [List.mem_cons, List.not_mem_nil, or_false, not_or] at h
    simp [State.own, hu u h.1 h.2]
  · intro id; rw [hmem, hm]; simp [List.count_append]
  · intro id
    simp only [List.flatMap_cons, List.flatMap_nil, List.append_nil, own_some hv, own_some hw, List.count_append]
    have := hc id
    simp only [Fn.ids, List.count_nil]
    omega
  · intro u
    simp only [Env.set]
    by_cases h2 : u = w
    · subst h2; simp [hw, Fn.abs]
    · by_cases h1 : u = v
      · subst h1; simp [hvw, hv]
      · simp [h1, h2, hu u h1 h2, hi.abs u]

theorem State.get_some {s : State V C} {v : V} {f : Fn C} (h : s.vars v = some f) : s.get v = .ok f := by simp [State.get, h]

theorem inv_start : Inv (State.start : State V C) (fun _ => none) := by
  refine ⟨fun v => rfl, ?_, ?_⟩
  · intro L _ id
    rw [count_flatMap]
    simp only [State.start, State.own, List.count_nil, Nat.zero_add]
    have : (L.map (fun _ => 0)).sum = 0 := by induction L <;> simp_all
    simp [this]
  · intro id h; simp [State.start] at h

/-- The two halves of an assignment: the destroyed left side is as good as empty. -/
theorem inv_destroyed {s : State V C} {e : Env V C} (hi : Inv s e) {v : V} {f : Fn C} (h : s.vars v = some f) :
    destroy f s.mem = .ok { s.mem with dead := f.ids ++ s.mem.dead } ∧
    Inv (({ s with mem := { s.mem with dead := f.ids ++ s.mem.dead } } : State V C).set v (some .empty)) (e.set v (some .empty)) := by
  obtain ⟨h1, h2, -⟩ := hi.good h
  refine ⟨destroy_ok f _ h1 h2, ?_⟩
  exact inv_set hi v (some .empty) _ 0 f.ids rfl (fun id => by simp [own_some h, Fn.ids, fresh_zero])

theorem set_set (s : State V C) (m m' : Mem) (v : V) (x y : Option (Fn C)) :
    (({ (({ s with mem := m } : State V C).set v x) with mem := m' } : State V C).set v y) = ({ s with mem := m' } : State V C).set v y := by
  simp only [State.set]
  congr 1
  funext u
  split <;> rfl

theorem env_set_set (e : Env V C) (v : V) (x y : Option (Val C)) : (e.set v x).set v y = e.set v y := by
  funext u; simp only [Env.set]; split <;> rfl

theorem inv_step {s : State V C} {e : Env V C} (size : C → Nat) (hi : Inv s e) (o : Op V C) (hl : Legal e o) :
    ∃ s', step size s o = .ok s' ∧ Inv s' (specStep e o) := by
  cases o with
  | ctorNull v =>
    refine ⟨_, rfl, ?_⟩
    exact inv_set hi v (some .empty) s.mem 0 [] rfl (fun id => by simp [own_none (hi.absent hl), Fn.ids, fresh_zero])
  | ctorCallable v c =>
    refine ⟨_, rfl, ?_⟩
    exact inv_set hi v (some (assignCallable size c s.mem).1) _ 1 [] rfl
      (fun id => by rw [fresh_split, fresh_zero]; simp [own_none (hi.absent hl), Fn.ids, assignCallable])
  | ctorCopyConst v w =>
    obtain ⟨f, hf, he⟩ := hi.present hl.2
    obtain ⟨f', k, h1, h2, -, h3⟩ := assignConst_ok f s.mem (hi.good hf).1
    refine ⟨({ s with mem := { s.mem with next := s.mem.next + k } } : State V C).set v (some f'),
      by simp only [step]; rw [State.get_some hf]; show (do let x ← assignConst f s.mem; _) = _; rw [h1]; rfl, ?_⟩
    have := inv_set hi v (some f') { s.mem with next := s.mem.next + k } k [] rfl (fun id => by simp [own_none (hi.absent hl.1), h3])
    simpa [specStep, he, h2] using this
  | ctorCopy v w =>
    obtain ⟨f, hf, he⟩ := hi.present hl.2
    obtain ⟨f', k, h1, h2, h3⟩ := assignNonConst_ok f s.mem (hi.good hf).1
    refine ⟨({ s with mem := { s.mem with next := s.mem.next + k } } : State V C).set v (some f'),
      by simp only [step]; rw [State.get_some hf]; show (do let x ← assignNonConst f s.mem; _) = _; rw [h1]; rfl, ?_⟩
    have := inv_set hi v (some f') { s.mem with next := s.mem.next + k } k [] rfl (fun id => by simp [own_none (hi.absent hl.1), h3])
    simpa [specStep, he, h2] using this
  | ctorMove v w =>
    obtain ⟨f, hf, he⟩ := hi.present hl.2
    obtain ⟨g1, g2, g3⟩ := hi.good hf
    obtain ⟨f', k, K, h1, h2, -, h3, -⟩ := moveFn_ok f s.mem g1 g2 g3
    have hvw : v ≠ w := by rintro rfl; exact hl.2 hl.1
    refine ⟨(({ s with mem := { next := s.mem.next + k, dead := K ++ s.mem.dead } } : State V C).set v (some f')).set w (some .empty),
      by simp only [step]; rw [State.get_some hf]; show (do let x ← moveFn f s.mem; _) = _; rw [h1]; rfl, ?_⟩
    have := inv_move hi hvw f' _ k K rfl (fun id => by rw [own_none (hi.absent hl.1), own_some hf, h3 id]; simp)
    simpa [specStep, he, h2] using this
  | dtor v =>
    obtain ⟨f, hf, he⟩ := hi.present hl
    obtain ⟨g1, g2, g3⟩ := hi.good hf
    refine ⟨({ s with mem := { s.mem with dead := f.ids ++ s.mem.dead } } : State V C).set v none,
      by simp only [step]; rw [State.get_some hf]; show (do let x ← destroy f s.mem; _) = _; rw [destroy_ok f _ g1 g2]; rfl, ?_⟩
    exact inv_set hi v none _ 0 f.ids rfl (fun id => by simp [own_some hf, fresh_zero])
  | assignNull v =>
    obtain ⟨f, hf, he⟩ := hi.present hl
    obtain ⟨hd, hi1⟩ := inv_destroyed hi hf
    exact ⟨_, by simp only [step]; rw [State.get_some hf]; show (do let x ← destroy f s.mem; _) = _; rw [hd]; rfl, hi1⟩
  | assignCallable v c =>
    obtain ⟨f, hf, he⟩ := hi.present hl
    obtain ⟨hd, hi1⟩ := inv_destroyed hi hf
    refine ⟨({ s with mem := { next := s.mem.next + 1, dead := f.ids ++ s.mem.dead } } : State V C).set v
        (some (assignCallable size c s.mem).1),
      by simp only [step]; rw [State.get_some hf]; show (do let x ← destroy f s.mem; _) = _; rw [hd]; rfl, ?_⟩
    have := inv_set hi1 v (some (assignCallable size c s.mem).1) { next := s.mem.next + 1, dead := f.ids ++ s.mem.dead } 1 [] rfl
      (fun id => by
        rw [fresh_split, fresh_zero, own_some (f := .empty) (by simp [State.set])]
        simp [Fn.ids, assignCallable, State.set])
    rw [set_set, env_set_set] at this
    exact this
  | assignCopyConst v w =>
    obtain ⟨f, hf, he⟩ := hi.present hl.1
    obtain ⟨g, hg, hge⟩ := hi.present hl.2.1
    obtain ⟨hd, hi1⟩ := inv_destroyed hi hf
    have hg1 : (({ s with mem := { s.mem with dead := f.ids ++ s.mem.dead } } : State V C).set v (some .empty)).vars w = some g := by
      simp [State.set, hl.2.2.symm, hg]
    obtain ⟨g', k, h1, h2, -, h3⟩ := assignConst_ok g { s.mem with dead := f.ids ++ s.mem.dead } (hi1.good hg1).1
    refine ⟨({ s with mem := { next := s.mem.next + k, dead := f.ids ++ s.mem.dead } } : State V C).set v (some g'),
      by
        simp only [step, State.get_some hf, State.get_some hg, bind, Except.bind, hd, h1], ?_⟩
    have := inv_set hi1 v (some g') { next := s.mem.next + k, dead := f.ids ++ s.mem.dead } k [] rfl
      (fun id => by
        rw [own_some (f := .empty) (by simp [State.set])]
        simp [Fn.ids, State.set, h3])
    rw [set_set, env_set_set] at this
    simpa [specStep, hge, h2] using this
  | assignCopy v w =>
    obtain ⟨f, hf, he⟩ := hi.present hl.1
    obtain ⟨g, hg, hge⟩ := hi.present hl.2.1
    obtain ⟨hd, hi1⟩ := inv_destroyed hi hf
    have hg1 : (({ s with mem := { s.mem with dead := f.ids ++ s.mem.dead } } : State V C).set v (some .empty)).vars w = some g := by
      simp [State.set, hl.2.2.symm, hg]
    obtain ⟨g', k, h1, h2, h3⟩ := assignNonConst_ok g { s.mem with dead := f.ids ++ s.mem.dead } (hi1.good hg1).1
    refine ⟨({ s with mem := { next := s.mem.next + k, dead := f.ids ++ s.mem.dead } } : State V C).set v (some g'),
      by
        simp only [step, State.get_some hf, State.get_some hg, bind, Except.bind, hd, h1], ?_⟩
    have := inv_set hi1 v (some g') { next := s.mem.next + k, dead := f.ids ++ s.mem.dead } k [] rfl
      (fun id => by
        rw [own_some (f := .empty) (by simp [State.set])]
        simp [Fn.ids, State.set, h3])
    rw [set_set, env_set_set] at this
    simpa [specStep, hge, h2] using this
  | assignMove v w =>
    obtain ⟨f, hf, he⟩ := hi.present hl.1
    obtain ⟨g, hg, hge⟩ := hi.present hl.2.1
    obtain ⟨hd, hi1⟩ := inv_destroyed hi hf
    have hg1 : (({ s with mem := { s.mem with dead := f.ids ++ s.mem.dead } } : State V C).set v (some .empty)).vars w = some g := by
      simp [State.set, hl.2.2.symm, hg]
    obtain ⟨g1, g2, g3⟩ := hi1.good hg1
    obtain ⟨g', k, K, h1, h2, -, h3, -⟩ := moveFn_ok g { s.mem with dead := f.ids ++ s.mem.dead } g1 g2 g3
    refine ⟨(({ s with mem := { next := s.mem.next + k, dead := K ++ (f.ids ++ s.mem.dead) } } : State V C).set v (some g')).set w (some .empty),
      by
        simp only [step, State.get_some hf, State.get_some hg, bind, Except.bind, hd, h1], ?_⟩
    have := inv_move hi1 hl.2.2 g' { next := s.mem.next + k, dead := K ++ (f.ids ++ s.mem.dead) } k K rfl
      (fun id => by
        rw [own_some (v := v) (f := .empty) (by simp [State.set]), own_some hg1, h3 id]
        simp [Fn.ids, State.set])
    rw [set_set, env_set_set] at this
    simpa [specStep, hge, h2] using this

theorem inv_run (size : C → Nat) (os : List (Op V C)) {s : State V C} {e : Env V C} (hi : Inv s e) (hl : LegalRun os e) :
    ∃ s', run size os s = .ok s' ∧ Inv s' (specRun os e) := by
  induction os generalizing s e with
  | nil => exact ⟨s, rfl, hi⟩
  | cons o os ih =>
    obtain ⟨s1, h1, hi1⟩ := inv_step size hi o hl.1
    obtain ⟨s2, h2, hi2⟩ := ih hi1 hl.2
    exact ⟨s2, by simp only [run, h1]; exact h2, hi2⟩

end Verif.Function
