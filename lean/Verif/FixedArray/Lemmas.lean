import Verif.FixedArray.Spec
/-!
# Lemmas about `ke::FixedArray`
-/
namespace Verif.FixedArray
open Verif

set_option linter.unusedSimpArgs false
set_option linter.unusedSectionVars false

variable {V A : Type} [DecidableEq V]

def Mem.setBuf (m : Mem A) (b : Nat) (l : Option (List (Option A))) : Mem A :=
  { m with bufs := fun c => if c = b then l else m.bufs c }

/-- After `allocate(n)` succeeded. -/
def Mem.grown (m : Mem A) (n : Nat) : Mem A :=
  { m with bufs := fun b => if b = m.next then some (List.replicate n none) else m.bufs b, next := m.next + 1, tries := m.tries + 1 }

/-- After the buffer `b` was filled with `l`. -/
def Mem.filled (m : Mem A) (b : Nat) (l : List A) : Mem A :=
  { m with bufs := fun c => if c = b then some (l.map some) else m.bufs c, made := m.made + l.length }

/-- After the buffer `b` of `n` elements was emptied. -/
def Mem.emptied (m : Mem A) (b n : Nat) : Mem A :=
  { m with bufs := fun d => if d = b then some (List.replicate n none) else m.bufs d, gone := m.gone + n }

theorem grown_filled_bufs (m : Mem A) (n : Nat) (l : List A) :
    ((m.grown n).filled m.next l).bufs = fun b => if b = m.next then some (l.map some) else m.bufs b := by
  funext b
  simp only [Mem.grown, Mem.filled]
  split <;> rfl

theorem setBuf_same (m : Mem A) (b : Nat) (l : Option (List (Option A))) : (m.setBuf b l).bufs b = l := by simp [Mem.setBuf]
theorem setBuf_ne (m : Mem A) {b c : Nat} (l : Option (List (Option A))) (h : c ≠ b) : (m.setBuf b l).bufs c = m.bufs c := by
  simp [Mem.setBuf, h]

theorem range_append_one (n : Nat) : List.range (n + 1) = List.range n ++ [n] := List.range_succ

/-- Destroying all elements. -/
theorem destruct_loop (l : List A) (m : Mem A) (b : Nat) (hb : m.bufs b = some (l.map some)) :
    ∀ n, n ≤ l.length → (List.range n).foldlM (fun m i => destroyAt m (some b) i) m =
      .ok { m with bufs := fun c => if c = b then some (List.replicate n none ++ (l.drop n).map some) else m.bufs c, gone := m.gone + n }
  | 0, _ => by
    simp only [List.range_zero, List.foldlM_nil, pure, Except.pure]
    congr 1
    cases m with
    | mk bufs next tries freed made gone =>
      simp only [Mem.mk.injEq, and_true, true_and, Nat.add_zero]
      funext c
      by_cases h : c = b
      · subst h; simpa using hb
      · simp [h]
  | n + 1, hn => by
    rw [range_append_one, List.foldlM_append, destruct_loop l m b hb n (by omega)]
    have hlt : n < l.length := by omega
    have hd : l.drop n = l[n] :: l.drop (n + 1) := List.drop_eq_getElem_cons hlt
    have hget : (List.replicate n (none : Option A) ++ (l.drop n).map some)[n]? = some (some l[n]) := by
      rw [List.getElem?_append_right (by simp), List.length_replicate, Nat.sub_self, hd]; rfl
    simp only [bind, Except.bind, List.foldlM_cons, List.foldlM_nil, destroyAt, if_pos, hget, pure, Except.pure]
    congr 1
    simp only [Mem.mk.injEq, true_and, and_true]
    refine ⟨?_, by omega⟩
    funext c
    by_cases h : c = b
    · subst h
      simp only [if_pos, Option.some.injEq]
      rw [List.set_append_right _ _ (by simp), List.length_replicate, Nat.sub_self, hd, List.map_cons, List.set_cons_zero,
        List.replicate_succ', List.append_assoc]
      rfl
    · simp [h]

/-- Filling a raw buffer with the values `f` computes. -/
theorem fill_loop (m : Mem A) (b n : Nat) (val : Nat → A) (body : Mem A → Nat → Exec (Mem A)) (hb : m.bufs b = some (List.replicate n none))
    (hbody : ∀ m' i, i < n → (∀ c, c ≠ b → m'.bufs c = m.bufs c) → body m' i = construct m' (some b) i (val i)) :
    ∀ k, k ≤ n → (List.range k).foldlM body m =
      .ok { m with bufs := fun c => if c = b then some ((List.range k).map (fun i => some (val i)) ++ List.replicate (n - k) none) else m.bufs c, made := m.made + k }
  | 0, _ => by
    simp only [List.range_zero, List.foldlM_nil, pure, Except.pure]
    congr 1
    cases m with
    | mk bufs next tries freed made gone =>
      simp only [Mem.mk.injEq, and_true, true_and, Nat.add_zero]
      funext c
      by_cases h : c = b
      · subst h; simpa using hb
      · simp [h]
  | k + 1, hk => by
    rw [range_append_one, List.foldlM_append, fill_loop m b n val body hb hbody k (by omega)]
    simp only [bind, Except.bind, List.foldlM_cons, List.foldlM_nil, pure, Except.pure]
    rw [hbody _ k (by omega) (fun c hc => by simp [hc])]
    have hlen : ((List.range k).map (fun i => some (val i))).length = k := by simp
    have hr : List.replicate (n - k) (none : Option A) = none :: List.replicate (n - (k + 1)) none := by
      rw [← List.replicate_succ]; congr 1; omega
    have hget : ((List.range k).map (fun i => some (val i)) ++ List.replicate (n - k) (none : Option A))[k]? = some none := by
      rw [List.getElem?_append_right (by omega), hlen, Nat.sub_self, hr]; rfl
    simp only [construct, if_pos, hget]
    congr 1
    simp only [Mem.mk.injEq, true_and, and_true]
    refine ⟨?_, by omega⟩
    funext c
    by_cases h : c = b
    · subst h
      simp only [if_pos, Option.some.injEq]
      rw [List.set_append_right _ _ (by omega), hlen, Nat.sub_self, hr]
      simp [List.append_assoc]
    · simp [h]

theorem map_range_getElem (l : List A) (val : Nat → A) (h : ∀ i (hi : i < l.length), val i = l[i]) :
    (List.range l.length).map (fun i => some (val i)) = l.map some := by
  apply List.ext_getElem
  · simp
  · intro i h1 h2
    simp only [List.length_map, List.length_range] at h1
    simp [h i h1]

/-- Filling a buffer with the list `l`. -/
theorem fill_list (m : Mem A) (b : Nat) (l : List A) (body : Mem A → Nat → Exec (Mem A))
    (hb : m.bufs b = some (List.replicate l.length none))
    (hbody : ∀ m' i (hi : i < l.length), (∀ c, c ≠ b → m'.bufs c = m.bufs c) → body m' i = construct m' (some b) i l[i]) :
    (List.range l.length).foldlM body m =
      .ok (m.filled b l) := by
  unfold Mem.filled
  cases l with
  | nil =>
    simp only [List.length_nil, List.range_zero, List.foldlM_nil, pure, Except.pure, List.map_nil, Nat.add_zero]
    congr 1
    cases m with
    | mk bufs next tries freed made gone =>
      simp only [Mem.mk.injEq, and_true, true_and]
      funext c
      by_cases h : c = b
      · subst h; simpa using hb
      · simp [h]
  | cons a l =>
    have hv : ∀ i (hi : i < (a :: l).length), (fun i => ((a :: l)[i]?).getD a) i = (a :: l)[i] := by
      intro i hi; simp [List.getElem?_eq_getElem hi]
    rw [fill_loop m b (a :: l).length (fun i => ((a :: l)[i]?).getD a) body hb
      (fun m' i hi hc => by rw [hbody m' i hi hc, ← hv i hi]) _ (Nat.le_refl _)]
    rw [map_range_getElem (a :: l) _ hv]
    simp only [Nat.sub_self, List.replicate_zero, List.append_nil]

/-- How an array is represented. -/
def Rep (c : Cfg) (m : Mem A) (x : Option Arr) : Option (Option (List A)) → Prop
  | none => x = none
  | some none => x = some ⟨0, none⟩
  | some (some l) => ∃ b, x = some ⟨l.length, some b⟩ ∧ m.bufs b = some (l.map some) ∧ b < m.next ∧ b ∉ m.freed ∧ c.sizeof * l.length < 2 ^ c.word

/-- The invariant. `g`: buffers nobody owns any more, and how many elements are in them (C140; none otherwise). -/
structure Inv (c : Cfg) (s : State V A) (e : Env V A) (g : List Nat × Nat := ([], 0)) : Prop where
  rep : ∀ v, Rep c s.mem (s.vars v) (e v)
  inj : ∀ v w n k b, s.vars v = some ⟨n, some b⟩ → s.vars w = some ⟨k, some b⟩ → v = w
  nodup : s.mem.freed.Nodup
  lt : ∀ b ∈ s.mem.freed, b < s.mem.next
  cover : ∀ b, b < s.mem.next → (b ∈ s.mem.freed ∨ b ∈ g.1) ∨ ∃ v n, s.vars v = some ⟨n, some b⟩
  num : ∃ L : List V, L.Nodup ∧ (∀ v, elems (e v) ≠ [] → v ∈ L) ∧
    s.mem.made = s.mem.gone + g.2 + (L.map (fun v => (elems (e v)).length)).sum
  lost : g.1.Nodup ∧ ∀ b ∈ g.1, b < s.mem.next ∧ b ∉ s.mem.freed ∧ ∀ v n, s.vars v ≠ some ⟨n, some b⟩

/-- The sum of lengths when one variable changes. -/
theorem num_set {e : Env V A} {L : List V} (hn : L.Nodup) (hL : ∀ v, elems (e v) ≠ [] → v ∈ L) (v : V) (x : Option (Option (List A))) :
    ∃ L' : List V, L'.Nodup ∧ (∀ u, elems ((e.set v x) u) ≠ [] → u ∈ L') ∧
      (L'.map (fun u => (elems ((e.set v x) u)).length)).sum + (elems (e v)).length
        = (L.map (fun u => (elems (e u)).length)).sum + (elems x).length := by
  refine ⟨v :: L.erase v, List.nodup_cons.2 ⟨fun h => ((hn.mem_erase_iff).1 h).1 rfl, hn.erase v⟩, ?_, ?_⟩
  · intro u hu
    by_cases h : u = v
    · simp [h]
    · simp only [Env.set, h, if_false] at hu
      exact List.mem_cons_of_mem _ ((hn.mem_erase_iff).2 ⟨h, hL u hu⟩)
  · have hx : elems ((e.set v x) v) = elems x := by simp [Env.set]
    have hrest : ((L.erase v).map (fun u => (elems ((e.set v x) u)).length)).sum = ((L.erase v).map (fun u => (elems (e u)).length)).sum := by
      congr 1
      apply List.map_congr_left
      intro u hu
      have : u ≠ v := ((hn.mem_erase_iff).1 hu).1
      simp [Env.set, this]
    simp only [List.map_cons, List.sum_cons, hx, hrest]
    by_cases h : v ∈ L
    · have hp := ((List.perm_cons_erase h).map (fun u => (elems (e u)).length)).sum_nat
      simp only [List.map_cons, List.sum_cons] at hp
      omega
    · rw [List.erase_of_not_mem h]
      have : elems (e v) = [] := by
        apply Classical.byContradiction
        intro hne; exact h (hL v hne)
      rw [this]; simp; omega

theorem elems_some {l : List A} : elems (some (some l)) = l := rfl

/-- The representation of one variable does not depend on other buffers. -/
theorem Rep.frame {c : Cfg} {m m' : Mem A} {x : Option Arr} {y : Option (Option (List A))} (h : Rep c m x y)
    (hb : ∀ n b, x = some ⟨n, some b⟩ → m'.bufs b = m.bufs b ∧ (b ∉ m.freed → b ∉ m'.freed)) (hn : m.next ≤ m'.next) : Rep c m' x y := by
  rcases y with _ | _ | l
  · exact h
  · exact h
  · obtain ⟨b, h1, h2, h3, h4, h5⟩ := h
    obtain ⟨h6, h7⟩ := hb _ b h1
    exact ⟨b, h1, by rw [h6]; exact h2, by omega, h7 h4, h5⟩

theorem Inv.look {c : Cfg} {s : State V A} {e : Env V A} {g : List Nat × Nat} (hi : Inv c s e g) {v : V} (h : e v ≠ none) :
    ∃ x, s.vars v = some x ∧ s.lookup v = .ok x ∧ x.size = (elems (e v)).length := by
  have := hi.rep v
  match hv : e v with
  | none => exact (h hv).elim
  | some none => rw [hv] at this; exact ⟨_, this, by simp [State.lookup, show s.vars v = _ from this], rfl⟩
  | some (some l) => rw [hv] at this; obtain ⟨b, h1, -⟩ := this; exact ⟨_, h1, by simp [State.lookup, h1], rfl⟩

/-- `at(i)` on a represented array. -/
theorem Rep.at {c : Cfg} {m : Mem A} {x : Arr} {y : Option (Option (List A))} (h : Rep c m (some x) y) (i : Nat) :
    at' m x i = if hi : i < (elems y).length then .ok (elems y)[i] else .error .assertFail := by
  rcases y with _ | _ | l
  · cases h
  · injection h with h; subst h; simp [at', elems]
  · obtain ⟨b, h1, h2, -⟩ := h
    injection h1 with h1; subst h1
    by_cases hi : i < l.length
    · rw [dif_pos (show i < (elems (some (some l))).length from hi)]
      simp only [at', hi, if_pos, h2, List.getElem?_map, List.getElem?_eq_getElem hi, Option.map_some]
      rfl
    · rw [dif_neg (show ¬ i < (elems (some (some l))).length from hi)]
      simp [at', hi]

/-- `destruct` on a represented array: the buffer becomes raw. -/
theorem Rep.destruct {c : Cfg} {m : Mem A} {x : Arr} {l : List A} (h : Rep c m (some x) (some (some l))) :
    ∃ b, x = ⟨l.length, some b⟩ ∧ FixedArray.destruct m x = .ok (m.emptied b l.length) := by
  obtain ⟨b, h1, h2, -⟩ := h
  injection h1 with h1; subst h1
  refine ⟨b, rfl, ?_⟩
  unfold FixedArray.destruct
  rw [destruct_loop l m b h2 l.length (Nat.le_refl _)]
  simp [Mem.emptied]

theorem allocate_ok (c : Cfg) (hs : 0 < c.sizeof) (m : Mem A) (n : Nat) (hn : c.sizeof * n < 2 ^ c.word) (ha : c.alloc m.tries (c.sizeof * n) = true) :
    allocate c m n = .ok (⟨n, some m.next⟩, true, m.grown n) := by
  simp only [Mem.grown, allocate, Nat.mod_eq_of_lt hn, ha, if_true, Nat.mul_div_cancel_left n hs]

theorem allocate_abort (c : Cfg) (m : Mem A) (n : Nat) (hn : c.sizeof * n < 2 ^ c.word) (hb : c.aborts = true)
    (ha : c.alloc m.tries (c.sizeof * n) = false) : allocate c m n = .error .abort := by
  simp only [allocate, Nat.mod_eq_of_lt hn, ha, hb, if_true, Bool.false_eq_true, if_false]

/-- Replace the buffer of `v`: its old elements are destroyed and its old buffer freed (if it had one); it gets a new
buffer with `l`. -/
theorem inv_fresh {c : Cfg} {s : State V A} {e : Env V A} {g : List Nat × Nat} (hi : Inv c s e g) (v : V) (hv : ∀ l, e v ≠ some (some l)) (l : List A) (m : Mem A)
    (hm : m.bufs = fun b => if b = s.mem.next then some (l.map some) else s.mem.bufs b) (h1 : m.next = s.mem.next + 1)
    (h2 : m.freed = s.mem.freed) (h3 : m.made = s.mem.made + l.length) (h4 : m.gone = s.mem.gone) (hsz : c.sizeof * l.length < 2 ^ c.word) :
    Inv c (({ s with mem := m } : State V A).set v (some ⟨l.length, some s.mem.next⟩)) (e.set v (some (some l))) g := by
  have hold : ∀ u n b, s.vars u = some ⟨n, some b⟩ → b < s.mem.next := by
    intro u n b h
    have := hi.rep u
    rcases hu : e u with _ | _ | k <;> rw [hu] at this
    · simp only [Rep] at this; rw [h] at this; cases this
    · simp only [Rep] at this; rw [h] at this; cases this
    · obtain ⟨b', g1, -, g2, -⟩ := this
      rw [h] at g1; injection g1 with g1; injection g1 with _ g1; injection g1 with g1; omega
  have hvn : ∀ n b, s.vars v ≠ some ⟨n, some b⟩ := by
    intro n b h
    have := hi.rep v
    rcases hu : e v with _ | _ | k <;> rw [hu] at this
    · simp only [Rep] at this; rw [h] at this; cases this
    · simp only [Rep] at this; rw [h] at this; cases this
    · exact hv k hu
  refine ⟨?_, ?_, ?_, ?_, ?_, ?_, ?_⟩
  rotate_right
  · refine ⟨hi.lost.1, fun b hb => ?_⟩
    obtain ⟨q1, q2, q3⟩ := hi.lost.2 b hb
    refine ⟨by show b < m.next; omega, by show b ∉ m.freed; rw [h2]; exact q2, fun u n h => ?_⟩
    simp only [State.set] at h
    split at h
    · injection h with h; injection h with _ h; injection h with h; omega
    · exact q3 u n h
  · intro u
    simp only [State.set, Env.set]
    split
    · refine ⟨s.mem.next, rfl, by simp [hm], by rw [h1]; omega, ?_, hsz⟩
      rw [h2]; intro h; have := hi.lt _ h; omega
    · refine (hi.rep u).frame (fun n b h => ?_) (by show s.mem.next ≤ m.next; omega)
      have := hold u n b h
      exact ⟨by show m.bufs b = _; rw [hm]; simp [show b ≠ s.mem.next by omega], by show _ → b ∉ m.freed; rw [h2]; exact id⟩
  · intro u w n k b g1 g2
    simp only [State.set] at g1 g2
    split at g1
    · split at g2
      · simp_all
      · injection g1 with g1; injection g1 with _ g1; injection g1 with g1
        have := hold w k b g2; omega
    · split at g2
      · injection g2 with g2; injection g2 with _ g2; injection g2 with g2
        have := hold u n b g1; omega
      · exact hi.inj u w n k b g1 g2
  · show m.freed.Nodup; rw [h2]; exact hi.nodup
  · intro b hb
    change b ∈ m.freed at hb
    show b < m.next
    rw [h2] at hb; have := hi.lt b hb; omega
  · intro b hb
    change b < m.next at hb
    show (b ∈ m.freed ∨ _) ∨ _
    rw [h1] at hb
    by_cases hbn : b = s.mem.next
    · right; exact ⟨v, l.length, by simp [State.set, hbn]⟩
    · rw [h2]
      refine (hi.cover b (by omega)).imp id ?_
      rintro ⟨u, n, hu⟩
      have : u ≠ v := by rintro rfl; exact hvn n b hu
      exact ⟨u, n, by simp [State.set, this, hu]⟩
  · obtain ⟨L, g1, g2, g3⟩ := hi.num
    obtain ⟨L', g4, g5, g6⟩ := num_set g1 g2 v (some (some l))
    refine ⟨L', g4, g5, ?_⟩
    show m.made = m.gone + _ + _
    have hz : elems (e v) = [] := by
      rcases hu : e v with _ | _ | k
      · rfl
      · rfl
      · exact (hv k hu).elim
    rw [hz] at g6
    simp only [elems_some, List.length_nil, Nat.add_zero] at g6
    omega

/-- Drop a variable without buffer, or make it one without buffer. -/
theorem inv_plain {c : Cfg} {s : State V A} {e : Env V A} {g : List Nat × Nat} (hi : Inv c s e g) (v : V) (hv : ∀ l, e v ≠ some (some l)) (x : Option Arr)
    (y : Option (Option (List A))) (hxy : (x = none ∧ y = none) ∨ (x = some ⟨0, none⟩ ∧ y = some none)) :
    Inv c (s.set v x) (e.set v y) g := by
  have hx : ∀ n b, x ≠ some ⟨n, some b⟩ := by
    rcases hxy with ⟨h, -⟩ | ⟨h, -⟩ <;> rw [h] <;> simp
  have hvn : ∀ n b, s.vars v ≠ some ⟨n, some b⟩ := by
    intro n b h
    have := hi.rep v
    rcases hu : e v with _ | _ | k <;> rw [hu] at this
    · simp only [Rep] at this; rw [h] at this; cases this
    · simp only [Rep] at this; rw [h] at this; cases this
    · exact hv k hu
  refine ⟨?_, ?_, hi.nodup, hi.lt, ?_, ?_, ?_⟩
  rotate_right
  · refine ⟨hi.lost.1, fun b hb => ?_⟩
    obtain ⟨q1, q2, q3⟩ := hi.lost.2 b hb
    refine ⟨q1, q2, fun u n h => ?_⟩
    simp only [State.set] at h
    split at h
    · exact hx n b h
    · exact q3 u n h
  · intro u
    simp only [State.set, Env.set]
    split
    · rcases hxy with ⟨h1, h2⟩ | ⟨h1, h2⟩ <;> rw [h1, h2] <;> rfl
    · exact hi.rep u
  · intro u w n k b g1 g2
    simp only [State.set] at g1 g2
    split at g1
    · exact (hx n b g1).elim
    · split at g2
      · exact (hx k b g2).elim
      · exact hi.inj u w n k b g1 g2
  · intro b hb
    refine (hi.cover b hb).imp id ?_
    rintro ⟨u, n, hu⟩
    have : u ≠ v := by rintro rfl; exact hvn n b hu
    exact ⟨u, n, by simp [State.set, this, hu]⟩
  · obtain ⟨L, g1, g2, g3⟩ := hi.num
    obtain ⟨L', g4, g5, g6⟩ := num_set g1 g2 v y
    refine ⟨L', g4, g5, ?_⟩
    have hz : elems (e v) = [] := by
      rcases hu : e v with _ | _ | k
      · rfl
      · rfl
      · exact (hv k hu).elim
    have hy : elems y = [] := by rcases hxy with ⟨-, h⟩ | ⟨-, h⟩ <;> rw [h] <;> rfl
    rw [hz, hy] at g6
    show s.mem.made = s.mem.gone + _ + _
    simp only [List.length_nil, Nat.add_zero] at g6
    omega

/-- Destroy the elements and free the buffer of a variable: it is then as good as one without buffer. -/
theorem inv_release {c : Cfg} {s : State V A} {e : Env V A} {g : List Nat × Nat} (hi : Inv c s e g) {v : V} {x : Arr} {l : List A} (hx : s.vars v = some x)
    (hv : e v = some (some l)) :
    ∃ m1 m2, destruct s.mem x = .ok m1 ∧ deallocate m1 x = .ok m2 ∧ m2.tries = s.mem.tries ∧
      Inv c (({ s with mem := m2 } : State V A).set v (some ⟨0, none⟩)) (e.set v (some none)) g := by
  have hr := hi.rep v
  rw [hx, hv] at hr
  obtain ⟨b, hb, hd⟩ := hr.destruct
  obtain ⟨b', g1, g2, g3, g4, g5⟩ := hr
  injection g1 with g1
  have hbb : b' = b := by rw [hb] at g1; injection g1 with _ g1; injection g1 with g1; exact g1.symm
  subst hbb
  subst hb
  refine ⟨_, { s.mem with bufs := fun d => if d = b' then none else s.mem.bufs d, freed := b' :: s.mem.freed, gone := s.mem.gone + l.length }, hd, ?_, rfl, ?_⟩
  · simp only [deallocate, Mem.emptied, if_pos]
    congr 2
    funext d
    split <;> rfl
  · have hne : ∀ u n, u ≠ v → s.vars u ≠ some ⟨n, some b'⟩ := fun u n hu h => hu (hi.inj u v n _ b' h hx)
    refine ⟨?_, ?_, List.nodup_cons.2 ⟨g4, hi.nodup⟩, ?_, ?_, ?_, ?_⟩
    rotate_right
    · refine ⟨hi.lost.1, fun d hd => ?_⟩
      obtain ⟨q1, q2, q3⟩ := hi.lost.2 d hd
      refine ⟨q1, fun h => ?_, fun u n h => ?_⟩
      · rcases List.mem_cons.1 h with h | h
        · subst h; exact q3 v _ hx
        · exact q2 h
      · simp only [State.set] at h
        split at h
        · simp at h
        · exact q3 u n h
    · intro u
      simp only [State.set, Env.set]
      split
      · rfl
      · rename_i huv
        refine (hi.rep u).frame (fun n d h => ?_) (Nat.le_refl _)
        have hdb : d ≠ b' := by rintro rfl; exact hne u n huv h
        exact ⟨by simp [hdb], fun h => by simp [hdb, h]⟩
    · intro u w n k d h1 h2
      simp only [State.set] at h1 h2
      split at h1
      · simp at h1
      · split at h2
        · simp at h2
        · exact hi.inj u w n k d h1 h2
    · intro d hd
      rcases List.mem_cons.1 hd with rfl | hd
      · exact g3
      · exact hi.lt d hd
    · intro d hd
      by_cases hdb : d = b'
      · left; left; simp [State.set, hdb]
      · rcases hi.cover d hd with h | ⟨u, n, hu⟩
        · left; exact h.imp (fun h => by simp [State.set, h]) id
        · right
          have : u ≠ v := by
            rintro rfl; rw [hx] at hu; injection hu with hu; injection hu with _ hu; injection hu with hu; exact hdb hu.symm
          exact ⟨u, n, by simp [State.set, this, hu]⟩
    · obtain ⟨L, g1, g2, g3⟩ := hi.num
      obtain ⟨L', g4, g5, g6⟩ := num_set g1 g2 v (some none)
      refine ⟨L', g4, g5, ?_⟩
      rw [hv] at g6
      have hz : elems (some (none : Option (List A))) = [] := rfl
      simp only [elems_some, hz, List.length_nil, Nat.add_zero] at g6
      simp only [State.set]
      omega

theorem set_set (s : State V A) (m m' : Mem A) (v : V) (x y : Option Arr) :
    (({ (({ s with mem := m } : State V A).set v x) with mem := m' } : State V A).set v y) = ({ s with mem := m' } : State V A).set v y := by
  simp only [State.set]
  congr 1
  funext u
  split <;> rfl

theorem env_set_set (e : Env V A) (v : V) (x y : Option (Option (List A))) : (e.set v x).set v y = e.set v y := by
  funext u; simp only [Env.set]; split <;> rfl

theorem env_set_same (e : Env V A) (v : V) (x : Option (Option (List A))) (h : e v = x) : e.set v x = e := by
  funext u; simp only [Env.set]; split
  · rename_i hu; rw [hu, h]
  · rfl

/-- New contents for the same buffer. -/
theorem inv_refill {c : Cfg} {s : State V A} {e : Env V A} {g : List Nat × Nat} (hi : Inv c s e g) {v : V} {b : Nat} {l l' : List A}
    (hx : s.vars v = some ⟨l.length, some b⟩) (hv : e v = some (some l)) (hl : l'.length = l.length) (m : Mem A)
    (hm : m.bufs = fun d => if d = b then some (l'.map some) else s.mem.bufs d) (h1 : m.next = s.mem.next)
    (h2 : m.freed = s.mem.freed) (k : Nat) (h3 : m.made = s.mem.made + k) (h4 : m.gone = s.mem.gone + k) :
    Inv c ({ s with mem := m } : State V A) (e.set v (some (some l'))) g := by
  refine ⟨?_, hi.inj, ?_, ?_, ?_, ?_, by show g.1.Nodup ∧ ∀ b ∈ g.1, b < m.next ∧ b ∉ m.freed ∧ _; rw [h1, h2]; exact hi.lost⟩
  · intro u
    simp only [Env.set]
    split
    · rename_i huv
      subst huv
      have := hi.rep u
      rw [hx, hv] at this
      obtain ⟨b', g1, g2, g3, g4, g5⟩ := this
      injection g1 with g1; injection g1 with _ g1; injection g1 with g1; subst g1
      exact ⟨b, by rw [hl]; exact hx, by simp [hm], by rw [h1]; exact g3, by rw [h2]; exact g4, by rw [hl]; exact g5⟩
    · rename_i huv
      refine (hi.rep u).frame (fun n d h => ?_) (by show s.mem.next ≤ m.next; omega)
      have hdb : d ≠ b := by rintro rfl; exact huv (hi.inj u v n _ d h hx)
      exact ⟨by show m.bufs d = _; rw [hm]; simp [hdb], by show _ → d ∉ m.freed; rw [h2]; exact id⟩
  · show m.freed.Nodup; rw [h2]; exact hi.nodup
  · show ∀ b ∈ m.freed, b < m.next; rw [h2, h1]; exact hi.lt
  · show ∀ b, b < m.next → (b ∈ m.freed ∨ _) ∨ _; rw [h2, h1]; exact hi.cover
  · obtain ⟨L, g1, g2, g3⟩ := hi.num
    obtain ⟨L', g4, g5, g6⟩ := num_set g1 g2 v (some (some l'))
    refine ⟨L', g4, g5, ?_⟩
    rw [hv] at g6
    simp only [elems_some] at g6
    show m.made = m.gone + _ + _
    omega

/-- `w`'s buffer goes to `v`, which has none. -/
theorem inv_moveTo {c : Cfg} {s : State V A} {e : Env V A} {g : List Nat × Nat} (hi : Inv c s e g) {v w : V} (hvw : v ≠ w) (hv : ∀ l, e v ≠ some (some l))
    {y : Arr} (hy : s.vars w = some y) :
    Inv c ((s.set v (some y)).set w (some ⟨0, none⟩)) ((e.set v (e w)).set w (some none)) g := by
  generalize hs' : (s.set v (some y)).set w (some ⟨0, none⟩) = s'
  have e1 : s'.mem = s.mem := by rw [← hs']; rfl
  have hvv : s'.vars v = some y := by rw [← hs']; simp [State.set, hvw]
  have hww : s'.vars w = some ⟨0, none⟩ := by rw [← hs']; simp [State.set]
  have huu : ∀ u, u ≠ v → u ≠ w → s'.vars u = s.vars u := by
    intro u h1 h2; rw [← hs']; simp [State.set, h1, h2]
  have hvn : ∀ n b, s.vars v ≠ some ⟨n, some b⟩ := by
    intro n b h
    have := hi.rep v
    rcases hu : e v with _ | _ | k <;> rw [hu] at this
    · simp only [Rep] at this; rw [h] at this; cases this
    · simp only [Rep] at this; rw [h] at this; cases this
    · exact hv k hu
  refine ⟨?_, ?_, by rw [e1]; exact hi.nodup, by rw [e1]; exact hi.lt, ?_, ?_, ?_⟩
  rotate_right
  · rw [e1]
    refine ⟨hi.lost.1, fun b hb => ?_⟩
    obtain ⟨q1, q2, q3⟩ := hi.lost.2 b hb
    refine ⟨q1, q2, fun u n h => ?_⟩
    by_cases huw : u = w
    · subst huw; rw [hww] at h; simp at h
    · by_cases huv : u = v
      · subst huv; rw [hvv, ← hy] at h; exact q3 w n h
      · rw [huu u huv huw] at h; exact q3 u n h
  · intro u
    rw [e1]
    by_cases h2 : u = w
    · subst h2; rw [hww]; simp [Env.set, Rep]
    · by_cases h1 : u = v
      · subst h1
        rw [hvv]
        have := hi.rep w
        rw [hy] at this
        simpa [Env.set, hvw] using this
      · rw [huu u h1 h2]
        simpa [Env.set, h1, h2] using hi.rep u
  · intro u t n k b h1 h2
    -- where the buffer was before
    have back : ∀ u n, s'.vars u = some ⟨n, some b⟩ → ∃ n', s.vars (if u = v then w else u) = some ⟨n', some b⟩ ∧ u ≠ w := by
      intro u n h
      have huw : u ≠ w := by rintro rfl; rw [hww] at h; simp at h
      by_cases huv : u = v
      · subst huv; rw [hvv] at h; rw [if_pos rfl, hy]; exact ⟨n, h, huw⟩
      · rw [if_neg huv]; rw [huu u huv huw] at h; exact ⟨n, h, huw⟩
    obtain ⟨n', g1, gu⟩ := back u n h1
    obtain ⟨k', g2, gt⟩ := back t k h2
    have := hi.inj _ _ _ _ _ g1 g2
    by_cases huv : u = v
    · by_cases htv : t = v
      · rw [huv, htv]
      · rw [if_pos huv, if_neg htv] at this; exact (gt this.symm).elim
    · by_cases htv : t = v
      · rw [if_neg huv, if_pos htv] at this; exact (gu this).elim
      · rwa [if_neg huv, if_neg htv] at this
  · intro b hb
    rw [e1] at hb ⊢
    refine (hi.cover b hb).imp id ?_
    rintro ⟨u, n, hu⟩
    by_cases huw : u = w
    · subst huw; rw [hy] at hu; exact ⟨v, n, by rw [hvv]; exact hu⟩
    · have huv : u ≠ v := by rintro rfl; exact hvn n b hu
      exact ⟨u, n, by rw [huu u huv huw]; exact hu⟩
  · obtain ⟨L, g1, g2, g3⟩ := hi.num
    obtain ⟨L1, a1, a2, a3⟩ := num_set g1 g2 v (e w)
    obtain ⟨L2, b1, b2, b3⟩ := num_set a1 a2 w (some none)
    refine ⟨L2, b1, b2, ?_⟩
    rw [e1]
    have hz : elems (e v) = [] := by
      rcases hu : e v with _ | _ | k
      · rfl
      · rfl
      · exact (hv k hu).elim
    have hw : (e.set v (e w)) w = e w := by simp [Env.set, hvw.symm]
    have hz2 : elems (some (none : Option (List A))) = [] := rfl
    rw [hz] at a3
    rw [hw, hz2] at b3
    simp only [List.length_nil, Nat.add_zero] at a3 b3
    omega

/-- A copy of the elements of `w` into a new buffer. -/
theorem copy_fresh {c : Cfg} {m m0 : Mem A} {y : Arr} {ly : Option (Option (List A))} (hy : Rep c m0 (some y) ly) (b : Nat)
    (hyb : y.data ≠ some b) (hm : ∀ d, d ≠ b → m.bufs d = m0.bufs d) (hb : m.bufs b = some (List.replicate (elems ly).length none)) :
    copyElems m ⟨(elems ly).length, some b⟩ y = .ok (m.filled b (elems ly)) := by
  unfold copyElems
  refine fill_list m b (elems ly) _ hb ?_
  intro m' i hi hc
  have : at' m' y i = .ok (elems ly)[i] := by
    have h1 := hy.at i
    rw [dif_pos hi] at h1
    rw [← h1]
    unfold at'
    cases hd : y.data with
    | none => rfl
    | some d =>
      have hdb : d ≠ b := by rintro rfl; exact hyb hd
      simp only [hc d hdb, hm d hdb]
  simp only [this, bind, Except.bind]

/-- The outcomes a step may have: success, or (with a policy that aborts) an abort because an allocation failed. -/
def Good (c : Cfg) (r : Exec (State V A)) (e : Env V A) (g : List Nat × Nat := ([], 0)) : Prop :=
  (∃ s, r = .ok s ∧ Inv c s e g) ∨ (r = .error .abort ∧ c.aborts = true ∧ ∃ k b, c.alloc k b = false)

theorem alloc_cases (c : Cfg) (hp : c.aborts = true ∨ ∀ k b, c.alloc k b = true) (k b : Nat) :
    c.alloc k b = true ∨ (c.alloc k b = false ∧ c.aborts = true) := by
  cases h : c.alloc k b with
  | true => exact .inl rfl
  | false => exact .inr ⟨rfl, hp.resolve_right (fun h' => by rw [h' k b] at h; cases h)⟩

theorem Inv.size_ok {c : Cfg} {s : State V A} {e : Env V A} {g : List Nat × Nat} (hi : Inv c s e g) (w : V) : c.sizeof * (elems (e w)).length < 2 ^ c.word := by
  have := hi.rep w
  rcases hw : e w with _ | _ | l <;> rw [hw] at this
  · simp [elems, Nat.two_pow_pos]
  · simp [elems, Nat.two_pow_pos]
  · obtain ⟨b, -, -, -, -, h⟩ := this; exact h

theorem Inv.data_lt {c : Cfg} {s : State V A} {e : Env V A} {g : List Nat × Nat} (hi : Inv c s e g) {w : V} {y : Arr} (h : s.vars w = some y) :
    y.data ≠ some s.mem.next := by
  intro hd
  have := hi.rep w
  rw [h] at this
  rcases hw : e w with _ | _ | l <;> rw [hw] at this
  · cases this
  · injection this with this; rw [this] at hd; cases hd
  · obtain ⟨b, h1, -, h2, -⟩ := this
    injection h1 with h1; rw [h1] at hd; injection hd with hd; omega

theorem destruct_none (m : Mem A) : destruct m ⟨0, none⟩ = .ok m := rfl

theorem good_step {c : Cfg} (hs : 0 < c.sizeof) (hp : c.aborts = true ∨ ∀ k b, c.alloc k b = true) {s : State V A} {e : Env V A} {g : List Nat × Nat}
    (hi : Inv c s e g) (o : Op V A) (hl : Legal c.toLayout e o) : Good c (step c s o) (specStep e o) g := by
  cases o with
  | ctor v =>
    have hl : e v = none := hl
    exact .inl ⟨_, rfl, inv_plain hi v (by simp [hl]) _ _ (.inr ⟨rfl, rfl⟩)⟩
  | ctorSize v n a =>
    rcases alloc_cases c hp s.mem.tries (c.sizeof * n) with ha | ⟨ha, hab⟩
    · left
      have hal := allocate_ok c hs s.mem n hl.2 ha
      have hf := fill_list (s.mem.grown n)
        s.mem.next (List.replicate n a) (fun m i => construct m (some s.mem.next) i a) (by simp [Mem.grown]) (by intro m' i h _; simp)
      simp only [List.length_replicate] at hf
      refine ⟨({ s with mem := (s.mem.grown n).filled s.mem.next (List.replicate n a) } : State V A).set v (some ⟨n, some s.mem.next⟩), by simp only [step, hal, bind, Except.bind, if_true, fillElems, hf], ?_⟩
      have := inv_fresh hi v (by simp [hl.1]) (List.replicate n a) ((s.mem.grown n).filled s.mem.next (List.replicate n a)) (grown_filled_bufs s.mem n _) rfl rfl rfl rfl (by simpa using hl.2)
      simpa [specStep] using this
    · right
      exact ⟨by simp only [step, allocate_abort c s.mem n hl.2 hab ha, bind, Except.bind], hab, _, _, ha⟩
  | ctorVector v l =>
    rcases alloc_cases c hp s.mem.tries (c.sizeof * l.length) with ha | ⟨ha, hab⟩
    · left
      have hal := allocate_ok c hs s.mem l.length hl.2 ha
      have hf := fill_list (s.mem.grown l.length)
        s.mem.next l (fun m i => putFrom m (some s.mem.next) l i) (by simp [Mem.grown]) (by intro m' i h _; simp [putFrom, List.getElem?_eq_getElem h])
      refine ⟨({ s with mem := (s.mem.grown l.length).filled s.mem.next l } : State V A).set v (some ⟨l.length, some s.mem.next⟩), by simp only [step, hal, bind, Except.bind, if_true, hf], ?_⟩
      exact inv_fresh hi v (by simp [hl.1]) l ((s.mem.grown l.length).filled s.mem.next l) (grown_filled_bufs s.mem l.length _) rfl rfl rfl rfl hl.2
    · right
      exact ⟨by simp only [step, allocate_abort c s.mem l.length hl.2 hab ha, bind, Except.bind], hab, _, _, ha⟩
  | ctorCopy v w =>
    obtain ⟨y, hy, hyl, hys⟩ := hi.look hl.2
    have hsz := hi.size_ok w
    rcases alloc_cases c hp s.mem.tries (c.sizeof * (elems (e w)).length) with ha | ⟨ha, hab⟩
    · left
      have hal := allocate_ok c hs s.mem (elems (e w)).length hsz ha
      have hr := hi.rep w
      rw [hy] at hr
      have hf := copy_fresh (m := s.mem.grown (elems (e w)).length)
        hr s.mem.next (hi.data_lt hy) (by intro d hd; simp [Mem.grown, hd]) (by simp [Mem.grown])
      refine ⟨({ s with mem := (s.mem.grown (elems (e w)).length).filled s.mem.next (elems (e w)) } : State V A).set v (some ⟨(elems (e w)).length, some s.mem.next⟩), by simp only [step, hyl, hys, hal, bind, Except.bind, if_true, hf], ?_⟩
      exact inv_fresh hi v (by simp [hl.1]) (elems (e w)) ((s.mem.grown (elems (e w)).length).filled s.mem.next (elems (e w))) (grown_filled_bufs s.mem _ _) rfl rfl rfl rfl hsz
    · right
      exact ⟨by simp only [step, hyl, hys, allocate_abort c s.mem _ hsz hab ha, bind, Except.bind], hab, _, _, ha⟩
  | ctorMove v w =>
    obtain ⟨y, hy, hyl, hys⟩ := hi.look hl.2
    have hvw : v ≠ w := by rintro rfl; exact hl.2 hl.1
    left
    refine ⟨(s.set v (some y)).set w (some { size := 0, data := none }), by simp only [step, hyl, bind, Except.bind], ?_⟩
    exact inv_moveTo hi hvw (by simp [hl.1]) hy
  | assignMove v w =>
    obtain ⟨x, hx, hxl, hxs⟩ := hi.look (v := v) (by rw [hl.1]; simp)
    obtain ⟨y, hy, hyl, hys⟩ := hi.look hl.2.1
    left
    refine ⟨(s.set v (some y)).set w (some { size := 0, data := none }), by simp only [step, hxl, hyl, bind, Except.bind], ?_⟩
    exact inv_moveTo hi hl.2.2 (by simp [hl.1]) hy
  | dtor v =>
    obtain ⟨x, hx, hxl, hxs⟩ := hi.look hl
    left
    rcases hv : e v with _ | _ | l
    · exact (hl hv).elim
    · have := hi.rep v; rw [hx, hv] at this; injection this with this; subst this
      refine ⟨({ s with mem := s.mem } : State V A).set v none, by simp only [step, hxl, bind, Except.bind, destruct_none, deallocate], ?_⟩
      exact inv_plain hi v (by simp [hv]) none none (.inl ⟨rfl, rfl⟩)
    · obtain ⟨m1, m2, h1, h2, -, h3⟩ := inv_release hi hx hv
      refine ⟨({ s with mem := m2 } : State V A).set v none, by simp only [step, hxl, bind, Except.bind, h1, h2], ?_⟩
      have := inv_plain h3 v (by simp [Env.set]) none none (.inl ⟨rfl, rfl⟩)
      rw [env_set_set] at this
      rw [← set_set s m2 m2 v (some ⟨0, none⟩) none]
      exact this
  | write v i a =>
    obtain ⟨x, hx, hxl, hxs⟩ := hi.look hl.1
    left
    rcases hv : e v with _ | _ | l
    · exact (hl.1 hv).elim
    · have := hl.2; rw [hv] at this; simp [elems] at this
    · have hr := hi.rep v
      rw [hx, hv] at hr
      have hil : i < l.length := by have := hl.2; rwa [hv] at this
      have hat := hr.at i
      rw [dif_pos (show i < (elems (some (some l))).length from hil)] at hat
      obtain ⟨b, g1, g2, g3, g4, g5⟩ := hr
      injection g1 with g1; subst g1
      refine ⟨{ s with mem := { s.mem with bufs := fun d => if d = b then some ((l.set i a).map some) else s.mem.bufs d } },
        by simp only [step, hxl, bind, Except.bind, write, hat, g2, List.map_set], ?_⟩
      have := inv_refill hi hx hv (l' := l.set i a) (by simp) { s.mem with bufs := fun d => if d = b then some ((l.set i a).map some) else s.mem.bufs d }
        rfl rfl rfl 0 rfl rfl
      simpa [specStep, hv] using this
  | assignCopy v w =>
    obtain ⟨x, hx, hxl, hxs⟩ := hi.look hl.1
    obtain ⟨y, hy, hyl, hys⟩ := hi.look hl.2.1
    have hsz := hi.size_ok w
    have hr := hi.rep v
    rw [hx] at hr
    rcases hv : e v with _ | _ | l
    · exact (hl.1 hv).elim
    · -- no buffer on the left
      rw [hv] at hr
      injection hr with hr; subst hr
      rcases hw : elems (e w) with _ | ⟨a, l⟩
      · left
        rw [hw] at hys
        refine ⟨({ s with mem := s.mem } : State V A).set v (some ⟨0, none⟩), ?_, ?_⟩
        · simp only [step, hxl, hyl, bind, Except.bind, assignCopy, destruct_none, hys, List.length_nil, ne_eq, not_true, if_false, copyElems,
            List.range_zero, List.foldlM_nil, pure, Except.pure]
        · have := inv_plain hi v (by simp [hv]) (some ⟨0, none⟩) (some none) (.inr ⟨rfl, rfl⟩)
          simpa [specStep, hv, hw] using this
      · try rw [← hw]
        have hne : (0 : Nat) ≠ y.size := by rw [hys, hw]; simp
        have hspec : specStep e (.assignCopy v w) = e.set v (some (some (elems (e w)))) := by
          simp only [specStep, hv, hw]
        rw [hspec]
        rcases alloc_cases c hp s.mem.tries (c.sizeof * (elems (e w)).length) with ha | ⟨ha, hab⟩
        · left
          have hal := allocate_ok c hs s.mem (elems (e w)).length hsz ha
          have hrw := hi.rep w
          rw [hy] at hrw
          have hf := copy_fresh (m := s.mem.grown (elems (e w)).length)
            hrw s.mem.next (hi.data_lt hy) (by intro d hd; simp [Mem.grown, hd]) (by simp [Mem.grown])
          refine ⟨({ s with mem := (s.mem.grown (elems (e w)).length).filled s.mem.next (elems (e w)) } : State V A).set v (some ⟨(elems (e w)).length, some s.mem.next⟩), by
            simp only [step, hxl, hyl, bind, Except.bind, assignCopy, destruct_none, deallocate]
            rw [if_pos hne]
            simp only [hys, hal, if_true, hf], ?_⟩
          exact inv_fresh hi v (by simp [hv]) (elems (e w)) ((s.mem.grown (elems (e w)).length).filled s.mem.next (elems (e w))) (grown_filled_bufs s.mem _ _) rfl rfl rfl rfl hsz
        · right
          refine ⟨?_, hab, _, _, ha⟩
          simp only [step, hxl, hyl, bind, Except.bind, assignCopy, destruct_none, deallocate]
          rw [if_pos hne]
          simp only [hys, allocate_abort c s.mem _ hsz hab ha]
    · have hspec : specStep e (.assignCopy v w) = e.set v (some (some (elems (e w)))) := by
        simp only [specStep, hv]
      rw [hspec]
      rw [hv] at hxs
      by_cases hne : x.size = y.size
      · -- same size: the buffer is reused
        left
        rw [hv] at hr
        obtain ⟨b, hxb, hd⟩ := hr.destruct
        have hlen : (elems (e w)).length = l.length := by rw [← hys, ← hne, hxs]; rfl
        have hrw := hi.rep w
        rw [hy] at hrw
        have hyb : y.data ≠ some b := by
          intro h
          cases y with
          | mk n d => exact hl.2.2 (hi.inj v w _ n b (by rw [hx, hxb]) (by rw [hy]; simp only at h; rw [h]))
        have hf := copy_fresh (m := s.mem.emptied b l.length) hrw b hyb (by intro d hd; simp [Mem.emptied, hd]) (by simp [Mem.emptied, hlen])
        refine ⟨({ s with mem := (s.mem.emptied b l.length).filled b (elems (e w)) } : State V A).set v (some x), ?_, ?_⟩
        · simp only [step, hxl, hyl, bind, Except.bind, assignCopy, hd]
          rw [if_neg (by simp [hne])]
          have hxe : x = ⟨(elems (e w)).length, some b⟩ := by rw [hxb, hlen]
          rw [hxe]
          simp only [hf]
        · have h5 := inv_refill hi (hxb ▸ hx) hv (l' := elems (e w)) hlen ((s.mem.emptied b l.length).filled b (elems (e w)))
            (by funext d; simp only [Mem.emptied, Mem.filled]; split <;> rfl) rfl rfl l.length (by simp [Mem.emptied, Mem.filled, hlen]) rfl
          have h6 : ({ s with mem := (s.mem.emptied b l.length).filled b (elems (e w)) } : State V A).set v (some x)
              = { s with mem := (s.mem.emptied b l.length).filled b (elems (e w)) } := by
            simp only [State.set]
            congr 1
            funext u; split
            · rename_i h; rw [h, hx]
            · rfl
          rw [h6]; exact h5
      · -- new buffer
        obtain ⟨m1, m2, h1, h2, htr, h3⟩ := inv_release hi hx hv
        have hvw := hl.2.2
        have hew : (e.set v (some none)) w = e w := by simp [Env.set, hvw.symm]
        have hy3 : (({ s with mem := m2 } : State V A).set v (some ⟨0, none⟩)).vars w = some y := by simp [State.set, hvw.symm, hy]
        have hrw := h3.rep w
        rw [hy3, hew] at hrw
        change Rep c m2 (some y) (e w) at hrw
        rcases alloc_cases c hp m2.tries (c.sizeof * (elems (e w)).length) with ha | ⟨ha, hab⟩
        · left
          have hal := allocate_ok c hs m2 (elems (e w)).length hsz ha
          have hf := copy_fresh (m := (m2.grown (elems (e w)).length))
            hrw m2.next (h3.data_lt hy3) (by intro d hd; simp [Mem.grown, hd]) (by simp [Mem.grown])
          refine ⟨({ s with mem := (m2.grown (elems (e w)).length).filled m2.next (elems (e w)) } : State V A).set v (some ⟨(elems (e w)).length, some m2.next⟩), by
            simp only [step, hxl, hyl, bind, Except.bind, assignCopy, h1]
            rw [if_pos hne]
            simp only [h2, hys, hal, if_true, hf], ?_⟩
          have h5 := inv_fresh h3 v (by simp [Env.set]) (elems (e w)) ((m2.grown (elems (e w)).length).filled m2.next (elems (e w))) (grown_filled_bufs _ _ _) rfl rfl rfl rfl hsz
          rw [set_set, env_set_set] at h5
          exact h5
        · right
          refine ⟨?_, hab, _, _, ha⟩
          simp only [step, hxl, hyl, bind, Except.bind, assignCopy, h1]
          rw [if_pos hne]
          simp only [h2, hys, allocate_abort c m2 _ hsz hab ha]

theorem inv_start (c : Cfg) : Inv c (State.start : State V A) (fun _ => none) :=
  ⟨fun _ => rfl, fun v w n k b h => by simp [State.start] at h, by simp [State.start], by simp [State.start],
    fun b h => by simp [State.start] at h, ⟨[], by simp, by simp [elems], by simp [State.start]⟩, by simp⟩

theorem good_run {c : Cfg} (hs : 0 < c.sizeof) (hp : c.aborts = true ∨ ∀ k b, c.alloc k b = true) (os : List (Op V A))
    {s : State V A} {e : Env V A} {g : List Nat × Nat} (hi : Inv c s e g) (hl : LegalRun c.toLayout os e) : Good c (run c os s) (specRun os e) g := by
  induction os generalizing s e with
  | nil => exact .inl ⟨s, rfl, hi⟩
  | cons o os ih =>
    rcases good_step hs hp hi o hl.1 with ⟨s1, h1, hi1⟩ | ⟨h1, h2⟩
    · simp only [run, h1, bind, Except.bind, specRun]
      exact ih hi1 hl.2
    · right
      exact ⟨by simp only [run, h1, bind, Except.bind], h2⟩

end Verif.FixedArray
