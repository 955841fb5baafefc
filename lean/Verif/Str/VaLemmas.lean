import Verif.Str.SpecVaList
/-!
# Lemmas for C150
-/
namespace Verif.Str.Va
open Verif

theorem fresh_not_mem {s : St} (h : WF s) : s.next ∉ s.lists.map (·.1) := by
  intro hm
  obtain ⟨x, hx, he⟩ := List.mem_map.1 hm
  have := h.1 x hx
  omega

theorem filter_ne {l : List (Nat × Bool)} {a : Nat} (h : a ∉ l.map (·.1)) : l.filter (fun x => decide (x.1 ≠ a)) = l := by
  rw [List.filter_eq_self]
  intro x hx
  have : x.1 ≠ a := fun e => h (List.mem_map.2 ⟨x, hx, e⟩)
  simpa using this

theorem map_fst_readThrough (l : List (Nat × Bool)) (ap : Nat) : (readThrough l ap).map (·.1) = l.map (·.1) := by
  unfold readThrough
  rw [List.map_map]
  apply List.map_congr_left
  intro x _
  by_cases hx : x.1 = ap
  · simp [hx]
  · simp [hx]

theorem readThrough_of_not_mem {l : List (Nat × Bool)} {ap : Nat} (h : ap ∉ l.map (·.1)) : readThrough l ap = l := by
  unfold readThrough
  conv => rhs; rw [← List.map_id l]
  apply List.map_congr_left
  intro x hx
  have : x.1 ≠ ap := fun e => h (List.mem_map.2 ⟨x, hx, e⟩)
  simp [this]

theorem WF.vaStart {s : St} (h : WF s) : WF (vaStart s).1 := by
  obtain ⟨h1, h2, h3, h4⟩ := h
  refine ⟨?_, ?_, ?_, h4⟩
  · intro x hx
    simp only [Va.vaStart, List.mem_cons] at hx ⊢
    rcases hx with rfl | hx
    · simp
    · have := h1 x hx; omega
  · simp only [Va.vaStart, List.map_cons, List.nodup_cons]
    exact ⟨fresh_not_mem ⟨h1, h2, h3, h4⟩, h2⟩
  · intro b hb
    have := h3 b hb
    simp only [Va.vaStart]; omega

theorem len_nonneg_of_text {f1 : Fmt} {len : Int} {m' : List Byte} (h : vsnprintf f1 [0, 0] 2 = .ok (len, m')) (h0 : ¬ len < 0) :
    ∃ t, f1 = .text t ∧ len = t.length ∧ t.length < 2 ^ 31 := by
  cases f1 with
  | fail c g =>
    simp only [vsnprintf] at h
    rw [if_neg (by simp)] at h
    injection h with h; injection h with h _
    omega
  | text t =>
    simp only [vsnprintf] at h
    rw [if_neg (by simp)] at h
    by_cases ht : 2 ^ 31 ≤ t.length
    · rw [if_pos ht] at h
      injection h with h; injection h with h _
      omega
    · rw [if_neg ht, if_neg (by decide)] at h
      injection h with h; injection h with h _
      exact ⟨t, rfl, h.symm, by omega⟩

theorem neg_iff {f2 : Fmt} {m m' : List Byte} {n : Nat} {len : Int} (h : vsnprintf f2 m n = .ok (len, m')) :
    len < 0 ↔ (∃ c g, f2 = .fail c g) ∨ ∃ t, f2 = .text t ∧ 2 ^ 31 ≤ t.length := by
  unfold vsnprintf at h
  by_cases hm : m.length < n
  · rw [if_pos hm] at h; nomatch h
  · rw [if_neg hm] at h
    cases f2 with
    | fail c g =>
      simp only at h
      injection h with h; injection h with h _
      constructor
      · intro _; exact Or.inl ⟨c, g, rfl⟩
      · intro _; omega
    | text t =>
      simp only at h
      by_cases ht : 2 ^ 31 ≤ t.length
      · rw [if_pos ht] at h
        injection h with h; injection h with h _
        constructor
        · intro _; exact Or.inr ⟨t, rfl, ht⟩
        · intro _; omega
      · rw [if_neg ht] at h
        have hl : len = t.length := by
          by_cases hz : n = 0
          · rw [if_pos hz] at h; injection h with h; injection h with h _; exact h.symm
          · rw [if_neg hz] at h; injection h with h; injection h with h _; exact h.symm
        constructor
        · intro _; omega
        · intro hh
          rcases hh with ⟨_, _, hh⟩ | ⟨t', hh, hl'⟩
          · nomatch hh
          · injection hh with hh; subst hh; exact absurd hl' ht

/-- Everything that `SprintfArgsImpl` does with a list that is begun and unread. -/
theorem impl_cases (throws : Nat → Bool) (s : St) (ap : Nat) (f1 f2 : Fmt) (h : WF s) (hap : (ap, false) ∈ s.lists) :
    (∃ e, sprintfArgsImpl throws s ap f1 f2 = .error e ∧ Str.sprintfArgsImpl f1 f2 = .error e) ∨
    (∃ s', sprintfArgsImpl throws s ap f1 f2 = .ok (s', none) ∧ throws s.clock = true ∧ s'.blocks = s.blocks ∧
      s'.lists = (s.next, false) :: readThrough s.lists ap ∧ s'.clock = s.clock + 1 ∧ s.next < s'.next ∧ ∃ t, f1 = .text t) ∨
    (∃ s', sprintfArgsImpl throws s ap f1 f2 = .ok (s', some (none, 0)) ∧ Str.sprintfArgsImpl f1 f2 = .ok (none, 0) ∧ s'.blocks = s.blocks ∧ s.next < s'.next ∧
      ((SecondFails f1 f2 ∧ throws s.clock = false ∧ s'.lists = (s.next, true) :: readThrough s.lists ap) ∨
       (¬ SecondFails f1 f2 ∧ s'.lists = readThrough s.lists ap))) ∨
    (∃ s' b m n, sprintfArgsImpl throws s ap f1 f2 = .ok (s', some (some (b, m), n)) ∧ Str.sprintfArgsImpl f1 f2 = .ok (some m, n) ∧
      throws s.clock = false ∧ s'.blocks = b :: s.blocks ∧ b ∉ s.blocks ∧ s'.lists = readThrough s.lists ap ∧ s'.clock = s.clock + 1 ∧ s.next < s'.next ∧ b < s'.next ∧
      ¬ SecondFails f1 f2) := by
  have hlt : ap < s.next := h.1 _ hap
  have hfr := fresh_not_mem h
  have hb : ∀ k, s.next ≤ k → k ∉ s.blocks := fun k hk hm => by have := h.2.2.1 k hm; omega
  have hne : ¬ s.next = ap := by omega
  have hfr' : s.next ∉ (readThrough s.lists ap).map (·.1) := by rw [map_fst_readThrough]; exact hfr
  -- the copy and the reading
  have e1 : vaCopy s ap = .ok ({ s with next := s.next + 1, lists := (s.next, false) :: s.lists }, s.next) := by
    simp only [vaCopy, hap, if_true, vaStart]
  have e2 : vaUse { s with next := s.next + 1, lists := (s.next, false) :: s.lists } ap
      = .ok { s with next := s.next + 1, lists := (s.next, false) :: readThrough s.lists ap } := by
    simp only [vaUse, List.mem_cons, hap, or_true, if_true, List.map_cons, hne, if_false, readThrough]
  have eend : ∀ (n c : Nat) (fl : Bool) (bl : List Nat), vaEnd { next := n, lists := (s.next, fl) :: readThrough s.lists ap, blocks := bl, clock := c } s.next
      = .ok { next := n, lists := readThrough s.lists ap, blocks := bl, clock := c } := by
    intro n c fl bl
    simp only [vaEnd, List.map_cons, List.mem_cons, true_or, if_true]
    rw [List.filter_cons_of_neg (by simp), filter_ne hfr']
  have euse : ∀ (n c : Nat) (bl : List Nat), vaUse { next := n, lists := (s.next, false) :: readThrough s.lists ap, blocks := bl, clock := c } s.next
      = .ok { next := n, lists := (s.next, true) :: readThrough s.lists ap, blocks := bl, clock := c } := by
    intro n c bl
    simp only [vaUse, List.mem_cons, true_or, if_true, List.map_cons]
    rw [show (readThrough s.lists ap).map (fun x => if x.1 = s.next then (s.next, true) else x) = readThrough (readThrough s.lists ap) s.next from rfl,
      readThrough_of_not_mem hfr']
  unfold sprintfArgsImpl Str.sprintfArgsImpl
  rw [e1]
  simp only [bind, Except.bind]
  rw [e2]
  simp only
  cases hv : vsnprintf f1 [0, 0] 2 with
  | error e => exact Or.inl ⟨e, rfl, rfl⟩
  | ok p =>
    obtain ⟨len, m0⟩ := p
    simp only
    by_cases hneg : len < 0
    · rw [if_pos hneg, if_pos hneg, eend]
      refine Or.inr (Or.inr (Or.inl ⟨_, rfl, rfl, rfl, Nat.lt_succ_self _, Or.inr ⟨?_, rfl⟩⟩))
      rintro ⟨⟨t, rfl, _, ht⟩, _⟩
      rcases (neg_iff hv).1 hneg with ⟨_, _, hh⟩ | ⟨t', hh, hl'⟩
      · nomatch hh
      · injection hh with hh; subst hh; omega
    · rw [if_neg hneg, if_neg hneg]
      obtain ⟨t, rfl, hlen, htl⟩ := len_nonneg_of_text hv hneg
      by_cases hz : len = 0
      · rw [if_pos hz, if_pos hz]
        have hte : t = [] := by
          cases t with
          | nil => rfl
          | cons _ _ => simp only [List.length_cons] at hlen; omega
        cases hth : throws s.clock with
        | true =>
          simp only [makeUnique, hth, if_true]
          exact Or.inr (Or.inl ⟨_, rfl, trivial, rfl, rfl, rfl, Nat.lt_succ_self _, _, rfl⟩)
        | false =>
          simp only [makeUnique, hth, Bool.false_eq_true, if_false, eend]
          refine Or.inr (Or.inr (Or.inr ⟨_, s.next + 1, [0], 0, rfl, rfl, trivial, rfl, hb _ (by omega), rfl, rfl, by simp only; omega, by simp only; omega, ?_⟩))
          rintro ⟨⟨t', hh, hne', _⟩, _⟩
          injection hh with hh; subst hh; exact hne' hte
      · rw [if_neg hz, if_neg hz]
        by_cases hov : len + 1 ≥ 2 ^ 31
        · rw [if_pos hov, if_pos hov]; exact Or.inl ⟨_, rfl, rfl⟩
        · rw [if_neg hov, if_neg hov]
          cases hth : throws s.clock with
          | true =>
            simp only [makeUnique, hth, if_true]
            exact Or.inr (Or.inl ⟨_, rfl, trivial, rfl, rfl, rfl, Nat.lt_succ_self _, _, rfl⟩)
          | false =>
            simp only [makeUnique, hth, Bool.false_eq_true, if_false, euse]
            cases hv2 : vsnprintf f2 (List.replicate (len + 1).toNat (0 : Byte)) (len + 1).toNat with
            | error e => exact Or.inl ⟨e, rfl, rfl⟩
            | ok q =>
              obtain ⟨newLen, buffer⟩ := q
              simp only
              by_cases hn2 : newLen < 0
              · rw [if_pos hn2, if_pos hn2]
                simp only [dropUnique, List.mem_cons, true_or, if_true, List.erase_cons_head]
                refine Or.inr (Or.inr (Or.inl ⟨_, rfl, trivial, rfl, by simp only; omega, Or.inl ⟨⟨⟨t, rfl, ?_, ?_⟩, (neg_iff hv2).1 hn2⟩, trivial, rfl⟩⟩))
                · rintro rfl; exact hz (by simpa using hlen)
                · omega
              · rw [if_neg hn2, if_neg hn2]
                by_cases has : len ≠ newLen
                · rw [if_pos has, if_pos has]; exact Or.inl ⟨_, rfl, rfl⟩
                · rw [if_neg has, if_neg has, eend]
                  refine Or.inr (Or.inr (Or.inr ⟨_, s.next + 1, buffer, newLen.toNat, rfl, rfl, trivial, rfl, hb _ (by omega), rfl, rfl, by simp only; omega, by simp only; omega, ?_⟩))
                  intro hsf
                  exact hn2 ((neg_iff hv2).2 hsf.2)

/-- `va_start`, then reading the list through. -/
theorem readThrough_start {s : St} (h : WF s) : readThrough (vaStart s).1.lists (vaStart s).2 = (s.next, true) :: s.lists := by
  show readThrough ((s.next, false) :: s.lists) s.next = _
  have : readThrough ((s.next, false) :: s.lists) s.next = (s.next, true) :: readThrough s.lists s.next := by
    simp [readThrough]
  rw [this, readThrough_of_not_mem (fresh_not_mem h)]

/-- `va_end` of a list that was begun here. -/
theorem vaEnd_own {s t : St} (h : WF s) (hl : t.lists = (s.next, true) :: s.lists) : vaEnd t s.next = .ok { t with lists := s.lists } := by
  simp only [vaEnd, hl, List.map_cons, List.mem_cons, true_or, if_true]
  rw [List.filter_cons_of_neg (by simp), filter_ne (fresh_not_mem h)]

theorem vaEnd_own' {s t : St} (h : WF s) (hl : t.lists = (s.next + 1, true) :: (s.next, true) :: s.lists) :
    vaEnd t s.next = .ok { t with lists := (s.next + 1, true) :: s.lists } := by
  simp only [vaEnd, hl, List.map_cons, List.mem_cons, true_or, or_true, if_true]
  rw [List.filter_cons_of_pos (by simp), List.filter_cons_of_neg (by simp), filter_ne (fresh_not_mem h)]

/-- A state whose lists are those of `s` and lists begun later, and whose blocks are those of `s` and at most one new one. -/
theorem WF.later {s t : St} (h : WF s) (hn : s.next + 1 < t.next)
    (hl : t.lists = s.lists ∨ t.lists = (s.next + 1, true) :: s.lists ∨ t.lists = (s.next + 1, false) :: (s.next, true) :: s.lists ∨
      t.lists = (s.next + 1, true) :: (s.next, true) :: s.lists ∨ t.lists = (s.next, true) :: s.lists)
    (hb : t.blocks = s.blocks ∨ ∃ b, t.blocks = b :: s.blocks ∧ b ∉ s.blocks ∧ b < t.next) : WF t := by
  have f0 := fresh_not_mem h
  have f1 : s.next + 1 ∉ s.lists.map (·.1) := by
    intro hm
    obtain ⟨x, hx, he⟩ := List.mem_map.1 hm
    have := h.1 x hx
    omega
  obtain ⟨h1, h2, h3, h4⟩ := h
  have hA : (∀ x ∈ t.lists, x.1 < t.next) ∧ (t.lists.map (·.1)).Nodup := by
    have g : ∀ x ∈ s.lists, x.1 < t.next := fun x hx => by have := h1 x hx; omega
    rcases hl with hl | hl | hl | hl | hl <;> rw [hl]
    · exact ⟨g, h2⟩
    all_goals
      refine ⟨?_, ?_⟩
      · intro x hx
        simp only [List.mem_cons] at hx
        first
          | rcases hx with rfl | rfl | hx
            · simp only; omega
            · simp only; omega
            · exact g x hx
          | rcases hx with rfl | hx
            · simp only; omega
            · exact g x hx
      · simp only [List.map_cons, List.nodup_cons, List.mem_cons, f0, f1, h2, not_false_eq_true, and_true, or_false]
        try omega
  refine ⟨hA.1, hA.2, ?_⟩
  rcases hb with hb | ⟨b, hb, hnm, hlt⟩ <;> rw [hb]
  · exact ⟨fun b hb => by have := h3 b hb; omega, h4⟩
  · refine ⟨?_, List.nodup_cons.2 ⟨hnm, h4⟩⟩
    intro x hx
    rcases List.mem_cons.1 hx with rfl | hx
    · exact hlt
    · have := h3 x hx; omega

end Verif.Str.Va
