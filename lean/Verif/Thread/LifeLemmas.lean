import Verif.Thread.SpecLife
/-!
# Lemmas: lifetimes around `NewThread`
-/
namespace Verif.Thread.Life
open Verif

variable {α : Type}

theorem destroyAll_spec : ∀ (l base : List Nat) (s : St α), WF s → s.live.Perm (l ++ base) →
    ∃ s', destroyAll s l = .ok s' ∧ WF s' ∧ s'.live.Perm base ∧ s'.next = s.next ∧ s'.val = s.val := by
  intro l
  induction l with
  | nil => intro base s hw hp; exact ⟨s, rfl, hw, hp, rfl, rfl⟩
  | cons i l ih =>
    intro base s hw hp
    have hi : i ∈ s.live := hp.mem_iff.2 (by simp)
    have hp2 : (s.live.erase i).Perm (l ++ base) := by
      have := hp.erase i
      simpa using this
    obtain ⟨s', h1, h2, h3, h4, h5⟩ := ih base { s with live := s.live.erase i }
      ⟨hw.nodup.erase i, fun j hj => hw.lt j (List.mem_of_mem_erase hj)⟩ hp2
    refine ⟨s', ?_, h2, h3, h4, h5⟩
    simp only [destroyAll, destroy, hi, if_true, bind, Except.bind]
    exact h1

theorem make_spec {s : St α} (hw : WF s) (v : α) :
    WF (make s v).1 ∧ (make s v).1.live = (make s v).2 :: s.live ∧ (make s v).2 = s.next ∧ (make s v).2 ∉ s.live ∧ (make s v).1.next = s.next + 1 ∧
      (make s v).1.val (make s v).2 = v ∧ ∀ i ∈ s.live, (make s v).1.val i = s.val i := by
  have hn : s.next ∉ s.live := fun h => Nat.lt_irrefl _ (hw.lt _ h)
  refine ⟨⟨List.nodup_cons.2 ⟨hn, hw.nodup⟩, ?_⟩, rfl, rfl, hn, rfl, by simp [make], ?_⟩
  · intro i hi
    rcases List.mem_cons.1 hi with rfl | h
    · exact Nat.lt_succ_self _
    · exact Nat.lt_succ_of_lt (hw.lt i h)
  · intro i hi
    have : i ≠ s.next := fun h => hn (h ▸ hi)
    simp [make, this]

instance (srcs : List (Nat × Src)) (i : Nat) : Decidable (IsMoved srcs i) := by unfold IsMoved; infer_instance

theorem build_spec (p : Plan α) : ∀ (srcs : List (Nat × Src)) (built : List (Nat × Nat)) (base : List Nat) (s : St α), WF s →
    s.live.Perm (built.map (·.2) ++ base) → (∀ x ∈ srcs, x.2.id ∈ base) → Apart srcs →
    ∃ s' r, build p s srcs built = .ok (s', r) ∧ WF s' ∧
      (∀ i ∈ base, s'.val i = s.val i ∨ (IsMoved srcs i ∧ (s'.val i = p.moved (s.val i) ∨ s'.val i = p.torn (s.val i)))) ∧
      (r = none → s'.live.Perm base) ∧
      ∀ res, r = some res → s'.live.Perm (res.map (·.2) ++ base) ∧
        res.map (fun x => (x.1, s'.val x.2)) = (srcs.map fun x => (x.1, s.val x.2.id)).reverse ++ built.map (fun x => (x.1, s.val x.2)) ∧
        ∀ i ∈ base, s'.val i = if IsMoved srcs i then p.moved (s.val i) else s.val i := by
  intro srcs
  induction srcs with
  | nil =>
    intro built base s hw hp _ _
    refine ⟨s, some built, rfl, hw, fun i _ => .inl rfl, (fun h => nomatch h), fun res h => ?_⟩
    cases h
    exact ⟨hp, by simp, fun i _ => by simp [IsMoved]⟩
  | cons x rest ih =>
    obtain ⟨k, src⟩ := x
    intro built base s hw hp hin hap
    obtain ⟨hap1, hap2⟩ := List.pairwise_cons.1 hap
    have hsb : src.id ∈ base := hin (k, src) (by simp)
    have hsl : src.id ∈ s.live := hp.mem_iff.2 (by simp [hsb])
    have hnd : (built.map (·.2) ++ base).Nodup := hp.nodup_iff.1 hw.nodup
    have hdisj : ∀ i ∈ built.map (·.2), i ∉ base := fun i h1 h2 => (List.nodup_append.1 hnd).2.2 i h1 i h2 rfl
    by_cases ht : p.throws s.clock = true
    · let s1 : St α := { s with clock := s.clock + 1, val := fun i => if i = src.id ∧ src.move = true then p.torn (s.val src.id) else s.val i }
      obtain ⟨s', h1, h2, h3, h4, h5⟩ := destroyAll_spec (built.map (·.2)) base s1 ⟨hw.nodup, hw.lt⟩ hp
      refine ⟨s', none, ?_, h2, ?_, fun _ => h3, fun res h => by cases h⟩
      · simp only [build, take, hsl, not_true_eq_false, if_false, ht, if_true, bind, Except.bind]
        have h1' : destroyAll { s with clock := s.clock + 1, val := fun i => if i = src.id ∧ src.move = true then p.torn (s.val src.id) else s.val i } (List.map (fun x => x.snd) built) = .ok s' := h1
        simp only [h1']
      · intro i hi
        rw [h5]
        by_cases hc : i = src.id ∧ src.move = true
        · right
          refine ⟨⟨(k, src), by simp, hc.1.symm, hc.2⟩, .inr ?_⟩
          show (if _ then _ else _) = _
          rw [if_pos hc, hc.1]
        · left
          show (if _ then _ else _) = _
          rw [if_neg hc]
    · let s1 : St α := { s with clock := s.clock + 1, val := fun i => if i = src.id ∧ src.move = true then p.moved (s.val src.id) else s.val i }
      obtain ⟨hw2, hl2, hn2, hnl, -, hv2, hvo⟩ := make_spec (s := s1) ⟨hw.nodup, hw.lt⟩ (s.val src.id)
      generalize hm : make s1 (s.val src.id) = mk at *
      obtain ⟨s2, i⟩ := mk
      simp only at hw2 hl2 hn2 hnl hv2 hvo
      have hp2 : s2.live.Perm (((k, i) :: built).map (·.2) ++ base) := by
        rw [hl2]; exact hp.cons i
      have hval : ∀ j ∈ s.live, s2.val j = if j = src.id ∧ src.move = true then p.moved (s.val src.id) else s.val j := fun j hj => hvo j hj
      obtain ⟨s', r, h1, h2, h3, h4, h5⟩ := ih ((k, i) :: built) base s2 hw2 hp2 (fun x hx => hin x (List.mem_cons_of_mem _ hx)) hap2
      have hbl : ∀ j ∈ base, j ∈ s.live := fun j hj => hp.mem_iff.2 (by simp [hj])
      have hmv : ∀ j, IsMoved ((k, src) :: rest) j ↔ (src.id = j ∧ src.move = true) ∨ IsMoved rest j := by
        intro j; simp [IsMoved]
      have hexcl : src.move = true → ¬ IsMoved rest src.id := by
        rintro hm ⟨y, hy, hy1, hy2⟩
        have := hap1 y hy hy1.symm
        rw [this.2] at hy2; cases hy2
      refine ⟨s', r, ?_, h2, ?_, h4, ?_⟩
      · simp only [build, take, hsl, not_true_eq_false, if_false, ht, bind, Except.bind]
        show (match make s1 (s.val src.id) with | (_, _) => _) = _
        rw [hm]
        exact h1
      · intro j hj
        by_cases hc : j = src.id ∧ src.move = true
        · have := h3 j hj
          rcases this with h | ⟨h, -⟩
          · refine .inr ⟨(hmv j).2 (.inl ⟨hc.1.symm, hc.2⟩), .inl ?_⟩
            rw [h, hval j (hbl j hj), if_pos hc, hc.1]
          · exact (hexcl hc.2 (hc.1 ▸ h)).elim
        · have h := h3 j hj
          rw [hval j (hbl j hj), if_neg hc] at h
          exact h.imp id (fun ⟨h6, h7⟩ => ⟨(hmv j).2 (.inr h6), h7⟩)
      · intro res hres
        obtain ⟨h6, h7, h8⟩ := h5 res hres
        refine ⟨h6, ?_, ?_⟩
        · rw [h7]
          simp only [List.map_cons, List.reverse_cons, List.append_assoc, List.singleton_append, hv2]
          refine congr (congrArg _ (congrArg List.reverse ?_)) (congrArg _ ?_)
          · refine List.map_congr_left (fun y hy => ?_)
            have hyb : y.2.id ∈ base := hin y (by simp [hy])
            rw [hval _ (hbl _ hyb), if_neg]
            rintro ⟨e1, e2⟩
            have := hap1 y hy e1.symm
            rw [this.1] at e2; cases e2
          · refine List.map_congr_left (fun y hy => ?_)
            have hyi : y.2 ∈ built.map (·.2) := List.mem_map_of_mem hy
            rw [hval _ (hp.mem_iff.2 (by simp only [List.mem_append]; exact .inl hyi)), if_neg]
            rintro ⟨e1, -⟩
            exact hdisj _ hyi (e1 ▸ hsb)
        · intro j hj
          rw [h8 j hj, hval j (hbl j hj)]
          by_cases hc : j = src.id ∧ src.move = true
          · rw [if_pos hc, if_pos ((hmv j).2 (.inl ⟨hc.1.symm, hc.2⟩)), if_neg (hc.1 ▸ hexcl hc.2), hc.1]
          · rw [if_neg hc]
            by_cases hm : IsMoved rest j
            · rw [if_pos hm, if_pos ((hmv j).2 (.inr hm))]
            · rw [if_neg hm, if_neg]
              rw [hmv]
              rintro (⟨e1, e2⟩ | e)
              · exact hc ⟨e1.symm, e2⟩
              · exact hm e

theorem alloc_spec (p : Plan α) {s : St α} (hw : WF s) (v : α) :
    (p.throws s.clock = true → ∃ s1, alloc p s v = (s1, none) ∧ WF s1 ∧ s1.live = s.live ∧ s1.val = s.val ∧ s1.next = s.next) ∧
    (¬ p.throws s.clock = true → ∃ s1 i, alloc p s v = (s1, some i) ∧ WF s1 ∧ s1.live = i :: s.live ∧ i ∉ s.live ∧ s1.val i = v ∧ ∀ j ∈ s.live, s1.val j = s.val j) := by
  constructor
  · intro h
    exact ⟨{ s with clock := s.clock + 1 }, by simp [alloc, h], ⟨hw.nodup, hw.lt⟩, rfl, rfl, rfl⟩
  · intro h
    obtain ⟨h1, h2, h3, h4, -, h6, h7⟩ := make_spec (s := { s with clock := s.clock + 1 }) ⟨hw.nodup, hw.lt⟩ v
    exact ⟨_, _, by simp [alloc, h], h1, h2, h4, h6, h7⟩

/-- What is known when `NewThread` throws. -/
def Failed (p : Plan α) (srcs : List (Nat × Src)) (s s' : St α) : Prop :=
  WF s' ∧ s'.live.Perm s.live ∧
    ∀ i ∈ s.live, s'.val i = s.val i ∨ (IsMoved srcs i ∧ (s'.val i = p.moved (s.val i) ∨ s'.val i = p.torn (s.val i)))

/-- What is known when the thread has been started. -/
def Succeeded (p : Plan α) (name : α) (srcs : List (Nat × Src)) (s s' : St α) (st : Started) : Prop :=
  WF s' ∧ s'.live.Perm (st.temps ++ (st.bound.map (·.2) ++ [st.name, st.state]) ++ st.thread :: s.live) ∧
    s'.val st.name = name ∧ (st.bound.map fun x => (x.1, s'.val x.2)).Perm (srcs.map fun x => (x.1, s.val x.2.id)) ∧
    ∀ i ∈ s.live, s'.val i = if IsMoved srcs i then p.moved (s.val i) else s.val i

theorem newThread_spec (p : Plan α) (hord : ∀ l, (p.order l).Perm l) (s : St α) (hw : WF s) (name : α) (srcs : List (Nat × Src))
    (hin : ∀ x ∈ srcs, x.2.id ∈ s.live) (hap : Apart srcs) :
    ∃ s' r, newThread p s name srcs = .ok (s', r) ∧ (r = none → Failed p srcs s s') ∧ ∀ st, r = some st → Succeeded p name srcs s s' st := by
  obtain ⟨s1, r1, h1, hw1, hk1, hf1, hs1⟩ := build_spec p srcs [] s.live s hw (by simp) hin hap
  simp only [newThread, h1, bind, Except.bind]
  cases r1 with
  | none => exact ⟨s1, none, rfl, fun _ => ⟨hw1, hf1 rfl, hk1⟩, fun _ h => by cases h⟩
  | some cb =>
    obtain ⟨hp1, hv1, hval1⟩ := hs1 cb rfl
    simp only [List.map_nil, List.append_nil] at hv1
    -- helper: giving everything up
    have give : ∀ (sx : St α) (l : List Nat), WF sx → sx.live.Perm (l ++ s.live) → (∀ i ∈ s.live, sx.val i = s1.val i) →
        ∃ s', destroyAll sx l = .ok s' ∧ Failed p srcs s s' := by
      intro sx l hwx hpx hvx
      obtain ⟨s', h2, h3, h4, -, h6⟩ := destroyAll_spec l s.live sx hwx hpx
      refine ⟨s', h2, h3, h4, fun i hi => ?_⟩
      rw [h6, hvx i hi]
      exact hk1 i hi
    have hb1 : ∀ i ∈ s.live, i ∈ s1.live := fun i hi => hp1.mem_iff.2 (by simp [hi])
    simp only
    by_cases t2 : p.throws s1.clock = true
    · obtain ⟨s2, e2, hw2, hl2, hv2, -⟩ := (alloc_spec p hw1 name).1 t2
      rw [e2]
      obtain ⟨s', h2, h3⟩ := give s2 (cb.map (·.2)) hw2 (hl2 ▸ hp1) (fun i hi => by rw [hv2])
      simp only [h2]
      exact ⟨s', none, rfl, fun _ => h3, fun _ h => by cases h⟩
    obtain ⟨s2, nm, e2, hw2, hl2, hn2, hvn2, hv2⟩ := (alloc_spec p hw1 name).2 t2
    rw [e2]
    have hp2 : s2.live.Perm (nm :: cb.map (·.2) ++ s.live) := by rw [hl2]; exact hp1.cons nm
    simp only
    by_cases t3 : p.throws s2.clock = true
    · obtain ⟨s3, e3, hw3, hl3, hv3, -⟩ := (alloc_spec p hw2 p.blank).1 t3
      rw [e3]
      obtain ⟨s', h2, h3⟩ := give s3 (nm :: cb.map (·.2)) hw3 (hl3 ▸ hp2) (fun i hi => by rw [hv3]; exact hv2 i (hb1 i hi))
      simp only [h2]
      exact ⟨s', none, rfl, fun _ => h3, fun _ h => by cases h⟩
    obtain ⟨s3, th, e3, hw3, hl3, hn3, -, hv3⟩ := (alloc_spec p hw2 p.blank).2 t3
    rw [e3]
    have hb2 : ∀ i ∈ s1.live, i ∈ s2.live := fun i hi => by rw [hl2]; exact List.mem_cons_of_mem _ hi
    have hp3 : s3.live.Perm (th :: nm :: cb.map (·.2) ++ s.live) := by rw [hl3]; exact hp2.cons th
    simp only
    by_cases t4 : p.throws s3.clock = true
    · obtain ⟨s4, e4, hw4, hl4, hv4, -⟩ := (alloc_spec p hw3 p.blank).1 t4
      rw [e4]
      obtain ⟨s', h2, h3⟩ := give s4 (th :: nm :: cb.map (·.2)) hw4 (hl4 ▸ hp3) (fun i hi => by
        rw [hv4, hv3 i (hb2 i (hb1 i hi)), hv2 i (hb1 i hi)])
      simp only [h2]
      exact ⟨s', none, rfl, fun _ => h3, fun _ h => by cases h⟩
    obtain ⟨s4, state, e4, hw4, hl4, hn4, -, hv4⟩ := (alloc_spec p hw3 p.blank).2 t4
    rw [e4]
    have hb3 : ∀ i ∈ s2.live, i ∈ s3.live := fun i hi => by rw [hl3]; exact List.mem_cons_of_mem _ hi
    have hb4 : ∀ i ∈ s3.live, i ∈ s4.live := fun i hi => by rw [hl4]; exact List.mem_cons_of_mem _ hi
    have hp4 : s4.live.Perm (state :: th :: nm :: cb.map (·.2) ++ s.live) := by rw [hl4]; exact hp3.cons state
    simp only
    obtain ⟨hw5, hl5, -, hn5, -, hvn5, hv5⟩ := make_spec hw4 (s4.val nm)
    generalize hm : make s4 (s4.val nm) = mk at *
    obtain ⟨s5, nm2⟩ := mk
    simp only at hw5 hl5 hn5 hvn5 hv5 ⊢
    have hp5 : s5.live.Perm (nm2 :: state :: th :: nm :: cb.map (·.2) ++ s.live) := by rw [hl5]; exact hp4.cons nm2
    have hnm2 : nm ∈ s2.live := by rw [hl2]; simp
    have hval5 : ∀ i ∈ s1.live, s5.val i = s1.val i := by
      intro i hi
      rw [hv5 i (hb4 i (hb3 i (hb2 i hi))), hv4 i (hb3 i (hb2 i hi)), hv3 i (hb2 i hi), hv2 i hi]
    have hname5 : s5.val nm2 = name := by
      rw [hvn5, hv4 nm (hb3 nm hnm2), hv3 nm hnm2, hvn2]
    let srcs2 : List (Nat × Src) := (p.order cb).map fun x => (x.1, ⟨x.2, true⟩)
    have hnd1 : (cb.map (·.2) ++ s.live).Nodup := hp1.nodup_iff.1 hw1.nodup
    have hcbn : (cb.map (·.2)).Nodup := (List.nodup_append.1 hnd1).1
    have hcbd : ∀ i ∈ cb.map (·.2), i ∉ s.live := fun i h1 h2 => (List.nodup_append.1 hnd1).2.2 i h1 i h2 rfl
    have hin2 : ∀ x ∈ srcs2, x.2.id ∈ s5.live := by
      intro x hx
      obtain ⟨y, hy, rfl⟩ := List.mem_map.1 hx
      have hy2 : y.2 ∈ cb.map (·.2) := List.mem_map_of_mem ((hord cb).mem_iff.1 hy)
      refine hp5.mem_iff.2 ?_
      simp only [List.cons_append, List.mem_cons, List.mem_append]
      exact .inr (.inr (.inr (.inr (.inl hy2))))
    have hap2 : Apart srcs2 := by
      have : ((p.order cb).map (·.2)).Nodup := ((hord cb).map (·.2)).nodup_iff.2 hcbn
      refine List.pairwise_map.2 ((List.pairwise_map.1 this).imp ?_)
      intro a b hab e
      exact (hab e).elim
    obtain ⟨s6, r6, h6, hw6, hk6, hf6, hs6⟩ := build_spec p srcs2 [] s5.live s5 hw5 (by simp) hin2 hap2
    have hmv6 : ∀ i, IsMoved srcs2 i → i ∈ cb.map (·.2) := by
      rintro i ⟨x, hx, rfl, -⟩
      obtain ⟨y, hy, rfl⟩ := List.mem_map.1 hx
      exact List.mem_map_of_mem ((hord cb).mem_iff.1 hy)
    have hval6 : ∀ i ∈ s.live, s6.val i = s1.val i := by
      intro i hi
      rcases hk6 i (hp5.mem_iff.2 (by simp [hi])) with h | ⟨h, -⟩
      · rw [h]; exact hval5 i (hb1 i hi)
      · exact (hcbd i (hmv6 i h) hi).elim
    have h6' : build p s5 (List.map (fun x => (x.fst, { id := x.snd, move := true })) (p.order cb)) [] = .ok (s6, r6) := h6
    simp only [h6']
    cases r6 with
    | none =>
      obtain ⟨s', h2, h3⟩ := give s6 (nm2 :: state :: th :: nm :: cb.map (·.2)) hw6 ((hf6 rfl).trans hp5) hval6
      simp only [h2]
      exact ⟨s', none, rfl, fun _ => h3, fun _ h => by cases h⟩
    | some bd =>
      obtain ⟨hp6, hv6, hval7⟩ := hs6 bd rfl
      have hp7 : s6.live.Perm ((bd.map (·.2) ++ nm2 :: state :: th :: nm :: cb.map (·.2)) ++ s.live) := by
        refine hp6.trans ?_
        rw [List.append_assoc]
        exact List.Perm.append_left _ hp5
      simp only
      by_cases t7 : p.throws s6.clock = true
      · rw [if_pos t7]
        obtain ⟨s', h2, h3⟩ := give { s6 with clock := s6.clock + 1 } _ ⟨hw6.nodup, hw6.lt⟩ hp7 hval6
        simp only [h2]
        exact ⟨s', none, rfl, fun _ => h3, fun _ h => by cases h⟩
      · rw [if_neg t7]
        refine ⟨_, _, rfl, fun h => by (cases h), fun st hst => ?_⟩
        cases hst
        refine ⟨⟨hw6.nodup, hw6.lt⟩, ?_, ?_, ?_, ?_⟩
        · refine hp7.trans ?_
          simp only [List.append_assoc, List.cons_append, List.nil_append]
          refine List.Perm.trans (l₂ := bd.map (·.2) ++ (nm2 :: state :: nm :: (cb.map (·.2) ++ th :: s.live))) ?_ ?_
          · refine List.Perm.append_left _ (List.Perm.cons _ (List.Perm.cons _ ?_))
            exact (List.perm_middle (l₁ := nm :: cb.map (·.2))).symm
          · have h1 : (bd.map (·.2) ++ (nm2 :: state :: nm :: (cb.map (·.2) ++ th :: s.live))) =
                (bd.map (·.2) ++ [nm2, state]) ++ ((nm :: cb.map (·.2)) ++ th :: s.live) := by simp
            have h2 : (nm :: (cb.map (·.2) ++ (bd.map (·.2) ++ nm2 :: state :: th :: s.live))) =
                (nm :: cb.map (·.2)) ++ ((bd.map (·.2) ++ [nm2, state]) ++ th :: s.live) := by simp
            rw [h1, h2, ← List.append_assoc, ← List.append_assoc]
            exact List.Perm.append_right _ List.perm_append_comm
        · show s6.val nm2 = name
          have hnc : ¬ IsMoved srcs2 nm2 := by
            intro h
            refine hn5 (hb4 _ (hb3 _ (hb2 _ ?_)))
            exact hp1.mem_iff.2 (List.mem_append.2 (.inl (hmv6 _ h)))
          rw [hval7 nm2 (by rw [hl5]; simp), if_neg hnc]
          exact hname5
        · show (bd.map fun x => (x.1, s6.val x.2)).Perm _
          rw [hv6]
          simp only [List.map_nil, List.append_nil]
          refine (List.reverse_perm _).trans ?_
          have e1 : (srcs2.map fun x => (x.1, s5.val x.2.id)) = (p.order cb).map fun x => (x.1, s1.val x.2) := by
            simp only [srcs2, List.map_map]
            refine List.map_congr_left (fun y hy => ?_)
            show (y.1, s5.val y.2) = _
            rw [hval5]
            exact hp1.mem_iff.2 (List.mem_append.2 (.inl (List.mem_map_of_mem ((hord cb).mem_iff.1 hy))))
          rw [e1]
          refine ((hord cb).map _).trans ?_
          rw [hv1]
          exact List.reverse_perm _
        · intro i hi
          show s6.val i = _
          rw [hval6 i hi]
          exact hval1 i hi

/-- What the new thread still has to destroy. -/
def owned (st : Started) : Pc → List Nat
  | .ending rest => rest
  | _ => st.bound.map (·.2) ++ [st.name, st.state]

/-- What has been seen, by where the thread is. -/
def seen (st : Started) (v : Nat → α) : Pc → List (Event α)
  | .start => []
  | .named => [.name (v st.name)]
  | .ending _ => [.name (v st.name), .call (st.bound.map fun x => (x.1, v x.2))]

/-- What holds at every moment after the start. -/
structure Inv (st : Started) (v : Nat → α) (base : List Nat) (b : Both α) : Prop where
  wf : WF b.s
  same : b.st = st
  val : b.s.val = v
  live : b.s.live.Perm (b.todo ++ (owned st b.pc ++ st.thread :: base))
  trace : b.trace = seen st v b.pc

theorem lookAll_spec (s : St α) : ∀ l : List (Nat × Nat), (∀ x ∈ l, x.2 ∈ s.live) → lookAll s l = .ok (l.map fun x => (x.1, s.val x.2)) := by
  intro l
  induction l with
  | nil => intro _; rfl
  | cons x l ih =>
    obtain ⟨k, i⟩ := x
    intro h
    simp [lookAll, look, h (k, i) (by simp), ih (fun x hx => h x (by simp [hx])), bind, Except.bind]

theorem step_inv {st : Started} {v : Nat → α} {base : List Nat} {b : Both α} (h : Inv st v base b) (a : Actor) :
    ∃ b', step b a = .ok b' ∧ Inv st v base b' := by
  obtain ⟨s, st', todo, pc, trace⟩ := b
  obtain ⟨hw, rfl, rfl, hl, ht⟩ := h
  simp only at hw hl ht
  cases a with
  | caller =>
    cases todo with
    | nil => exact ⟨_, rfl, ⟨hw, rfl, rfl, hl, ht⟩⟩
    | cons i is =>
      have hi : i ∈ s.live := hl.mem_iff.2 (by simp)
      simp only [step, destroy, hi, if_true, bind, Except.bind]
      refine ⟨_, rfl, ⟨⟨hw.nodup.erase i, fun j hj => hw.lt j (List.mem_of_mem_erase hj)⟩, rfl, rfl, ?_, ht⟩⟩
      have := hl.erase i
      simpa using this
  | child =>
    cases pc with
    | start =>
      have hi : st'.name ∈ s.live := hl.mem_iff.2 (by simp [owned])
      simp only [step, look, hi, if_true, bind, Except.bind]
      refine ⟨_, rfl, ⟨hw, rfl, rfl, hl, ?_⟩⟩
      show trace ++ _ = _
      rw [ht]; rfl
    | named =>
      have hi : ∀ x ∈ st'.bound, x.2 ∈ s.live := fun x hx => hl.mem_iff.2 (by
        simp only [List.mem_append, owned]
        exact .inr (.inl (.inl (List.mem_map_of_mem hx))))
      simp only [step, lookAll_spec s _ hi, bind, Except.bind]
      refine ⟨_, rfl, ⟨hw, rfl, rfl, hl, ?_⟩⟩
      show trace ++ _ = _
      rw [ht]; rfl
    | ending rest =>
      cases rest with
      | nil => exact ⟨_, rfl, ⟨hw, rfl, rfl, hl, ht⟩⟩
      | cons i is =>
        have hi : i ∈ s.live := hl.mem_iff.2 (by simp [owned])
        simp only [step, destroy, hi, if_true, bind, Except.bind]
        refine ⟨_, rfl, ⟨⟨hw.nodup.erase i, fun j hj => hw.lt j (List.mem_of_mem_erase hj)⟩, rfl, rfl, ?_, ht⟩⟩
        have h1 : s.live.Perm (i :: (todo ++ (is ++ st'.thread :: base))) := hl.trans List.perm_middle
        have := h1.erase i
        simpa [owned] using this

theorem run_inv {st : Started} {v : Nat → α} {base : List Nat} : ∀ (as : List Actor) {b : Both α}, Inv st v base b →
    ∃ b', run b as = .ok b' ∧ Inv st v base b' := by
  intro as
  induction as with
  | nil => intro b h; exact ⟨b, rfl, h⟩
  | cons a as ih =>
    intro b h
    obtain ⟨b1, h1, h2⟩ := step_inv h a
    obtain ⟨b2, h3, h4⟩ := ih h2
    exact ⟨b2, by simp [run, h1, h3, bind, Except.bind], h4⟩

theorem run_append (as bs : List Actor) : ∀ (b : Both α), run b (as ++ bs) = (run b as).bind fun b => run b bs := by
  induction as with
  | nil => intro b; rfl
  | cons a as ih =>
    intro b
    simp only [List.cons_append, run, bind, Except.bind]
    cases step b a with
    | error e => rfl
    | ok b1 => exact ih b1

/-- How much the thread still has to do. -/
def left (b : Both α) : Nat := match b.pc with
  | .start => b.st.bound.length + 4
  | .named => b.st.bound.length + 3
  | .ending rest => rest.length

theorem child_done {st : Started} {v : Nat → α} {base : List Nat} : ∀ (n : Nat) {b : Both α}, Inv st v base b → left b = n → b.todo = [] →
    ∃ b', run b (List.replicate n .child) = .ok b' ∧ b'.done := by
  intro n
  induction n with
  | zero =>
    intro b h hl ht
    refine ⟨b, rfl, ht, ?_⟩
    unfold left at hl
    cases hp : b.pc with
    | start => rw [hp] at hl; simp at hl
    | named => rw [hp] at hl; simp at hl
    | ending rest =>
      rw [hp] at hl
      cases rest with
      | nil => rfl
      | cons _ _ => simp at hl
  | succ n ih =>
    intro b h hl ht
    obtain ⟨b1, h1, h2⟩ := step_inv h .child
    have : left b1 = n ∧ b1.todo = [] := by
      obtain ⟨s, st', todo, pc, trace⟩ := b
      simp only at ht
      subst ht
      cases pc with
      | start =>
        simp only [step, bind, Except.bind] at h1
        split at h1
        · cases h1
        · cases h1
          simp only [left] at hl ⊢
          exact ⟨by omega, trivial⟩
      | named =>
        simp only [step, bind, Except.bind] at h1
        split at h1
        · cases h1
        · cases h1
          simp only [left] at hl ⊢
          exact ⟨by simp; omega, trivial⟩
      | ending rest =>
        cases rest with
        | nil => simp [left] at hl
        | cons i is =>
          simp only [step, bind, Except.bind] at h1
          split at h1
          · cases h1
          · cases h1
            simp only [left, List.length_cons] at hl ⊢
            exact ⟨by omega, trivial⟩
    obtain ⟨b2, h3, h4⟩ := ih h2 this.1 this.2
    exact ⟨b2, by simp [List.replicate_succ, run, h1, h3, bind, Except.bind], h4⟩

theorem caller_done {st : Started} {v : Nat → α} {base : List Nat} : ∀ (n : Nat) {b : Both α}, Inv st v base b → b.todo.length = n →
    ∃ b', run b (List.replicate n .caller) = .ok b' ∧ b'.todo = [] := by
  intro n
  induction n with
  | zero => intro b h hl; exact ⟨b, rfl, List.length_eq_zero_iff.1 hl⟩
  | succ n ih =>
    intro b h hl
    obtain ⟨b1, h1, h2⟩ := step_inv h .caller
    have : b1.todo.length = n := by
      obtain ⟨s, st', todo, pc, trace⟩ := b
      cases todo with
      | nil => simp at hl
      | cons i is =>
        simp only [step, bind, Except.bind] at h1
        split at h1
        · cases h1
        · cases h1
          simpa using hl
    obtain ⟨b2, h3, h4⟩ := ih h2 this
    exact ⟨b2, by simp [List.replicate_succ, run, h1, h3, bind, Except.bind], h4⟩

end Verif.Thread.Life
