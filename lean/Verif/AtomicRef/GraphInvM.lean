import Verif.AtomicRef.GraphInvO
/-!
# The invariant is preserved: destructors and members
-/
namespace Verif.AtomicRef.Graph
open Verif

set_option linter.unusedSimpArgs false
set_option linter.unusedSectionVars false

variable {T F : Type} [DecidableEq T] [DecidableEq F]

theorem mem_dtor_filter {st : List (Frame F)} {a : Word} {fs : List F} :
    Frame.dtor a fs ∈ st ↔ Frame.dtor a fs ∈ st.filter Frame.isDtor := by
  simp [List.mem_filter, Frame.isDtor]

theorem countP_dtor_filter (st : List (Frame F)) (a : Word) :
    st.countP (Frame.isDtorOf a) = (st.filter Frame.isDtor).countP (Frame.isDtorOf a) := by
  rw [List.countP_filter]
  congr 1
  funext f
  cases f <;> simp [Frame.isDtorOf, Frame.isDtor]

/-- A step that changes no destructor, no object and no `AtomicRef`'s existence. -/
theorem invM_same {s s' : State T F} (hi : Inv s) (t : T) (st : List (Frame F))
    (hstack : ∀ u, s'.stack u = if u = t then st else s.stack u)
    (hlife : s'.life = s.life) (hfields : s'.fields = s.fields) (hsome : ∀ a f, s'.made (some a, f) = s.made (some a, f))
    (hun : ∀ k, s'.made k = false → s'.word k = 0)
    (hst : st.filter Frame.isDtor = (s.stack t).filter Frame.isDtor) (hsh : ∀ f ∈ st.tail, f.isDtor = true) : InvM s' := by
  have hf : ∀ u, (s'.stack u).filter Frame.isDtor = (s.stack u).filter Frame.isDtor := by
    intro u; rw [hstack]; split
    · rename_i h; rw [hst, h]
    · rfl
  have hmem : ∀ u a fs, Frame.dtor a fs ∈ s'.stack u ↔ Frame.dtor a fs ∈ s.stack u := by
    intro u a fs; rw [mem_dtor_filter, hf, ← mem_dtor_filter]
  refine ⟨?_, ?_, ?_, ?_, ?_, ?_, hun, ?_⟩
  · intro u a fs h
    rw [hmem] at h
    have := hi.m.dtor u a fs h
    rw [hlife]
    exact ⟨this.1, this.2.1, fun f => by rw [hsome]; exact this.2.2 f⟩
  · intro u w a fs gs h1 h2
    rw [hmem] at h1 h2
    exact hi.m.dtoru u w a fs gs h1 h2
  · intro u a
    rw [countP_dtor_filter, hf, ← countP_dtor_filter]
    exact hi.m.dtor1 u a
  · intro a h
    rw [hlife] at h
    obtain ⟨u, fs, hu⟩ := hi.m.dying a h
    exact ⟨u, fs, (hmem u a fs).2 hu⟩
  · intro a h
    rw [hlife] at h
    have := hi.m.live a h
    rw [hfields]
    exact ⟨this.1, fun f => by rw [hsome]; exact this.2 f⟩
  · intro a f h
    rw [hlife] at h
    rw [hsome]; exact hi.m.free a f h
  · intro u f h
    rw [hstack] at h
    split at h
    · exact hsh f h
    · exact hi.m.shape u f h

theorem filter_rest {f g : Frame F} {r : List (Frame F)} (hf : f.isDtor = false) (hg : g.isDtor = false) :
    (g :: r).filter Frame.isDtor = (f :: r).filter Frame.isDtor := by simp [hf, hg]

theorem filter_pop {f : Frame F} {r : List (Frame F)} (hf : f.isDtor = false) :
    r.filter Frame.isDtor = (f :: r).filter Frame.isDtor := by simp [hf]

theorem shape_pop {s : State T F} (hi : Inv s) {t : T} {f : Frame F} {r : List (Frame F)} (hs : s.stack t = f :: r) :
    ∀ g ∈ r.tail, g.isDtor = true := fun g hg => shape_rest hi hs g (List.mem_of_mem_tail hg)

theorem isDtorOf_of_mem {st : List (Frame F)} {a : Word} {fs : List F} (h : Frame.dtor a fs ∈ st) :
    0 < st.countP (Frame.isDtorOf a) := List.countP_pos_iff.2 ⟨_, h, by simp [Frame.isDtorOf]⟩

theorem mem_of_isDtorOf {st : List (Frame F)} {a : Word} (h : 0 < st.countP (Frame.isDtorOf a)) :
    ∃ fs, Frame.dtor a fs ∈ st := by
  obtain ⟨f, hf, he⟩ := List.countP_pos_iff.1 h
  cases f <;> simp only [Frame.isDtorOf, decide_eq_true_eq, Bool.false_eq_true] at he
  rename_i b fs
  subst he
  exact ⟨fs, hf⟩

/-- The destructor on top is the only one of its object. -/
theorem top_dtor_rest {s : State T F} (hi : Inv s) {t : T} {a : Word} {fs : List F} {r : List (Frame F)}
    (hs : s.stack t = .dtor a fs :: r) : ∀ gs, Frame.dtor a gs ∉ r := by
  intro gs h
  have h1 := hi.m.dtor1 t a
  have h2 := isDtorOf_of_mem h
  rw [hs, List.countP_cons] at h1
  simp [Frame.isDtorOf] at h1
  have h1 := h1 _ h
  simp [Frame.isDtorOf] at h1

theorem invM_killField {s : State T F} (hi : Inv s) {t : T} {a : Word} {f : F} {fs : List F} {r : List (Frame F)}
    (hs : s.stack t = .dtor a (f :: fs) :: r) : InvM (killed s t (some a, f) (.dtor a fs :: r)) := by
  have hmem : Frame.dtor a (f :: fs) ∈ s.stack t := by rw [hs]; exact List.mem_cons_self
  have hd := hi.m.dtor t a _ hmem
  have hnd := List.nodup_cons.1 hd.2.1
  have hst : ∀ u, (killed s t (some a, f) (.dtor a fs :: r)).stack u =
      if u = t then (if s.word (some a, f) = 0 then .dtor a fs :: r else .rel (s.word (some a, f)) :: .dtor a fs :: r) else s.stack u := by
    intro u; unfold killed; split <;> rfl
  have hw : ∀ k', (killed s t (some a, f) (.dtor a fs :: r)).word k' = if k' = (some a, f) then 0 else s.word k' := by
    intro k'; unfold killed; split <;> rfl
  have hm : ∀ k', (killed s t (some a, f) (.dtor a fs :: r)).made k' = if k' = (some a, f) then false else s.made k' := by
    intro k'; unfold killed; split <;> rfl
  have hl : (killed s t (some a, f) (.dtor a fs :: r)).life = s.life := by unfold killed; split <;> rfl
  have hfl : (killed s t (some a, f) (.dtor a fs :: r)).fields = s.fields := by unfold killed; split <;> rfl
  have hfil : ∀ u, ((killed s t (some a, f) (.dtor a fs :: r)).stack u).filter Frame.isDtor =
      if u = t then .dtor a fs :: r.filter Frame.isDtor else (s.stack u).filter Frame.isDtor := by
    intro u; rw [hst]
    by_cases hu : u = t
    · rw [if_pos hu, if_pos hu]; split
      · exact List.filter_cons_of_pos rfl
      · rw [List.filter_cons_of_neg (by simp [Frame.isDtor])]; exact List.filter_cons_of_pos rfl
    · rw [if_neg hu, if_neg hu]
  have hin : ∀ u b gs, Frame.dtor b gs ∈ (killed s t (some a, f) (.dtor a fs :: r)).stack u →
      (u = t ∧ b = a ∧ gs = fs) ∨ (b ≠ a ∧ Frame.dtor b gs ∈ s.stack u) := by
    intro u b gs h
    rw [mem_dtor_filter, hfil] at h
    by_cases hu : u = t
    · rw [if_pos hu] at h
      rcases List.mem_cons.1 h with h | h
      · injection h with h1 h2; exact .inl ⟨hu, h1, h2⟩
      · have hr := (List.mem_filter.1 h).1
        refine .inr ⟨?_, by rw [hu, hs]; exact List.mem_cons_of_mem _ hr⟩
        rintro rfl
        exact top_dtor_rest hi hs gs hr
    · rw [if_neg hu, ← mem_dtor_filter] at h
      refine .inr ⟨?_, h⟩
      rintro rfl
      exact hu (hi.m.dtoru u t _ _ _ h hmem)
  generalize killed s t (some a, f) (.dtor a fs :: r) = s' at *
  refine ⟨?_, ?_, ?_, ?_, ?_, ?_, ?_, ?_⟩
  · intro u b gs h
    rw [hl]
    rcases hin u b gs h with ⟨rfl, rfl, rfl⟩ | ⟨hb, h⟩
    · refine ⟨hd.1, hnd.2, fun g => ?_⟩
      rw [hm]
      have := hd.2.2 g
      by_cases hg : g = f
      · subst hg; simp [hnd.1]
      · rw [if_neg (by intro e; injection e with _ e; exact hg e), this]; simp [hg]
    · have := hi.m.dtor u b gs h
      refine ⟨this.1, this.2.1, fun g => ?_⟩
      rw [hm, if_neg (by intro e; injection e with e _; injection e with e; exact hb e)]
      exact this.2.2 g
  · intro u w b gs hs' h1 h2
    rcases hin u b gs h1 with ⟨rfl, rfl, rfl⟩ | ⟨hb, h1⟩
    · rcases hin w _ _ h2 with ⟨rfl, -, -⟩ | ⟨hb, -⟩
      · rfl
      · exact (hb rfl).elim
    · rcases hin w _ _ h2 with ⟨-, rfl, -⟩ | ⟨-, h2⟩
      · exact (hb rfl).elim
      · exact hi.m.dtoru u w b _ _ h1 h2
  · intro u b
    have := hi.m.dtor1 u b
    rw [countP_dtor_filter, hfil]
    by_cases hu : u = t
    · subst hu
      rw [if_pos rfl, List.countP_cons, ← countP_dtor_filter]
      rw [hs, List.countP_cons] at this
      exact this
    · rw [if_neg hu, ← countP_dtor_filter]; exact this
  · intro b h
    rw [hl] at h
    obtain ⟨u, gs, hu⟩ := hi.m.dying b h
    by_cases hb : b = a
    · subst hb
      refine ⟨t, fs, ?_⟩
      rw [mem_dtor_filter, hfil, if_pos rfl]
      exact List.mem_cons_self
    · refine ⟨u, gs, ?_⟩
      rw [mem_dtor_filter, hfil]
      by_cases h' : u = t
      · subst h'
        rw [if_pos rfl]
        rw [hs] at hu
        rcases List.mem_cons.1 hu with hu | hu
        · injection hu with e _; exact (hb e).elim
        · exact List.mem_cons_of_mem _ (mem_dtor_filter.1 hu)
      · rw [if_neg h', ← mem_dtor_filter]; exact hu
  · intro b h
    rw [hl] at h
    have hb : b ≠ a := by rintro rfl; rw [hd.1] at h; cases h
    have := hi.m.live b h
    rw [hfl]
    refine ⟨this.1, fun g => ?_⟩
    rw [hm, if_neg (by intro e; injection e with e _; injection e with e; exact hb e)]
    exact this.2 g
  · intro b g h
    rw [hl] at h
    rw [hm]
    split
    · rfl
    · exact hi.m.free b g h
  · intro k h
    rw [hm] at h
    rw [hw]
    split
    · rfl
    · rename_i hk
      rw [if_neg hk] at h
      exact hi.m.unmade k h
  · intro u g h
    rw [hst] at h
    by_cases hu : u = t
    · rw [if_pos hu] at h
      split at h
      · exact shape_rest hi hs g h
      · rcases List.mem_cons.1 h with h | h
        · subst h; rfl
        · exact shape_rest hi hs g h
    · rw [if_neg hu] at h; exact hi.m.shape u g h

theorem invM_trans {s s' : State T F} (hi : Inv s) (h : Trans s s') : InvM s' := by
  cases h with
  | same => exact hi.m
  | @quiet t f g r hs hq =>
    refine invM_same hi t (g :: r) (fun u => rfl) rfl rfl (fun _ _ => rfl) hi.m.unmade ?_ (shape_rest hi hs)
    rw [hs]; cases hq <;> exact filter_rest rfl rfl
  | @begin t f hs hb =>
    refine invM_same hi t [f] (fun u => rfl) rfl rfl (fun _ _ => rfl) hi.m.unmade ?_ (by simp)
    rw [hs]; cases hb <;> rfl
  | @lock t k j old r hs hw =>
    have ho := hi.l.ok t
    rw [hs] at ho
    refine invM_same hi t (.add k j old :: r) (fun u => rfl) rfl rfl (fun _ _ => rfl) ?_ ?_ (shape_rest hi hs)
    · intro k' h
      show (if k' = k then _ else _) = _
      rw [if_neg (by rintro rfl; exact absurd ho.1 (by rw [show s.made k' = false from h]; simp))]
      exact hi.m.unmade k' h
    · rw [hs]; exact filter_rest rfl rfl
  | @add t k j v r hs h0 =>
    refine invM_same hi t (.chk1 k j v :: r) (fun u => rfl) rfl rfl (fun _ _ => rfl) hi.m.unmade ?_ (shape_rest hi hs)
    rw [hs]; exact filter_rest rfl rfl
  | @incr t a hs hm =>
    exact invM_same hi t (s.stack t) (fun u => ite_self_stack (s := s) u) rfl rfl (fun _ _ => rfl) hi.m.unmade rfl (hi.m.shape t)
  | @got t k v r hs =>
    have ho := hi.l.ok t
    rw [hs] at ho
    refine invM_same hi t r (fun u => rfl) rfl rfl (fun _ _ => rfl) ?_ ?_ (shape_pop hi hs)
    · intro k' h
      show (if k' = k then _ else _) = _
      rw [if_neg (by rintro rfl; exact absurd ho.1 (by rw [show s.made k' = false from h]; simp))]
      exact hi.m.unmade k' h
    · rw [hs]; exact filter_pop rfl
  | @put t k n v r hs =>
    have ho := hi.l.ok t
    rw [hs] at ho
    refine invM_same hi t (if v = 0 then r else .rel v :: r) (fun u => rfl) rfl rfl (fun _ _ => rfl) ?_ ?_ ?_
    · intro k' h
      show (if k' = k then _ else _) = _
      rw [if_neg (by rintro rfl; exact absurd ho.1 (by rw [show s.made k' = false from h]; simp))]
      exact hi.m.unmade k' h
    · rw [hs]; split
      · exact filter_pop rfl
      · exact filter_rest rfl rfl
    · split
      · exact shape_pop hi hs
      · exact shape_rest hi hs
  | @rel t a r hs =>
    refine invM_same hi t (if s.cnt a = 1 then .relCheck a :: r else r) (fun u => rfl) rfl rfl (fun _ _ => rfl) hi.m.unmade ?_ ?_
    · rw [hs]; split
      · exact filter_rest rfl rfl
      · exact filter_pop rfl
    · split
      · exact shape_rest hi hs
      · exact shape_pop hi hs
  | @del t a r hs =>
    have hla := (hi.o.del t a (by rw [hs]; rfl)).1
    have hno : ∀ u gs, Frame.dtor a gs ∉ s.stack u := by
      intro u gs h
      rw [(hi.m.dtor u a gs h).1] at hla; cases hla
    have hin : ∀ u b gs, Frame.dtor b gs ∈ (if u = t then .dtor a (s.fields a).reverse :: r else s.stack u) →
        (u = t ∧ b = a ∧ gs = (s.fields a).reverse) ∨ (b ≠ a ∧ Frame.dtor b gs ∈ s.stack u) := by
      intro u b gs h
      by_cases hu : u = t
      · rw [if_pos hu] at h
        rcases List.mem_cons.1 h with h | h
        · injection h with h1 h2; exact .inl ⟨hu, h1, h2⟩
        · have : Frame.dtor b gs ∈ s.stack u := by rw [hu, hs]; exact List.mem_cons_of_mem _ h
          exact .inr ⟨by rintro rfl; exact hno u gs this, this⟩
      · rw [if_neg hu] at h
        exact .inr ⟨by rintro rfl; exact hno u gs h, h⟩
    have hlive := hi.m.live a hla
    refine ⟨?_, ?_, ?_, ?_, ?_, ?_, hi.m.unmade, ?_⟩
    · intro u b gs h
      show (if b = a then _ else _) = _ ∧ _
      rcases hin u b gs h with ⟨-, rfl, rfl⟩ | ⟨hb, h⟩
      · refine ⟨if_pos rfl, List.pairwise_reverse.2 (hlive.1.imp Ne.symm), fun f => ?_⟩
        rw [List.mem_reverse]; exact hlive.2 f
      · rw [if_neg hb]; exact hi.m.dtor u b gs h
    · intro u w b gs hs' h1 h2
      rcases hin u b gs h1 with ⟨rfl, rfl, rfl⟩ | ⟨hb, h1⟩
      · rcases hin w _ _ h2 with ⟨rfl, -, -⟩ | ⟨hb, -⟩
        · rfl
        · exact (hb rfl).elim
      · rcases hin w _ _ h2 with ⟨-, rfl, -⟩ | ⟨-, h2⟩
        · exact (hb rfl).elim
        · exact hi.m.dtoru u w b _ _ h1 h2
    · intro u b
      show (if u = t then (Frame.dtor a (s.fields a).reverse :: r) else s.stack u).countP _ ≤ 1
      have := hi.m.dtor1 u b
      by_cases hu : u = t
      · subst hu
        rw [if_pos rfl, List.countP_cons]
        rw [hs, List.countP_cons] at this
        by_cases hb : b = a
        · subst hb
          have : r.countP (Frame.isDtorOf b) = 0 := by
            rcases Nat.eq_zero_or_pos (r.countP (Frame.isDtorOf b)) with h | h
            · exact h
            · obtain ⟨gs, hg⟩ := mem_of_isDtorOf h
              exact (hno u gs (by rw [hs]; exact List.mem_cons_of_mem _ hg)).elim
          rw [this]; split <;> omega
        · simp only [Frame.isDtorOf, decide_eq_true_eq, Ne.symm hb, if_false] at this ⊢
          omega
      · rw [if_neg hu]; exact this
    · intro b h
      have h : (if b = a then Life.dying else s.life b) = .dying := h
      by_cases hb : b = a
      · subst hb
        refine ⟨t, (s.fields b).reverse, ?_⟩
        show _ ∈ (if t = t then _ else _)
        rw [if_pos rfl]; exact List.mem_cons_self
      · rw [if_neg hb] at h
        obtain ⟨u, gs, hu⟩ := hi.m.dying b h
        refine ⟨u, gs, ?_⟩
        show _ ∈ (if u = t then _ else _)
        by_cases h' : u = t
        · rw [if_pos h']
          rw [h', hs] at hu
          rcases List.mem_cons.1 hu with hu | hu
          · cases hu
          · exact List.mem_cons_of_mem _ hu
        · rw [if_neg h']; exact hu
    · intro b h
      have h : (if b = a then Life.dying else s.life b) = .live := h
      split at h
      · cases h
      · exact hi.m.live b h
    · intro b f h
      have h : (if b = a then Life.dying else s.life b) = .free := h
      split at h
      · cases h
      · exact hi.m.free b f h
    · intro u f h
      have h : f ∈ (if u = t then (Frame.dtor a (s.fields a).reverse :: r) else s.stack u).tail := h
      by_cases hu : u = t
      · rw [if_pos hu] at h; exact shape_rest hi hs f h
      · rw [if_neg hu] at h; exact hi.m.shape u f h
  | @free t a r hs =>
    have hmem : Frame.dtor a [] ∈ s.stack t := by rw [hs]; exact List.mem_cons_self
    have hd := hi.m.dtor t a [] hmem
    have hin : ∀ u b gs, Frame.dtor b gs ∈ (if u = t then r else s.stack u) → b ≠ a ∧ Frame.dtor b gs ∈ s.stack u := by
      intro u b gs h
      by_cases hu : u = t
      · rw [if_pos hu] at h
        refine ⟨?_, by rw [hu, hs]; exact List.mem_cons_of_mem _ h⟩
        rintro rfl; exact top_dtor_rest hi hs gs h
      · rw [if_neg hu] at h
        refine ⟨?_, h⟩
        rintro rfl; exact hu (hi.m.dtoru u t _ _ _ h hmem)
    refine ⟨?_, ?_, ?_, ?_, ?_, ?_, hi.m.unmade, ?_⟩
    · intro u b gs h
      obtain ⟨hb, h⟩ := hin u b gs h
      show (if b = a then _ else _) = _ ∧ _
      rw [if_neg hb]; exact hi.m.dtor u b gs h
    · intro u w b gs hs' h1 h2
      exact hi.m.dtoru u w b _ _ (hin u b _ h1).2 (hin w b _ h2).2
    · intro u b
      have := hi.m.dtor1 u b
      show (if u = t then r else s.stack u).countP _ ≤ 1
      by_cases hu : u = t
      · rw [if_pos hu]; rw [hu, hs, List.countP_cons] at this; omega
      · rw [if_neg hu]; exact this
    · intro b h
      have h : (if b = a then Life.free else s.life b) = .dying := h
      split at h
      · cases h
      · rename_i hb
        obtain ⟨u, gs, hu⟩ := hi.m.dying b h
        refine ⟨u, gs, ?_⟩
        show _ ∈ (if u = t then _ else _)
        by_cases h' : u = t
        · rw [if_pos h']
          rw [h', hs] at hu
          rcases List.mem_cons.1 hu with hu | hu
          · injection hu with e _; exact (hb e).elim
          · exact hu
        · rw [if_neg h']; exact hu
    · intro b h
      have h : (if b = a then Life.free else s.life b) = .live := h
      split at h
      · cases h
      · exact hi.m.live b h
    · intro b f h
      have h : (if b = a then Life.free else s.life b) = .free := h
      by_cases hb : b = a
      · subst hb
        have := hd.2.2 f
        show s.made (some b, f) = false
        cases hc : s.made (some b, f) with
        | false => rfl
        | true => exact (List.not_mem_nil (this.1 hc)).elim
      · rw [if_neg hb] at h; exact hi.m.free b f h
    · intro u f h
      have h : f ∈ (if u = t then r else s.stack u).tail := h
      by_cases hu : u = t
      · rw [if_pos hu] at h; exact shape_pop hi hs f h
      · rw [if_neg hu] at h; exact hi.m.shape u f h
  | @killFree t f hs hm hu =>
    have hst : ∀ u, (killed s t (none, f) []).stack u =
        if u = t then (if s.word (none, f) = 0 then [] else [.rel (s.word (none, f))]) else s.stack u := by
      intro u; unfold killed; split <;> rfl
    have hw : ∀ k', (killed s t (none, f) []).word k' = if k' = (none, f) then 0 else s.word k' := by
      intro k'; unfold killed; split <;> rfl
    have hm : ∀ k', (killed s t (none, f) []).made k' = if k' = (none, f) then false else s.made k' := by
      intro k'; unfold killed; split <;> rfl
    refine invM_same hi t _ hst ?_ ?_ ?_ ?_ ?_ ?_
    · unfold killed; split <;> rfl
    · unfold killed; split <;> rfl
    · intro a g; rw [hm, if_neg (by intro e; cases e)]
    · intro k h
      rw [hw]
      split
      · rfl
      · rename_i hk; rw [hm, if_neg hk] at h; exact hi.m.unmade k h
    · rw [hs]; split <;> rfl
    · split <;> simp
  | @killField t a f fs r hs => exact invM_killField hi hs
  | @make0 t f hs hm =>
    refine invM_same hi t (s.stack t) (fun u => ite_self_stack (s := s) u) rfl rfl ?_ ?_ rfl (hi.m.shape t)
    · intro a g
      have e : ((some a, g) : Key F) ≠ (none, f) := by intro e; cases e
      exact (if_neg e : (if ((some a, g) : Key F) = (none, f) then true else s.made (some a, g)) = _)
    · intro k h
      have h : (if k = (none, f) then true else s.made k) = false := h
      show (if k = (none, f) then 0 else s.word k) = 0
      split at h
      · cases h
      · rename_i hk; rw [if_neg hk]; exact hi.m.unmade k h
  | @makeN t f n hs hm hn =>
    refine invM_same hi t (s.stack t) (fun u => ite_self_stack (s := s) u) rfl rfl ?_ ?_ rfl (hi.m.shape t)
    · intro a g
      have e : ((some a, g) : Key F) ≠ (none, f) := by intro e; cases e
      exact (if_neg e : (if ((some a, g) : Key F) = (none, f) then true else s.made (some a, g)) = _)
    · intro k h
      have h : (if k = (none, f) then true else s.made k) = false := h
      show (if k = (none, f) then n else s.word k) = 0
      split at h
      · cases h
      · rename_i hk; rw [if_neg hk]; exact hi.m.unmade k h
  | @send t u a hs hm =>
    exact invM_same hi t (s.stack t) (fun u => ite_self_stack (s := s) u) rfl rfl (fun _ _ => rfl) hi.m.unmade rfl (hi.m.shape t)
  | @create t a fs hs hl h0 h7 hnd =>
    refine ⟨?_, hi.m.dtoru, hi.m.dtor1, ?_, ?_, ?_, ?_, hi.m.shape⟩
    · intro u b gs h
      have := hi.m.dtor u b gs h
      have hb : b ≠ a := by rintro rfl; rw [this.1] at hl; cases hl
      refine ⟨?_, this.2.1, fun g => ?_⟩
      · show (if b = a then _ else _) = _
        rw [if_neg hb]; exact this.1
      · show (if some b = some a then _ else _) = true ↔ _
        rw [if_neg (by intro e; injection e with e; exact hb e)]
        exact this.2.2 g
    · intro b h
      have h : (if b = a then Life.live else s.life b) = .dying := h
      split at h
      · cases h
      · exact hi.m.dying b h
    · intro b h
      have h : (if b = a then Life.live else s.life b) = .live := h
      show (if b = a then fs else s.fields b).Nodup ∧ ∀ g, (if some b = some a then decide (g ∈ fs) else s.made (some b, g)) = true ↔ g ∈ (if b = a then fs else s.fields b)
      by_cases hb : b = a
      · subst hb; simp [hnd]
      · rw [if_neg hb] at h
        have := hi.m.live b h
        rw [if_neg hb]
        refine ⟨this.1, fun g => ?_⟩
        rw [if_neg (by intro e; injection e with e; exact hb e)]
        exact this.2 g
    · intro b g h
      have h : (if b = a then Life.live else s.life b) = .free := h
      split at h
      · cases h
      · rename_i hb
        show (if some b = some a then _ else _) = _
        rw [if_neg (by intro e; injection e with e; exact hb e)]
        exact hi.m.free b g h
    · rintro ⟨k1, k2⟩ h
      have h : (if k1 = some a then decide (k2 ∈ fs) else s.made (k1, k2)) = false := h
      show s.word (k1, k2) = 0
      split at h
      · rename_i he; subst he
        exact hi.m.unmade _ (hi.m.free a k2 hl)
      · exact hi.m.unmade _ h

end Verif.AtomicRef.Graph
