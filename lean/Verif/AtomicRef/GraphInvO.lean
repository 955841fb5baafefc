import Verif.AtomicRef.GraphInv
/-!
# The invariant is preserved: objects and counts
-/
namespace Verif.AtomicRef.Graph
open Verif

set_option linter.unusedSimpArgs false
set_option linter.unusedSectionVars false

variable {T F : Type} [DecidableEq T] [DecidableEq F]

theorem rest_del {s : State T F} (hi : Inv s) {t : T} {f : Frame F} {r : List (Frame F)} (hs : s.stack t = f :: r) : topDel r = none := by
  have hsh := shape_rest hi hs
  cases r with
  | nil => rfl
  | cons g r =>
    have := hsh g List.mem_cons_self
    cases g <;> simp only [Frame.isDtor, Bool.false_eq_true] at this
    rfl

/-- A step that changes no object and moves references without changing how many each object has. -/
theorem invO_same {s s' : State T F} (hi : Inv s) (t : T) (st : List (Frame F))
    (hstack : ∀ u, s'.stack u = if u = t then st else s.stack u)
    (hlife : s'.life = s.life) (hcnt : s'.cnt = s.cnt) (hrefs : ∀ b, refs s' b = refs s b)
    (hdel : topDel st = topDel (s.stack t)) : InvO s' := by
  have hd : ∀ u, topDel (s'.stack u) = topDel (s.stack u) := by
    intro u; rw [hstack]; split
    · rename_i h; rw [hdel, h]
    · rfl
  refine ⟨?_, ?_, ?_, ?_, ?_⟩
  · intro o b h
    have hp : 0 < refs s b := by rw [← hrefs]; exact refs_pos h
    obtain ⟨x, hx, he⟩ := List.countP_pos_iff.1 hp
    simp only [decide_eq_true_eq] at he
    subst he
    rw [hlife]; exact hi.o.tok x.1 x.2 hx
  · intro b h; rw [hlife] at h; rw [hcnt, hrefs]; exact hi.o.cnt b h
  · intro b h h0
    rw [hlife] at h; rw [hrefs] at h0
    obtain ⟨u, hu⟩ := hi.o.zero b h h0
    exact ⟨u, by rw [hd]; exact hu⟩
  · intro u b h; rw [hd] at h; rw [hlife, hrefs]; exact hi.o.del u b h
  · intro u w b h1 h2; rw [hd] at h1 h2; exact hi.o.delu u w b h1 h2

/-- One more reference to an object that has one. -/
theorem invO_incr {s s' : State T F} (hi : Inv s) (t : T) (st : List (Frame F)) {o : Owner T F} {a : Word}
    (hstack : ∀ u, s'.stack u = if u = t then st else s.stack u)
    (hlife : s'.life = s.life) (hcnt : ∀ b, s'.cnt b = if b = a then s.cnt a + 1 else s.cnt b)
    (htok : s'.tok = (o, a) :: s.tok) (ha : ∃ o', (o', a) ∈ s.tok)
    (hdel : topDel st = topDel (s.stack t)) : InvO s' := by
  have hd : ∀ u, topDel (s'.stack u) = topDel (s.stack u) := by
    intro u; rw [hstack]; split
    · rename_i h; rw [hdel, h]
    · rfl
  obtain ⟨o', ha⟩ := ha
  have hpos : 0 < refs s a := refs_pos ha
  have hrefs : ∀ b, refs s' b = refs s b + if a = b then 1 else 0 := by
    intro b; unfold refs; rw [htok, refs_push']
  refine ⟨?_, ?_, ?_, ?_, ?_⟩
  · intro o b h
    rw [htok] at h
    rw [hlife]
    rcases List.mem_cons.1 h with h | h
    · injection h with _ h; subst h; exact hi.o.tok _ _ ha
    · exact hi.o.tok o b h
  · intro b h
    rw [hlife] at h
    have := hi.o.cnt b h
    rw [hcnt, hrefs]
    by_cases hb : b = a
    · subst hb; simp [this]
    · simp [hb, Ne.symm hb, this]
  · intro b h h0
    rw [hlife] at h; rw [hrefs] at h0
    obtain ⟨u, hu⟩ := hi.o.zero b h (by omega)
    exact ⟨u, by rw [hd]; exact hu⟩
  · intro u b h
    rw [hd] at h
    have := hi.o.del u b h
    rw [hlife, hrefs, if_neg (by rintro rfl; omega)]
    exact ⟨this.1, this.2⟩
  · intro u w b h1 h2; rw [hd] at h1 h2; exact hi.o.delu u w b h1 h2

theorem invO_killed {s : State T F} (hi : Inv s) {t : T} {k : Key F} {rest : List (Frame F)}
    (hw : untagged (s.word k) = s.word k) (hold : topDel (s.stack t) = none) (hr : topDel rest = none) :
    InvO (killed s t k rest) := by
  have hst : ∀ u, (killed s t k rest).stack u = if u = t then (if s.word k = 0 then rest else .rel (s.word k) :: rest) else s.stack u := by
    intro u; unfold killed; split <;> rfl
  refine invO_same hi t _ hst ?_ ?_ ?_ ?_
  · unfold killed; split <;> rfl
  · unfold killed; split <;> rfl
  · intro b
    unfold killed; split
    · rfl
    · rename_i h
      exact refs_move (mem_of_word hi h hw) b
  · rw [hold]; split
    · exact hr
    · rfl

theorem invO_trans {s s' : State T F} (hi : Inv s) (h : Trans s s') : InvO s' := by
  cases h with
  | same => exact hi.o
  | @quiet t f g r hs hq =>
    refine invO_same hi t (g :: r) (fun u => rfl) rfl rfl (fun _ => rfl) ?_
    rw [hs]; cases hq <;> rfl
  | @begin t f hs hb =>
    refine invO_same hi t [f] (fun u => rfl) rfl rfl (fun _ => rfl) ?_
    rw [hs]; cases hb <;> rfl
  | @lock t k j old r hs hw =>
    refine invO_same hi t (.add k j old :: r) (fun u => rfl) rfl rfl (fun _ => rfl) ?_
    rw [hs]; rfl
  | @add t k j v r hs h0 =>
    refine invO_incr hi t (.chk1 k j v :: r) (fun u => rfl) rfl (fun _ => rfl) rfl (newval_mem hi hs h0) ?_
    rw [hs]; rfl
  | @incr t a hs hm =>
    exact invO_incr hi t (s.stack t) (fun u => ite_self_stack (s := s) u) rfl (fun _ => rfl) rfl ⟨_, hm⟩ rfl
  | @got t k v r hs =>
    refine invO_same hi t r (fun u => rfl) rfl rfl (fun _ => rfl) ?_
    rw [hs, (rest_crit hi hs k).2.2.2.1]; rfl
  | @put t k n v r hs =>
    have ho := hi.l.ok t
    rw [hs] at ho
    refine invO_same hi t (if v = 0 then r else .rel v :: r) (fun u => rfl) rfl rfl ?_ ?_
    · intro b
      have h1 : ∀ b, (if n = 0 then s.tok else move s.tok (.thread t) (.ref k) n).countP (fun p => decide (p.2 = b))
          = s.tok.countP (fun p => decide (p.2 = b)) := by
        intro b; split
        · rfl
        · rename_i h
          refine refs_move (mem_of_need hi ?_) b
          rw [hs]
          show 0 < borrow k (.set n) n + _
          rw [borrow, if_pos (.inr ⟨h, rfl⟩)]; omega
      show (if v = 0 then _ else _ : List _).countP _ = _
      split
      · exact h1 b
      · rename_i h
        rw [refs_move _ b]
        · exact h1 b
        · have hm := mem_of_word hi h (k := k) (by rw [ho.2.1, untagged_tagged]; exact ho.2.2)
          split
          · exact hm
          · exact List.mem_cons_of_mem _ ((List.mem_erase_of_ne (by intro e; cases e)).2 hm)
    · rw [hs]; split
      · exact (rest_crit hi hs k).2.2.2.1
      · rfl
  | @rel t a r hs =>
    have hm : (Owner.thread t, a) ∈ s.tok := mem_of_need hi (by rw [hs]; simp [topNeed, Frame.need])
    have hl := live_of_mem hi hm
    have hrd : topDel r = none := rest_del hi hs
    have hcnt := hi.o.cnt a hl
    have hrefs : ∀ b, ((s.tok.erase (.thread t, a)).countP (fun p => decide (p.2 = b))) + (if a = b then 1 else 0) = refs s b :=
      fun b => refs_erase hm b
    have hself : topDel (if s.cnt a = 1 then Frame.relCheck a :: r else r) = if s.cnt a = 1 then some a else none := by
      split
      · rfl
      · exact hrd
    have hpos := refs_pos hm
    have hnod : ∀ u, topDel (s.stack u) ≠ some a := by
      intro u hu
      have := (hi.o.del u a hu).2
      unfold refs at this; omega
    have hto : topDel (s.stack t) = none := by rw [hs]; rfl
    refine ⟨?_, ?_, ?_, ?_, ?_⟩
    · intro o b h; exact hi.o.tok o b (List.mem_of_mem_erase h)
    · intro b h
      have h1 := hrefs b
      have h2 := hi.o.cnt b h
      show (if b = a then s.cnt a - 1 else s.cnt b) = (s.tok.erase (.thread t, a)).countP _
      by_cases hb : b = a
      · subst hb; rw [if_pos rfl] at h1 ⊢; omega
      · rw [if_neg (Ne.symm hb)] at h1; rw [if_neg hb]; omega
    · intro b h h0
      have h0 : (s.tok.erase (.thread t, a)).countP (fun p => decide (p.2 = b)) = 0 := h0
      have h1 := hrefs b
      by_cases hb : a = b
      · subst hb
        rw [if_pos rfl] at h1
        refine ⟨t, ?_⟩
        show topDel (if t = t then _ else _) = _
        rw [if_pos rfl, hself, if_pos (by omega)]
      · rw [if_neg hb] at h1
        obtain ⟨u, hu⟩ := hi.o.zero b h (by omega)
        refine ⟨u, ?_⟩
        show topDel (if u = t then _ else _) = _
        rw [if_neg (by rintro rfl; rw [hto] at hu; cases hu)]
        exact hu
    · intro u b h
      have h : topDel (if u = t then (if s.cnt a = 1 then Frame.relCheck a :: r else r) else s.stack u) = some b := h
      have h1 := hrefs b
      show s.life b = .live ∧ (s.tok.erase (.thread t, a)).countP _ = 0
      by_cases hu : u = t
      · rw [if_pos hu, hself] at h
        split at h
        · rename_i hc
          injection h with h; subst h
          rw [if_pos rfl] at h1
          exact ⟨hl, by omega⟩
        · cases h
      · rw [if_neg hu] at h
        have := hi.o.del u b h
        rw [if_neg (by rintro rfl; exact hnod u h)] at h1
        exact ⟨this.1, by omega⟩
    · intro u w b h1 h2
      have h1 : topDel (if u = t then (if s.cnt a = 1 then Frame.relCheck a :: r else r) else s.stack u) = some b := h1
      have h2 : topDel (if w = t then (if s.cnt a = 1 then Frame.relCheck a :: r else r) else s.stack w) = some b := h2
      by_cases hu : u = t
      · by_cases hw : w = t
        · rw [hu, hw]
        · rw [if_pos hu, hself] at h1; rw [if_neg hw] at h2
          split at h1
          · injection h1 with h1; subst h1; exact (hnod w h2).elim
          · cases h1
      · rw [if_neg hu] at h1
        by_cases hw : w = t
        · rw [if_pos hw, hself] at h2
          split at h2
          · injection h2 with h2; subst h2; exact (hnod u h1).elim
          · cases h2
        · rw [if_neg hw] at h2; exact hi.o.delu u w b h1 h2
  | @del t a r hs =>
    have hd : topDel (s.stack t) = some a := by rw [hs]; rfl
    have hda := hi.o.del t a hd
    have hne : ∀ o b, (o, b) ∈ s.tok → b ≠ a := by
      rintro o b h rfl
      have := refs_pos h
      have := hda.2
      unfold refs at this; omega
    refine ⟨?_, ?_, ?_, ?_, ?_⟩
    · intro o b h
      have h : (o, b) ∈ s.tok := h
      show (if b = a then _ else _) = _ ∧ _
      rw [if_neg (hne o b h)]
      exact hi.o.tok o b h
    · intro b h
      have h : (if b = a then Life.dying else s.life b) = .live := h
      split at h
      · cases h
      · exact hi.o.cnt b h
    · intro b h h0
      have h : (if b = a then Life.dying else s.life b) = .live := h
      split at h
      · cases h
      · rename_i hb
        obtain ⟨u, hu⟩ := hi.o.zero b h h0
        refine ⟨u, ?_⟩
        show topDel (if u = t then _ else _) = _
        rw [if_neg (by rintro rfl; rw [hd] at hu; cases hu; exact hb rfl)]
        exact hu
    · intro u b h
      have h : topDel (if u = t then (.dtor a (s.fields a).reverse :: r) else s.stack u) = some b := h
      by_cases hu : u = t
      · rw [if_pos hu] at h; cases h
      · rw [if_neg hu] at h
        have := hi.o.del u b h
        have hb : b ≠ a := by intro e; rw [e] at h; exact hu (hi.o.delu u t _ h hd)
        show (if b = a then _ else _) = _ ∧ _
        rw [if_neg hb]
        exact this
    · intro u w b h1 h2
      have h1 : topDel (if u = t then (.dtor a (s.fields a).reverse :: r) else s.stack u) = some b := h1
      have h2 : topDel (if w = t then (.dtor a (s.fields a).reverse :: r) else s.stack w) = some b := h2
      by_cases hu : u = t
      · rw [if_pos hu] at h1; cases h1
      · by_cases hw : w = t
        · rw [if_pos hw] at h2; cases h2
        · rw [if_neg hu] at h1; rw [if_neg hw] at h2; exact hi.o.delu u w b h1 h2
  | @free t a r hs =>
    have hdy := (hi.m.dtor t a [] (by rw [hs]; exact List.mem_cons_self)).1
    have hlv : ∀ b, (if b = a then Life.free else s.life b) = .live ↔ s.life b = .live := by
      intro b
      by_cases hb : b = a
      · subst hb; simp [hdy]
      · simp [hb]
    have hto : ∀ u, topDel (if u = t then r else s.stack u) = topDel (s.stack u) := by
      intro u; by_cases hu : u = t
      · rw [if_pos hu, hu, hs, rest_del hi hs]; rfl
      · rw [if_neg hu]
    refine ⟨?_, ?_, ?_, ?_, ?_⟩
    · intro o b h
      have := hi.o.tok o b h
      exact ⟨(hlv b).2 this.1, this.2⟩
    · intro b h; exact hi.o.cnt b ((hlv b).1 h)
    · intro b h h0
      obtain ⟨u, hu⟩ := hi.o.zero b ((hlv b).1 h) h0
      exact ⟨u, (hto u).trans hu⟩
    · intro u b h
      have := hi.o.del u b ((hto u).symm.trans h)
      exact ⟨(hlv b).2 this.1, this.2⟩
    · intro u w b h1 h2
      exact hi.o.delu u w b ((hto u).symm.trans h1) ((hto w).symm.trans h2)
  | @killFree t f hs hm hu =>
    exact invO_killed hi (untag_word_of_idle hi hu) (by rw [hs]; rfl) rfl
  | @killField t a f fs r hs =>
    have hmem : Frame.dtor a (f :: fs) ∈ s.stack t := by rw [hs]; exact List.mem_cons_self
    exact invO_killed hi (untag_word_of_idle hi (dying_idle hi hmem f)) (by rw [hs]; rfl) rfl
  | @make0 t f hs hm =>
    exact invO_same hi t (s.stack t) (fun u => ite_self_stack (s := s) u) rfl rfl (fun _ => rfl) rfl
  | @makeN t f n hs hm hn =>
    exact invO_incr hi t (s.stack t) (fun u => ite_self_stack (s := s) u) rfl (fun _ => rfl) rfl ⟨_, hn⟩ rfl
  | @send t u a hs hm =>
    exact invO_same hi t (s.stack t) (fun u => ite_self_stack (s := s) u) rfl rfl (fun b => refs_move hm b) rfl
  | @create t a fs hs hl h0 h7 hnd =>
    have hne : ∀ o b, (o, b) ∈ s.tok → b ≠ a := by
      rintro o b h rfl
      rw [live_of_mem hi h] at hl; cases hl
    have hz : s.tok.countP (fun p => decide (p.2 = a)) = 0 := by
      rw [List.countP_eq_zero]
      intro x hx
      simp only [decide_eq_true_eq]
      exact hne x.1 x.2 hx
    refine ⟨?_, ?_, ?_, ?_, ?_⟩
    · intro o b h
      rcases List.mem_cons.1 h with h | h
      · injection h with _ h; subst h
        exact ⟨if_pos rfl, h0, h7⟩
      · have := hi.o.tok o b h
        refine ⟨?_, this.2⟩
        show (if b = a then _ else _) = _
        rw [if_neg (hne o b h)]; exact this.1
    · intro b h
      have h : (if b = a then Life.live else s.life b) = .live := h
      show (if b = a then 1 else s.cnt b) = ((Owner.thread t, a) :: s.tok).countP _
      rw [refs_push']
      by_cases hb : b = a
      · subst hb; simp [hz]
      · rw [if_neg hb] at h ⊢; rw [if_neg (Ne.symm hb)]; exact hi.o.cnt b h
    · intro b h hr
      have h : (if b = a then Life.live else s.life b) = .live := h
      have hr : ((Owner.thread t, a) :: s.tok).countP (fun p => decide (p.2 = b)) = 0 := hr
      rw [refs_push'] at hr
      by_cases hb : b = a
      · subst hb; simp at hr
      · rw [if_neg hb] at h; exact hi.o.zero b h (by unfold refs; omega)
    · intro u b h
      have := hi.o.del u b h
      have hb : b ≠ a := by rintro rfl; rw [this.1] at hl; cases hl
      refine ⟨?_, ?_⟩
      · show (if b = a then _ else _) = _
        rw [if_neg hb]; exact this.1
      · show ((Owner.thread t, a) :: s.tok).countP _ = 0
        rw [refs_push', if_neg (Ne.symm hb)]; exact this.2
    · exact hi.o.delu

end Verif.AtomicRef.Graph
