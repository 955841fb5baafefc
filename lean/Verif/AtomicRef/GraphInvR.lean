import Verif.AtomicRef.GraphInvM
/-!
# The invariant is preserved: references, histories; and it holds in every reachable state
-/
namespace Verif.AtomicRef.Graph
open Verif

set_option linter.unusedSimpArgs false
set_option linter.unusedSectionVars false

variable {T F : Type} [DecidableEq T] [DecidableEq F]

theorem need_gen {s s' : State T F} (hi : Inv s) (t : T) (st : List (Frame F))
    (hstack : ∀ u, s'.stack u = if u = t then st else s.stack u)
    (hother : ∀ u, u ≠ t → ∀ b, s.tok.count (.thread u, b) ≤ s'.tok.count (.thread u, b))
    (hself : ∀ b, topNeed b st ≤ s'.tok.count (.thread t, b)) (u : T) (b : Word) :
    topNeed b (s'.stack u) ≤ s'.tok.count (.thread u, b) := by
  rw [hstack]
  by_cases h : u = t
  · subst h; rw [if_pos rfl]; exact hself b
  · rw [if_neg h]; exact Nat.le_trans (hi.r.need u b) (hother u h b)

theorem rest_need {s : State T F} (hi : Inv s) {t : T} {f : Frame F} {r : List (Frame F)} (hs : s.stack t = f :: r) (b : Word) :
    topNeed b r = 0 := by
  have hsh := shape_rest hi hs
  cases r with
  | nil => rfl
  | cons g r =>
    have := hsh g List.mem_cons_self
    cases g <;> simp only [Frame.isDtor, Bool.false_eq_true] at this
    rfl

theorem invR_killed {s : State T F} (hi : Inv s) {t : T} {k : Key F} {rest : List (Frame F)}
    (hw : untagged (s.word k) = s.word k) (hr : ∀ b, topNeed b rest = 0) : InvR (killed s t k rest) := by
  have hwd : ∀ k', (killed s t k rest).word k' = if k' = k then 0 else s.word k' := by
    intro k'; unfold killed; split <;> rfl
  have hlog : (killed s t k rest).log = (k, .put t 0) :: s.log := by unfold killed; split <;> rfl
  have hst : ∀ u, (killed s t k rest).stack u = if u = t then (if s.word k = 0 then rest else .rel (s.word k) :: rest) else s.stack u := by
    intro u; unfold killed; split <;> rfl
  have htok : (killed s t k rest).tok = if s.word k = 0 then s.tok else move s.tok (.ref k) (.thread t) (s.word k) := by
    unfold killed; split <;> rename_i h <;> simp [h, setStack, setWord]
  have hmv : s.word k ≠ 0 → ∀ x, (move s.tok (.ref k) (.thread t) (s.word k)).count x + (if (Owner.ref k, s.word k) = x then 1 else 0)
      = s.tok.count x + (if (Owner.thread t, s.word k) = x then 1 else 0) := fun h x => count_move (mem_of_word hi h hw) x
  generalize killed s t k rest = s' at *
  refine ⟨?_, ?_, ?_, ?_⟩
  · intro k' b
    have hold := hi.r.ref k' b
    rw [htok, hwd]
    by_cases h0 : s.word k = 0
    · rw [if_pos h0, hold]
      by_cases hk : k' = k
      · subst hk; rw [if_pos rfl, h0]
      · rw [if_neg hk]
    · rw [if_neg h0]
      have := hmv h0 (.ref k', b)
      rw [hold, if_neg (show (Owner.thread t, s.word k) ≠ (Owner.ref k', b) by intro e; cases e)] at this
      by_cases hk : k' = k
      · subst hk
        rw [if_pos rfl]
        rw [hw] at this
        by_cases hb : s.word k' = b
        · subst hb
          have hz : ¬ (s.word k' ≠ 0 ∧ untagged 0 = s.word k') := by
            rintro ⟨h, e⟩; exact h (by rw [← e]; simp [untagged])
          rw [if_neg hz]
          rw [if_pos rfl, if_pos ⟨h0, rfl⟩] at this
          omega
        · rw [if_neg (by intro e; injection e with _ e; exact hb e), if_neg (by rintro ⟨_, e⟩; exact hb e)] at this
          have hz : ¬ (b ≠ 0 ∧ untagged 0 = b) := by
            rintro ⟨h, e⟩; exact h (by rw [← e]; simp [untagged])
          rw [if_neg hz]
          omega
      · rw [if_neg hk]
        rw [if_neg (show (Owner.ref k, s.word k) ≠ (Owner.ref k', b) by intro e; injection e with e _; injection e with e; exact hk e.symm)] at this
        omega
  · refine need_gen hi t _ hst ?_ ?_
    · intro u hu b
      rw [htok]; split
      · exact Nat.le_refl _
      · rename_i h0
        have := hmv h0 (.thread u, b)
        rw [if_neg (by intro e; cases e), if_neg (by intro e; injection e with e _; injection e with e; exact hu e.symm)] at this
        omega
    · intro b
      rw [htok]; split
      · rename_i h0; rw [hr]; omega
      · rename_i h0
        have := hmv h0 (.thread t, b)
        rw [if_neg (by intro e; cases e)] at this
        show (if s.word k = b then 1 else 0) ≤ _
        by_cases hb : s.word k = b
        · rw [if_pos hb]; rw [if_pos (by rw [hb])] at this; omega
        · rw [if_neg hb]; omega
  · rw [hlog]; exact hi.r.reg
  · intro k'
    rw [hwd, hlog]
    show _ = if k = k' then 0 else current k' s.log
    by_cases hk : k' = k
    · rw [if_pos hk, if_pos hk.symm]; simp [untagged]
    · rw [if_neg hk, if_neg (Ne.symm hk)]; exact hi.r.cur k'

theorem ref_push_thread (l : List (Owner T F × Word)) (t : T) (a b : Word) (k : Key F) :
    ((Owner.thread t, a) :: l).count (.ref k, b) = l.count (.ref k, b) := by
  rw [count_push, if_neg (by intro e; cases e)]; rfl

theorem thread_push_le (l : List (Owner T F × Word)) (y x : Owner T F × Word) : l.count x ≤ (y :: l).count x := by
  rw [count_push]; omega

theorem invR_trans {s s' : State T F} (hi : Inv s) (h : Trans s s') : InvR s' := by
  cases h with
  | same => exact hi.r
  | @quiet t f g r hs hq =>
    refine ⟨hi.r.ref, need_gen hi t (g :: r) (fun u => rfl) (fun _ _ _ => Nat.le_refl _) ?_, hi.r.reg, hi.r.cur⟩
    intro b
    have := hi.r.need t b
    rw [hs] at this
    refine Nat.le_trans ?_ this
    cases hq with
    | null h0 =>
      show borrow _ _ _ + _ ≤ borrow _ _ _
      rw [h0, if_neg (by rintro ⟨h, e⟩; exact h e.symm)]
      exact Nat.le_refl _
    | _ => exact Nat.le_refl _
  | @begin t f hs hb =>
    refine ⟨hi.r.ref, need_gen hi t [f] (fun u => rfl) (fun _ _ _ => Nat.le_refl _) ?_, hi.r.reg, hi.r.cur⟩
    intro b
    have key : ∀ k : Key F, reaches s t k = true → k.1 = some b → 1 ≤ s.tok.count (.thread t, b) := by
      rintro ⟨k1, k2⟩ h he
      simp only at he
      subst he
      simp only [reaches, Bool.and_eq_true, decide_eq_true_eq] at h
      exact List.count_pos_iff.2 h.1
    cases hb with
    | get h =>
      show borrow _ _ _ ≤ _
      unfold borrow; split
      · rename_i hc
        rcases hc with hc | hc
        · exact key _ h hc
        · cases hc.2
      · omega
    | @set k n h hn =>
      show borrow _ _ _ ≤ _
      unfold borrow; split
      · rename_i hc
        rcases hc with hc | ⟨h0, hc⟩
        · exact key _ h hc
        · injection hc with hc; subst hc
          exact List.count_pos_iff.2 (hn.resolve_left h0)
      · omega
    | @release a h =>
      show (if a = b then 1 else 0) ≤ _
      split
      · rename_i hc; subst hc; exact List.count_pos_iff.2 h
      · omega
  | @lock t k j old r hs hw =>
    have hun : ∀ k', untagged ((setWord s k (tagged old)).word k') = untagged (s.word k') := by
      intro k'
      show untagged (if k' = k then _ else _) = _
      split
      · rename_i h; rw [untagged_tagged, h, hw]
      · rfl
    refine ⟨?_, need_gen hi t (.add k j old :: r) (fun u => rfl) (fun _ _ _ => Nat.le_refl _) ?_, hi.r.reg, ?_⟩
    · intro k' b
      show s.tok.count _ = if b ≠ 0 ∧ untagged ((setWord s k (tagged old)).word k') = b then 1 else 0
      rw [hun]; exact hi.r.ref k' b
    · intro b
      have := hi.r.need t b
      rw [hs] at this
      exact this
    · intro k'
      show untagged ((setWord s k (tagged old)).word k') = _
      rw [hun]; exact hi.r.cur k'
  | @add t k j v r hs h0 =>
    refine ⟨?_, need_gen hi t (.chk1 k j v :: r) (fun u => rfl) (fun u _ b => thread_push_le _ _ _) ?_, hi.r.reg, hi.r.cur⟩
    · intro k' b
      show List.count _ (_ :: s.tok) = _
      rw [ref_push_thread]; exact hi.r.ref k' b
    · intro b
      have := hi.r.need t b
      rw [hs] at this
      have this : borrow k j b ≤ s.tok.count (.thread t, b) := this
      show borrow k j b + (if b ≠ 0 ∧ j.newval v = b then 1 else 0) ≤ List.count _ (_ :: s.tok)
      rw [count_push]
      by_cases hb : j.newval v = b
      · rw [if_pos (by rw [hb] : (Owner.thread t, j.newval v) = (Owner.thread t, b))]
        split <;> omega
      · rw [if_neg (by rintro ⟨_, e⟩; exact hb e)]; omega
  | @incr t a hs hm =>
    refine ⟨?_, need_gen hi t (s.stack t) (fun u => ite_self_stack (s := s) u) (fun u _ b => thread_push_le _ _ _) ?_, hi.r.reg, hi.r.cur⟩
    · intro k' b
      show List.count _ (_ :: s.tok) = _
      rw [ref_push_thread]; exact hi.r.ref k' b
    · intro b; rw [hs]; exact Nat.zero_le _
  | @got t k v r hs =>
    have ho := hi.l.ok t
    rw [hs] at ho
    have hun : ∀ k', untagged ((setWord s k v).word k') = untagged (s.word k') := by
      intro k'
      show untagged (if k' = k then _ else _) = _
      split
      · rename_i h; rw [h, ho.2.1, untagged_tagged]
      · rfl
    have hcur : v = current k s.log := by
      rw [← hi.r.cur, ho.2.1, untagged_tagged, ho.2.2]
    refine ⟨?_, need_gen hi t r (fun u => rfl) (fun _ _ _ => Nat.le_refl _) ?_, ⟨hcur, hi.r.reg⟩, ?_⟩
    · intro k' b
      show s.tok.count _ = if b ≠ 0 ∧ untagged ((setWord s k v).word k') = b then 1 else 0
      rw [hun]; exact hi.r.ref k' b
    · intro b; rw [rest_need hi hs]; exact Nat.zero_le _
    · intro k'
      show untagged ((setWord s k v).word k') = current k' s.log
      rw [hun]; exact hi.r.cur k'
  | @put t k n v r hs =>
    have ho := hi.l.ok t
    rw [hs] at ho
    have hn : n ≠ 0 → (Owner.thread t, n) ∈ s.tok := by
      intro h
      apply mem_of_need hi
      rw [hs]
      show 0 < borrow k (.set n) n + _
      rw [borrow, if_pos (.inr ⟨h, rfl⟩)]; omega
    have hv : v ≠ 0 → (Owner.ref k, v) ∈ s.tok := fun h => mem_of_word hi h (by rw [ho.2.1, untagged_tagged]; exact ho.2.2)
    have hunn : untagged n = n := by
      by_cases h : n = 0
      · rw [h]; simp [untagged]
      · exact untagged_of_mem hi (hn h)
    -- the two transfers, counted
    have h1 : ∀ x, (if n = 0 then s.tok else move s.tok (.thread t) (.ref k) n).count x + (if n ≠ 0 ∧ (Owner.thread t, n) = x then 1 else 0)
        = s.tok.count x + (if n ≠ 0 ∧ (Owner.ref k, n) = x then 1 else 0) := by
      intro x
      by_cases h : n = 0
      · simp [h]
      · have := count_move (p := .ref k) (hn h) x
        rw [if_neg h]; simp only [ne_eq, h, not_false_eq_true, true_and]; exact this
    have h2 : ∀ x, (if v = 0 then (if n = 0 then s.tok else move s.tok (.thread t) (.ref k) n)
          else move (if n = 0 then s.tok else move s.tok (.thread t) (.ref k) n) (.ref k) (.thread t) v).count x
          + (if v ≠ 0 ∧ (Owner.ref k, v) = x then 1 else 0)
        = (if n = 0 then s.tok else move s.tok (.thread t) (.ref k) n).count x + (if v ≠ 0 ∧ (Owner.thread t, v) = x then 1 else 0) := by
      intro x
      by_cases h : v = 0
      · simp [h]
      · have hm : (Owner.ref k, v) ∈ (if n = 0 then s.tok else move s.tok (.thread t) (.ref k) n) := by
          split
          · exact hv h
          · exact List.mem_cons_of_mem _ ((List.mem_erase_of_ne (by intro e; cases e)).2 (hv h))
        have := count_move (p := .thread t) hm x
        rw [if_neg h]; simp only [ne_eq, h, not_false_eq_true, true_and]; exact this
    generalize htk : (if v = 0 then (if n = 0 then s.tok else move s.tok (.thread t) (.ref k) n)
          else move (if n = 0 then s.tok else move s.tok (.thread t) (.ref k) n) (.ref k) (.thread t) v) = tk at h2
    have h3 : ∀ x, tk.count x + (if v ≠ 0 ∧ (Owner.ref k, v) = x then 1 else 0) + (if n ≠ 0 ∧ (Owner.thread t, n) = x then 1 else 0)
        = s.tok.count x + (if n ≠ 0 ∧ (Owner.ref k, n) = x then 1 else 0) + (if v ≠ 0 ∧ (Owner.thread t, v) = x then 1 else 0) := by
      intro x
      have a1 := h1 x; have a2 := h2 x
      omega
    have key : InvR (setStack { setWord s k n with log := (k, .put t n) :: s.log, tok := tk } t (if v = 0 then r else .rel v :: r)) := by
      refine ⟨?_, need_gen hi t (if v = 0 then r else .rel v :: r) (fun u => rfl) ?_ ?_, hi.r.reg, ?_⟩
      · intro k' b
        show tk.count _ = if b ≠ 0 ∧ untagged (if k' = k then n else s.word k') = b then 1 else 0
        have h := h3 (.ref k', b)
        have hold := hi.r.ref k' b
        rw [if_neg (c := n ≠ 0 ∧ (Owner.thread t, n) = (Owner.ref k', b)) (by rintro ⟨_, e⟩; cases e),
          if_neg (c := v ≠ 0 ∧ (Owner.thread t, v) = (Owner.ref k', b)) (by rintro ⟨_, e⟩; cases e)] at h
        by_cases hk : k' = k
        · subst hk
          rw [ho.2.1, untagged_tagged, ho.2.2] at hold
          rw [if_pos rfl, hunn]
          have e1 : (v ≠ 0 ∧ (Owner.ref (T := T) k', v) = (Owner.ref k', b)) ↔ (b ≠ 0 ∧ v = b) := by
            constructor
            · rintro ⟨hz, e⟩; injection e with _ e; exact ⟨e ▸ hz, e⟩
            · rintro ⟨hz, e⟩; exact ⟨e.symm ▸ hz, by rw [e]⟩
          have e2 : (n ≠ 0 ∧ (Owner.ref (T := T) k', n) = (Owner.ref k', b)) ↔ (b ≠ 0 ∧ n = b) := by
            constructor
            · rintro ⟨hz, e⟩; injection e with _ e; exact ⟨e ▸ hz, e⟩
            · rintro ⟨hz, e⟩; exact ⟨e.symm ▸ hz, by rw [e]⟩
          rw [hold] at h
          simp only [e1, e2] at h
          omega
        · rw [if_neg hk]
          rw [if_neg (by rintro ⟨_, e⟩; injection e with e _; injection e with e; exact hk e.symm),
            if_neg (by rintro ⟨_, e⟩; injection e with e _; injection e with e; exact hk e.symm)] at h
          omega
      · intro u hu b
        show _ ≤ tk.count _
        have h := h3 (.thread u, b)
        rw [if_neg (by rintro ⟨_, e⟩; cases e), if_neg (by rintro ⟨_, e⟩; injection e with e _; injection e with e; exact hu e.symm)] at h
        omega
      · intro b
        show _ ≤ tk.count _
        have h := h3 (.thread t, b)
        have hneed := hi.r.need t b
        rw [hs] at hneed
        have hneed : borrow k (.set n) b + (if b ≠ 0 ∧ n = b then 1 else 0) ≤ s.tok.count (.thread t, b) := hneed
        rw [if_neg (c := v ≠ 0 ∧ (Owner.ref k, v) = (Owner.thread t, b)) (by rintro ⟨_, e⟩; cases e),
          if_neg (c := n ≠ 0 ∧ (Owner.ref k, n) = (Owner.thread t, b)) (by rintro ⟨_, e⟩; cases e)] at h
        have e2 : (n ≠ 0 ∧ (Owner.thread (F := F) t, n) = (Owner.thread t, b)) ↔ (b ≠ 0 ∧ n = b) := by
          constructor
          · rintro ⟨hz, e⟩; injection e with _ e; exact ⟨e ▸ hz, e⟩
          · rintro ⟨hz, e⟩; exact ⟨e.symm ▸ hz, by rw [e]⟩
        simp only [e2] at h
        by_cases h0 : v = 0
        · rw [if_pos h0, rest_need hi hs]; exact Nat.zero_le _
        · rw [if_neg h0]
          show (if v = b then 1 else 0) ≤ _
          by_cases hb : v = b
          · rw [if_pos hb]; rw [if_pos (c := v ≠ 0 ∧ (Owner.thread t, v) = (Owner.thread t, b)) ⟨h0, by rw [hb]⟩] at h; omega
          · rw [if_neg hb]; exact Nat.zero_le _
      · intro k'
        show untagged (if k' = k then n else s.word k') = if k = k' then n else current k' s.log
        by_cases hk : k' = k
        · rw [if_pos hk, if_pos hk.symm, hunn]
        · rw [if_neg hk, if_neg (Ne.symm hk)]; exact hi.r.cur k'
    exact key
  | @rel t a r hs =>
    have hm : (Owner.thread t, a) ∈ s.tok := mem_of_need hi (by rw [hs]; simp [topNeed, Frame.need])
    refine ⟨?_, need_gen hi t (if s.cnt a = 1 then .relCheck a :: r else r) (fun u => rfl) ?_ ?_, hi.r.reg, hi.r.cur⟩
    · intro k' b
      have := count_erase' hm (.ref k', b)
      rw [if_neg (by intro e; cases e)] at this
      show (s.tok.erase _).count _ = _
      rw [show (s.tok.erase (.thread t, a)).count (.ref k', b) = s.tok.count (.ref k', b) from this]
      exact hi.r.ref k' b
    · intro u hu b
      have := count_erase' hm (.thread u, b)
      rw [if_neg (by intro e; injection e with e _; injection e with e; exact hu e.symm)] at this
      show _ ≤ (s.tok.erase _).count _
      omega
    · intro b
      split
      · exact Nat.zero_le _
      · rw [rest_need hi hs]; exact Nat.zero_le _
  | @del t a r hs =>
    exact ⟨hi.r.ref, need_gen hi t (.dtor a (s.fields a).reverse :: r) (fun u => rfl) (fun _ _ _ => Nat.le_refl _) (fun b => Nat.zero_le _),
      hi.r.reg, hi.r.cur⟩
  | @free t a r hs =>
    exact ⟨hi.r.ref, need_gen hi t r (fun u => rfl) (fun _ _ _ => Nat.le_refl _) (fun b => by rw [rest_need hi hs]; exact Nat.zero_le _),
      hi.r.reg, hi.r.cur⟩
  | @killFree t f hs hm hu => exact invR_killed hi (untag_word_of_idle hi hu) (fun _ => rfl)
  | @killField t a f fs r hs =>
    have hmem : Frame.dtor a (f :: fs) ∈ s.stack t := by rw [hs]; exact List.mem_cons_self
    exact invR_killed hi (untag_word_of_idle hi (dying_idle hi hmem f)) (fun _ => rfl)
  | @make0 t f hs hm =>
    have hw := hi.m.unmade _ hm
    refine ⟨?_, hi.r.need, hi.r.reg, ?_⟩
    · intro k' b
      have := hi.r.ref k' b
      show s.tok.count _ = if b ≠ 0 ∧ untagged (if k' = (none, f) then 0 else s.word k') = b then 1 else 0
      by_cases hk : k' = (none, f)
      · rw [if_pos hk]; rw [hk, hw] at this; rw [hk]; exact this
      · rw [if_neg hk]; exact this
    · intro k'
      show untagged (if k' = (none, f) then 0 else s.word k') = if (none, f) = k' then 0 else current k' s.log
      by_cases hk : k' = (none, f)
      · rw [if_pos hk, if_pos hk.symm]; simp [untagged]
      · rw [if_neg hk, if_neg (Ne.symm hk)]; exact hi.r.cur k'
  | @makeN t f n hs hm hn =>
    have hw := hi.m.unmade _ hm
    have hn' := (hi.o.tok _ _ hn)
    have hun := untagged_of_mem hi hn
    refine ⟨?_, ?_, hi.r.reg, ?_⟩
    · intro k' b
      have := hi.r.ref k' b
      show ((Owner.ref (none, f), n) :: s.tok).count _ = if b ≠ 0 ∧ untagged (if k' = (none, f) then n else s.word k') = b then 1 else 0
      rw [count_push, this]
      by_cases hk : k' = (none, f)
      · rw [if_pos hk, hk, hw, hun]
        have hz : ¬ (b ≠ 0 ∧ untagged 0 = b) := by
          rintro ⟨h, e⟩; exact h (by rw [← e]; simp [untagged])
        rw [if_neg hz]
        by_cases hb : n = b
        · subst hb; simp; exact hn'.2.1
        · rw [if_neg (by intro e; injection e with _ e; exact hb e), if_neg (by rintro ⟨_, e⟩; exact hb e)]
      · rw [if_neg hk, if_neg (show (Owner.ref (none, f), n) ≠ (Owner.ref k', b) by intro e; injection e with e _; injection e with e; exact hk e.symm)]
        rfl
    · intro u b
      exact Nat.le_trans (hi.r.need u b) (thread_push_le _ _ _)
    · intro k'
      show untagged (if k' = (none, f) then n else s.word k') = if (none, f) = k' then n else current k' s.log
      by_cases hk : k' = (none, f)
      · rw [if_pos hk, if_pos hk.symm, hun]
      · rw [if_neg hk, if_neg (Ne.symm hk)]; exact hi.r.cur k'
  | @send t u a hs hm =>
    refine ⟨?_, ?_, hi.r.reg, hi.r.cur⟩
    · intro k' b
      have := count_move (p := .thread u) hm (.ref k', b)
      rw [if_neg (by intro e; cases e), if_neg (by intro e; cases e)] at this
      show (move s.tok _ _ _).count _ = _
      rw [show (move s.tok (.thread t) (.thread u) a).count (.ref k', b) = s.tok.count (.ref k', b) from this]
      exact hi.r.ref k' b
    · intro w b
      show topNeed b (s.stack w) ≤ (move s.tok _ _ _).count _
      by_cases hw : w = t
      · rw [hw, hs]; exact Nat.zero_le _
      · have := count_move (p := .thread u) hm (.thread w, b)
        rw [if_neg (by intro e; injection e with e _; injection e with e; exact hw e.symm)] at this
        have := hi.r.need w b
        omega
  | @create t a fs hs hl h0 h7 hnd =>
    refine ⟨?_, ?_, hi.r.reg, hi.r.cur⟩
    · intro k' b
      show List.count _ (_ :: s.tok) = _
      rw [ref_push_thread]; exact hi.r.ref k' b
    · intro u b
      exact Nat.le_trans (hi.r.need u b) (thread_push_le _ _ _)

/-! ### Every reachable state -/

theorem inv_start : Inv (State.start : State T F) := by
  have hu : untagged 0 = 0 := by simp [untagged]
  refine ⟨⟨?_, ?_, ?_, ?_, ?_⟩, ⟨?_, ?_, ?_, ?_, ?_, ?_, ?_, ?_⟩, ⟨?_, ?_, ?_⟩, ⟨?_, ?_, trivial, ?_⟩⟩
  · intro o b h; cases h
  · intro b h; cases h
  · intro b h; cases h
  · intro t b h; cases h
  · intro t u b h; cases h
  · intro t a fs h; cases h
  · intro t u a fs gs h; cases h
  · intro t a; exact Nat.zero_le _
  · intro a h; cases h
  · intro a h; cases h
  · intro a f _; rfl
  · intro k _; rfl
  · intro t f h; cases h
  · intro t; trivial
  · intro k t u h; cases h
  · intro k _; exact hu
  · intro k b
    show 0 = if b ≠ 0 ∧ untagged 0 = b then 1 else 0
    rw [hu, if_neg (by rintro ⟨h, e⟩; exact h e.symm)]
  · intro t b; exact Nat.zero_le _
  · intro k; exact hu

theorem inv_trans {s s' : State T F} (hi : Inv s) (h : Trans s s') : Inv s' :=
  ⟨invO_trans hi h, invM_trans hi h, invL_trans hi h, invR_trans hi h⟩

theorem inv_run {as : List (Act T F)} {s : State T F} (h : Run as s) : Inv s := by
  induction h with
  | start => exact inv_start
  | step _ ha hs ih =>
    obtain ⟨s', e, ht⟩ := step_trans ih ha hs
    injection e with e
    rw [e]; exact inv_trans ih ht

theorem inv_reachable {s : State T F} (h : Reachable s) : Inv s := by
  obtain ⟨as, h⟩ := h
  exact inv_run h

end Verif.AtomicRef.Graph
