import Verif.AtomicRef.GraphLemmas
/-!
# The invariant is preserved
-/
namespace Verif.AtomicRef.Graph
open Verif

set_option linter.unusedSimpArgs false
set_option linter.unusedSectionVars false

variable {T F : Type} [DecidableEq T] [DecidableEq F]

/-! ### Locks -/

theorem Ok.mono {s s' : State T F} {f : Frame F} (h : Ok s f) (hm : ∀ k, f.uses k = true → s'.made k = true)
    (hw : ∀ k, f.crit k = true → s'.word k = s.word k) : Ok s' f := by
  cases f with
  | load k j => exact hm k (by simp [Frame.uses])
  | cas k j old => exact ⟨hm k (by simp [Frame.uses]), h.2⟩
  | add k j v => exact ⟨hm k (by simp [Frame.uses]), by rw [hw k (by simp [Frame.crit])]; exact h.2.1, h.2.2⟩
  | chk1 k j v => exact ⟨hm k (by simp [Frame.uses]), by rw [hw k (by simp [Frame.crit])]; exact h.2.1, h.2.2⟩
  | chk2 k j v w => exact ⟨hm k (by simp [Frame.uses]), by rw [hw k (by simp [Frame.crit])]; exact h.2.1, h.2.2⟩
  | store k j v => exact ⟨hm k (by simp [Frame.uses]), by rw [hw k (by simp [Frame.crit])]; exact h.2.1, h.2.2⟩
  | _ => trivial

theorem topOk.mono {s s' : State T F} {st : List (Frame F)} (h : topOk s st) (hm : ∀ k, topUses k st = true → s'.made k = true)
    (hw : ∀ k, topCrit k st = true → s'.word k = s.word k) : topOk s' st := by
  cases st with
  | nil => trivial
  | cons f r => exact Ok.mono h hm hw

theorem made_of_uses {s : State T F} (hi : Inv s) {u : T} {k : Key F} (h : topUses k (s.stack u) = true) : s.made k = true := by
  have ho := hi.l.ok u
  cases hs : s.stack u with
  | nil => rw [hs] at h; cases h
  | cons f r =>
    rw [hs] at h ho
    cases f <;> simp only [topUses, Frame.uses, decide_eq_true_eq, Bool.false_eq_true] at h
    · subst h; exact ho
    all_goals (subst h; exact ho.1)

theorem uses_of_crit {k : Key F} {st : List (Frame F)} (h : topCrit k st = true) : topUses k st = true := by
  cases hu : topUses k st with
  | true => rfl
  | false => rw [not_crit_uses hu] at h; cases h

/-- While the lock of `k` is held the word is tagged. -/
theorem word_of_crit {s : State T F} (hi : Inv s) {u : T} {k : Key F} (h : topCrit k (s.stack u) = true) :
    ∃ v, s.word k = tagged v := by
  have ho := hi.l.ok u
  cases hs : s.stack u with
  | nil => rw [hs] at h; cases h
  | cons f r =>
    rw [hs] at h ho
    cases f <;> simp only [topCrit, Frame.crit, decide_eq_true_eq, Bool.false_eq_true] at h
    all_goals (subst h; exact ⟨_, ho.2.1⟩)

theorem invL_gen {s s' : State T F} (hi : Inv s) (t : T) (st : List (Frame F))
    (hstack : ∀ u, s'.stack u = if u = t then st else s.stack u)
    (hmade : ∀ k u, u ≠ t → topUses k (s.stack u) = true → s'.made k = true)
    (hword : ∀ k u, u ≠ t → topCrit k (s.stack u) = true → s'.word k = s.word k)
    (hok : topOk s' st)
    (hcr : ∀ k, topCrit k st = true → ∀ u, u ≠ t → topCrit k (s.stack u) = false)
    (hlk : ∀ k, topCrit k st = false → (∀ u, u ≠ t → topCrit k (s.stack u) = false) → untagged (s'.word k) = s'.word k) :
    InvL s' := by
  have hself : s'.stack t = st := by rw [hstack, if_pos rfl]
  have hother : ∀ u, u ≠ t → s'.stack u = s.stack u := fun u h => by rw [hstack, if_neg h]
  refine ⟨?_, ?_, ?_⟩
  · intro u
    by_cases h : u = t
    · subst h; rw [hself]; exact hok
    · rw [hother u h]
      exact (hi.l.ok u).mono (fun k => hmade k u h) (fun k => hword k u h)
  · intro k u w hu hw
    by_cases h1 : u = t
    · by_cases h2 : w = t
      · rw [h1, h2]
      · subst h1; rw [hself] at hu; rw [hother w h2, hcr k hu w h2] at hw; cases hw
    · by_cases h2 : w = t
      · subst h2; rw [hself] at hw; rw [hother u h1, hcr k hw u h1] at hu; cases hu
      · rw [hother u h1] at hu; rw [hother w h2] at hw
        exact hi.l.critu k u w hu hw
  · intro k h
    exact hlk k (by rw [← hself]; exact h t) (fun u hu => by rw [← hother u hu]; exact h u)

/-- The thread's hold on locks does not change, nor does any word. -/
theorem invL_keep {s s' : State T F} (hi : Inv s) (t : T) (st : List (Frame F))
    (hstack : ∀ u, s'.stack u = if u = t then st else s.stack u)
    (hmade : ∀ k u, u ≠ t → topUses k (s.stack u) = true → s'.made k = true)
    (hword : ∀ k, s'.word k = s.word k) (hok : topOk s' st) (hcrit : ∀ k, topCrit k st = topCrit k (s.stack t)) : InvL s' := by
  refine invL_gen hi t st hstack hmade (fun k u _ _ => hword k) hok ?_ ?_
  · intro k hk u hu
    cases hc : topCrit k (s.stack u) with
    | false => rfl
    | true => exact (hu (hi.l.critu k u t hc (by rw [← hcrit]; exact hk))).elim
  · intro k hk hall
    rw [hword]
    apply hi.l.lock k
    intro u
    by_cases h : u = t
    · subst h; rw [← hcrit]; exact hk
    · exact hall u h

theorem ite_self_stack {s : State T F} {t : T} (u : T) : s.stack u = if u = t then s.stack t else s.stack u := by
  by_cases h : u = t
  · subst h; simp
  · simp [h]

theorem shape_rest {s : State T F} (hi : Inv s) {t : T} {f : Frame F} {r : List (Frame F)} (hs : s.stack t = f :: r) :
    ∀ g ∈ r, g.isDtor = true := by
  have := hi.m.shape t
  rw [hs] at this
  exact this

theorem rest_crit {s : State T F} (hi : Inv s) {t : T} {f : Frame F} {r : List (Frame F)} (hs : s.stack t = f :: r) (k : Key F) :
    topCrit k r = false ∧ topUses k r = false ∧ topOk s r ∧ topDel r = none ∧ ∀ b, topNeed b r = 0 := by
  have hsh := shape_rest hi hs
  cases r with
  | nil => exact ⟨rfl, rfl, trivial, rfl, fun _ => rfl⟩
  | cons g r =>
    have := hsh g List.mem_cons_self
    cases g <;> simp only [Frame.isDtor, Bool.false_eq_true] at this
    exact ⟨rfl, rfl, trivial, rfl, fun _ => rfl⟩

theorem rest_ok {s s' : State T F} (hi : Inv s) {t : T} {f : Frame F} {r : List (Frame F)} (hs : s.stack t = f :: r) : topOk s' r := by
  have hsh := shape_rest hi hs
  cases r with
  | nil => trivial
  | cons g r =>
    have := hsh g List.mem_cons_self
    cases g <;> simp only [Frame.isDtor, Bool.false_eq_true] at this
    trivial

theorem invL_killed {s : State T F} (hi : Inv s) {t : T} {k : Key F} {rest : List (Frame F)}
    (hu : ∀ u, topUses k (s.stack u) = false) (hold : ∀ k', topCrit k' (s.stack t) = false)
    (hr : ∀ k', topCrit k' rest = false) (hro : ∀ s' : State T F, topOk s' rest) : InvL (killed s t k rest) := by
  have hw : ∀ k', (killed s t k rest).word k' = if k' = k then 0 else s.word k' := by
    intro k'; unfold killed; split <;> rfl
  have hm : ∀ k', (killed s t k rest).made k' = if k' = k then false else s.made k' := by
    intro k'; unfold killed; split <;> rfl
  have hst : ∀ u, (killed s t k rest).stack u = if u = t then (if s.word k = 0 then rest else .rel (s.word k) :: rest) else s.stack u := by
    intro u; unfold killed; split <;> rfl
  refine invL_gen hi t _ hst ?_ ?_ ?_ ?_ ?_
  · intro k' u _ h
    rw [hm, if_neg (by rintro rfl; rw [hu] at h; cases h)]
    exact made_of_uses hi h
  · intro k' u _ h
    rw [hw, if_neg (by rintro rfl; rw [not_crit_uses (hu u)] at h; cases h)]
  · split
    · exact hro _
    · trivial
  · intro k' h
    split at h
    · rw [hr] at h; cases h
    · cases h
  · intro k' _ hall
    rw [hw]
    by_cases h : k' = k
    · rw [if_pos h]; simp [untagged]
    · rw [if_neg h]
      apply hi.l.lock
      intro u
      by_cases h : u = t
      · subst h; exact hold k'
      · exact hall u h

theorem invL_trans {s s' : State T F} (hi : Inv s) (h : Trans s s') : InvL s' := by
  cases h with
  | same => exact hi.l
  | @quiet t f g r hs hq =>
    have ho := hi.l.ok t
    rw [hs] at ho
    refine invL_keep hi t (g :: r) (fun u => rfl) (fun k u _ h => made_of_uses hi h) (fun _ => rfl) ?_ ?_
    · cases hq with
      | load w => exact ⟨ho, untagged_idem w⟩
      | again => exact ho.1
      | null h => exact ho
      | chk1 => exact ⟨ho.1, ho.2.1, ho.2.2, ho.2.1⟩
      | chk2 => exact ⟨ho.1, ho.2.1, ho.2.2.1⟩
      | relCheck => trivial
    · intro k; rw [hs]; cases hq <;> rfl
  | @begin t f hs hb =>
    refine invL_keep hi t [f] (fun u => rfl) (fun k u _ h => made_of_uses hi h) (fun _ => rfl) ?_ ?_
    · have key : ∀ k : Key F, reaches s t k = true → s.made k = true := by
        rintro ⟨k1, k2⟩ h
        cases k1 with
        | none => exact h
        | some a =>
          simp only [reaches, Bool.and_eq_true, decide_eq_true_eq] at h
          exact ((hi.m.live a (live_of_mem hi h.1)).2 k2).2 h.2
      cases hb with
      | get h => exact key _ h
      | set h _ => exact key _ h
      | release h => trivial
    · intro k; rw [hs]; cases hb <;> rfl
  | @lock t k j old r hs hw =>
    have ho := hi.l.ok t
    rw [hs] at ho
    have hfree : ∀ u, topCrit k (s.stack u) = false := by
      intro u
      cases hc : topCrit k (s.stack u) with
      | false => rfl
      | true =>
        obtain ⟨v, hv⟩ := word_of_crit hi hc
        exact (tagged_ne ho.2 (hv.symm.trans hw)).elim
    refine invL_gen hi t (.add k j old :: r) (fun u => rfl) (fun k u _ h => made_of_uses hi h) ?_ ?_ ?_ ?_
    · intro k' u _ h
      show (if k' = k then _ else _) = _
      rw [if_neg (by rintro rfl; rw [hfree] at h; cases h)]
    · refine ⟨ho.1, ?_, ho.2⟩
      show (if k = k then _ else _) = _
      rw [if_pos rfl]
    · intro k' h u _
      simp only [topCrit, Frame.crit, decide_eq_true_eq] at h
      subst h; exact hfree u
    · intro k' h hall
      simp only [topCrit, Frame.crit, decide_eq_false_iff_not] at h
      show untagged (if k' = k then _ else _) = (if k' = k then _ else _)
      rw [if_neg (Ne.symm h)]
      apply hi.l.lock
      intro u
      by_cases hu : u = t
      · subst hu; rw [hs]; rfl
      · exact hall u hu
  | @add t k j v r hs h0 =>
    have ho := hi.l.ok t
    rw [hs] at ho
    refine invL_keep hi t (.chk1 k j v :: r) (fun u => rfl) (fun k u _ h => made_of_uses hi h) (fun _ => rfl) ho ?_
    intro k; rw [hs]; rfl
  | @incr t a hs hm =>
    exact invL_keep hi t (s.stack t) (fun u => ite_self_stack (s := s) u) (fun k u _ h => made_of_uses hi h) (fun _ => rfl)
      ((hi.l.ok t).mono (fun k h => made_of_uses hi h) (fun _ _ => rfl)) (fun _ => rfl)
  | @got t k v r hs =>
    have ho := hi.l.ok t
    rw [hs] at ho
    have hmine : topCrit k (s.stack t) = true := by rw [hs]; simp [topCrit, Frame.crit]
    refine invL_gen hi t r (fun u => rfl) (fun k u _ h => made_of_uses hi h) ?_ ?_ ?_ ?_
    · intro k' u hu h
      show (if k' = k then _ else _) = _
      rw [if_neg (by rintro rfl; exact hu (hi.l.critu _ u t h hmine))]
    · exact rest_ok hi hs
    · intro k' h; rw [(rest_crit hi hs k').1] at h; cases h
    · intro k' _ hall
      show untagged (if k' = k then _ else _) = (if k' = k then _ else _)
      by_cases hk : k' = k
      · rw [if_pos hk]; exact ho.2.2
      · rw [if_neg hk]
        apply hi.l.lock
        intro u
        by_cases hu : u = t
        · subst hu; rw [hs]; simp [topCrit, Frame.crit]; exact Ne.symm hk
        · exact hall u hu
  | @put t k n v r hs =>
    have ho := hi.l.ok t
    rw [hs] at ho
    have hmine : topCrit k (s.stack t) = true := by rw [hs]; simp [topCrit, Frame.crit]
    have hun : untagged n = n := by
      by_cases h : n = 0
      · rw [h]; simp [untagged]
      · apply untagged_of_mem hi (o := .thread t)
        apply mem_of_need hi
        rw [hs]
        show 0 < borrow k (.set n) n + _
        rw [borrow, if_pos (.inr ⟨h, rfl⟩)]; omega
    have hx : ∀ s' : State T F, topOk s' (if v = 0 then r else .rel v :: r) := by
      intro s'; split
      · exact rest_ok hi hs
      · trivial
    refine invL_gen hi t (if v = 0 then r else .rel v :: r) (fun u => rfl) (fun k u _ h => made_of_uses hi h) ?_ ?_ ?_ ?_
    · intro k' u hu h
      show (if k' = k then _ else _) = _
      rw [if_neg (by rintro rfl; exact hu (hi.l.critu _ u t h hmine))]
    · exact hx _
    · intro k' h
      split at h
      · rw [(rest_crit hi hs k').1] at h; cases h
      · cases h
    · intro k' _ hall
      show untagged (if k' = k then _ else _) = (if k' = k then _ else _)
      by_cases hk : k' = k
      · rw [if_pos hk]; exact hun
      · rw [if_neg hk]
        apply hi.l.lock
        intro u
        by_cases hu : u = t
        · subst hu; rw [hs]; simp [topCrit, Frame.crit]; exact Ne.symm hk
        · exact hall u hu
  | @rel t a r hs =>
    refine invL_keep hi t (if s.cnt a = 1 then .relCheck a :: r else r) (fun u => rfl) (fun k u _ h => made_of_uses hi h) (fun _ => rfl) ?_ ?_
    · split
      · trivial
      · exact rest_ok hi hs
    · intro k
      rw [hs]
      split
      · rfl
      · rw [(rest_crit hi hs k).1]; rfl
  | @del t a r hs =>
    refine invL_keep hi t (.dtor a (s.fields a).reverse :: r) (fun u => rfl) (fun k u _ h => made_of_uses hi h) (fun _ => rfl) trivial ?_
    intro k; rw [hs]; rfl
  | @free t a r hs =>
    refine invL_keep hi t r (fun u => rfl) (fun k u _ h => made_of_uses hi h) (fun _ => rfl) (rest_ok hi hs) ?_
    intro k; rw [hs, (rest_crit hi hs k).1]; rfl
  | @killFree t f hs hm hu =>
    exact invL_killed hi hu (fun k' => by rw [hs]; rfl) (fun _ => rfl) (fun _ => trivial)
  | @killField t a f fs r hs =>
    have hmem : Frame.dtor a (f :: fs) ∈ s.stack t := by rw [hs]; exact List.mem_cons_self
    exact invL_killed hi (dying_idle hi hmem f) (fun k' => by rw [hs]; rfl) (fun _ => rfl) (fun _ => trivial)
  | @make0 t f hs hm =>
    have hno : ∀ u, topUses (none, f) (s.stack u) = false := by
      intro u
      cases hc : topUses (none, f) (s.stack u) with
      | false => rfl
      | true => rw [made_of_uses hi hc] at hm; cases hm
    refine invL_gen hi t (s.stack t) (fun u => ite_self_stack (s := s) u) ?_ ?_ ?_ ?_ ?_
    · intro k' u _ h
      show (if k' = _ then true else _) = true
      split
      · rfl
      · exact made_of_uses hi h
    · intro k' u _ h
      show (if k' = _ then _ else _) = _
      rw [if_neg (by rintro rfl; rw [not_crit_uses (hno u)] at h; cases h)]
    · show topOk _ (s.stack t)
      rw [hs]; trivial
    · intro k' h; rw [hs] at h; cases h
    · intro k' h hall
      show untagged (if k' = _ then _ else _) = (if k' = _ then _ else _)
      split
      · simp [untagged]
      · apply hi.l.lock
        intro u
        by_cases hu : u = t
        · subst hu; exact h
        · exact hall u hu
  | @makeN t f n hs hm hn =>
    have hno : ∀ u, topUses (none, f) (s.stack u) = false := by
      intro u
      cases hc : topUses (none, f) (s.stack u) with
      | false => rfl
      | true => rw [made_of_uses hi hc] at hm; cases hm
    refine invL_gen hi t (s.stack t) (fun u => ite_self_stack (s := s) u) ?_ ?_ ?_ ?_ ?_
    · intro k' u _ h
      show (if k' = _ then true else _) = true
      split
      · rfl
      · exact made_of_uses hi h
    · intro k' u _ h
      show (if k' = _ then _ else _) = _
      rw [if_neg (by rintro rfl; rw [not_crit_uses (hno u)] at h; cases h)]
    · show topOk _ (s.stack t)
      rw [hs]; trivial
    · intro k' h; rw [hs] at h; cases h
    · intro k' h hall
      show untagged (if k' = _ then _ else _) = (if k' = _ then _ else _)
      split
      · exact untagged_of_mem hi hn
      · apply hi.l.lock
        intro u
        by_cases hu : u = t
        · subst hu; exact h
        · exact hall u hu
  | @send t u a hs hm =>
    exact invL_keep hi t (s.stack t) (fun u => ite_self_stack (s := s) u) (fun k u _ h => made_of_uses hi h) (fun _ => rfl)
      ((hi.l.ok t).mono (fun k h => made_of_uses hi h) (fun _ _ => rfl)) (fun _ => rfl)
  | @create t a fs hs hl h0 h7 hnd =>
    have hmk : ∀ k u, topUses k (s.stack u) = true → (if k.1 = some a then decide (k.2 ∈ fs) else s.made k) = true := by
      rintro ⟨k1, k2⟩ u h
      have := made_of_uses hi h
      rw [if_neg]
      · exact this
      · rintro rfl
        rw [hi.m.free a k2 hl] at this
        cases this
    exact invL_keep hi t (s.stack t) (fun u => ite_self_stack (s := s) u) (fun k u _ h => hmk k u h) (fun _ => rfl)
      ((hi.l.ok t).mono (fun k h => hmk k t h) (fun _ _ => rfl)) (fun _ => rfl)

end Verif.AtomicRef.Graph
