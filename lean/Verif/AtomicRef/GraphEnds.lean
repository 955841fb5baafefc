import Verif.AtomicRef.GraphInvR
/-!
# Calls end: `Release`, destructor chains and unlocked calls finish on their own
-/
namespace Verif.AtomicRef.Graph
open Verif

set_option linter.unusedSectionVars false

variable {T F : Type} [DecidableEq T] [DecidableEq F]

/-- `n` steps of thread `t` lead from `s` to `s'`. -/
inductive Alone (t : T) : Nat → State T F → State T F → Prop where
  | done (s) : Alone t 0 s s
  | step {n s s' s''} : step s (.cont t) = some (.ok s') → Alone t n s' s'' → Alone t (n + 1) s s''

/-- Thread `t` spins for the lock of an `AtomicRef` that is locked. -/
def Waits (s : State T F) (t : T) : Prop :=
  ∃ k j r, (s.stack t = .load k j :: r ∨ ∃ old, s.stack t = .cas k j old :: r) ∧ untagged (s.word k) ≠ s.word k

/-- How far the topmost frame is from leaving its `AtomicRef`. -/
def phase (s : State T F) : List (Frame F) → Nat
  | .cas k _ old :: _ => if s.word k = old then 5 else 7
  | .load .. :: _ => 6
  | .add .. :: _ => 4
  | .chk1 .. :: _ => 3
  | .chk2 .. :: _ => 2
  | .store .. :: _ => 1
  | _ => 0

/-- Steps of a frame that need no further `Release`. -/
def weight (fields : Word → List F) : Frame F → Nat
  | .relCheck a => 2 * (fields a).length + 3
  | .relDelete a => 2 * (fields a).length + 2
  | .dtor _ fs => 2 * fs.length + 1
  | .rel _ => 1
  | _ => 0

def stackW (fields : Word → List F) (l : List (Frame F)) : Nat := (l.map (weight fields)).sum

/-- The step brings the thread nearer to the end of its call. -/
def Nearer (s s' : State T F) (t : T) : Prop :=
  phase s' (s'.stack t) < phase s (s.stack t) ∨ (phase s' (s'.stack t) = 0 ∧ phase s (s.stack t) = 0 ∧
    (s'.tok.length < s.tok.length ∨ (s'.tok.length = s.tok.length ∧
      stackW s'.fields (s'.stack t) < stackW s.fields (s.stack t))))

theorem move_length {l : List (Owner T F × Word)} {o p : Owner T F} {a : Word} (h : (o, a) ∈ l) : (move l o p a).length = l.length := by
  rw [move, List.length_cons, List.length_erase_of_mem h]
  have := List.length_pos_of_mem h
  omega

theorem stack_setStack (s : State T F) (t : T) (l : List (Frame F)) : (setStack s t l).stack t = l := by simp [setStack]

theorem phase_rest {s s' : State T F} (hi : Inv s) {t : T} {f : Frame F} {r : List (Frame F)} (hs : s.stack t = f :: r) : phase s' r = 0 := by
  have hsh := shape_rest hi hs
  cases r with
  | nil => rfl
  | cons g r =>
    have := hsh g List.mem_cons_self
    cases g <;> simp only [Frame.isDtor, Bool.false_eq_true] at this
    rfl

theorem not_waits_of_phase {s : State T F} {t : T} (h : phase s (s.stack t) < 5) : ¬ Waits s t := by
  rintro ⟨k, j, r, hs | ⟨old, hs⟩, -⟩
  · rw [hs] at h; simp [phase] at h
  · rw [hs] at h; simp only [phase] at h; split at h <;> omega

theorem cont_nearer {s : State T F} (hi : Inv s) {t : T} {f : Frame F} {r : List (Frame F)} (hs : s.stack t = f :: r)
    (hw : ¬ Waits s t) {s' : State T F} (hc : cont s t f r = .ok s') : Nearer s s' t ∧ ¬ Waits s' t := by
  have ho := hi.l.ok t
  have hn := fun b => hi.r.need t b
  rw [hs] at ho
  simp only [hs] at hn
  have hpr : ∀ s' : State T F, phase s' r = 0 := fun s' => phase_rest hi hs
  -- a step to a lower phase below 5
  have low : ∀ s', phase s' (s'.stack t) < phase s (s.stack t) → phase s' (s'.stack t) < 5 → Nearer s s' t ∧ ¬ Waits s' t :=
    fun s' h h5 => ⟨.inl h, not_waits_of_phase h5⟩
  cases f with
  | load k j =>
    rw [cont, touch_ok ho] at hc
    injection hc with hc; subst hc
    have hu : untagged (s.word k) = s.word k := Classical.byContradiction fun h => hw ⟨k, j, r, .inl hs, h⟩
    refine ⟨.inl ?_, ?_⟩
    · rw [stack_setStack, hs]
      show (if (s.word k) = untagged (s.word k) then 5 else 7) < 6
      rw [if_pos hu.symm]; omega
    · rintro ⟨k', j', r', h | ⟨old, h⟩, hne⟩
      · rw [stack_setStack] at h; cases h
      · rw [stack_setStack] at h; injection h with h _; injection h with h _ _; subst h; exact hne hu
  | cas k j old =>
    rw [cont, touch_ok ho.1] at hc
    have hu : untagged (s.word k) = s.word k := Classical.byContradiction fun h => hw ⟨k, j, r, .inr ⟨old, hs⟩, h⟩
    by_cases h : s.word k = old
    · rw [if_pos h] at hc
      injection hc with hc; subst hc
      refine low _ ?_ ?_
      · rw [stack_setStack, hs]; show 4 < if _ then _ else _; rw [if_pos h]; omega
      · rw [stack_setStack]; show 4 < 5; omega
    · rw [if_neg h] at hc
      injection hc with hc; subst hc
      refine ⟨.inl ?_, ?_⟩
      · rw [stack_setStack, hs]; show 6 < if _ then _ else _; rw [if_neg h]; omega
      · rintro ⟨k', j', r', h | ⟨old, h⟩, hne⟩
        · rw [stack_setStack] at h; injection h with h _; injection h with h _; subst h; exact hne hu
        · rw [stack_setStack] at h; cases h
  | add k j v =>
    rw [cont] at hc
    by_cases h : j.newval v = 0
    · rw [if_pos h] at hc
      injection hc with hc; subst hc
      exact low _ (by rw [stack_setStack, hs]; show 3 < 4; omega) (by rw [stack_setStack]; show 3 < 5; omega)
    · rw [if_neg h] at hc
      obtain ⟨o, hm⟩ := newval_mem hi hs h
      rw [incr_ok _ (live_of_mem hi hm)] at hc
      injection hc with hc; subst hc
      exact low _ (by rw [stack_setStack, hs]; show 3 < 4; omega) (by rw [stack_setStack]; show 3 < 5; omega)
  | chk1 k j v =>
    rw [cont, touch_ok ho.1] at hc
    injection hc with hc; subst hc
    exact low _ (by rw [stack_setStack, hs]; show 2 < 3; omega) (by rw [stack_setStack]; show 2 < 5; omega)
  | chk2 k j v w =>
    rw [cont, touch_ok ho.1] at hc
    split at hc; cases hc
    split at hc; cases hc
    injection hc with hc; subst hc
    exact low _ (by rw [stack_setStack, hs]; show 1 < 2; omega) (by rw [stack_setStack]; show 1 < 5; omega)
  | store k j v =>
    cases j with
    | get =>
      rw [cont, touch_ok ho.1] at hc
      injection hc with hc; subst hc
      exact low _ (by rw [stack_setStack, hs, hpr]; show 0 < 1; omega) (by rw [stack_setStack, hpr]; omega)
    | set n =>
      rw [cont, touch_ok ho.1] at hc
      injection hc with hc; subst hc
      have : ∀ s' : State T F, phase s' (if v = 0 then r else .rel v :: r) = 0 := by
        intro s'; split
        · exact hpr s'
        · rfl
      exact low _ (by rw [stack_setStack, hs, this]; show 0 < 1; omega) (by rw [stack_setStack, this]; omega)
  | rel a =>
    have := hn a
    simp only [topNeed, Frame.need, if_true] at this
    have hm : (Owner.thread t, a) ∈ s.tok := List.count_pos_iff.1 (by omega)
    rw [cont, if_neg (by simp [live_of_mem hi hm])] at hc
    injection hc with hc; subst hc
    have hp : ∀ s' : State T F, phase s' (if s.cnt a = 1 then .relCheck a :: r else r) = 0 := by
      intro s'; split
      · rfl
      · exact hpr s'
    refine ⟨.inr ⟨by rw [stack_setStack, hp], by rw [hs]; rfl, .inl ?_⟩, not_waits_of_phase (by rw [stack_setStack, hp]; omega)⟩
    show (s.tok.erase _).length < _
    rw [List.length_erase_of_mem hm]
    have := List.length_pos_of_mem hm
    omega
  | relCheck a =>
    have := hi.o.del t a (by rw [hs]; rfl)
    rw [cont, if_neg (by simp [this.1]), if_neg (by rw [hi.o.cnt a this.1, this.2]; simp)] at hc
    injection hc with hc; subst hc
    refine ⟨.inr ⟨by rw [stack_setStack]; rfl, by rw [hs]; rfl, .inr ⟨rfl, ?_⟩⟩, not_waits_of_phase (by rw [stack_setStack]; show 0 < 5; omega)⟩
    rw [stack_setStack, hs]
    show stackW s.fields _ < _
    simp only [stackW, weight, List.map_cons, List.sum_cons]; omega
  | relDelete a =>
    have := hi.o.del t a (by rw [hs]; rfl)
    rw [cont, if_neg (by simp [this.1])] at hc
    injection hc with hc; subst hc
    refine ⟨.inr ⟨by rw [stack_setStack]; rfl, by rw [hs]; rfl, .inr ⟨rfl, ?_⟩⟩, not_waits_of_phase (by rw [stack_setStack]; show 0 < 5; omega)⟩
    rw [stack_setStack, hs]
    show stackW s.fields _ < _
    simp only [stackW, weight, List.map_cons, List.sum_cons, List.length_reverse]; omega
  | dtor a fs =>
    have hm : Frame.dtor a fs ∈ s.stack t := by rw [hs]; exact List.mem_cons_self
    have hd := hi.m.dtor t a fs hm
    cases fs with
    | nil =>
      rw [cont, if_neg (by simp [hd.1])] at hc
      injection hc with hc; subst hc
      refine ⟨.inr ⟨by rw [stack_setStack, hpr], by rw [hs]; rfl, .inr ⟨rfl, ?_⟩⟩, not_waits_of_phase (by rw [stack_setStack, hpr]; omega)⟩
      rw [stack_setStack, hs]
      show stackW s.fields _ < _
      simp only [stackW, weight, List.map_cons, List.sum_cons]; omega
    | cons f fs =>
      have hu := untag_word_of_idle hi (dying_idle hi hm f)
      rw [cont, kill_ok t _ ((hd.2.2 f).2 List.mem_cons_self) hu] at hc
      injection hc with hc; subst hc
      unfold killed
      by_cases h0 : s.word (some a, f) = 0
      · rw [if_pos h0]
        refine ⟨.inr ⟨by rw [stack_setStack]; rfl, by rw [hs]; rfl, .inr ⟨rfl, ?_⟩⟩, not_waits_of_phase (by rw [stack_setStack]; show 0 < 5; omega)⟩
        rw [stack_setStack, hs]
        show stackW s.fields _ < _
        simp only [stackW, weight, List.map_cons, List.sum_cons, List.length_cons]; omega
      · rw [if_neg h0]
        refine ⟨.inr ⟨by rw [stack_setStack]; rfl, by rw [hs]; rfl, .inr ⟨?_, ?_⟩⟩, not_waits_of_phase (by rw [stack_setStack]; show 0 < 5; omega)⟩
        · show (move s.tok _ _ _).length = _
          exact move_length (mem_of_word hi h0 hu)
        · rw [stack_setStack, hs]
          show stackW s.fields _ < _
          simp only [stackW, weight, List.map_cons, List.sum_cons, List.length_cons]; omega

/-- Steps of one thread leave the stacks of the others alone. -/
theorem cont_other {s s' : State T F} {t : T} {f : Frame F} {r : List (Frame F)} (hi : Inv s) (hs : s.stack t = f :: r)
    (hc : cont s t f r = .ok s') {u : T} (hu : u ≠ t) : s'.stack u = s.stack u := by
  obtain ⟨s'', e, ht⟩ := cont_trans hi hs
  have key : ∀ (x : State T F) (l : List (Frame F)), (setStack x t l).stack u = x.stack u := by
    intro x l; simp [setStack, hu]
  rw [e] at hc
  injection hc with hc; subst hc
  clear ht
  have ho := hi.l.ok t
  rw [hs] at ho
  cases f with
  | load k j => rw [cont, touch_ok ho] at e; injection e with e; subst e; exact key _ _
  | cas k j old =>
    rw [cont, touch_ok ho.1] at e
    split at e <;> (injection e with e; subst e; exact key _ _)
  | add k j v =>
    rw [cont] at e
    by_cases h : j.newval v = 0
    · rw [if_pos h] at e; injection e with e; subst e; exact key _ _
    · rw [if_neg h] at e
      obtain ⟨o, hm⟩ := newval_mem hi hs h
      rw [incr_ok _ (live_of_mem hi hm)] at e
      injection e with e; subst e; exact key _ _
  | chk1 k j v => rw [cont, touch_ok ho.1] at e; injection e with e; subst e; exact key _ _
  | chk2 k j v w =>
    rw [cont, touch_ok ho.1] at e
    split at e; cases e
    split at e; cases e
    injection e with e; subst e; exact key _ _
  | store k j v =>
    cases j <;> rw [cont, touch_ok ho.1] at e <;> (injection e with e; subst e; exact key _ _)
  | rel a =>
    rw [cont] at e; split at e; cases e
    injection e with e; subst e; exact key _ _
  | relCheck a =>
    rw [cont] at e; split at e; cases e
    split at e; cases e
    injection e with e; subst e; exact key _ _
  | relDelete a =>
    rw [cont] at e; split at e; cases e
    injection e with e; subst e; exact key _ _
  | dtor a fs =>
    cases fs with
    | nil =>
      rw [cont] at e; split at e; cases e
      injection e with e; subst e; exact key _ _
    | cons f fs =>
      rw [cont, destroy] at e
      split at e; cases e
      split at e; cases e
      simp only [] at e
      split at e <;> (injection e with e; subst e; exact key _ _)

theorem ends_aux {t : T} : ∀ (p n w : Nat) (s : State T F), Inv s → ¬ Waits s t → phase s (s.stack t) = p →
    (p = 0 → s.tok.length = n) → (p = 0 → stackW s.fields (s.stack t) = w) →
    ∃ m s', Alone t m s s' ∧ s'.stack t = [] ∧ Inv s' ∧ ∀ u, u ≠ t → s'.stack u = s.stack u := by
  intro p
  induction p using Nat.strongRecOn with
  | _ p ihp =>
    intro n
    induction n using Nat.strongRecOn with
    | _ n ihn =>
      intro w
      induction w using Nat.strongRecOn with
      | _ w ihw =>
        intro s hi hw hp hn hww
        cases hs : s.stack t with
        | nil => exact ⟨0, s, .done s, hs, hi, fun _ _ => rfl⟩
        | cons f r =>
          obtain ⟨s', hc, ht⟩ := cont_trans hi hs
          have hi' := inv_trans hi ht
          obtain ⟨hnr, hw'⟩ := cont_nearer hi hs hw hc
          have hstep : step s (.cont t) = some (.ok s') := by simp only [step, hs, hc]
          have : ∃ m s'', Alone t m s' s'' ∧ s''.stack t = [] ∧ Inv s'' ∧ ∀ u, u ≠ t → s''.stack u = s'.stack u := by
            rcases hnr with h | ⟨h0', h0, h | ⟨he, h⟩⟩
            · exact ihp _ (hp ▸ h) s'.tok.length (stackW s'.fields (s'.stack t)) s' hi' hw' rfl (fun _ => rfl) (fun _ => rfl)
            · have hp0 : p = 0 := hp ▸ h0
              exact ihn _ (hn hp0 ▸ h) (stackW s'.fields (s'.stack t)) s' hi' hw' (by rw [h0', hp0]) (fun _ => rfl) (fun _ => rfl)
            · have hp0 : p = 0 := hp ▸ h0
              exact ihw _ (hww hp0 ▸ h) s' hi' hw' (by rw [h0', hp0]) (fun _ => by rw [he]; exact hn hp0) (fun _ => rfl)
          obtain ⟨m, s'', ha, hst, hi'', hoth⟩ := this
          exact ⟨m + 1, s'', .step hstep ha, hst, hi'', fun u hu => (hoth u hu).trans (cont_other hi hs hc hu)⟩

theorem ends {s : State T F} {t : T} (hi : Inv s) (hw : ¬ Waits s t) :
    ∃ m s', Alone t m s s' ∧ s'.stack t = [] ∧ Inv s' ∧ ∀ u, u ≠ t → s'.stack u = s.stack u :=
  ends_aux _ _ _ s hi hw rfl (fun _ => rfl) (fun _ => rfl)

/-- Whoever holds a lock does not spin. -/
theorem holder {s : State T F} (hi : Inv s) {k : Key F} (h : untagged (s.word k) ≠ s.word k) :
    ∃ u, topCrit k (s.stack u) = true ∧ ¬ Waits s u := by
  have : ∃ u, topCrit k (s.stack u) = true := by
    apply Classical.byContradiction
    intro hn
    exact h (hi.l.lock k (fun t => by
      cases hc : topCrit k (s.stack t) with
      | false => rfl
      | true => exact (hn ⟨t, hc⟩).elim))
  obtain ⟨u, hu⟩ := this
  refine ⟨u, hu, not_waits_of_phase ?_⟩
  cases hs : s.stack u with
  | nil => rw [hs] at hu; cases hu
  | cons f r =>
    rw [hs] at hu
    cases f <;> simp only [topCrit, Frame.crit, Bool.false_eq_true] at hu <;> simp [phase]

/-- Steps of any threads inside their calls. -/
inductive Steps : State T F → State T F → Prop where
  | done (s) : Steps s s
  | step {s s' s''} (t : T) : step s (.cont t) = some (.ok s') → Steps s' s'' → Steps s s''

theorem Steps.trans {s s' s'' : State T F} (h : Steps s s') (h' : Steps s' s'') : Steps s s'' := by
  induction h with
  | done => exact h'
  | step t h _ ih => exact .step t h (ih h')

theorem Alone.steps {t : T} {n : Nat} {s s' : State T F} (h : Alone t n s s') : Steps s s' := by
  induction h with
  | done => exact .done _
  | step h _ ih => exact .step _ h ih

/-- Any thread can be brought to the end of its call, and those that are idle stay so. -/
theorem finish_one {s : State T F} (hi : Inv s) (t : T) :
    ∃ s', Steps s s' ∧ Inv s' ∧ s'.stack t = [] ∧ ∀ u, s.stack u = [] → s'.stack u = [] := by
  by_cases hw : Waits s t
  · obtain ⟨k, j, r, hs, hl⟩ := hw
    obtain ⟨u, hu, hwu⟩ := holder hi hl
    obtain ⟨m, s1, ha, hst, hi1, hoth⟩ := ends hi hwu
    have htu : t ≠ u := by
      rintro rfl
      rcases hs with h | ⟨old, h⟩ <;> rw [h] at hu <;> cases hu
    have hk1 : untagged (s1.word k) = s1.word k := by
      apply hi1.l.lock k
      intro x
      by_cases hx : x = u
      · rw [hx, hst]; rfl
      · rw [hoth x hx]
        cases hc : topCrit k (s.stack x) with
        | false => rfl
        | true => exact (hx (hi.l.critu k x u hc hu)).elim
    have hw1 : ¬ Waits s1 t := by
      rintro ⟨k', j', r', hs', hl'⟩
      rw [hoth t htu] at hs'
      have : k' = k := by
        rcases hs with h | ⟨_, h⟩ <;> rcases hs' with h' | ⟨_, h'⟩ <;> rw [h] at h' <;>
          first | (cases h'; done) | (cases h'; rfl)
      rw [this] at hl'; exact hl' hk1
    obtain ⟨m2, s2, ha2, hst2, hi2, hoth2⟩ := ends hi1 hw1
    refine ⟨s2, ha.steps.trans ha2.steps, hi2, hst2, ?_⟩
    intro x hx
    by_cases hxt : x = t
    · rw [hxt]; exact hst2
    · rw [hoth2 x hxt]
      by_cases hxu : x = u
      · rw [hxu]; exact hst
      · rw [hoth x hxu]; exact hx
  · obtain ⟨m, s1, ha, hst, hi1, hoth⟩ := ends hi hw
    refine ⟨s1, ha.steps, hi1, hst, ?_⟩
    intro x hx
    by_cases hxt : x = t
    · rw [hxt]; exact hst
    · rw [hoth x hxt]; exact hx

theorem finish_all : ∀ (ts : List T) (s : State T F), Inv s →
    ∃ s', Steps s s' ∧ Inv s' ∧ (∀ t ∈ ts, s'.stack t = []) ∧ ∀ u, s.stack u = [] → s'.stack u = []
  | [], s, hi => ⟨s, .done s, hi, by intro t h; simp at h, fun _ h => h⟩
  | t :: ts, s, hi => by
    obtain ⟨s1, h1, hi1, ht1, hk1⟩ := finish_one hi t
    obtain ⟨s2, h2, hi2, ht2, hk2⟩ := finish_all ts s1 hi1
    refine ⟨s2, h1.trans h2, hi2, ?_, fun u hu => hk2 u (hk1 u hu)⟩
    intro x hx
    rcases List.mem_cons.1 hx with rfl | hx
    · exact hk2 _ ht1
    · exact ht2 x hx

end Verif.AtomicRef.Graph
