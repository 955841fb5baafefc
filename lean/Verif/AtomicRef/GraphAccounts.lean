import Verif.AtomicRef.GraphEnds
/-!
# The books of the threads
-/
namespace Verif.AtomicRef.Graph
open Verif

set_option linter.unusedSectionVars false

variable {T F : Type} [DecidableEq T] [DecidableEq F]

/-- References in flight inside a call. -/
def Frame.pend (a : Word) : Frame F → Int
  | .chk1 _ j v | .chk2 _ j v _ | .store _ j v => if j.newval v = a then 1 else 0
  | .rel b => if b = a then 1 else 0
  | _ => 0

def topPend (a : Word) : List (Frame F) → Int
  | [] => 0
  | f :: _ => f.pend a

theorem count_cons_int (l : List (Owner T F × Word)) (x y : Owner T F × Word) :
    ((x :: l).count y : Int) = (if x = y then 1 else 0) + (l.count y : Int) := by
  rw [List.count_cons]; by_cases h : x = y <;> simp [h] ; omega

theorem count_erase_int {l : List (Owner T F × Word)} {x : Owner T F × Word} (hm : x ∈ l) (y : Owner T F × Word) :
    ((l.erase x).count y : Int) = (l.count y : Int) - (if x = y then 1 else 0) := by
  have := count_cons_int (l.erase x) x y
  rw [← (List.perm_cons_erase hm).count_eq] at this
  omega

theorem count_move_int {l : List (Owner T F × Word)} {o p : Owner T F} {a : Word} (h : (o, a) ∈ l) (x : Owner T F × Word) :
    ((move l o p a).count x : Int) = (l.count x : Int) - (if (o, a) = x then 1 else 0) + (if (p, a) = x then 1 else 0) := by
  rw [move, count_cons_int, count_erase_int h]; omega

theorem pend_rest {s : State T F} (hi : Inv s) {t : T} {f : Frame F} {r : List (Frame F)} (hs : s.stack t = f :: r) (a : Word) :
    topPend a r = 0 := by
  have hsh := shape_rest hi hs
  cases r with
  | nil => rfl
  | cons g r =>
    have := hsh g List.mem_cons_self
    cases g <;> simp only [Frame.isDtor, Bool.false_eq_true] at this
    rfl

/-- Both sides of the books after a step of thread `t`. -/
theorem acc_step {s : State T F} {t u : T} {a : Word} {B G G' : Int} {l : List (Frame F)} {tok : List (Owner T F × Word)} {d : Int}
    (ih : (s.tok.count (.thread u, a) : Int) = B + G + topPend a (s.stack u))
    (hd : (tok.count (.thread u, a) : Int) = s.tok.count (.thread u, a) + (if u = t then d else 0))
    (hg : G' = G + if u = t then d - topPend a l + topPend a (s.stack t) else 0) :
    (tok.count (.thread u, a) : Int) = B + G' + topPend a (if u = t then l else s.stack u) := by
  by_cases hu : u = t
  · subst hu
    rw [if_pos rfl] at *
    omega
  · rw [if_neg hu] at *
    omega

theorem cnt_same {tok : List (Owner T F × Word)} {u t : T} {a : Word} :
    (tok.count (.thread u, a) : Int) = tok.count (.thread u, a) + (if u = t then 0 else 0) := by split <;> omega

theorem acc_cont {s s' : State T F} (hi : Inv s) {t : T} {f : Frame F} {r : List (Frame F)} (hs : s.stack t = f :: r)
    (hc : cont s t f r = .ok s') (u : T) (a : Word) (h0 : a ≠ 0) (B : Int)
    (ih : (s.tok.count (.thread u, a) : Int) = B + gotten u a s.log + topPend a (s.stack u)) :
    (s'.tok.count (.thread u, a) : Int) = B + gotten u a s'.log + topPend a (s'.stack u) := by
  have h0' : ¬ ((0 : Word) = a) := fun e => h0 e.symm
  have ho := hi.l.ok t
  have hn := fun b => hi.r.need t b
  rw [hs] at ho
  simp only [hs] at hn
  have hpr := pend_rest hi hs a
  -- steps that change no reference of a thread
  have quiet : ∀ l : List (Frame F), topPend a l = f.pend a → s'.tok = s.tok → s'.log = s.log →
      s'.stack = (fun u => if u = t then l else s.stack u) →
      (s'.tok.count (.thread u, a) : Int) = B + gotten u a s'.log + topPend a (s'.stack u) := by
    intro l h1 h2 h3 h4
    rw [h2, h3, h4]
    refine acc_step (s := s) (d := 0) ih cnt_same ?_
    rw [h1, hs]; simp only [topPend]; split <;> omega
  cases f with
  | load k j =>
    rw [cont, touch_ok ho] at hc; injection hc with hc; subst hc
    exact quiet _ rfl rfl rfl rfl
  | cas k j old =>
    rw [cont, touch_ok ho.1] at hc
    split at hc <;> (injection hc with hc; subst hc; exact quiet _ rfl rfl rfl rfl)
  | add k j v =>
    rw [cont] at hc
    by_cases h : j.newval v = 0
    · rw [if_pos h] at hc; injection hc with hc; subst hc
      refine quiet _ ?_ rfl rfl rfl
      simp only [topPend, Frame.pend, h]; rw [if_neg h0']
    · rw [if_neg h] at hc
      obtain ⟨o, hm⟩ := newval_mem hi hs h
      rw [incr_ok _ (live_of_mem hi hm)] at hc
      injection hc with hc; subst hc
      refine acc_step (s := s) (d := if j.newval v = a then 1 else 0) ih ?_ ?_
      · show ((((Owner.thread t, j.newval v) :: s.tok).count _ : Nat) : Int) = _
        rw [count_cons_int]
        by_cases hu : u = t
        · subst hu; by_cases e : j.newval v = a <;> simp [e]; omega
        · simp [hu, Ne.symm hu]
      · rw [hs]; simp only [topPend, Frame.pend]
        show gotten u a s.log = _
        split <;> omega
  | chk1 k j v =>
    rw [cont, touch_ok ho.1] at hc; injection hc with hc; subst hc
    exact quiet _ rfl rfl rfl rfl
  | chk2 k j v w =>
    rw [cont, touch_ok ho.1] at hc
    split at hc; cases hc
    split at hc; cases hc
    injection hc with hc; subst hc
    exact quiet _ rfl rfl rfl rfl
  | store k j v =>
    cases j with
    | get =>
      rw [cont, touch_ok ho.1] at hc; injection hc with hc; subst hc
      refine acc_step (s := s) (d := 0) ih cnt_same ?_
      rw [hpr, hs]
      show (if (t, v) = (u, a) then 1 else 0) + gotten u a s.log = _
      simp only [topPend, Frame.pend, Job.newval]
      by_cases hu : u = t
      · subst hu; by_cases e : v = a <;> simp [e]; omega
      · simp [hu, Ne.symm hu]
    | set n =>
      rw [cont, touch_ok ho.1] at hc; injection hc with hc; subst hc
      have hnm : n ≠ 0 → (Owner.thread t, n) ∈ s.tok := by
        intro h
        refine mem_of_need hi ?_
        rw [hs]; simp only [topNeed, Frame.need, borrow]; rw [if_pos (.inr ⟨h, trivial⟩)]; omega
      have hvm : v ≠ 0 → (Owner.ref k, v) ∈ s.tok := by
        intro h
        exact mem_of_word hi h (by rw [ho.2.1, untagged_tagged]; exact ho.2.2)
      have h1 : ∀ x, (((if n = 0 then s.tok else move s.tok (.thread t) (.ref k) n).count x : Nat) : Int)
          = s.tok.count x - (if n ≠ 0 ∧ (Owner.thread t, n) = x then 1 else 0) + (if n ≠ 0 ∧ (Owner.ref k, n) = x then 1 else 0) := by
        intro x
        by_cases h : n = 0
        · simp [h]
        · rw [if_neg h, count_move_int (hnm h)]; simp only [ne_eq, h, not_false_eq_true, true_and]
      have hvm' : v ≠ 0 → (Owner.ref k, v) ∈ (if n = 0 then s.tok else move s.tok (.thread t) (.ref k) n) := by
        intro h
        by_cases h' : n = 0
        · rw [if_pos h']; exact hvm h
        · rw [if_neg h']
          exact List.mem_cons_of_mem _ ((List.mem_erase_of_ne (by intro e; cases e)).2 (hvm h))
      refine acc_step (s := s) (d := (if v = a then 1 else 0) - (if n = a then 1 else 0)) ih ?_ ?_
      · show ((List.count _ (if v = 0 then _ else move _ _ _ _) : Nat) : Int) = _
        by_cases hv : v = 0
        · rw [if_pos hv, h1]
          have e1 : ¬ (v = a) := by rw [hv]; exact h0'
          have e3 : (n ≠ 0 ∧ (Owner.thread (F := F) t, n) = (.thread u, a)) ↔ (u = t ∧ n = a) := by
            constructor
            · rintro ⟨_, e⟩; injection e with e e'; injection e with e; exact ⟨e.symm, e'⟩
            · rintro ⟨e, e'⟩; exact ⟨by rw [e']; exact h0, by rw [e, e']⟩
          have e4 : ¬ (n ≠ 0 ∧ (Owner.ref (T := T) k, n) = (.thread u, a)) := by rintro ⟨_, e⟩; cases e
          simp only [e3, e4, e1, if_false]
          by_cases hu : u = t <;> by_cases e : n = a <;> simp [hu, e] <;> omega
        · rw [if_neg hv, count_move_int (hvm' hv), h1]
          have e2 : ((Owner.ref (T := T) k, v) = (.thread u, a)) ↔ False := by constructor <;> intro e <;> cases e
          have e3 : (n ≠ 0 ∧ (Owner.thread (F := F) t, n) = (.thread u, a)) ↔ (u = t ∧ n = a) := by
            constructor
            · rintro ⟨_, e⟩; injection e with e e'; injection e with e; exact ⟨e.symm, e'⟩
            · rintro ⟨e, e'⟩; exact ⟨by rw [e']; exact h0, by rw [e, e']⟩
          have e4 : ¬ (n ≠ 0 ∧ (Owner.ref (T := T) k, n) = (.thread u, a)) := by rintro ⟨_, e⟩; cases e
          have e5 : ((Owner.thread (F := F) t, v) = (.thread u, a)) ↔ (u = t ∧ v = a) := by
            constructor
            · intro e; injection e with e e'; injection e with e; exact ⟨e.symm, e'⟩
            · rintro ⟨e, e'⟩; rw [e, e']
          simp only [e2, e3, e4, e5, if_false]
          by_cases hu : u = t <;> by_cases e : n = a <;> by_cases e' : v = a <;> simp [hu, e, e'] <;> omega
      · show gotten u a s.log = _
        have : topPend a (if v = 0 then r else Frame.rel v :: r) = if v = a then 1 else 0 := by
          by_cases hv : v = 0
          · rw [if_pos hv, hpr, if_neg (by rw [hv]; exact h0')]
          · rw [if_neg hv]; rfl
        rw [this, hs]
        simp only [topPend, Frame.pend, Job.newval]
        by_cases hu : u = t
        · rw [if_pos hu]; by_cases e : v = a <;> by_cases e' : n = a <;> simp only [e, e', if_true, if_false] <;> omega
        · rw [if_neg hu]; omega
  | rel b =>
    have := hn b
    simp only [topNeed, Frame.need, if_true] at this
    have hm : (Owner.thread t, b) ∈ s.tok := List.count_pos_iff.1 (by omega)
    rw [cont, if_neg (by simp [live_of_mem hi hm])] at hc
    injection hc with hc; subst hc
    refine acc_step (s := s) (d := - (if b = a then 1 else 0)) ih ?_ ?_
    · show (((s.tok.erase _).count _ : Nat) : Int) = _
      rw [count_erase_int hm]
      by_cases hu : u = t
      · subst hu; by_cases e : b = a <;> simp [e] <;> omega
      · simp [hu, Ne.symm hu]
    · show gotten u a s.log = _
      have : topPend a (if s.cnt b = 1 then Frame.relCheck b :: r else r) = 0 := by
        split
        · rfl
        · exact hpr
      rw [this, hs]; simp only [topPend, Frame.pend]
      split <;> omega
  | relCheck b =>
    rw [cont] at hc; split at hc; cases hc
    split at hc; cases hc
    injection hc with hc; subst hc
    exact quiet _ rfl rfl rfl rfl
  | relDelete b =>
    rw [cont] at hc; split at hc; cases hc
    injection hc with hc; subst hc
    exact quiet _ rfl rfl rfl rfl
  | dtor b fs =>
    have hmd : Frame.dtor b fs ∈ s.stack t := by rw [hs]; exact List.mem_cons_self
    have hd := hi.m.dtor t b fs hmd
    cases fs with
    | nil =>
      rw [cont] at hc; split at hc; cases hc
      injection hc with hc; subst hc
      exact quiet _ hpr rfl rfl rfl
    | cons f fs =>
      have hu := untag_word_of_idle hi (dying_idle hi hmd f)
      rw [cont, kill_ok t _ ((hd.2.2 f).2 List.mem_cons_self) hu] at hc
      injection hc with hc; subst hc
      unfold killed
      by_cases hz : s.word (some b, f) = 0
      · rw [if_pos hz]
        refine acc_step (s := s) (d := 0) ih cnt_same ?_
        show gotten u a s.log = _
        rw [hs]; simp only [topPend, Frame.pend]; split <;> omega
      · rw [if_neg hz]
        refine acc_step (s := s) (d := if s.word (some b, f) = a then 1 else 0) ih ?_ ?_
        · show (((move s.tok _ _ _).count _ : Nat) : Int) = _
          rw [count_move_int (mem_of_word hi hz hu), if_neg (by intro e; cases e)]
          by_cases hu : u = t
          · subst hu; by_cases e : s.word (some b, f) = a <;> simp [e]
          · simp [hu, Ne.symm hu]
        · show gotten u a s.log = _
          rw [hs]; simp only [topPend, Frame.pend]; split <;> omega

/-- The books balance: the references a thread owns are those of its books plus those in flight in its call. -/
theorem accounts {as : List (Act T F)} {s : State T F} (h : Run as s) (u : T) (a : Word) (h0 : a ≠ 0) :
    (s.tok.count (.thread u, a) : Int) = booked u a as + gotten u a s.log + topPend a (s.stack u) := by
  induction h with
  | start => simp [State.start, booked, gotten, topPend]
  | step hr ha hs ih =>
    rename_i as s s' act
    have hi := inv_run hr
    cases act with
    | make t f n =>
      simp only [step] at hs
      split at hs
      rotate_left; · cases hs
      injection hs with hx
      simp only [make, incr] at hx
      repeat' split at hx
      all_goals cases hx
      · exact ih
      · show ((List.count _ (_ :: s.tok) : Nat) : Int) = booked u a as + gotten u a s.log + topPend a (s.stack u)
        rw [count_cons_int, if_neg (by intro e; cases e), ih]; omega
    | destroy t f =>
      simp only [step] at hs
      split at hs
      rotate_left; · cases hs
      rename_i hp
      injection hs with hx
      have huses := fun x => topUses_of_any (ha x)
      have hu := untag_word_of_idle hi huses
      rw [kill_ok t [] hp.2 hu] at hx
      injection hx with hx; subst hx
      unfold killed
      by_cases hz : s.word (none, f) = 0
      · rw [if_pos hz]
        refine acc_step (s := s) (d := 0) ih cnt_same ?_
        show gotten u a s.log = _
        rw [hp.1]; simp only [topPend]; split <;> omega
      · rw [if_neg hz]
        refine acc_step (s := s) (d := if s.word (none, f) = a then 1 else 0) ih ?_ ?_
        · show (((move s.tok _ _ _).count _ : Nat) : Int) = _
          rw [count_move_int (mem_of_word hi hz hu), if_neg (by intro e; cases e)]
          by_cases hu : u = t
          · subst hu; by_cases e : s.word (none, f) = a <;> simp [e]
          · simp [hu, Ne.symm hu]
        · show gotten u a s.log = _
          rw [hp.1]; simp only [topPend, Frame.pend]; split <;> omega
    | get t k =>
      simp only [step] at hs
      split at hs <;> cases hs
      rename_i hp
      refine acc_step (s := s) (d := 0) ih cnt_same ?_
      show gotten u a s.log = _
      rw [hp.1]; simp only [topPend, Frame.pend]; split <;> omega
    | set t k n =>
      simp only [step] at hs
      split at hs <;> cases hs
      rename_i hp
      refine acc_step (s := s) (d := 0) ih cnt_same ?_
      show gotten u a s.log = _
      rw [hp.1]; simp only [topPend, Frame.pend]; split <;> omega
    | release t b =>
      simp only [step] at hs
      split at hs <;> cases hs
      rename_i hp
      show (s.tok.count _ : Int) = (- (if (t, b) = (u, a) then 1 else 0) + booked u a as) + gotten u a s.log + topPend a (if u = t then [.rel b] else s.stack u)
      by_cases hu : u = t
      · subst hu; rw [hp.1] at ih; rw [if_pos rfl]; simp only [topPend, Frame.pend, Prod.mk.injEq, true_and] at ih ⊢; omega
      · rw [if_neg hu, if_neg (by intro e; injection e with e _; exact hu e.symm)]; omega
    | addRef t b =>
      simp only [step] at hs
      split at hs
      rotate_left; · cases hs
      injection hs with hx
      simp only [incr] at hx
      split at hx <;> cases hx
      show ((List.count _ (_ :: s.tok) : Nat) : Int) = ((if (t, b) = (u, a) then 1 else 0) + booked u a as) + gotten u a s.log + topPend a (s.stack u)
      rw [count_cons_int, ih]
      by_cases e : (t, b) = (u, a)
      · have e' := e; injection e' with e1 e2; subst e1; subst e2; simp only [if_true]; omega
      · rw [if_neg e, if_neg (by intro e'; injection e' with e1 e2; injection e1 with e1; exact e (by rw [e1, e2]))]; omega
    | use t b =>
      simp only [step] at hs
      split at hs
      rotate_left; · cases hs
      injection hs with hx
      split at hx <;> cases hx
      exact ih
    | send t w b =>
      simp only [step] at hs
      split at hs <;> cases hs
      rename_i hp
      show ((List.count _ (move s.tok _ _ _) : Nat) : Int) = ((if (w, b) = (u, a) then 1 else 0) - (if (t, b) = (u, a) then 1 else 0) + booked u a as) + gotten u a s.log + topPend a (s.stack u)
      have hk : ∀ t : T, (if (Owner.thread (F := F) t, b) = (.thread u, a) then (1 : Int) else 0) = if (t, b) = (u, a) then 1 else 0 := by
        intro t
        by_cases e : (t, b) = (u, a)
        · have e' := e; injection e' with e1 e2; subst e1; subst e2; simp only [if_true]
        · rw [if_neg e, if_neg (by intro e'; injection e' with e1 e2; injection e1 with e1; exact e (by rw [e1, e2]))]
      rw [count_move_int hp.2, ih, hk, hk]; omega
    | create t b fs =>
      simp only [step] at hs
      split at hs <;> cases hs
      show ((List.count _ (_ :: s.tok) : Nat) : Int) = ((if (t, b) = (u, a) then 1 else 0) + booked u a as) + gotten u a s.log + topPend a (s.stack u)
      rw [count_cons_int, ih]
      by_cases e : (t, b) = (u, a)
      · have e' := e; injection e' with e1 e2; subst e1; subst e2; simp only [if_true]; omega
      · rw [if_neg e, if_neg (by intro e'; injection e' with e1 e2; injection e1 with e1; exact e (by rw [e1, e2]))]; omega
    | stale t w =>
      simp only [step] at hs
      show (_ : Int) = booked u a as + _ + _
      have ho := hi.l.ok t
      unfold stale at hs
      split at hs
      · rename_i k j r hst
        rw [hst] at ho
        rw [touch_ok ho] at hs
        cases hs
        refine acc_step (s := s) (d := 0) ih cnt_same ?_
        show gotten u a s.log = _
        rw [hst]; simp only [topPend, Frame.pend]; split <;> omega
      · rename_i k j old r hst
        rw [hst] at ho
        split at hs; cases hs
        rw [touch_ok ho.1] at hs
        cases hs
        refine acc_step (s := s) (d := 0) ih cnt_same ?_
        show gotten u a s.log = _
        rw [hst]; simp only [topPend, Frame.pend]; split <;> omega
      · cases hs
    | cont t =>
      simp only [step] at hs
      split at hs
      · cases hs
      · rename_i f r hst
        injection hs with hs
        exact acc_cont hi hst hs u a h0 (booked u a as) ih

/-- Counting by owner. -/
theorem countP_owners (os : List (Owner T F)) (hn : os.Nodup) (a : Word) (l : List (Owner T F × Word))
    (ha : ∀ o, (o, a) ∈ l → o ∈ os) :
    (l.countP (fun p => decide (p.2 = a)) : Int) = (os.map fun o => (l.count (o, a) : Int)).sum := by
  induction l with
  | nil =>
    have : ∀ l : List (Owner T F), (l.map fun _ => (0 : Int)).sum = 0 := by
      intro l; induction l with
      | nil => rfl
      | cons t l ih => simp [ih]
    simpa using (this os).symm
  | cons x l ih =>
    have key : ∀ (f : Owner T F → Int) (ts : List (Owner T F)), ts.Nodup →
        (ts.map fun t => ((if x = (t, a) then 1 else 0 : Int) + f t)).sum
          = (if x.2 = a ∧ x.1 ∈ ts then 1 else 0) + (ts.map f).sum := by
      intro f ts
      induction ts with
      | nil => simp
      | cons t ts ih =>
        intro hn
        have hn' := List.nodup_cons.1 hn
        simp only [List.map_cons, List.sum_cons, ih hn'.2, List.mem_cons]
        obtain ⟨x1, x2⟩ := x
        by_cases h2 : x2 = a
        · by_cases h1 : x1 = t
          · subst h1; simp [h2, hn'.1]; omega
          · simp [h1, h2]; omega
        · simp [h2]
    simp only [count_cons_int]
    rw [key _ os hn, List.countP_cons, ← ih (fun o ho => ha o (List.mem_cons_of_mem _ ho))]
    by_cases h : x.2 = a
    · have : x.1 ∈ os := ha x.1 (by rw [← h]; exact List.mem_cons_self)
      simp [h, this]; omega
    · simp [h]

end Verif.AtomicRef.Graph
