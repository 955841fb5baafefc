import Verif.ThreadLocal.SpecWeak
import Verif.ThreadLocal.Lemmas
/-!
# Lemmas: `ke::ThreadLocal` without sequential consistency
-/
namespace Verif.ThreadLocal
open Verif
set_option linter.unusedSimpArgs false
variable {T A : Type} [DecidableEq T]

/-- Every step is a step of the sequentially consistent machine, or a call that begins by reading the old `allocated_`. -/
theorem wstep_base {create : Nat → Bool} {dflt : A} {w w' : WState T A} (a : WAct T A) (h : wstep create dflt w a = .ok w') :
    run create dflt a.sc w.base = .ok w'.base ∨
    ∃ t, w.flag t = false ∧ w.base.pc t = .idle ∧ w'.flag = w.flag ∧ w'.keyk = w.keyk ∧
      (w'.base = w.base.done t (.got t dflt) ∨ ∃ v, w'.base = w.base.goto t (.setCas v)) := by
  cases a with
  | sync t u => left; simp only [wstep] at h; cases h; rfl
  | begin t o stale =>
    simp only [wstep] at h
    cases h
    cases hp : w.base.pc t <;> try (left; simp [WAct.sc, run, step, State.begin, WState.begin, hp, bind, Except.bind]; done)
    cases o with
    | get =>
      by_cases hs : (stale && !w.flag t) = true
      · right
        simp only [Bool.and_eq_true, Bool.not_eq_true'] at hs
        exact ⟨t, hs.2, hp, by simp [WState.begin, hp, WState.readFlag, hs], by simp [WState.begin, hp, WState.readFlag, hs],
          .inl (by simp [WState.begin, hp, WState.readFlag, hs])⟩
      · left
        simp only [WAct.sc, run, step, State.begin, WState.begin, hp, WState.readFlag, hs, bind, Except.bind]
        cases w.base.allocated <;> rfl
    | set v =>
      by_cases hs : (stale && !w.flag t) = true
      · right
        simp only [Bool.and_eq_true, Bool.not_eq_true'] at hs
        exact ⟨t, hs.2, hp, by simp [WState.begin, hp, WState.readFlag, hs], by simp [WState.begin, hp, WState.readFlag, hs],
          .inr ⟨v, by simp [WState.begin, hp, WState.readFlag, hs]⟩⟩
      · left
        simp only [WAct.sc, run, step, State.begin, WState.begin, hp, WState.readFlag, hs, bind, Except.bind]
        cases w.base.allocated <;> rfl
    | allocate =>
      left
      simp only [WAct.sc, run, step, State.begin, WState.begin, hp, bind, Except.bind]
      cases w.base.allocated <;> rfl
  | cont t stale =>
    left
    simp only [wstep] at h
    simp only [WAct.sc, run, step, bind, Except.bind]
    unfold WState.cont at h
    unfold State.cont
    cases hp : w.base.pc t with
    | idle => rw [hp] at h; cases h; rfl
    | getUse =>
      rw [hp] at h
      simp only [WState.readKey] at h ⊢
      by_cases hs : (stale && !w.keyk t) = true
      · rw [if_pos hs] at h; cases h
      · rw [if_neg hs] at h
        cases hk : w.base.key with
        | none => rw [hk] at h; cases h
        | some k => rw [hk] at h; cases h; rfl
    | setCas v =>
      rw [hp] at h
      simp only at h ⊢
      cases ha : w.base.allocated <;> rw [ha] at h <;> cases h <;> rfl
    | setCreate v =>
      rw [hp] at h
      simp only at h ⊢
      cases hc : w.base.createKey create dflt with
      | mk b s1 =>
        rw [hc] at h
        cases b with
        | true => cases h; rfl
        | false => cases h
    | setUse v =>
      rw [hp] at h
      simp only [WState.readKey] at h ⊢
      by_cases hs : (stale && !w.keyk t) = true
      · rw [if_pos hs] at h; cases h
      · rw [if_neg hs] at h
        cases hk : w.base.key with
        | none => rw [hk] at h; cases h
        | some k => rw [hk] at h; cases h; rfl
    | allocCreate =>
      rw [hp] at h
      simp only at h ⊢
      cases hc : w.base.createKey create dflt with
      | mk b s1 => rw [hc] at h; cases h; rfl

/-- What the threads' knowledge says. -/
structure Know (create : Nat → Bool) (dflt : A) (w : WState T A) : Prop where
  unset : ∀ t, w.flag t = false → lastSet dflt t w.base.log = dflt ∧ (w.base.pc t).using = false ∧ (w.base.pc t).creating = false
  key : ∀ t, w.keyk t = true → w.base.key ≠ none ∨ ∃ j, create j = false

theorem know_start (create : Nat → Bool) (dflt : A) : Know create dflt (WState.start dflt : WState T A) :=
  ⟨fun _ _ => ⟨rfl, rfl, rfl⟩, fun _ h => by simp [WState.start] at h⟩

theorem createKey_eq {create : Nat → Bool} {dflt : A} {s s1 : State T A} {b : Bool} (h : s.createKey create dflt = (b, s1)) :
    s1.log = s.log ∧ s1.pc = s.pc ∧ (s1.key ≠ none ∨ ∃ j, create j = false) := by
  unfold State.createKey at h
  by_cases hc : create s.attempts = true
  · rw [if_pos hc] at h; cases h; exact ⟨rfl, rfl, .inl (by simp)⟩
  · rw [if_neg hc] at h; cases h; exact ⟨rfl, rfl, .inr ⟨_, by simpa using hc⟩⟩

theorem know_step {create : Nat → Bool} {dflt : A} {w w' : WState T A} (hk : Know create dflt w) (a : WAct T A) (h : wstep create dflt w a = .ok w') :
    Know create dflt w' := by
  -- a thread moves and learns that `allocated_` is set
  have learn : ∀ (t : T) (s : State T A) (kk : T → Bool), (∀ u, u ≠ t → lastSet dflt u s.log = lastSet dflt u w.base.log) → (∀ u, u ≠ t → s.pc u = w.base.pc u) →
      (∀ u, kk u = true → s.key ≠ none ∨ ∃ j, create j = false) →
      Know create dflt { base := s, flag := fun u => if u = t then true else w.flag u, keyk := kk } := by
    intro t s kk h1 h2 h3
    refine ⟨fun u hu => ?_, h3⟩
    simp only at hu ⊢
    by_cases e : u = t
    · rw [if_pos e] at hu; cases hu
    · rw [if_neg e] at hu
      rw [h1 u e, h2 u e]
      exact hk.unset u hu
  -- a thread moves to a harmless place
  have plain : ∀ (t : T) (s : State T A), (∀ u, w.flag u = false → lastSet dflt u s.log = lastSet dflt u w.base.log) → (∀ u, u ≠ t → s.pc u = w.base.pc u) →
      (w.flag t = false → (s.pc t).using = false ∧ (s.pc t).creating = false) → s.key = w.base.key →
      Know create dflt { base := s, flag := w.flag, keyk := w.keyk } := by
    intro t s h1 h2 h3 h4
    refine ⟨fun u hu => ?_, fun u hu => ?_⟩
    · simp only at hu ⊢
      rw [h1 u hu]
      by_cases e : u = t
      · subst e; exact ⟨(hk.unset u hu).1, h3 hu⟩
      · rw [h2 u e]; exact hk.unset u hu
    · simp only; rw [h4]; exact hk.key u hu
  cases a with
  | sync t u =>
    simp only [wstep] at h
    cases h
    refine ⟨fun v hv => ?_, fun v hv => ?_⟩
    · simp only at hv
      by_cases e : v = u
      · rw [if_pos e] at hv
        simp only [Bool.or_eq_false_iff] at hv
        exact hk.unset v (e ▸ hv.1)
      · rw [if_neg e] at hv; exact hk.unset v hv
    · simp only at hv
      by_cases e : v = u
      · rw [if_pos e] at hv
        simp only [Bool.or_eq_true] at hv
        exact hv.elim (hk.key u) (hk.key t)
      · rw [if_neg e] at hv; exact hk.key v hv
  | begin t o stale =>
    simp only [wstep] at h
    cases h
    unfold WState.begin
    cases hp : w.base.pc t <;> simp only <;> try exact hk
    cases o with
    | get =>
      simp only
      split
      · exact plain t _ (fun u _ => rfl) (fun u hu => by simp [State.done, State.goto, hu]) (fun _ => by simp [State.done, State.goto, Pc.using, Pc.creating]) rfl
      · exact learn t _ _ (fun u _ => rfl) (fun u hu => by simp [State.done, State.goto, hu]) hk.key
    | set v =>
      simp only
      split
      · exact plain t _ (fun u _ => rfl) (fun u hu => by simp [State.done, State.goto, hu]) (fun _ => by simp [State.done, State.goto, Pc.using, Pc.creating]) rfl
      · exact learn t _ _ (fun u _ => rfl) (fun u hu => by simp [State.done, State.goto, hu]) hk.key
    | allocate =>
      simp only
      split
      · exact learn t _ _ (fun u _ => rfl) (fun u hu => by simp [State.done, State.goto, hu]) hk.key
      · exact learn t _ _ (fun u _ => rfl) (fun u hu => by simp [State.done, State.goto, hu]) hk.key
  | cont t stale =>
    simp only [wstep] at h
    unfold WState.cont at h
    cases hp : w.base.pc t with
    | idle => rw [hp] at h; cases h; exact hk
    | getUse =>
      rw [hp] at h
      simp only at h
      cases hr : w.readKey t stale with
      | none => rw [hr] at h; cases h
      | some k =>
        rw [hr] at h; cases h
        exact plain t _ (fun u _ => rfl) (fun u hu => by simp [State.done, State.goto, hu]) (fun _ => by simp [State.done, State.goto, Pc.using, Pc.creating]) rfl
    | setCas v =>
      rw [hp] at h
      simp only at h
      split at h <;> cases h
      · exact learn t _ _ (fun u _ => rfl) (fun u hu => by simp [State.done, State.goto, hu]) hk.key
      · exact learn t _ _ (fun u _ => rfl) (fun u hu => by simp [State.done, State.goto, hu]) hk.key
    | setCreate v =>
      rw [hp] at h
      simp only at h
      have hf : w.flag t = true := by
        cases hf : w.flag t with
        | true => rfl
        | false => have := (hk.unset t hf).2.2; rw [hp] at this; cases this
      cases hc : w.base.createKey create dflt with
      | mk b s1 =>
        obtain ⟨e1, e2, e3⟩ := createKey_eq hc
        rw [hc] at h
        cases b with
        | false => cases h
        | true =>
          cases h
          refine ⟨fun u hu => ?_, fun u _ => e3⟩
          have hne : u ≠ t := by rintro rfl; rw [show w.flag u = false from hu] at hf; cases hf
          simp only [State.goto, hne, if_false, e1, e2]
          exact hk.unset u hu
    | setUse v =>
      rw [hp] at h
      simp only at h
      have hf : w.flag t = true := by
        cases hf : w.flag t with
        | true => rfl
        | false => have := (hk.unset t hf).2.1; rw [hp] at this; cases this
      cases hr : w.readKey t stale with
      | none => rw [hr] at h; cases h
      | some k =>
        rw [hr] at h; cases h
        refine plain t _ (fun u hu => ?_) (fun u hu => by simp [State.done, State.goto, hu]) (fun _ => by simp [State.done, State.goto, Pc.using, Pc.creating]) rfl
        have hne : t ≠ u := by rintro rfl; rw [hu] at hf; cases hf
        simp [State.done, State.goto, lastSet, hne]
    | allocCreate =>
      rw [hp] at h
      simp only at h
      have hf : w.flag t = true := by
        cases hf : w.flag t with
        | true => rfl
        | false => have := (hk.unset t hf).2.2; rw [hp] at this; cases this
      cases hc : w.base.createKey create dflt with
      | mk b s1 =>
        obtain ⟨e1, e2, e3⟩ := createKey_eq hc
        rw [hc] at h
        cases h
        refine ⟨fun u hu => ?_, fun u _ => e3⟩
        have hne : u ≠ t := by rintro rfl; rw [show w.flag u = false from hu] at hf; cases hf
        simp only [State.done, State.goto, hne, if_false, e1, e2, lastSet]
        exact hk.unset u hu

theorem winv_step {create : Nat → Bool} {dflt : A} {w w' : WState T A} (hi : Inv dflt w.base) (hk : Know create dflt w) (a : WAct T A)
    (h : wstep create dflt w a = .ok w') : Inv dflt w'.base := by
  rcases wstep_base a h with h1 | ⟨t, hf, hp, -, -, h1 | ⟨v, h1⟩⟩
  · exact inv_run _ hi h1
  · rw [h1]
    exact inv_done hi t _ (fun u => rfl) ⟨(hk.unset t hf).1.symm, hi.isolated⟩
  · rw [h1]
    exact inv_goto hi t _ rfl (fun _ => rfl)

theorem wrun_inv {create : Nat → Bool} {dflt : A} (as : List (WAct T A)) {w w' : WState T A} (hi : Inv dflt w.base) (hk : Know create dflt w)
    (h : wrun create dflt as w = .ok w') : Inv dflt w'.base ∧ Know create dflt w' := by
  induction as generalizing w with
  | nil => simp only [wrun] at h; cases h; exact ⟨hi, hk⟩
  | cons a as ih =>
    simp only [wrun, bind, Except.bind] at h
    cases h1 : wstep create dflt w a with
    | error f => rw [h1] at h; cases h
    | ok w1 => rw [h1] at h; exact ih (winv_step hi hk a h1) (know_step hk a h1) h

theorem wrun_append (create : Nat → Bool) (dflt : A) (as bs : List (WAct T A)) (w : WState T A) :
    wrun create dflt (as ++ bs) w = (wrun create dflt as w).bind (wrun create dflt bs) := by
  induction as generalizing w with
  | nil => rfl
  | cons a as ih =>
    simp only [List.cons_append, wrun, bind, Except.bind]
    cases wstep create dflt w a with
    | error f => rfl
    | ok s1 => simp only [ih]; rfl

/-- Threads in `after` know everything, and only they are in a call. -/
def Safe (after : List T) (w : WState T A) : Prop :=
  Ready w.base ∧ (∀ t ∈ after, w.flag t = true ∧ w.keyk t = true) ∧ ∀ t, t ∉ after → w.base.pc t = .idle

/-- What an ordered thread does is what it would do under sequential consistency. -/
theorem safe_sc {create : Nat → Bool} {dflt : A} {after : List T} {w : WState T A} (hs : Safe after w) (t : T) (ht : t ∈ after ∨ w.base.pc t = .idle) :
    (∀ o stale, t ∈ after → w.begin dflt t o stale = { w with base := w.base.begin dflt t o }) ∧
    ∀ stale s', w.base.cont create dflt t = .ok s' → w.cont create dflt t stale = .ok { w with base := s' } := by
  obtain ⟨⟨ha, ⟨k, hk⟩, hc⟩, hkn, hid⟩ := hs
  have hl : t ∈ after → w.learnFlag t = w := by
    intro h
    have h1 := (hkn t h).1
    cases w with
    | mk b f kk =>
      simp only [WState.learnFlag, WState.mk.injEq, true_and, and_true]
      funext u
      by_cases e : u = t
      · rw [if_pos e, e]; exact h1.symm
      · rw [if_neg e]
  refine ⟨fun o stale h => ?_, fun stale s' h => ?_⟩
  · unfold WState.begin State.begin
    cases hp : w.base.pc t <;> simp only
    cases o <;> simp [WState.readFlag, (hkn t h).1, ha, hl h]
  · rcases ht with ht | ht
    · unfold WState.cont
      unfold State.cont at h
      cases hp : w.base.pc t with
      | idle => rw [hp] at h; cases h; rfl
      | getUse =>
        rw [hp] at h
        simp only [hk] at h
        cases h
        simp [WState.readKey, (hkn t ht).2, hk]
      | setCas v =>
        rw [hp] at h
        simp only [ha, if_true] at h
        cases h
        simp [ha, hl ht]
      | setCreate v => have := hc t; rw [hp] at this; cases this
      | setUse v =>
        rw [hp] at h
        simp only [hk] at h
        cases h
        simp [WState.readKey, (hkn t ht).2, hk]
      | allocCreate => have := hc t; rw [hp] at this; cases this
    · unfold WState.cont
      unfold State.cont at h
      rw [ht] at h ⊢
      cases h; rfl

theorem begin_pc (dflt : A) (s : State T A) (t : T) (o : Op A) {u : T} (h : u ≠ t) : (s.begin dflt t o).pc u = s.pc u := by
  unfold State.begin
  cases s.pc t <;> simp only
  cases o <;> simp only <;> split <;> simp [State.done, State.goto, h]

theorem cont_pc {create : Nat → Bool} {dflt : A} {s s' : State T A} {t : T} (h : s.cont create dflt t = .ok s') {u : T} (hu : u ≠ t) : s'.pc u = s.pc u := by
  unfold State.cont at h
  cases hp : s.pc t with
  | idle => rw [hp] at h; cases h; rfl
  | getUse => rw [hp] at h; cases hk : s.key <;> simp only [hk] at h <;> cases h; simp [State.done, State.goto, hu]
  | setCas v => rw [hp] at h; simp only at h; split at h <;> cases h <;> simp [State.goto, hu]
  | setCreate v =>
    rw [hp] at h
    cases hc : s.createKey create dflt with
    | mk b s1 =>
      obtain ⟨-, e2, -⟩ := createKey_eq hc
      simp only [hc] at h
      cases b <;> cases h
      simp [State.goto, hu, e2]
  | setUse v => rw [hp] at h; cases hk : s.key <;> simp only [hk] at h <;> cases h; simp [State.done, State.goto, hu]
  | allocCreate =>
    rw [hp] at h
    cases hc : s.createKey create dflt with
    | mk b s1 =>
      obtain ⟨-, e2, -⟩ := createKey_eq hc
      simp only [hc] at h
      cases h
      simp [State.done, State.goto, hu, e2]

theorem safe_run {create : Nat → Bool} {dflt : A} : ∀ (as : List (WAct T A)) {after : List T} {w : WState T A}, Safe after w → Ordered after as →
    ∃ w', wrun create dflt as w = .ok w' ∧ run create dflt (as.flatMap WAct.sc) w.base = .ok w'.base := by
  intro as
  induction as with
  | nil => intro after w _ _; exact ⟨w, rfl, rfl⟩
  | cons a as ih =>
    intro after w hs ho
    cases a with
    | begin t o stale =>
      obtain ⟨ht, ho⟩ := ho
      obtain ⟨s', h1, h2⟩ := ready_step (create := create) (dflt := dflt) hs.1 (.begin t o)
      simp only [step] at h1
      cases h1
      have e := (safe_sc (create := create) (dflt := dflt) hs t (.inl ht)).1 o stale ht
      obtain ⟨w', h3, h4⟩ := ih (after := after) (w := { w with base := w.base.begin dflt t o })
        ⟨h2, hs.2.1, fun u hu => by
          have : u ≠ t := fun e => hu (e ▸ ht)
          simp only [begin_pc dflt w.base t o this]; exact hs.2.2 u hu⟩ ho
      refine ⟨w', ?_, ?_⟩
      · simp only [wrun, wstep, bind, Except.bind, e]; exact h3
      · simp only [List.flatMap_cons, WAct.sc, List.singleton_append, run, step, bind, Except.bind]; exact h4
    | cont t stale =>
      obtain ⟨s', h1, h2⟩ := ready_step (create := create) (dflt := dflt) hs.1 (.cont t)
      simp only [step] at h1
      have ht : t ∈ after ∨ w.base.pc t = .idle := by
        by_cases h : t ∈ after
        · exact .inl h
        · exact .inr (hs.2.2 t h)
      have e := (safe_sc (create := create) (dflt := dflt) hs t ht).2 stale s' h1
      obtain ⟨w', h3, h4⟩ := ih (after := after) (w := { w with base := s' })
        ⟨h2, hs.2.1, fun u hu => by
          by_cases hut : u = t
          · subst hut
            have hid := hs.2.2 u hu
            unfold State.cont at h1
            rw [hid] at h1
            cases h1
            exact hid
          · simp only [cont_pc h1 hut]; exact hs.2.2 u hu⟩ ho
      refine ⟨w', ?_, ?_⟩
      · simp only [wrun, wstep, bind, Except.bind, e]; exact h3
      · simp only [List.flatMap_cons, WAct.sc, List.singleton_append, run, step, bind, Except.bind, h1]; exact h4
    | sync t u =>
      simp only [Ordered] at ho
      obtain ⟨w', h3, h4⟩ := ih (after := if t ∈ after then u :: after else after)
        (w := { w with flag := fun v => if v = u then w.flag u || w.flag t else w.flag v
                       keyk := fun v => if v = u then w.keyk u || w.keyk t else w.keyk v })
        ⟨hs.1, fun v hv => by
          have keep : v ∈ after → (if v = u then w.flag u || w.flag t else w.flag v) = true ∧ (if v = u then w.keyk u || w.keyk t else w.keyk v) = true := by
            intro h
            obtain ⟨g1, g2⟩ := hs.2.1 v h
            by_cases e : v = u
            · subst e; simp [g1, g2]
            · simp [e, g1, g2]
          by_cases ht : t ∈ after
          · rw [if_pos ht] at hv
            rcases List.mem_cons.1 hv with rfl | hv
            · obtain ⟨g1, g2⟩ := hs.2.1 t ht
              simp [g1, g2]
            · exact keep hv
          · rw [if_neg ht] at hv; exact keep hv, fun v hv => by
          refine hs.2.2 v (fun h => hv ?_)
          split
          · exact List.mem_cons_of_mem _ h
          · exact h⟩ ho
      exact ⟨w', by simp only [wrun, wstep, bind, Except.bind]; exact h3, h4⟩

end Verif.ThreadLocal
