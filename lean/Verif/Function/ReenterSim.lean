import Verif.Function.ReenterLemmas
/-!
# The machine simulates the specification
-/
namespace Verif.Function
open Verif

set_option linter.unusedSimpArgs false
set_option linter.unusedSectionVars false

variable {V C : Type} [DecidableEq V]

/-- What holds of the state when the rest of an operation on `v` runs: `v`'s old callable is gone. -/
structure Ready (s : State V C) (env : HEnv V C) (p : List (Pend V C)) (st : List (Frame V C)) (v : V) : Prop where
  env : ∀ u, (s.vars u).map Fn.held = env u
  flat : ∀ u f, s.vars u = some f → f.flat
  inv : Sound (s.blank (v :: busy p))
  hv : v ∉ busy p
  wf : WF p
  alive : ∀ u ∈ busy p, s.vars u ≠ none
  fr : FR s (v :: busy p) st p

theorem set_rel {s : State V C} {env : HEnv V C} {p : List (Pend V C)} {st : List (Frame V C)} {v : V} (h : Ready s env p st v)
    (x : Option (Fn C)) (k : Nat) (hx : ∀ f, x = some f → f.flat)
    (hc : ∀ id, ((x.map Fn.ids).getD []).count id = fresh s.mem.next k id) :
    Rel ⟨({ s with mem := { s.mem with next := s.mem.next + k } } : State V C).set v x, st⟩ ⟨env.set v (x.map Fn.held), p⟩ := by
  refine ⟨?_, ?_, ?_, h.wf, ?_, ?_⟩
  · intro u
    simp only [State.set, HEnv.set]
    split
    · rfl
    · exact h.env u
  · intro u f hf
    simp only [State.set] at hf
    split at hf
    · exact hx f hf
    · exact h.flat u f hf
  · have := inv_set h.inv v x { s.mem with next := s.mem.next + k } k [] rfl
      (fun id => by rw [blank_own (by simp)]; simpa [blank_mem] using hc id)
    rw [blank_set h.hv] at this
    exact this.sound
  · intro u hu
    have : u ≠ v := by rintro rfl; exact h.hv hu
    simp only [State.set, if_neg this]
    exact h.alive u hu
  · refine h.fr.mono (fun id hid => hid) ?_
    intro u f hu hf
    simp only [List.mem_cons, not_or] at hu
    exact ⟨hu.2, by simp [State.set, hu.1, hf]⟩

theorem move_rel {s : State V C} {env : HEnv V C} {p : List (Pend V C)} {st : List (Frame V C)} {v w : V} (h : Ready s env p st v)
    (hwv : w ≠ v) (hwp : w ∉ busy p) (hw : s.vars w ≠ none) :
    ∃ s' fr, moveStart s v w = .ok (s', fr) ∧ Rel ⟨s', fr ++ st⟩ (match env w with
      | some (.fn true c) => ⟨env.set v (some (.fn true c)), .emptying w :: p.map (Pend.rehome w none)⟩
      | x => ⟨(env.set v x).set w (some .empty), p.map (Pend.rehome w (some v))⟩) := by
  obtain ⟨f, hf⟩ := Option.ne_none_iff_exists'.1 hw
  have hb : (s.blank (v :: busy p)).vars w = some f := blank_in (by simp [hwv, hwp]) hf
  obtain ⟨g1, g2, g3⟩ := h.inv.good hb
  rw [blank_mem] at g1 g3
  have hget := State.get_some hf
  have hew : env w = some f.held := by rw [← h.env w, hf]; rfl
  have hout : ∀ (f : Fn C), s.vars w = some f → f.inline = false ∨ f = .empty ∨ f.abs = .hollow →
      (moveFn f s.mem = .ok (f, .empty, s.mem)) →
      Rel ⟨(({ s with mem := s.mem } : State V C).set v (some f)).set w (some .empty), [] ++ st⟩
        ⟨(env.set v (some f.held)).set w (some .empty), p.map (Pend.rehome w (some v))⟩ := by
    intro f hf hcase hmv
    have hb : (s.blank (v :: busy p)).vars w = some f := blank_in (by simp [hwv, hwp]) hf
    refine ⟨?_, ?_, ?_, wf_rehome _ _ _ h.wf, ?_, ?_⟩
    · intro u
      simp only [State.set, HEnv.set]
      split
      · rfl
      · split
        · rfl
        · exact h.env u
    · intro u g hg
      simp only [State.set] at hg
      split at hg
      · cases hg; trivial
      · split at hg
        · cases hg; exact h.flat w _ hf
        · exact h.flat u g hg
    · have := inv_move h.inv hwv.symm f s.mem 0 [] rfl
        (fun id => by rw [blank_own (by simp), own_some hb]; simp [fresh_zero])
      rw [blank_set h.hv] at this
      have e : ((({ s with mem := s.mem } : State V C).set v (some f)).blank (busy p)).set w (some .empty) =
          ((({ s with mem := s.mem } : State V C).set v (some f)).set w (some .empty)).blank (busy p) := by
        simp only [State.set, State.blank]
        congr 1
        funext u
        by_cases hu : u = w
        · subst hu; simp [hwp]
        · simp [hu]
      rw [e] at this
      rw [busy_rehome]
      exact this.sound
    · intro u hu
      rw [busy_rehome] at hu
      have h1 : u ≠ v := by rintro rfl; exact h.hv hu
      have h2 : u ≠ w := by rintro rfl; exact hwp hu
      simp only [State.set, if_neg h1, if_neg h2]
      exact h.alive u hu
    · rw [busy_rehome]
      refine h.fr.rehome w (some v) (fun id hid => hid) ?_ (fun hh => by cases hh) ?_
      · intro u g huw hu hg
        simp only [List.mem_cons, not_or] at hu
        exact ⟨hu.2, by simp [State.set, huw, hu.1, hg]⟩
      · intro u hu _ g id c hg _
        cases hu
        rw [hf] at hg; cases hg
        exact ⟨h.hv, by simp [State.set, hwv.symm]⟩
  cases f with
  | empty =>
    refine ⟨_, _, by simp only [moveStart, hget, bind, Except.bind, moveFn]; rfl, ?_⟩
    rw [hew]
    exact hout _ hf (.inr (.inl rfl)) rfl
  | call inl id c =>
    cases inl with
    | false =>
      refine ⟨_, _, by simp only [moveStart, hget, bind, Except.bind, moveFn]; rfl, ?_⟩
      rw [hew]
      exact hout _ hf (.inl rfl) rfl
    | true =>
      have hid : id ∉ s.mem.dead := g1 id (by simp [Fn.ids])
      refine ⟨({ s with mem := { next := s.mem.next + 1, dead := id :: s.mem.dead } } : State V C).set v (some (.call true s.mem.next c)),
        [.zapping w], ?_, ?_⟩
      · simp only [moveStart, hget, bind, Except.bind, destroy]
        rw [if_neg hid, if_neg hid]
      · rw [hew]
        show Rel _ ⟨env.set v (some (.fn true c)), .emptying w :: p.map (Pend.rehome w none)⟩
        have hbusy : busy (Pend.emptying w :: p.map (Pend.rehome w none)) = w :: busy p := by
          show w :: busy (p.map (Pend.rehome w none)) = _
          rw [busy_rehome]
        refine ⟨?_, ?_, ?_, ⟨by rw [busy_rehome]; exact hwp, wf_rehome _ _ _ h.wf⟩, ?_, ?_⟩
        · intro u
          simp only [State.set, HEnv.set]
          split
          · rfl
          · exact h.env u
        · intro u g hg
          simp only [State.set] at hg
          split at hg
          · cases hg; trivial
          · exact h.flat u g hg
        · have := inv_move h.inv hwv.symm (.call true s.mem.next c) { next := s.mem.next + 1, dead := id :: s.mem.dead } 1 [id] rfl
            (fun i => by
              rw [blank_own (by simp), own_some hb, fresh_split, fresh_zero]
              simp [Fn.ids, blank_mem])
          rw [blank_set h.hv] at this
          have e : ((({ s with mem := { next := s.mem.next + 1, dead := id :: s.mem.dead } } : State V C).set v
              (some (.call true s.mem.next c))).blank (busy p)).set w (some .empty) =
              (({ s with mem := { next := s.mem.next + 1, dead := id :: s.mem.dead } } : State V C).set v
              (some (.call true s.mem.next c))).blank (w :: busy p) := by
            simp only [State.set, State.blank]
            congr 1
            funext u
            by_cases hu : u = w
            · subst hu; simp [hwv, hf]
            · simp [hu]
          rw [e] at this
          rw [hbusy]
          exact this.sound
        · intro u hu
          rw [hbusy] at hu
          rcases List.mem_cons.1 hu with rfl | hu
          · simp [State.set, hwv, hf]
          · have h1 : u ≠ v := by rintro rfl; exact h.hv hu
            simp only [State.set, if_neg h1]
            exact h.alive u hu
        · rw [hbusy]
          refine .zapping (h.fr.rehome w none (fun i hi => List.mem_cons_of_mem _ hi) ?_ ?_ (fun u hu => by cases hu))
          · intro u g huw hu hg
            simp only [List.mem_cons, not_or] at hu
            exact ⟨by simp [huw, hu.2], by simp [State.set, hu.1, hg]⟩
          · intro _ g i c' hg hi
            rw [hf] at hg; cases hg
            cases hi
            exact List.mem_cons_self
  | wrap inl id f =>
    obtain rfl : inl = false := (h.flat w _ hf).1
    refine ⟨_, _, by simp only [moveStart, hget, bind, Except.bind, moveFn]; rfl, ?_⟩
    have := hout _ hf (.inl rfl) rfl
    rw [hew, show (Fn.wrap false id f).held = f.held.copied from held_copied f id] at *
    revert this
    cases f.held <;> exact fun h => h

theorem finish_rel (size : C → Nat) {s : State V C} {env : HEnv V C} {p : List (Pend V C)} {st : List (Frame V C)} (o : Op V C)
    (h : Ready s env p st o.target) (hrep : o.replaces = true → s.vars o.target ≠ none)
    (hsrc : ∀ w, o.source = some w → w ≠ o.target ∧ w ∉ busy p ∧ s.vars w ≠ none) :
    ∃ s' fr, finish size s o = .ok (s', fr) ∧
      Rel ⟨s', fr ++ st⟩ (AState.finish (fun c => decide (size c ≤ bufferSize)) ⟨env, p⟩ o) := by
  have hgood : ∀ w f, o.source = some w → s.vars w = some f → ∀ id ∈ f.ids, id ∉ s.mem.dead := by
    intro w f hw hf
    obtain ⟨h1, h2, -⟩ := hsrc w hw
    exact (h.inv.good (blank_in (B := o.target :: busy p) (by simp [h1, h2]) hf)).1
  have hnull := set_rel h (some .empty) 0 (fun f hf => by cases hf; trivial) (fun id => by simp [Fn.ids, fresh_zero])
  have hcall : ∀ c, Rel ⟨({ s with mem := (assignCallable size c s.mem).2 } : State V C).set o.target (some (assignCallable size c s.mem).1), st⟩
      ⟨env.set o.target (some (.fn (decide (size c ≤ bufferSize)) c)), p⟩ := fun c =>
    set_rel h (some (assignCallable size c s.mem).1) 1 (fun f hf => by cases hf; trivial)
      (fun id => by rw [fresh_split, fresh_zero]; simp [assignCallable, Fn.ids])
  have hcopyc : ∀ w, o.source = some w → ∃ f f' m', s.get w = .ok f ∧ assignConst f s.mem = .ok (f', m') ∧
      Rel ⟨({ s with mem := m' } : State V C).set o.target (some f'), st⟩ ⟨env.set o.target (env w), p⟩ := by
    intro w hw
    obtain ⟨f, hf⟩ := Option.ne_none_iff_exists'.1 (hsrc w hw).2.2
    obtain ⟨f', k, h1, h2, h3, h4⟩ := assignConst_ok f s.mem (hgood w f hw hf)
    refine ⟨f, f', _, State.get_some hf, h1, ?_⟩
    have := set_rel h (some f') k (fun g hg => by cases hg; exact assignConst_flat f _ _ _ (h.flat w f hf) h1) (by simpa using h4)
    have e : env w = some f'.held := by rw [← h.env w, hf]; simp [Fn.held, h2, h3]
    rw [e]; exact this
  have hcopy : ∀ w, o.source = some w → ∃ f f' m', s.get w = .ok f ∧ assignNonConst f s.mem = .ok (f', m') ∧
      Rel ⟨({ s with mem := m' } : State V C).set o.target (some f'), st⟩ ⟨env.set o.target ((env w).map .copied), p⟩ := by
    intro w hw
    obtain ⟨f, hf⟩ := Option.ne_none_iff_exists'.1 (hsrc w hw).2.2
    obtain ⟨f', k, h1, h2, h3, h4⟩ := assignConst_ok f s.mem (hgood w f hw hf)
    have hfl := assignConst_flat f _ _ _ (h.flat w f hf) h1
    refine ⟨f, .wrap false (s.mem.next + k) f', { s.mem with next := s.mem.next + (k + 1) }, State.get_some hf, ?_, ?_⟩
    · simp only [assignNonConst, h1, bind, Except.bind]; rfl
    · have := set_rel h (some (.wrap false (s.mem.next + k) f')) (k + 1) (fun g hg => by cases hg; exact ⟨rfl, hfl⟩)
        (fun i => by
          rw [fresh_split, ← h4 i]; simp only [Option.map_some, Option.getD_some, Fn.ids, List.count_cons, List.count_nil]; omega)
      have e : (env w).map Held.copied = some (Fn.wrap false (s.mem.next + k) f').held := by
        rw [held_copied, ← h.env w, hf]; simp [Fn.held, h2, h3]
      rw [e]; exact this
  have hget : o.replaces = true → ∃ f, s.get o.target = .ok f := by
    intro hr
    obtain ⟨f, hf⟩ := Option.ne_none_iff_exists'.1 (hrep hr)
    exact ⟨f, State.get_some hf⟩
  cases o with
  | ctorNull v => exact ⟨_, _, rfl, hnull⟩
  | ctorCallable v c => exact ⟨_, _, rfl, hcall c⟩
  | ctorCopyConst v w =>
    obtain ⟨f, f', m', h1, h2, h3⟩ := hcopyc w rfl
    exact ⟨_, _, by simp only [finish, h1, h2, bind, Except.bind]; rfl, h3⟩
  | ctorCopy v w =>
    obtain ⟨f, f', m', h1, h2, h3⟩ := hcopy w rfl
    exact ⟨_, _, by simp only [finish, h1, h2, bind, Except.bind]; rfl, h3⟩
  | ctorMove v w =>
    obtain ⟨h1, h2, h3⟩ := hsrc w rfl
    exact move_rel h h1 h2 h3
  | dtor v =>
    obtain ⟨f, hf⟩ := hget rfl
    refine ⟨_, _, by simp only [finish, show s.get v = _ from hf, bind, Except.bind]; rfl, ?_⟩
    exact set_rel h none 0 (fun f hf => by cases hf) (fun id => by simp [fresh_zero])
  | assignNull v =>
    obtain ⟨f, hf⟩ := hget rfl
    exact ⟨_, _, by simp only [finish, show s.get v = _ from hf, bind, Except.bind]; rfl, hnull⟩
  | assignCallable v c =>
    obtain ⟨f, hf⟩ := hget rfl
    exact ⟨_, _, by simp only [finish, show s.get v = _ from hf, bind, Except.bind]; rfl, hcall c⟩
  | assignCopyConst v w =>
    obtain ⟨g, hg⟩ := hget rfl
    obtain ⟨f, f', m', h1, h2, h3⟩ := hcopyc w rfl
    exact ⟨_, _, by simp only [finish, show s.get v = _ from hg, h1, h2, bind, Except.bind]; rfl, h3⟩
  | assignCopy v w =>
    obtain ⟨g, hg⟩ := hget rfl
    obtain ⟨f, f', m', h1, h2, h3⟩ := hcopy w rfl
    exact ⟨_, _, by simp only [finish, show s.get v = _ from hg, h1, h2, bind, Except.bind]; rfl, h3⟩
  | assignMove v w =>
    obtain ⟨g, hg⟩ := hget rfl
    obtain ⟨h1, h2, h3⟩ := hsrc w rfl
    obtain ⟨s', fr, h4, h5⟩ := move_rel h h1 h2 h3
    exact ⟨s', fr, by simp only [finish, show s.get v = _ from hg, bind, Except.bind]; exact h4, h5⟩

theorem blank_cons_none {B : List V} {s : State V C} {v : V} (h : s.vars v = none) : s.blank (v :: B) = s.blank B := by
  simp only [State.blank]
  congr 1
  funext u
  by_cases hu : u = v
  · subst hu; simp [h]
  · simp [hu]

/-- What C++ asks of an operation. -/
theorem legal_facts {e : Env V C} {o : Op V C} (h : Legal e o) :
    (o.replaces = true → e o.target ≠ none) ∧ (o.replaces = false → e o.target = none) ∧
    ∀ w, o.source = some w → w ≠ o.target ∧ e w ≠ none := by
  cases o with
  | ctorNull v => exact ⟨fun hh => (by cases hh), fun _ => h, fun w hw => by cases hw⟩
  | ctorCallable v => exact ⟨fun hh => (by cases hh), fun _ => h, fun w hw => by cases hw⟩
  | ctorCopyConst v w =>
    exact ⟨fun hh => (by cases hh), fun _ => h.1, fun u hu => by cases hu; exact ⟨by rintro rfl; exact h.2 h.1, h.2⟩⟩
  | ctorCopy v w =>
    exact ⟨fun hh => (by cases hh), fun _ => h.1, fun u hu => by cases hu; exact ⟨by rintro rfl; exact h.2 h.1, h.2⟩⟩
  | ctorMove v w =>
    exact ⟨fun hh => (by cases hh), fun _ => h.1, fun u hu => by cases hu; exact ⟨by rintro rfl; exact h.2 h.1, h.2⟩⟩
  | dtor v => exact ⟨fun _ => h, fun hh => (by cases hh), fun w hw => by cases hw⟩
  | assignNull v => exact ⟨fun _ => h, fun hh => (by cases hh), fun w hw => by cases hw⟩
  | assignCallable v => exact ⟨fun _ => h, fun hh => (by cases hh), fun w hw => by cases hw⟩
  | assignCopyConst v w => exact ⟨fun _ => h.1, fun hh => (by cases hh), fun u hu => by cases hu; exact ⟨h.2.2.symm, h.2.1⟩⟩
  | assignCopy v w => exact ⟨fun _ => h.1, fun hh => (by cases hh), fun u hu => by cases hu; exact ⟨h.2.2.symm, h.2.1⟩⟩
  | assignMove v w => exact ⟨fun _ => h.1, fun hh => (by cases hh), fun u hu => by cases hu; exact ⟨h.2.2.symm, h.2.1⟩⟩

theorem Rel.exists_iff {m : Mach V C} {a : AState V C} (h : Rel m a) (v : V) : m.s.vars v = none ↔ a.env v = none := by
  rw [← h.env v]; simp

/-- Every polite step is executed without a fault and does what the specification says. -/
theorem stepR_rel (size : C → Nat) {m : Mach V C} {a : AState V C} (h : Rel m a) (x : Act V C) (hp : Polite .all a x) :
    ∃ m', stepR size m x = .ok (m', (a.step (fun c => decide (size c ≤ bufferSize)) x).2) ∧
      Rel m' (a.step (fun c => decide (size c ≤ bufferSize)) x).1 := by
  cases x with
  | op o =>
    obtain ⟨hl, hrep, hread⟩ := hp
    obtain ⟨l1, l2, l3⟩ := legal_facts hl
    have hsrc : ∀ w, o.source = some w → w ≠ o.target ∧ w ∉ busy a.pend ∧ m.s.vars w ≠ none := by
      intro w hw
      refine ⟨(l3 w hw).1, hread rfl w hw, ?_⟩
      intro hn
      exact (l3 w hw).2 (by rw [(h.exists_iff w).1 hn]; rfl)
    suffices hb : ∃ s' fr, begin size m.s o = .ok (s', fr) ∧
        Rel ⟨s', fr ++ m.stack⟩ (a.begin (fun c => decide (size c ≤ bufferSize)) o) by
      obtain ⟨s', fr, h1, h2⟩ := hb
      exact ⟨⟨s', fr ++ m.stack⟩, by simp only [stepR, h1, bind, Except.bind]; rfl, h2⟩
    cases hr : o.replaces with
    | false =>
      have hnone : m.s.vars o.target = none := by
        have := l2 hr
        rw [h.exists_iff]
        cases he : a.env o.target with
        | none => rfl
        | some y => rw [he] at this; cases this
      have hvb : o.target ∉ busy a.pend := fun hm => h.alive _ hm hnone
      have hready : Ready m.s a.env a.pend m.stack o.target :=
        ⟨h.env, h.flat, by rw [blank_cons_none hnone]; exact h.inv, hvb, h.wf, h.alive,
          h.fr.mono (fun id hid => hid) (fun u f hu hf => ⟨by
            simp only [List.mem_cons, not_or]
            exact ⟨(by rintro rfl; rw [hnone] at hf; cases hf), hu⟩, hf⟩)⟩
      obtain ⟨s', fr, h1, h2⟩ := finish_rel size o hready (fun hh => by rw [hr] at hh; cases hh) hsrc
      refine ⟨s', fr, ?_, ?_⟩
      · simp only [begin, hr]; exact h1
      · simp only [AState.begin, hr]; exact h2
    | true =>
      have hvb := hrep rfl hr
      have hex : m.s.vars o.target ≠ none := by
        intro hn
        exact l1 hr (by rw [(h.exists_iff _).1 hn]; rfl)
      obtain ⟨f, hf⟩ := Option.ne_none_iff_exists'.1 hex
      have hbf := blank_in hvb hf
      obtain ⟨hd, hi1⟩ := inv_destroyed h.inv hbf
      rw [blank_mem] at hd hi1
      have e : (({ (m.s.blank (busy a.pend)) with mem := { m.s.mem with dead := f.ids ++ m.s.mem.dead } } : State V C).set o.target (some .empty)) =
          ({ m.s with mem := { m.s.mem with dead := f.ids ++ m.s.mem.dead } } : State V C).blank (o.target :: busy a.pend) := by
        simp only [State.set, State.blank]
        congr 1
        funext u
        by_cases hu : u = o.target
        · subst hu; simp [hf]
        · simp [hu]
      have hinv := hi1.sound
      rw [e] at hinv
      have hget := State.get_some hf
      have hea : a.env o.target = some f.held := by rw [← h.env, hf]; rfl
      rcases inner_abs f with hin | ⟨id, c, hin, hab, hid⟩
      · have hready : Ready ({ m.s with mem := { m.s.mem with dead := f.ids ++ m.s.mem.dead } } : State V C) a.env a.pend m.stack o.target :=
          ⟨h.env, h.flat, hinv, hvb, h.wf, h.alive,
            h.fr.rehome_none (fun i hi => List.mem_append_right _ hi) (fun u g c' hu hg hc => by
              refine ⟨?_, hg⟩
              simp only [List.mem_cons, not_or]
              refine ⟨?_, hu⟩
              rintro rfl
              rw [hf] at hg; cases hg
              rw [hin] at hc; cases hc)⟩
        obtain ⟨s', fr, h1, h2⟩ := finish_rel size o hready (fun _ => hex) hsrc
        refine ⟨s', fr, ?_, ?_⟩
        · simp only [begin, hr, hget, hd, bind, Except.bind, hin]; exact h1
        · have hne := inner_none f hin
          have : ∀ i c, f.held ≠ .fn i c := by
            intro i c hh
            apply hne c
            rw [← held_val, hh]; rfl
          simp only [AState.begin, hr, hea]
          cases hh : f.held with
          | empty => exact h2
          | hollow => exact h2
          | fn i c => exact (this i c hh).elim
      · refine ⟨({ m.s with mem := { m.s.mem with dead := f.ids ++ m.s.mem.dead } } : State V C), [.finishing o], ?_, ?_⟩
        · simp only [begin, hr, hget, hd, bind, Except.bind, hin, if_true]
        · have hh : f.held = .fn f.inline c := by simp only [Fn.held, hab]
          have hbusy : busy (Pend.waiting o :: a.pend.map (Pend.rehome o.target none)) = o.target :: busy a.pend := by
            show o.target :: busy (a.pend.map (Pend.rehome o.target none)) = _
            rw [busy_rehome]
          simp only [AState.begin, hr, hea, hh, if_true]
          refine ⟨h.env, h.flat, by rw [hbusy]; exact hinv, ?_, ?_, ?_⟩
          · refine ⟨hr, by rw [busy_rehome]; exact hvb, ?_, wf_rehome _ _ _ h.wf⟩
            intro w hw
            rw [busy_rehome]
            exact ⟨(hsrc w hw).1, (hsrc w hw).2.1⟩
          · intro u hu
            rw [hbusy] at hu
            rcases List.mem_cons.1 hu with rfl | hu
            · exact hex
            · exact h.alive u hu
          · rw [hbusy]
            refine .finishing (h.fr.rehome o.target none (fun i hi => List.mem_append_right _ hi) ?_ ?_ (fun u hu => by cases hu))
            · intro u g huv hu hg
              exact ⟨by simp [huv, hu], hg⟩
            · intro _ g i c' hg hi
              rw [hf] at hg; cases hg
              rw [hin] at hi; cases hi
              exact List.mem_append_left _ hid
  | look v =>
    obtain ⟨f, hf⟩ := Option.ne_none_iff_exists'.1 (fun hn => hp ((h.exists_iff v).1 hn))
    have hea : a.env v = some f.held := by rw [← h.env, hf]; rfl
    refine ⟨m, ?_, ?_⟩
    · simp only [stepR, State.get_some hf, bind, Except.bind, AState.step, hea, held_isSet, held_inline f (h.flat v f hf)]
    · simp only [AState.step, hea]; exact h
  | call v =>
    obtain ⟨⟨inl, c, hea⟩, hnb⟩ := hp
    have hvb := hnb rfl
    obtain ⟨f, hf⟩ := Option.ne_none_iff_exists'.1 (fun hn => by rw [(h.exists_iff v).1 hn] at hea; cases hea)
    have hh : f.held = .fn inl c := by
      have := h.env v; rw [hf, hea] at this; exact Option.some.inj this
    have hab : f.abs = .fn c := by rw [← held_val, hh]; rfl
    have hcall := call_ok f m.s.mem (h.inv.good (blank_in hvb hf)).1
    rw [hab] at hcall
    rcases inner_abs f with hin | ⟨id, c', hin, hab', -⟩
    · exact (inner_none f hin c hab).elim
    · refine ⟨⟨m.s, .calling id :: m.stack⟩, ?_, ?_⟩
      · simp only [stepR, State.get_some hf, bind, Except.bind, hcall, hin, AState.step, hea]
      · simp only [AState.step, hea]
        exact ⟨h.env, h.flat, h.inv, h.wf, h.alive, .home hvb hf hin h.fr⟩
  | use =>
    refine ⟨m, ?_, h⟩
    obtain ⟨s, stack⟩ := m
    obtain ⟨env, pend⟩ := a
    have hfr := h.fr
    simp only [AState.step]
    cases hfr with
    | nil => rfl
    | @home id st p v f c h1 h2 h3 h4 =>
      simp only [stepR]
      rw [if_neg]
      intro hd
      rcases inner_abs f with hin | ⟨id', c', hin, -, hid⟩
      · rw [hin] at h3; cases h3
      · rw [hin] at h3; cases h3
        exact (h.inv.good (blank_in h1 h2)).1 id hid hd
    | lost h1 h2 => exact (hp rfl rfl).elim
    | finishing => rfl
    | zapping => rfl
  | ret =>
    obtain ⟨s, stack⟩ := m
    obtain ⟨env, pend⟩ := a
    have hfr := h.fr
    cases hfr with
    | nil => exact ⟨_, rfl, h⟩
    | home h1 h2 h3 h4 => exact ⟨_, rfl, h.env, h.flat, h.inv, h.wf, h.alive, h4⟩
    | lost h1 h2 => exact ⟨_, rfl, h.env, h.flat, h.inv, h.wf, h.alive, h2⟩
    | @finishing o st p h1 =>
      obtain ⟨w1, w2, w3, w4⟩ := h.wf
      have hready : Ready s env p st o.target :=
        ⟨h.env, h.flat, h.inv, w2, w4, fun u hu => h.alive u (List.mem_cons_of_mem _ hu), h1⟩
      have hsrc : ∀ w, o.source = some w → w ≠ o.target ∧ w ∉ busy p ∧ s.vars w ≠ none := by
        intro w hw
        exact ⟨(w3 w hw).1, (w3 w hw).2, fun hn => hp rfl o rfl w hw ((h.exists_iff w).1 hn)⟩
      obtain ⟨s', fr, h2, h3⟩ := finish_rel size o hready (fun _ => h.alive _ List.mem_cons_self) hsrc
      exact ⟨⟨s', fr ++ st⟩, by simp only [stepR, h2, bind, Except.bind]; rfl, h3⟩
    | @zapping w st p h1 =>
      obtain ⟨w1, w2⟩ := h.wf
      obtain ⟨f, hf⟩ := Option.ne_none_iff_exists'.1 (h.alive w List.mem_cons_self)
      have hready : Ready s env p st w :=
        ⟨h.env, h.flat, h.inv, w1, w2, fun u hu => h.alive u (List.mem_cons_of_mem _ hu), h1⟩
      refine ⟨⟨s.set w (some .empty), st⟩, by
        simp only [stepR, State.get_some hf, bind, Except.bind]; rfl, ?_⟩
      exact set_rel hready (some .empty) 0 (fun f hf => by cases hf; trivial) (fun id => by simp [Fn.ids, fresh_zero])

theorem rel_start : Rel (Mach.start : Mach V C) AState.start := by
  refine ⟨fun _ => rfl, fun _ _ h => (by cases h), ?_, trivial, fun _ h => (by cases h), .nil⟩
  exact (inv_start (V := V) (C := C)).sound

theorem runR_rel (size : C → Nat) (xs : List (Act V C)) {m : Mach V C} {a : AState V C} (h : Rel m a)
    (hp : PoliteRun .all (fun c => decide (size c ≤ bufferSize)) a xs) :
    ∃ m', runR size xs m = .ok (m', (a.run (fun c => decide (size c ≤ bufferSize)) xs).2) ∧
      Rel m' (a.run (fun c => decide (size c ≤ bufferSize)) xs).1 := by
  induction xs generalizing m a with
  | nil => exact ⟨m, rfl, h⟩
  | cons x xs ih =>
    obtain ⟨m1, h1, h2⟩ := stepR_rel size h x hp.1
    obtain ⟨m2, h3, h4⟩ := ih h2 hp.2
    exact ⟨m2, by simp only [runR, h1, h3, bind, Except.bind]; rfl, h4⟩

end Verif.Function
