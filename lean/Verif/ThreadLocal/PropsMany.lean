import Verif.ThreadLocal.SpecMany
/-!
# C116: ThreadLocal objects do not disturb one another
-/
namespace Verif.ThreadLocal.Many
open Verif
set_option linter.unusedSectionVars false
set_option linter.unusedSimpArgs false

variable {V H T A : Type} [DecidableEq V] [DecidableEq H] [DecidableEq T]

/-! ### Keys and their holders -/

/-- Holders have different keys, all in use, and see the values they should. -/
structure Core {X : Type} (live : List Nat) (val : Nat → T → A) (holds : X → Option Nat) (seen : X → Option (T → A)) : Prop where
  nodup : live.Nodup
  live : ∀ x k, holds x = some k → k ∈ live
  own : ∀ x y k, holds x = some k → holds y = some k → x = y
  same : ∀ x, (seen x = none ∧ holds x = none) ∨ ∃ k, holds x = some k ∧ seen x = some (val k)

variable {X : Type} [DecidableEq X]

theorem Core.create {live : List Nat} {val : Nat → T → A} {holds : X → Option Nat} {seen : X → Option (T → A)} (h : Core live val holds seen)
    {k : Nat} (hk : k ∉ live) (dflt : A) (x : X) :
    Core (k :: live) (fun j => if j = k then fun _ => dflt else val j) (upd holds x (some k)) (upd seen x (some fun _ => dflt)) where
  nodup := List.nodup_cons.mpr ⟨hk, h.nodup⟩
  live y j hy := by
    simp only [upd] at hy
    split at hy
    · injection hy with hy; subst hy; simp
    · exact List.mem_cons_of_mem _ (h.live y j hy)
  own y z j hy hz := by
    simp only [upd] at hy hz
    split at hy <;> split at hz
    · rename_i h1 h2; rw [h1, h2]
    · injection hy with hy; subst hy; exact absurd (h.live z _ hz) hk
    · injection hz with hz; subst hz; exact absurd (h.live y _ hy) hk
    · exact h.own y z j hy hz
  same y := by
    simp only [upd]
    split
    · exact .inr ⟨k, rfl, by simp⟩
    · rcases h.same y with ⟨h1, h2⟩ | ⟨j, h1, h2⟩
      · exact .inl ⟨h1, h2⟩
      · refine .inr ⟨j, h1, ?_⟩
        have : j ≠ k := by rintro rfl; exact hk (h.live y _ h1)
        rw [h2, if_neg this]

theorem Core.delete {live : List Nat} {val : Nat → T → A} {holds : X → Option Nat} {seen : X → Option (T → A)} (h : Core live val holds seen)
    {k : Nat} {x : X} (hx : holds x = some k) : Core (live.erase k) val (upd holds x none) (upd seen x none) where
  nodup := h.nodup.erase k
  live y j hy := by
    simp only [upd] at hy
    split at hy
    · cases hy
    · rename_i hne
      refine (List.mem_erase_of_ne ?_).mpr (h.live y j hy)
      rintro rfl; exact hne (h.own y x _ hy hx)
  own y z j hy hz := by
    simp only [upd] at hy hz
    split at hy <;> split at hz <;> first | cases hy; done | cases hz; done | exact h.own y z j hy hz
  same y := by
    simp only [upd]
    split
    · exact .inl ⟨rfl, rfl⟩
    · exact h.same y

theorem Core.set {live : List Nat} {val : Nat → T → A} {holds : X → Option Nat} {seen : X → Option (T → A)} (h : Core live val holds seen)
    {k : Nat} {x : X} (hx : holds x = some k) (t : T) (a : A) :
    Core live (fun j u => if j = k ∧ u = t then a else val j u) holds (upd seen x (some (upd (val k) t a))) where
  nodup := h.nodup
  live := h.live
  own := h.own
  same y := by
    simp only [upd]
    split
    · rename_i hy
      refine .inr ⟨k, by rw [hy, hx], ?_⟩
      congr 1; funext u; simp [upd]
    · rename_i hne
      rcases h.same y with h1 | ⟨j, h1, h2⟩
      · exact .inl h1
      · refine .inr ⟨j, h1, ?_⟩
        have : j ≠ k := by rintro rfl; exact hne (h.own y x _ h1 hx)
        rw [h2]; congr 1; funext u; simp [this]

/-! ### The invariant -/

/-- Who holds which key. -/
def World.holds (s : World V H T A) : V ⊕ H → Option Nat
  | .inl v => (s.objs v).bind (·.key)
  | .inr h => s.lib h

/-- What each holder of a slot should see. -/
def Env.seen (e : Env V H T A) : V ⊕ H → Option (T → A)
  | .inl v => (e.vars v).bind fun x => if x.slot then some x.vals else none
  | .inr h => e.lib h

structure Inv (dflt : A) (s : World V H T A) (e : Env V H T A) : Prop where
  core : Core s.live s.val s.holds e.seen
  count : s.live.length = e.used
  gone : ∀ v, e.vars v = none → s.objs v = none
  unset : ∀ v x, e.vars v = some x → x.slot = false → s.objs v = some ⟨false, none⟩ ∧ x.vals = fun _ => dflt
  slot : ∀ v x, e.vars v = some x → x.slot = true → ∃ k, s.objs v = some ⟨true, some k⟩ ∧ k ∈ s.live ∧ x.vals = s.val k
  lib : ∀ h f, e.lib h = some f → ∃ k, s.lib h = some k ∧ k ∈ s.live ∧ f = s.val k

theorem inv_mk {dflt : A} {s : World V H T A} {e : Env V H T A} (core : Core s.live s.val s.holds e.seen) (count : s.live.length = e.used)
    (gone : ∀ v, e.vars v = none → s.objs v = none)
    (unset : ∀ v x, e.vars v = some x → x.slot = false → s.objs v = some ⟨false, none⟩ ∧ x.vals = fun _ => dflt)
    (slot : ∀ v x, e.vars v = some x → x.slot = true → ∃ k, s.objs v = some ⟨true, some k⟩) : Inv dflt s e where
  core := core
  count := count
  gone := gone
  unset := unset
  slot v x hv hx := by
    obtain ⟨k, hk⟩ := slot v x hv hx
    have hh : s.holds (.inl v) = some k := by simp [World.holds, hk]
    rcases core.same (.inl v) with ⟨h1, -⟩ | ⟨j, h1, h2⟩
    · simp [Env.seen, hv, hx] at h1
    · rw [hh] at h1; injection h1 with h1; subst h1
      simp only [Env.seen, hv, Option.bind_some, hx, if_true] at h2
      injection h2 with h2
      exact ⟨k, hk, core.live _ _ hh, h2⟩
  lib h f hf := by
    rcases core.same (.inr h) with ⟨h1, -⟩ | ⟨j, h1, h2⟩
    · simp only [Env.seen] at h1; rw [h1] at hf; cases hf
    · simp only [Env.seen] at h2; rw [h2] at hf; injection hf with hf
      exact ⟨j, h1, core.live _ _ h1, hf.symm⟩

theorem inv_start (dflt : A) : Inv dflt (World.start dflt : World V H T A) Env.start :=
  inv_mk ⟨List.nodup_nil, fun x k h => (by cases x <;> cases h), fun x y k h => (by cases x <;> cases h),
    fun x => .inl ⟨by cases x <;> rfl, by cases x <;> rfl⟩⟩ rfl (fun _ _ => rfl) (fun _ _ h => by cases h) (fun _ _ h => by cases h)

theorem holds_setObj (s : World V H T A) (v : V) (o : Option Obj) : (s.setObj v o).holds = upd s.holds (.inl v) (o.bind (·.key)) := by
  funext x
  cases x with
  | inl u =>
    simp only [World.holds, World.setObj, upd, Sum.inl.injEq]
    split <;> rfl
  | inr h => simp [World.holds, World.setObj, upd]

theorem holds_setLib (s : World V H T A) (h : H) (k : Option Nat) : (s.setLib h k).holds = upd s.holds (.inr h) k := by
  funext x
  cases x with
  | inl u => simp [World.holds, World.setLib, upd]
  | inr u => simp only [World.holds, World.setLib, upd, Sum.inr.injEq]

theorem seen_var (e : Env V H T A) (v : V) (x : Option (Var T A)) (n : Nat) :
    ({ e with vars := upd e.vars v x, used := n } : Env V H T A).seen =
      upd e.seen (.inl v) (x.bind fun x => if x.slot then some x.vals else none) := by
  funext y
  cases y with
  | inl u =>
    simp only [Env.seen, upd, Sum.inl.injEq]
    split <;> rfl
  | inr h => simp [Env.seen, upd]

theorem seen_lib (e : Env V H T A) (h : H) (f : Option (T → A)) (n : Nat) :
    ({ e with lib := upd e.lib h f, used := n } : Env V H T A).seen = upd e.seen (.inr h) f := by
  funext y
  cases y with
  | inl u => simp [Env.seen, upd]
  | inr u => simp only [Env.seen, upd, Sum.inr.injEq]

theorem upd_self {K Y : Type} [DecidableEq K] (f : K → Y) (k : K) (y : Y) (h : f k = y) : upd f k y = f := by
  funext j; simp only [upd]; split
  · rename_i hj; rw [hj, h]
  · rfl

theorem upd_get {K Y : Type} [DecidableEq K] (f : K → Y) (k j : K) (y : Y) : upd f k y j = if j = k then y else f j := rfl

theorem erase_len {l : List Nat} {k : Nat} (h : k ∈ l) : (l.erase k).length = l.length - 1 := List.length_erase_of_mem h

/-- A new key. -/
def withKey (s : World V H T A) (k : Nat) (dflt : A) : World V H T A :=
  { s with live := k :: s.live, val := fun j => if j = k then fun _ => dflt else s.val j }

/-- A value stored. -/
def withVal (s : World V H T A) (k : Nat) (t : T) (a : A) : World V H T A :=
  { s with val := fun j u => if j = k ∧ u = t then a else s.val j u }

/-- One call. -/
theorem step_ok (limit : Nat) (pick : List Nat → Nat) (hpick : ∀ l, l.length < limit → pick l ∉ l) (dflt : A) {s : World V H T A} {e : Env V H T A}
    (hi : Inv dflt s e) (o : Op V H T A) (hl : Legal e o) (hf : (specStep dflt e o).1.used ≤ limit) :
    ∃ s', step limit pick dflt s o = .ok (s', (specStep dflt e o).2) ∧ Inv dflt s' (specStep dflt e o).1 := by
  cases o with
  | ctor v =>
    have hv : e.vars v = none := hl
    refine ⟨_, rfl, inv_mk ?_ hi.count ?_ ?_ ?_⟩
    · rw [holds_setObj]
      show Core _ _ _ (Env.seen { e with vars := upd e.vars v (some ⟨false, fun _ => dflt⟩), used := e.used })
      rw [seen_var, upd_self, upd_self]
      · exact hi.core
      · simp [Env.seen, hv]
      · simp [World.holds, hi.gone v hv]
    · intro u hu
      simp only [specStep, upd_get] at hu
      simp only [World.setObj, withKey, withVal]
      split at hu
      · cases hu
      · rename_i hne; rw [if_neg hne]; exact hi.gone u hu
    · intro u x hu hx
      simp only [specStep, upd_get] at hu
      simp only [World.setObj, withKey, withVal]
      split at hu
      · rename_i he; rw [if_pos he]; injection hu with hu; subst hu; exact ⟨rfl, rfl⟩
      · rename_i hne; rw [if_neg hne]; exact hi.unset u x hu hx
    · intro u x hu hx
      simp only [specStep, upd_get] at hu
      simp only [World.setObj, withKey, withVal]
      split at hu
      · injection hu with hu; subst hu; cases hx
      · rename_i hne; rw [if_neg hne]; obtain ⟨k, hk, -⟩ := hi.slot u x hu hx; exact ⟨k, hk⟩
  | dtor v =>
    cases hv : e.vars v with
    | none => exact absurd hv hl
    | some x =>
      have hrest : ∀ (l : List Nat) (n : Nat), Core l s.val (upd s.holds (.inl v) none) (upd e.seen (.inl v) none) → l.length = n →
          Inv dflt ({ s with live := l }.setObj v none) { e with vars := upd e.vars v none, used := n } := by
        intro l n hc hn
        refine inv_mk ?_ hn ?_ ?_ ?_
        · rw [holds_setObj, seen_var]; exact hc
        · intro u hu
          simp only [upd_get] at hu
          simp only [World.setObj, withKey, withVal]
          split at hu
          · rename_i h; rw [if_pos h]
          · rename_i hne; rw [if_neg hne]; exact hi.gone u hu
        · intro u x hu hx
          simp only [upd_get] at hu
          simp only [World.setObj, withKey, withVal]
          split at hu
          · cases hu
          · rename_i hne; rw [if_neg hne]; exact hi.unset u x hu hx
        · intro u x hu hx
          simp only [upd_get] at hu
          simp only [World.setObj, withKey, withVal]
          split at hu
          · cases hu
          · rename_i hne; rw [if_neg hne]; obtain ⟨k, hk, -⟩ := hi.slot u x hu hx; exact ⟨k, hk⟩
      cases hs : x.slot with
      | false =>
        obtain ⟨h1, -⟩ := hi.unset v x hv hs
        have := hrest s.live e.used (by
          rw [upd_self, upd_self]
          · exact hi.core
          · simp [Env.seen, hv, hs]
          · simp [World.holds, h1]) hi.count
        refine ⟨s.setObj v none, ?_, ?_⟩
        · simp [step, World.obj, h1, specStep, hv, bind, Except.bind]
        · simp only [specStep, hv, hs]; exact this
      | true =>
        obtain ⟨k, h1, h2, h3⟩ := hi.slot v x hv hs
        have := hrest (s.live.erase k) (e.used - 1) (hi.core.delete (by simp [World.holds, h1])) (by rw [erase_len h2, hi.count])
        refine ⟨{ s with live := s.live.erase k }.setObj v none, ?_, ?_⟩
        · simp [step, World.obj, h1, specStep, hv, bind, Except.bind, keyOf, delete, h2]
        · simp only [specStep, hv, hs]; exact this
  | get t v =>
    cases hv : e.vars v with
    | none => exact absurd hv hl
    | some x =>
      refine ⟨s, ?_, by simp only [specStep, hv]; exact hi⟩
      cases hs : x.slot with
      | false => obtain ⟨h1, h2⟩ := hi.unset v x hv hs; simp [step, World.obj, h1, specStep, hv, bind, Except.bind, h2]
      | true =>
        obtain ⟨k, h1, h2, h3⟩ := hi.slot v x hv hs
        simp [step, World.obj, h1, specStep, hv, bind, Except.bind, h3, keyOf, getspecific, h2]
  | set t v a =>
    cases hv : e.vars v with
    | none => exact absurd hv hl
    | some x =>
      have hrest : ∀ (s' : World V H T A) (f : T → A) (n : Nat), (∀ u, u ≠ v → s'.objs u = s.objs u) → (∃ k, s'.objs v = some ⟨true, some k⟩) →
          Core s'.live s'.val s'.holds (upd e.seen (.inl v) (some f)) → s'.live.length = n →
          Inv dflt s' { e with vars := upd e.vars v (some ⟨true, f⟩), used := n } := by
        intro s' f n ho hk hc hn
        refine inv_mk ?_ hn ?_ ?_ ?_
        · rw [seen_var]; exact hc
        · intro u hu
          simp only [upd_get] at hu
          split at hu
          · cases hu
          · rename_i hne; rw [ho u hne]; exact hi.gone u hu
        · intro u x hu hx
          simp only [upd_get] at hu
          split at hu
          · injection hu with hu; subst hu; cases hx
          · rename_i hne; rw [ho u hne]; exact hi.unset u x hu hx
        · intro u x hu hx
          simp only [upd_get] at hu
          split at hu
          · rename_i h; rw [h]; exact hk
          · rename_i hne; rw [ho u hne]; obtain ⟨k, hk, -⟩ := hi.slot u x hu hx; exact ⟨k, hk⟩
      cases hs : x.slot with
      | false =>
        obtain ⟨h1, h2⟩ := hi.unset v x hv hs
        simp only [specStep, hv, hs] at hf
        have hlen : s.live.length < limit := by rw [hi.count]; simp at hf; omega
        have hfresh := hpick _ hlen
        have hc := hi.core.create hfresh dflt (.inl v)
        have hc2 := hc.set (x := .inl v) (k := pick s.live) (by simp [upd]) t a
        refine ⟨(withVal (withKey (s.setObj v (some ⟨true, some (pick s.live)⟩)) (pick s.live) dflt) (pick s.live) t a), ?_, ?_⟩
        · simp [step, World.obj, h1, specStep, hv, bind, Except.bind, allocate, create, hlen, World.setObj, keyOf, setspecific, withKey, withVal]
        · simp only [specStep, hv, hs]
          refine hrest _ _ _ (fun u hu => by simp [World.setObj, withKey, withVal, hu]) ⟨pick s.live, by simp [World.setObj, withKey, withVal]⟩ ?_ (by simp [withKey, withVal, World.setObj, World.setLib, hi.count])
          have e1 : World.holds (withVal (withKey (s.setObj v (some ⟨true, some (pick s.live)⟩)) (pick s.live) dflt) (pick s.live) t a) =
            upd s.holds (.inl v) (some (pick s.live)) := holds_setObj s v (some ⟨true, some (pick s.live)⟩)
          rw [e1]
          have e2 : upd (upd e.seen (Sum.inl v) (some fun _ => dflt)) (Sum.inl v)
              (some (upd ((if pick s.live = pick s.live then fun _ => dflt else s.val (pick s.live))) t a)) =
              upd e.seen (.inl v) (some (upd x.vals t a)) := by
            funext y; simp only [upd, h2]; split <;> simp
          rw [← e2]; exact hc2
      | true =>
        obtain ⟨k, h1, h2, h3⟩ := hi.slot v x hv hs
        have hc2 := hi.core.set (x := .inl v) (k := k) (by simp [World.holds, h1]) t a
        refine ⟨withVal s k t a, ?_, ?_⟩
        · simp [step, World.obj, h1, specStep, hv, bind, Except.bind, keyOf, setspecific, h2, withVal]
        · simp only [specStep, hv, hs]
          refine hrest _ _ _ (fun u hu => rfl) ⟨k, h1⟩ ?_ (by simp [withKey, withVal, World.setObj, World.setLib, hi.count])
          rw [h3]; exact hc2
  | allocate v =>
    cases hv : e.vars v with
    | none => exact absurd hv hl
    | some x =>
      cases hs : x.slot with
      | false =>
        obtain ⟨h1, h2⟩ := hi.unset v x hv hs
        simp only [specStep, hv, hs] at hf
        have hlen : s.live.length < limit := by rw [hi.count]; simp at hf; omega
        have hc := hi.core.create (hpick _ hlen) dflt (.inl v)
        refine ⟨(withKey (s.setObj v (some ⟨true, some (pick s.live)⟩)) (pick s.live) dflt), ?_, ?_⟩
        · simp [step, World.obj, h1, specStep, hv, bind, Except.bind, allocate, create, hlen, World.setObj, withKey]
        · simp only [specStep, hv, hs]
          refine inv_mk ?_ (by simp [withKey, withVal, World.setObj, World.setLib, hi.count]) ?_ ?_ ?_
          · rw [seen_var]
            have e1 : World.holds (withKey (s.setObj v (some ⟨true, some (pick s.live)⟩)) (pick s.live) dflt) =
              upd s.holds (.inl v) (some (pick s.live)) := holds_setObj s v (some ⟨true, some (pick s.live)⟩)
            rw [e1]
            simp only [Option.bind_some, if_true, h2]
            exact hc
          · intro u hu
            simp only [upd_get] at hu
            simp only [World.setObj, withKey, withVal]
            split at hu
            · cases hu
            · rename_i hne; rw [if_neg hne]; exact hi.gone u hu
          · intro u x hu hx
            simp only [upd_get] at hu
            simp only [World.setObj, withKey, withVal]
            split at hu
            · injection hu with hu; subst hu; cases hx
            · rename_i hne; rw [if_neg hne]; exact hi.unset u x hu hx
          · intro u x hu hx
            simp only [upd_get] at hu
            simp only [World.setObj, withKey, withVal]
            split at hu
            · rename_i h; rw [if_pos h]; exact ⟨_, rfl⟩
            · rename_i hne; rw [if_neg hne]; obtain ⟨k, hk, -⟩ := hi.slot u x hu hx; exact ⟨k, hk⟩
      | true =>
        obtain ⟨k, h1, h2, h3⟩ := hi.slot v x hv hs
        refine ⟨s, ?_, ?_⟩
        · simp [step, World.obj, h1, specStep, hv, bind, Except.bind, allocate]
        · simp only [specStep, hv, hs, if_true]
          rw [upd_self]
          · exact hi
          · rw [hv]; cases x; simp only at hs; subst hs; rfl
  | libCreate h =>
    simp only [specStep] at hf
    have hlen : s.live.length < limit := by rw [hi.count]; omega
    have hc := hi.core.create (hpick _ hlen) dflt (.inr h)
    refine ⟨(withKey (s.setLib h (some (pick s.live))) (pick s.live) dflt), ?_, ?_⟩
    · simp [step, specStep, create, hlen, World.setLib, withKey]
    · simp only [specStep]
      refine inv_mk ?_ (by simp [withKey, withVal, World.setObj, World.setLib, hi.count]) hi.gone hi.unset (fun v x hv hx => ?_)
      · rw [seen_lib]
        have e1 : World.holds (withKey (s.setLib h (some (pick s.live))) (pick s.live) dflt) =
          upd s.holds (.inr h) (some (pick s.live)) := holds_setLib s h _
        rw [e1]; exact hc
      · obtain ⟨k, hk, -⟩ := hi.slot v x hv hx; exact ⟨k, hk⟩
  | libDelete h =>
    cases hh : e.lib h with
    | none => exact absurd hh hl
    | some f =>
      obtain ⟨k, h1, h2, h3⟩ := hi.lib h f hh
      have hc := hi.core.delete (x := .inr h) (k := k) h1
      refine ⟨{ s with live := s.live.erase k }.setLib h none, ?_, ?_⟩
      · simp [step, specStep, World.handle, h1, bind, Except.bind, delete, h2]
      · simp only [specStep]
        refine inv_mk ?_ (by simp [World.setLib, erase_len h2, hi.count]) hi.gone hi.unset (fun v x hv hx => ?_)
        · rw [seen_lib, holds_setLib]; exact hc
        · obtain ⟨k, hk, -⟩ := hi.slot v x hv hx; exact ⟨k, hk⟩
  | libGet t h =>
    cases hh : e.lib h with
    | none => exact absurd hh hl
    | some f =>
      obtain ⟨k, h1, h2, h3⟩ := hi.lib h f hh
      refine ⟨s, ?_, by simp only [specStep, hh]; exact hi⟩
      simp [step, specStep, hh, World.handle, h1, bind, Except.bind, getspecific, h2, h3]
  | libSet t h a =>
    cases hh : e.lib h with
    | none => exact absurd hh hl
    | some f =>
      obtain ⟨k, h1, h2, h3⟩ := hi.lib h f hh
      have hc := hi.core.set (x := .inr h) (k := k) h1 t a
      refine ⟨withVal s k t a, ?_, ?_⟩
      · simp [step, specStep, hh, World.handle, h1, bind, Except.bind, setspecific, h2, withVal]
      · simp only [specStep, hh]
        refine inv_mk ?_ hi.count hi.gone hi.unset (fun v x hv hx => ?_)
        · rw [show ({ e with lib := upd e.lib h (some (upd f t a)) } : Env V H T A) = { e with lib := upd e.lib h (some (upd f t a)), used := e.used } from rfl,
            seen_lib, h3]
          exact hc
        · obtain ⟨k, hk, -⟩ := hi.slot v x hv hx; exact ⟨k, hk⟩

theorem run_ok (limit : Nat) (pick : List Nat → Nat) (hpick : ∀ l, l.length < limit → pick l ∉ l) (dflt : A) (os : List (Op V H T A)) :
    ∀ {s : World V H T A} {e : Env V H T A}, Inv dflt s e → Fits limit dflt os e →
    ∃ s', run limit pick dflt os s = .ok (s', (specRun dflt os e).2) ∧ Inv dflt s' (specRun dflt os e).1 := by
  induction os with
  | nil => intro s e hi _; exact ⟨s, rfl, hi⟩
  | cons o os ih =>
    intro s e hi hf
    obtain ⟨h1, h2, h3⟩ := hf
    obtain ⟨s1, hs1, hi1⟩ := step_ok limit pick hpick dflt hi o h1 h2
    obtain ⟨s2, hs2, hi2⟩ := ih hi1 h3
    exact ⟨s2, by simp [run, hs1, hs2, bind, Except.bind, specRun], hi2⟩

/-- **C116.** However many `ThreadLocal` objects there are, whichever threads construct, use and destroy them, whatever keys the system picks (also ones that
were in use before) and whatever other code does with its own slots: as long as no more slots are needed at once than the system has, every call returns what it
would return if each object were a separate variable of each thread, `T()` until the thread has set it; other code gets its own values back; no deleted or
uninitialised key is used; and the number of slots in use is the number of objects that were set or allocated and not destroyed, plus those of other code. -/
theorem C116_independent (limit : Nat) (pick : List Nat → Nat) (hpick : ∀ l, l.length < limit → pick l ∉ l) (dflt : A) (os : List (Op V H T A))
    (hf : Fits limit dflt os Env.start) :
    ∃ s, run limit pick dflt os (World.start dflt) = .ok (s, (specRun dflt os Env.start).2) ∧ s.live.length = (specRun dflt os Env.start).1.used ∧
      s.live.Nodup := by
  obtain ⟨s, h1, h2⟩ := run_ok limit pick hpick dflt os (inv_start dflt) hf
  exact ⟨s, h1, h2.count, h2.core.nodup⟩

/-- **C116 (exactly when it fails).** When all slots are in use, the first `set` of another object aborts the program and `allocate` returns false; not before. -/
theorem C116_exhausted (limit : Nat) (pick : List Nat → Nat) (hpick : ∀ l, l.length < limit → pick l ∉ l) (dflt : A) (os : List (Op V H T A))
    (hf : Fits limit dflt os Env.start) (v : V) (x : Var T A) (hv : (specRun dflt os Env.start).1.vars v = some x) (hs : x.slot = false) :
    ∃ s, run limit pick dflt os (World.start dflt) = .ok (s, (specRun dflt os Env.start).2) ∧
      ((specRun dflt os Env.start).1.used = limit → (∀ t a, step limit pick dflt s (.set t v a) = .error .abort) ∧
        ∃ s', step limit pick dflt s (.allocate v) = .ok (s', .ok false)) ∧
      ((specRun dflt os Env.start).1.used < limit → (∀ t a, ∃ s', step limit pick dflt s (.set t v a) = .ok (s', .unit)) ∧
        ∃ s', step limit pick dflt s (.allocate v) = .ok (s', .ok true)) := by
  obtain ⟨s, h1, h2⟩ := run_ok limit pick hpick dflt os (inv_start dflt) hf
  obtain ⟨h3, -⟩ := h2.unset v x hv hs
  refine ⟨s, h1, fun hu => ?_, fun hu => ?_⟩
  · have hlen : ¬ s.live.length < limit := by rw [h2.count]; omega
    exact ⟨fun t a => by simp [step, World.obj, h3, bind, Except.bind, allocate, create, hlen],
      _, by simp [step, World.obj, h3, bind, Except.bind, allocate, create, hlen]; rfl⟩
  · have hlen : s.live.length < limit := by rw [h2.count]; omega
    exact ⟨fun t a => ⟨_, by simp [step, World.obj, h3, bind, Except.bind, allocate, create, hlen, World.setObj, keyOf, setspecific]; rfl⟩,
      _, by simp [step, World.obj, h3, bind, Except.bind, allocate, create, hlen]; rfl⟩

/-! Non-vacuity: a system with two slots that hands out a key again as soon as it is free; three objects, another user of slots, two threads. -/

def demoPick (l : List Nat) : Nat := if 0 ∈ l then 1 else 0

theorem demoPick_fresh : ∀ l : List Nat, l.length < 2 → demoPick l ∉ l := by
  intro l hl
  match l, hl with
  | [], _ => simp
  | [a], _ => by_cases h : a = 0 <;> simp_all [demoPick, eq_comm]

def demoOps : List (Op Nat Nat Bool Nat) :=
  [.ctor 0, .get true 0, .set true 0 5, .set false 0 6, .ctor 1, .libCreate 0, .libSet true 0 9, .get true 1, .dtor 0, .set false 1 7, .get true 1,
   .get false 1, .libGet true 0, .libDelete 0, .ctor 2, .allocate 2, .get true 2, .dtor 1]

theorem demo_fits : Fits 2 0 demoOps Env.start := by
  repeat' first
    | exact trivial
    | refine ⟨?_, ?_, ?_⟩
    | rfl
    | (intro h; cases h; done)
    | (show _ ≤ 2; decide)

example : (specRun 0 demoOps (Env.start : Env Nat Nat Bool Nat)).2 = [.unit, .got 0, .unit, .unit, .unit, .ok true, .unit, .got 0, .unit, .unit, .got 0,
    .got 7, .got 9, .unit, .unit, .ok true, .got 0, .unit] := by decide +kernel

example := C116_independent 2 demoPick demoPick_fresh 0 demoOps demo_fits

/-- Both slots taken: the third object cannot have one. -/
example := C116_exhausted 2 demoPick demoPick_fresh 0 ([.ctor 0, .allocate 0, .libCreate 0, .ctor 1] : List (Op Nat Nat Bool Nat))
  (by repeat' first
        | exact trivial
        | refine ⟨?_, ?_, ?_⟩
        | rfl
        | (intro h; cases h; done)
        | (show _ ≤ 2; decide)) 1 ⟨false, fun _ => 0⟩ rfl rfl

end Verif.ThreadLocal.Many
