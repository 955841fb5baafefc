import Verif.Function.ReenterSim
import Verif.Function.Props
/-!
# C125: callables and destructors of callables that use `Function`s
-/
namespace Verif.Function
open Verif

variable {V C : Type} [DecidableEq V]

/-- Which callables are stored inline: those whose holder (vtable pointer and callable) fits three words. -/
def small (size : C → Nat) : C → Bool := fun c => decide (size c ≤ 24)

/-- C125 (every history of a program, its callables and their destructors, of any length and nesting, that keeps `Rules.all`; any callables of
any size): nothing faults; every call runs, and every look sees, what the specification says; afterwards every variable that is not just being
emptied or replaced shows what the specification says; and every callable ever stored is either destroyed exactly once and in no such
variable, or not destroyed and in exactly one. Partial: the rules; without any one of them the property fails (below). -/
theorem C125_reentrant_partial (size : C → Nat) (xs : List (Act V C)) (hp : PoliteRun .all (small size) AState.start xs) :
    ∃ m, runR size xs Mach.start = .ok (m, (AState.run (small size) xs AState.start).2) ∧
      (∀ v, v ∉ busy (AState.run (small size) xs AState.start).1.pend →
        Shows (m.s.vars v) m.s.mem (((AState.run (small size) xs AState.start).1.env v).map Held.val) ∧
        ∀ f, m.s.vars v = some f → some f.inline = ((AState.run (small size) xs AState.start).1.env v).map Held.inline) ∧
      ∀ id, id < m.s.mem.next →
        (m.s.mem.dead.count id = 1 ∧
          ∀ v f, v ∉ busy (AState.run (small size) xs AState.start).1.pend → m.s.vars v = some f → id ∉ f.ids) ∨
        (m.s.mem.dead.count id = 0 ∧
          ∃ v f, v ∉ busy (AState.run (small size) xs AState.start).1.pend ∧ m.s.vars v = some f ∧ f.ids.count id = 1 ∧
            ∀ w g, w ∉ busy (AState.run (small size) xs AState.start).1.pend → m.s.vars w = some g → id ∈ g.ids → w = v) := by
  obtain ⟨m, h1, h2⟩ := runR_rel size xs rel_start hp
  generalize hr : AState.run (small size) xs AState.start = r at *
  have hr' : AState.run (fun c => decide (size c ≤ bufferSize)) xs AState.start = r := hr
  rw [hr'] at h1 h2
  refine ⟨m, h1, ?_, ?_⟩
  · intro v hv
    have hs := shows_of_inv h2.inv v
    have hb : (m.s.blank (busy r.1.pend)).vars v = m.s.vars v := by simp [State.blank, hv]
    have e : (m.s.vars v).map Fn.abs = (r.1.env v).map Held.val := by
      rw [← h2.env v]
      cases m.s.vars v with
      | none => rfl
      | some f => simp [held_val]
    rw [← e]
    refine ⟨?_, ?_⟩
    · simp only [blank_mem] at hs; rw [hb] at hs; exact hs
    · intro f hf
      rw [← h2.env v, hf]
      simp [held_inline f (h2.flat v f hf)]
  · intro id hid
    have hi := h2.inv
    have hvars : ∀ v, v ∉ busy r.1.pend → (m.s.blank (busy r.1.pend)).vars v = m.s.vars v := by
      intro v hv; simp [State.blank, hv]
    by_cases hd : id ∈ m.s.mem.dead
    · left
      refine ⟨?_, ?_⟩
      · have := hi.cnt [] (by simp) id
        rw [blank_mem, if_pos hid] at this
        have := List.count_pos_iff.2 hd
        omega
      · intro v f hv hf h
        exact (hi.good (by rw [hvars v hv]; exact hf)).1 id h hd
    · right
      refine ⟨List.count_eq_zero.2 hd, ?_⟩
      rcases hi.cover id hid with h | ⟨v, hv⟩
      · exact (hd h).elim
      · have hvb : v ∉ busy r.1.pend := by
          intro hb; rw [blank_own hb] at hv; cases hv
        cases hf : m.s.vars v with
        | none => simp [State.own, hvars v hvb, hf] at hv
        | some f =>
          have hbf : (m.s.blank (busy r.1.pend)).vars v = some f := by rw [hvars v hvb, hf]
          rw [own_some hbf] at hv
          refine ⟨v, f, hvb, hf, ?_, ?_⟩
          · have := List.count_pos_iff.2 hv
            have := List.nodup_iff_count.1 (hi.good hbf).2.1 id
            omega
          · intro w g hw hg hm'
            have hbg : (m.s.blank (busy r.1.pend)).vars w = some g := by rw [hvars w hw, hg]
            apply Classical.byContradiction
            intro hne
            have := hi.cnt [w, v] (by simp [hne]) id
            rw [blank_mem, if_pos hid] at this
            simp only [List.flatMap_cons, List.flatMap_nil, List.append_nil, List.count_append, own_some hbf, own_some hbg] at this
            have := List.count_pos_iff.2 hv
            have := List.count_pos_iff.2 hm'
            omega

/-- C125: once every `Function` is gone and no destructor runs, every callable ever stored has been destroyed exactly once. -/
theorem C125_no_leak_partial (size : C → Nat) (xs : List (Act V C)) (hp : PoliteRun .all (small size) AState.start xs)
    (hall : ∀ v, (AState.run (small size) xs AState.start).1.env v = none) :
    ∃ m outs, runR size xs (Mach.start : Mach V C) = .ok (m, outs) ∧ ∀ id, id < m.s.mem.next → m.s.mem.dead.count id = 1 := by
  obtain ⟨m, h1, h2, h3⟩ := C125_reentrant_partial size xs hp
  refine ⟨m, _, h1, fun id hid => ?_⟩
  rcases h3 id hid with h | ⟨-, v, f, hv, hf, -⟩
  · exact h.1
  · have := (h2 v hv).1
    rw [hall v] at this
    simp only [Option.map_none, Shows] at this
    rw [hf] at this; cases this

/-- The uninterrupted rest of an operation (proof device for `C125_quiet`). -/
def restStep (size : C → Nat) (s : State V C) : Op V C → Exec (State V C)
  | .dtor v => .ok (s.set v none)
  | .assignNull v => step size s (.ctorNull v)
  | .assignCallable v c => step size s (.ctorCallable v c)
  | .assignCopyConst v w => step size s (.ctorCopyConst v w)
  | .assignCopy v w => step size s (.ctorCopy v w)
  | .assignMove v w => step size s (.ctorMove v w)
  | o => step size s o

/-- The rest of an operation, and at most one more destructor, as one step. -/
theorem finish_quiet (size : C → Nat) (s : State V C) (o : Op V C) (f : Fn C) (h0 : o.replaces = true → s.get o.target = .ok f) :
    (do
      let (s', fr) ← finish size s o
      match fr with
      | .zapping w :: _ => do
        let _ ← s'.get w
        .ok (s'.set w (some .empty))
      | _ => .ok s') =
    restStep size s o := by
  have hmove : ∀ v w, (do
      let (s', fr) ← moveStart s v w
      match fr with
      | .zapping w :: _ => do
        let _ ← s'.get w
        .ok (s'.set w (some .empty))
      | _ => .ok s') = step size s (.ctorMove v w) := by
    intro v w
    cases hw : s.get w with
    | error x => simp only [moveStart, step, hw, bind, Except.bind]
    | ok g =>
      have hvars : s.vars w = some g := by
        unfold State.get at hw; split at hw
        · rename_i h; cases hw; exact h
        · cases hw
      have hget : ∀ m x, ∃ y, (({ s with mem := m } : State V C).set v (some x)).get w = .ok y := by
        intro m x
        simp only [State.get, State.set]
        by_cases hwv : w = v
        · simp [hwv]
        · simp [hwv, hvars]
      cases g with
      | empty => simp only [moveStart, step, hw, bind, Except.bind, moveFn]
      | call inl id c =>
        cases inl with
        | false => simp only [moveStart, step, hw, bind, Except.bind, moveFn]
        | true =>
          simp only [moveStart, step, hw, bind, Except.bind, moveFn, destroy]
          by_cases hid : id ∈ s.mem.dead
          · simp only [hid, if_true]
          · simp only [hid, if_false]
            obtain ⟨y, hy⟩ := hget { next := s.mem.next + 1, dead := id :: s.mem.dead } (.call true s.mem.next c)
            simp only [hy]
      | wrap inl id g =>
        simp only [moveStart, step, hw, bind, Except.bind]
        cases moveFn (.wrap inl id g) s.mem <;> rfl
  cases o with
  | ctorNull v => rfl
  | ctorCallable v c => rfl
  | ctorCopyConst v w =>
    simp only [finish, restStep, step, bind, Except.bind]
    cases s.get w with
    | error => rfl
    | ok g => simp only []; cases assignConst g s.mem <;> rfl
  | ctorCopy v w =>
    simp only [finish, restStep, step, bind, Except.bind]
    cases s.get w with
    | error => rfl
    | ok g => simp only []; cases assignNonConst g s.mem <;> rfl
  | ctorMove v w => exact hmove v w
  | dtor v => simp only [finish, show s.get v = _ from h0 rfl, bind, Except.bind]; rfl
  | assignNull v => simp only [finish, show s.get v = _ from h0 rfl, bind, Except.bind]; rfl
  | assignCallable v c => simp only [finish, show s.get v = _ from h0 rfl, bind, Except.bind]; rfl
  | assignCopyConst v w =>
    simp only [finish, restStep, step, show s.get v = _ from h0 rfl, bind, Except.bind]
    cases s.get w with
    | error => rfl
    | ok g => simp only []; cases assignConst g s.mem <;> rfl
  | assignCopy v w =>
    simp only [finish, restStep, step, show s.get v = _ from h0 rfl, bind, Except.bind]
    cases s.get w with
    | error => rfl
    | ok g => simp only []; cases assignNonConst g s.mem <;> rfl
  | assignMove v w =>
    have := hmove v w
    simp only [finish, show s.get v = _ from h0 rfl, bind, Except.bind] at this ⊢
    exact this

theorem finish_frames (size : C → Nat) (s s' : State V C) (o : Op V C) (fr : List (Frame V C)) (h : finish size s o = .ok (s', fr)) :
    fr = [] ∨ ∃ w, fr = [.zapping w] := by
  have hmove : ∀ v w, moveStart s v w = .ok (s', fr) → fr = [] ∨ ∃ w, fr = [.zapping w] := by
    intro v w hm
    simp only [moveStart, bind, Except.bind] at hm
    repeat' split at hm
    all_goals first
      | cases hm; done
      | (simp only [Except.ok.injEq, Prod.mk.injEq] at hm; exact .inl hm.2.symm)
      | (simp only [Except.ok.injEq, Prod.mk.injEq] at hm; exact .inr ⟨_, hm.2.symm⟩)
  cases o with
  | ctorMove v w => exact hmove v w h
  | assignMove v w =>
    simp only [finish, bind, Except.bind] at h
    split at h
    · cases h
    · exact hmove v w h
  | _ =>
    simp only [finish, bind, Except.bind] at h
    repeat' split at h
    all_goals first
      | cases h; done
      | (simp only [Except.ok.injEq, Prod.mk.injEq] at h; exact .inl h.2.symm)

/-- The machine after an operation of which only the rest is left, all destructors being empty. -/
theorem quiet_rest (size : C → Nat) (s : State V C) (o : Op V C) (k : Nat) :
    (do
      let (s', fr) ← finish size s o
      let (m, _) ← runR size (.ret :: List.replicate k .ret) ⟨s', fr ++ []⟩
      .ok m) = (do
      let s' ← (do
        let (s', fr) ← finish size s o
        match fr with
        | .zapping w :: _ => do
          let _ ← s'.get w
          .ok (s'.set w (some .empty))
        | _ => .ok s')
      (.ok ⟨s', []⟩ : Exec (Mach V C))) := by
  have hidle : ∀ k (s : State V C), ∃ os, runR size (List.replicate k .ret) ⟨s, []⟩ = .ok (⟨s, []⟩, os) := by
    intro k s
    induction k with
    | zero => exact ⟨[], rfl⟩
    | succ k ih =>
      obtain ⟨os, h⟩ := ih
      exact ⟨.done :: os, by simp only [List.replicate_succ, runR, stepR, h, bind, Except.bind]⟩
  cases hf : finish size s o with
  | error x => rfl
  | ok r =>
    obtain ⟨s', fr⟩ := r
    simp only [bind, Except.bind]
    rcases finish_frames size s s' o fr hf with rfl | ⟨w, rfl⟩
    · obtain ⟨os, h⟩ := hidle k s'
      simp only [runR, stepR, List.append_nil, bind, Except.bind, h]
    · simp only [List.append_nil, runR, stepR, bind, Except.bind]
      cases hg : s'.get w with
      | error x => rfl
      | ok g =>
        obtain ⟨os, h⟩ := hidle k (s'.set w (some .empty))
        simp only [h]

/-- The final state of a run (proof device for `C125_quiet`). -/
def endR (size : C → Nat) (xs : List (Act V C)) (m : Mach V C) : Exec (Mach V C) := do
  let (m, _) ← runR size xs m
  .ok m

theorem endR_cons (size : C → Nat) (x : Act V C) (xs : List (Act V C)) (m : Mach V C) :
    endR size (x :: xs) m = (do
      let (m, _) ← stepR size m x
      endR size xs m) := by
  simp only [endR, runR, bind, Except.bind]
  cases stepR size m x with
  | error => rfl
  | ok r => simp only []; cases runR size xs r.1 <;> rfl

/-- C125: if no destructor uses a `Function`, an operation with the at most two destructors it runs is the uninterrupted operation of
C51-C54, in every state, faults included. -/
theorem C125_quiet (size : C → Nat) (s : State V C) (o : Op V C) :
    (do
      let (m, _) ← runR size [.op o, .ret, .ret] ⟨s, []⟩
      .ok m) = (do
      let s' ← step size s o
      (.ok ⟨s', []⟩ : Exec (Mach V C))) := by
  cases hr : o.replaces with
  | false =>
    have h1 := quiet_rest size s o 1
    rw [finish_quiet size s o .empty (fun h => by rw [hr] at h; cases h)] at h1
    have e : restStep size s o = step size s o := by
      cases o <;> first | rfl | (revert hr; simp [Op.replaces])
    rw [e] at h1
    rw [← h1]
    show endR size [.op o, .ret, .ret] ⟨s, []⟩ = (do
      let (s', fr) ← finish size s o
      endR size [.ret, .ret] ⟨s', fr ++ []⟩)
    rw [endR_cons]
    simp only [stepR, begin, hr, bind, Except.bind, Bool.false_eq_true, if_false]
    cases finish size s o <;> rfl
  | true =>
    have hst : step size s o = (do
        let f ← s.get o.target
        let m ← destroy f s.mem
        restStep size { s with mem := m } o) := by
      cases o <;> first | rfl | (revert hr; simp [Op.replaces])
    rw [hst]
    cases hg : s.get o.target with
    | error x => simp only [runR, stepR, begin, hr, hg, bind, Except.bind, if_true]
    | ok f =>
      cases hd : destroy f s.mem with
      | error x => simp only [runR, stepR, begin, hr, hg, hd, bind, Except.bind, if_true]
      | ok mm =>
        have hg' : o.replaces = true → ({ s with mem := mm } : State V C).get o.target = .ok f := fun _ => hg
        have hq := fun k => (quiet_rest size { s with mem := mm } o k).trans
          (by rw [finish_quiet size { s with mem := mm } o f hg'])
        simp only [bind, Except.bind] at hq ⊢
        cases hin : f.inner with
        | none =>
          rw [hd]
          refine Eq.trans ?_ (hq 1)
          show endR size [.op o, .ret, .ret] ⟨s, []⟩ = (do
            let (s', fr) ← finish size { s with mem := mm } o
            endR size [.ret, .ret] ⟨s', fr ++ []⟩)
          rw [endR_cons]
          simp only [stepR, begin, hr, hg, hd, hin, bind, Except.bind, if_true]
          cases finish size { s with mem := mm } o <;> rfl
        | some x =>
          rw [hd]
          refine Eq.trans ?_ (hq 0)
          show endR size [.op o, .ret, .ret] ⟨s, []⟩ = (do
            let (s', fr) ← finish size { s with mem := mm } o
            endR size [.ret] ⟨s', fr ++ []⟩)
          rw [endR_cons]
          simp only [stepR, begin, hr, hg, hd, hin, bind, Except.bind, if_true]
          rw [endR_cons]
          simp only [stepR, List.singleton_append, bind, Except.bind]
          cases finish size { s with mem := mm } o <;> rfl

/-! Every rule is needed. -/

/-- A checker for `Polite`. -/
def politeB (R : Rules) (a : AState Nat Nat) : Act Nat Nat → Bool
  | .op o => decide (Legal (fun v => (a.env v).map Held.val) o) &&
      (!R.noReplace || !o.replaces || !(busy a.pend).contains o.target) &&
      (!R.noRead || (match o.source with
        | some w => !(busy a.pend).contains w
        | none => true))
  | .look v => (a.env v).isSome
  | .call v => (match a.env v with
      | some (.fn _ _) => true
      | _ => false) && (!R.noCall || !(busy a.pend).contains v)
  | .use => !R.noUse || (match a.pend with
      | .running none :: _ => false
      | _ => true)
  | .ret => !R.keepSource || (match a.pend with
      | .waiting o :: _ => (match o.source with
        | some w => (a.env w).isSome
        | none => true)
      | _ => true)

theorem politeB_sound {R : Rules} {a : AState Nat Nat} {x : Act Nat Nat} (h : politeB R a x = true) : Polite R a x := by
  cases x with
  | op o =>
    simp only [politeB, Bool.and_eq_true, decide_eq_true_eq] at h
    refine ⟨h.1.1, ?_, ?_⟩
    · intro h1 h2 h3
      have := h.1.2
      simp [h1, h2] at this
      exact this h3
    · intro h1 w hw h3
      have := h.2
      simp [h1, hw] at this
      exact this h3
  | look v =>
    simp only [politeB] at h
    intro hn; rw [hn] at h; cases h
  | call v =>
    simp only [politeB, Bool.and_eq_true] at h
    refine ⟨?_, ?_⟩
    · have := h.1
      split at this
      · rename_i i c he; exact ⟨i, c, he⟩
      · cases this
    · intro h1 h3
      have := h.2
      simp [h1] at this
      exact this h3
  | use =>
    intro h1 h2
    simp only [politeB, h1] at h
    cases hp : a.pend with
    | nil => rw [hp] at h2; cases h2
    | cons p ps =>
      rw [hp] at h2 h
      simp only [List.head?_cons, Option.some.injEq] at h2
      subst h2
      cases h
  | ret =>
    intro h1 o h2 w hw hn
    simp only [politeB, h1] at h
    cases hp : a.pend with
    | nil => rw [hp] at h2; cases h2
    | cons p ps =>
      rw [hp] at h2 h
      simp only [List.head?_cons, Option.some.injEq] at h2
      subst h2
      simp [hw, hn] at h

def politeRunB (R : Rules) (sm : Nat → Bool) (a : AState Nat Nat) : List (Act Nat Nat) → Bool
  | [] => true
  | x :: xs => politeB R a x && politeRunB R sm (a.step sm x).1 xs

theorem politeRunB_sound {R : Rules} {sm : Nat → Bool} : ∀ (xs : List (Act Nat Nat)) (a : AState Nat Nat),
    politeRunB R sm a xs = true → PoliteRun R sm a xs
  | [], _, _ => trivial
  | x :: xs, a, h => by
    simp only [politeRunB, Bool.and_eq_true] at h
    exact ⟨politeB_sound h.1, politeRunB_sound xs _ h.2⟩

/-- C125 under the rules `R`: no history of client code, callables and destructors faults. -/
def NoFault (R : Rules) : Prop :=
  ∀ (size : Nat → Nat) (xs : List (Act Nat Nat)), PoliteRun R (small size) AState.start xs →
    ∃ r, runR size xs Mach.start = .ok r

def faultOf : Exec (Mach Nat Nat × List (Out Nat)) → Option Fault
  | .error f => some f
  | .ok _ => none

theorem not_noFault {R : Rules} (size : Nat → Nat) (xs : List (Act Nat Nat)) (f : Fault)
    (hp : politeRunB R (small size) AState.start xs = true) (hf : faultOf (runR size xs Mach.start) = some f) : ¬ NoFault R := by
  intro h
  obtain ⟨r, hr⟩ := h size xs (politeRunB_sound xs _ hp)
  rw [hr] at hf; cases hf

theorem C125_rules_suffice_partial : NoFault .all := by
  intro size xs hp
  obtain ⟨m, h, -⟩ := C125_reentrant_partial size xs hp
  exact ⟨_, h⟩

/-- Even number: 16 bytes, stored inline; odd: 40 bytes, on the heap. -/
def parity : Nat → Nat := fun c => if c % 2 = 0 then 16 else 40

/-- `f = nullptr`, and the destructor of the callable does `f = nullptr`: destroyed twice. -/
theorem C125_replace_dying_refuted : ¬ NoFault { Rules.all with noReplace := false } :=
  not_noFault parity [.op (.ctorCallable 0 2), .op (.assignNull 0), .op (.assignNull 0)] .doubleFree (by decide +kernel) (by decide +kernel)

/-- `f = nullptr`, and the destructor of the callable copies `f`, which still tests true: a destroyed callable is copied. -/
theorem C125_copy_dying_refuted : ¬ NoFault { Rules.all with noRead := false } :=
  not_noFault parity [.op (.ctorCallable 0 2), .op (.assignNull 0), .look 0, .op (.ctorCopyConst 1 0)] .useAfterFree
    (by decide +kernel) (by decide +kernel)

/-- `f = nullptr`, and the destructor of the (heap) callable moves `f` into `g`: `g` gets the dying callable, which is destroyed again with `g`. -/
theorem C125_move_dying_refuted : ¬ NoFault { Rules.all with noRead := false } :=
  not_noFault parity [.op (.ctorCallable 0 3), .op (.assignNull 0), .op (.ctorMove 1 0), .ret, .op (.dtor 1)] .doubleFree
    (by decide +kernel) (by decide +kernel)

/-- `f = g`, and the destructor of the old callable calls `f`: a destroyed callable is called. -/
theorem C125_call_dying_refuted : ¬ NoFault { Rules.all with noCall := false } :=
  not_noFault parity [.op (.ctorCallable 0 3), .op (.ctorCallable 1 5), .op (.assignCopyConst 0 1), .call 0] .useAfterFree
    (by decide +kernel) (by decide +kernel)

/-- `f = g` where the old callable of `f` owns `g`: `g` is read after its destruction. -/
theorem C125_owned_source_refuted : ¬ NoFault { Rules.all with keepSource := false } :=
  not_noFault parity [.op (.ctorCallable 0 3), .op (.ctorCallable 1 5), .op (.assignCopyConst 0 1), .op (.dtor 1), .ret, .ret] .useAfterFree
    (by decide +kernel) (by decide +kernel)

/-- A callable that replaces the `Function` it is called through and then reads its captures. -/
theorem C125_use_after_replace_refuted : ¬ NoFault { Rules.all with noUse := false } :=
  not_noFault parity [.op (.ctorCallable 0 3), .call 0, .op (.assignCallable 0 5), .ret, .use] .useAfterFree
    (by decide +kernel) (by decide +kernel)

/-- Moving the `Function` away while it is called is enough, if the callable is stored inline. -/
theorem C125_use_after_move_refuted : ¬ NoFault { Rules.all with noUse := false } :=
  not_noFault parity [.op (.ctorCallable 0 2), .call 0, .op (.ctorMove 1 0), .ret, .use] .useAfterFree
    (by decide +kernel) (by decide +kernel)

/-! Non-vacuity: a busy history that keeps all the rules. Callable 3 (heap) resets the `Function` it is called through; its destructor calls
another one, which moves the heap callable 5 while it runs and still reads its captures; a destructor run by `f = g` changes `g`; and the
destructor of a moved-from inline callable replaces the target of the move. -/
def busyActs : List (Act Nat Nat) :=
  [.op (.ctorCallable 0 3), .op (.ctorCallable 1 5), .op (.ctorCallable 2 2), .call 0, .use, .op (.assignNull 0),
   .call 1, .op (.ctorMove 3 1), .use, .ret, .look 0, .ret, .ret, .look 0,
   .op (.assignCopyConst 3 2), .op (.assignCallable 2 7), .ret, .look 2, .ret, .call 3, .ret,
   .op (.ctorCallable 4 4), .op (.ctorMove 5 4), .op (.assignCopy 5 3), .ret, .look 5, .ret, .look 4, .call 5, .use, .ret]

example : politeRunB .all (small parity) AState.start busyActs = true := by decide +kernel

example : (AState.run (small parity) busyActs AState.start).2 =
    [.done, .done, .done, .called 3, .done, .done, .called 5, .done, .done, .done, .seen true false, .done, .done, .seen false false,
     .done, .done, .done, .seen true false, .done, .called 7, .done,
     .done, .done, .done, .done, .seen true false, .done, .seen false false, .called 7, .done, .done] := by decide +kernel

/-- And one after which everything is gone. -/
def closeActs : List (Act Nat Nat) :=
  busyActs ++ [.op (.dtor 0), .op (.dtor 1), .op (.dtor 2), .ret, .op (.dtor 3), .op (.dtor 5), .ret, .ret, .op (.dtor 4)]

example : politeRunB .all (small parity) AState.start closeActs = true ∧
    (List.range 6).all (fun v => ((AState.run (small parity) closeActs AState.start).1.env v).isNone) = true := by decide +kernel

end Verif.Function
