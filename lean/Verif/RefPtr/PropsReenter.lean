import Verif.RefPtr.ReenterLemmas
/-!
# Property C123: destructors that use handles
-/
namespace Verif.RefPtr.Reenter
open Verif Verif.RefPtr

set_option linter.unusedSimpArgs false
set_option linter.unusedSectionVars false

variable {H : Type} [DecidableEq H]

/-- C123, what holds: let the program and the destructors of its objects use handles in any order and nesting; a destructor
may create, copy, move, assign and destroy handles, also handles of its own object and of other objects, and so start further
destructors. If they use only handles that exist and are not in the middle of an assignment or destruction, operands outlive
the operation, and no destructor makes a handle on its own object, then no step faults; at every moment counts, handles and
objects agree; and whenever no call is in progress, exactly the objects with a handle exist (`Balanced`).
Missing: destructors that use a handle in the middle of an operation, or take a new reference to their object: see the
refutations. -/
theorem C123_reentrant_partial (arity : Obj → Nat) (virt : Obj → Bool) (as : List (Act H))
    (ho : ObeyRun arity virt true Machine.new as) :
    ∃ m, run arity virt Machine.new as = .ok m ∧ Consistent m ∧ (m.stack = [] → Balanced arity m.s) := by
  obtain ⟨m, h1, h2⟩ := run_spec (virt := virt) as Machine.new (j_new (arity := arity)) ho
  exact ⟨m, h1, h2.consistent, h2.balanced⟩

/-- The pointer each handle has after a step. An assignment in progress is completed by the step of the library that
resumes it; destroying members and objects changes no pointer. -/
def valAfter (m : Machine H) : Act H → Slot H → Option Obj
  | .op op, x =>
    match op with
    | .ctorNull h => if x = .root h then none else m.s.val x
    | .ctorNew h => if x = .root h then some m.s.fresh else if x.ownedBy m.s.fresh then none else m.s.val x
    | .ctorGet h e | .ctorCopy h e => if x = .root h then m.s.val e else m.s.val x
    | .ctorMove h e => if x = e then none else if x = .root h then m.s.val e else m.s.val x
    | .assignNew _ => if x.ownedBy m.s.fresh then none else m.s.val x
    | _ => m.s.val x
  | .self _, x | .ret, x => m.s.val x
  | .go, x =>
    match m.stack with
    | .store d v :: _ => if x = d then v else m.s.val x
    | .copy d e :: _ => if x = d then m.s.val e else m.s.val x
    | .move d e :: _ => if x = e then none else if x = d then m.s.val e else m.s.val x
    | _ => m.s.val x

theorem addRefOpt_val {virt : Obj → Bool} {m m' : Machine H} {v : Option Obj} (h : addRefOpt virt m v = .ok m') :
    m'.s.val = m.s.val ∧ m'.s.hs = m.s.hs := by
  cases v with
  | none => cases h; exact ⟨rfl, rfl⟩
  | some o =>
    simp only [addRefOpt, addRef] at h
    split at h
    · cases h
    · split at h
      · cases h
      · cases h; exact ⟨rfl, rfl⟩

theorem release_ok {m m' : Machine H} {o : Obj} (h : release m o = .ok m') :
    m'.s.val = m.s.val ∧ m'.s.hs = m.s.hs ∧ (m'.stack = .body o :: m.stack ∨ m'.stack = m.stack) := by
  simp only [release, if_true] at h
  split at h
  · cases h
  · split at h
    · cases h
    · split at h
      · split at h
        · cases h
        · cases h; exact ⟨rfl, rfl, .inl rfl⟩
      · cases h; exact ⟨rfl, rfl, .inr rfl⟩

theorem drop_ok {m m' : Machine H} {d : Slot H} {f : Frame H} (h : drop m d f = .ok m') :
    m'.s.val = m.s.val ∧ m'.s.hs = m.s.hs ∧ ((∃ o, m'.stack = .body o :: f :: m.stack) ∨ m'.stack = f :: m.stack) := by
  simp only [drop, read] at h
  split at h
  · cases h
  · simp only [bind, Except.bind] at h
    cases hv : m.s.val d with
    | none => rw [hv] at h; cases h; exact ⟨rfl, rfl, .inr rfl⟩
    | some o =>
      rw [hv] at h
      obtain ⟨h1, h2, h3⟩ := release_ok h
      exact ⟨h1, h2, h3.imp (fun h => ⟨o, h⟩) id⟩

theorem drop_val {m m' : Machine H} {d : Slot H} {f : Frame H} (h : drop m d f = .ok m') :
    m'.s.val = m.s.val ∧ m'.s.hs = m.s.hs := ⟨(drop_ok h).1, (drop_ok h).2.1⟩

theorem write_ok {s s' : State H} {d : Slot H} {v : Option Obj} (h : write s d v = .ok s') :
    s' = { s with val := fun e => if e = d then v else s.val e } := by
  simp only [write] at h
  split at h
  · cases h
  · cases h; rfl

theorem construct_ok {s s' : State H} {d : Slot H} {v : Option Obj} (h : construct s d v = .ok s') :
    s' = { s with hs := d :: s.hs, val := fun e => if e = d then v else s.val e } := by
  simp only [construct] at h
  split at h
  · cases h
  · cases h; rfl

theorem bindTo_val {virt : Obj → Bool} {m m' : Machine H} {d : Slot H} {v : Option Obj} (h : bindTo virt m d v = .ok m') :
    m'.s.val = fun x => if x = d then v else m.s.val x := by
  simp only [bindTo, bind, Except.bind] at h
  split at h
  · cases h
  · rename_i s1 h1
    rw [(addRefOpt_val h).1, write_ok h1]

theorem ctorRaw_val {virt : Obj → Bool} {m m' : Machine H} {d : Slot H} {v : Option Obj} (h : ctorRaw virt m d v = .ok m') :
    m'.s.val = (fun x => if x = d then v else m.s.val x) ∧ m'.s.hs = d :: m.s.hs := by
  simp only [ctorRaw, bind, Except.bind] at h
  split at h
  · cases h
  · rename_i s1 h1
    rw [(addRefOpt_val h).1, (addRefOpt_val h).2, construct_ok h1]
    exact ⟨rfl, rfl⟩

/-- C123, continued: what the handles hold after each step of such a history. In particular the pointer a destructor sees
in the handle that is being assigned is the old one, and the assignment takes effect when the destructor has returned. -/
theorem C123_effect_partial (arity : Obj → Nat) (virt : Obj → Bool) (as : List (Act H)) (a : Act H) (m m' : Machine H)
    (ho : ObeyRun arity virt true Machine.new as) (hr : run arity virt Machine.new as = .ok m) (hstep : Obey true m a)
    (ht : a = .go ∨ clientTurn m.stack = true) (hs : step arity virt m a = .ok m') :
    ∀ x ∈ m'.s.hs, m'.s.val x = valAfter m a x := by
  obtain ⟨m1, h1, hj⟩ := run_spec (virt := virt) as Machine.new (j_new (arity := arity)) ho
  rw [h1] at hr; cases hr
  obtain ⟨hi, hwf⟩ := hj
  obtain ⟨hi1, hmem, hval⟩ := inv2_new hi
  have hnl : m.s.fresh ∉ m.s.live := fun h => Nat.lt_irrefl _ (hi.lt _ h)
  have hnf : ∀ i, .field m.s.fresh i ∉ m.s.hs := by
    intro i h
    exact Nat.lt_irrefl _ ((hi.fiff _).1 (hi.dyd _ (hi.hdy _ _ ((hi.own2 _ _ hnl).1 h)))).1
  have hnew : ∀ x ∈ (newObj arity m.s).1.hs, (newObj arity m.s).1.val x = if x.ownedBy m.s.fresh then none else m.s.val x := by
    intro x hx
    rcases (hmem x).1 hx with h | ⟨i, hi', rfl⟩
    · have : x.ownedBy m.s.fresh = false := by
        cases x with
        | root => rfl
        | field o i =>
          simp only [Slot.ownedBy, decide_eq_false_iff_not]
          rintro rfl
          exact hnf i h
      rw [hval x h, this]; rfl
    · have : Slot.field m.s.fresh i ∈ (List.range (arity m.s.fresh)).map (Slot.field (H := H) m.s.fresh) := by
        simp [hi']
      simp only [newObj, Slot.ownedBy, decide_true, if_true]
      rw [if_pos this]
  have hbegin : ∀ op, begin arity virt m op = .ok m' → ∀ x ∈ m'.s.hs, m'.s.val x = valAfter m (.op op) x := by
    intro op hb x hx
    cases op with
    | ctorNull h =>
      simp only [begin, bind, Except.bind] at hb
      split at hb
      · cases hb
      · rename_i s1 h2
        cases hb
        rw [construct_ok h2]; rfl
    | ctorNew h =>
      simp only [begin] at hb
      obtain ⟨h2, h3⟩ := ctorRaw_val hb
      rw [h2]
      rw [h3] at hx
      simp only [valAfter]
      by_cases hxh : x = .root h
      · rw [if_pos hxh, if_pos hxh]; rfl
      · rw [if_neg hxh, if_neg hxh]
        exact hnew x ((List.mem_cons.1 hx).resolve_left hxh)
    | ctorGet h e =>
      simp only [begin, read] at hb
      split at hb
      · cases hb
      · rw [(ctorRaw_val hb).1]; rfl
    | ctorCopy h e =>
      simp only [begin, read] at hb
      split at hb
      · cases hb
      · rw [(ctorRaw_val hb).1]; rfl
    | ctorMove h e =>
      simp only [begin, RefPtr.ctorMove, read, bind, Except.bind] at hb
      split at hb
      · cases hb
      · rename_i s1 hb1
        cases hb
        split at hb1
        · cases hb1
        · rename_i v1 hv1
          have hv2 : v1 = m.s.val e := by
            split at hv1
            · cases hv1
            · cases hv1; rfl
          split at hb1
          · cases hb1
          · rename_i s2 h2
            simp only [write_ok hb1, construct_ok h2, hv2, valAfter]
    | assignNull d => rw [(drop_val hb).1]; rfl
    | assignNew d =>
      rw [(drop_val hb).2] at hx
      rw [(drop_val hb).1]
      exact hnew x hx
    | assignGet d e =>
      simp only [begin, read] at hb
      split at hb
      · cases hb
      · rw [(drop_val hb).1]; rfl
    | assignCopy d e => rw [(drop_val hb).1]; rfl
    | assignMove d e => rw [(drop_val hb).1]; rfl
    | destroy h => rw [(drop_val hb).1]; rfl
  obtain ⟨s, st⟩ := m
  cases a with
  | op op =>
    rcases ht with h | h
    · cases h
    · cases st with
      | nil => exact hbegin op hs
      | cons f k =>
        cases f with
        | body o => exact hbegin op hs
        | _ => cases h
  | self h =>
    rcases ht with h' | h'
    · cases h'
    · cases st with
      | nil => cases hs; exact fun _ _ => rfl
      | cons f k => cases (hstep h').2 rfl
  | ret =>
    intro x _
    cases st with
    | nil => cases hs; rfl
    | cons f k =>
      cases f <;> cases hs <;> rfl
  | go =>
    intro x _
    cases st with
    | nil => cases hs; rfl
    | cons f k =>
      cases f with
      | body o => cases hs; rfl
      | members o n =>
        cases n with
        | zero => cases hs; rfl
        | succ n =>
          have hs' : drop ⟨s, .members o n :: k⟩ (.field o n) (.gone (.field o n)) = .ok m' := hs
          rw [(drop_val hs').1]; rfl
      | store d v =>
        have hs' : bindTo virt ⟨s, k⟩ d v = .ok m' := hs
        rw [bindTo_val hs']; rfl
      | copy d e =>
        have hs' : resume virt ⟨s, k⟩ (.copy d e) = .ok m' := hs
        simp only [resume, read] at hs'
        split at hs'
        · cases hs'
        · rw [bindTo_val hs']; rfl
      | move d e =>
        have hs' : resume virt ⟨s, k⟩ (.move d e) = .ok m' := hs
        simp only [resume, read, bind, Except.bind] at hs'
        split at hs'
        · cases hs'
        · rename_i v1 hv1
          have hv2 : v1 = s.val e := by
            split at hv1
            · cases hv1
            · cases hv1; rfl
          split at hs'
          · cases hs'
          · rename_i s1 h1
            split at hs'
            · cases hs'
            · rename_i s2 h2
              cases hs'
              rw [write_ok h2, write_ok h1, hv2]
              rfl
      | gone d => cases hs; rfl

/-! ### The library returns to the client -/

/-- Steps of the library that are left before the next destructor body or the end of the operation. -/
def work : List (Frame H) → Nat
  | [] => 0
  | .body _ :: _ => 0
  | .members _ n :: k => 2 * n + 1 + work k
  | _ :: k => 1 + work k

theorem drop_work {m m' : Machine H} {d : Slot H} {f : Frame H} (h : drop m d f = .ok m') :
    work m'.stack ≤ work (f :: m.stack) := by
  rcases (drop_ok h).2.2 with ⟨o, h⟩ | h
  · rw [h]; exact Nat.zero_le _
  · rw [h]; exact Nat.le_refl _

theorem addRefOpt_stack {virt : Obj → Bool} {m m' : Machine H} {v : Option Obj} (h : addRefOpt virt m v = .ok m') :
    m'.stack = m.stack := by
  cases v with
  | none => cases h; rfl
  | some o =>
    simp only [addRefOpt, addRef] at h
    split at h
    · cases h
    · split at h
      · cases h
      · cases h; rfl

theorem go_work {arity : Obj → Nat} {virt : Obj → Bool} {m m' : Machine H} (ht : clientTurn m.stack = false)
    (hs : step arity virt m .go = .ok m') : work m'.stack < work m.stack := by
  obtain ⟨s, st⟩ := m
  cases st with
  | nil => cases ht
  | cons f k =>
    have hb : ∀ d v, bindTo virt ⟨s, k⟩ d v = .ok m' → m'.stack = k := by
      intro d v h
      simp only [bindTo, bind, Except.bind] at h
      split at h
      · cases h
      · exact addRefOpt_stack h
    cases f with
    | body o => cases ht
    | members o n =>
      cases n with
      | zero => cases hs; show work k < 2 * 0 + 1 + work k; omega
      | succ n =>
        have hs' : drop ⟨s, .members o n :: k⟩ (.field o n) (.gone (.field o n)) = .ok m' := hs
        have := drop_work hs'
        simp only [work] at this ⊢
        omega
    | store d v =>
      have hs' : bindTo virt ⟨s, k⟩ d v = .ok m' := hs
      rw [hb _ _ hs']; simp only [work]; omega
    | copy d e =>
      have hs' : resume virt ⟨s, k⟩ (.copy d e) = .ok m' := hs
      simp only [resume, read] at hs'
      split at hs'
      · cases hs'
      · rw [hb _ _ hs']; simp only [work]; omega
    | move d e =>
      have hs' : resume virt ⟨s, k⟩ (.move d e) = .ok m' := hs
      simp only [resume, bind, Except.bind] at hs'
      split at hs'
      · cases hs'
      · split at hs'
        · cases hs'
        · split at hs'
          · cases hs'
          · cases hs'; simp only [work]; omega
    | gone d => cases hs; simp only [work]; omega

/-- C123, continued: the library never runs for ever by itself. From any state it reaches, in a bounded number of its own
steps, the body of a destructor or the end of all operations. -/
theorem C123_returns (arity : Obj → Nat) (virt : Obj → Bool) (m m' : Machine H) (n : Nat) (hn : work m.stack ≤ n)
    (hr : run arity virt m (List.replicate n .go) = .ok m') : clientTurn m'.stack = true := by
  induction n generalizing m with
  | zero =>
    simp only [List.replicate_zero, run, Except.ok.injEq] at hr
    subst hr
    cases ht : m.stack with
    | nil => rfl
    | cons f k =>
      rw [ht] at hn
      cases f <;> simp only [work] at hn <;> first | rfl | omega
  | succ n ih =>
    simp only [List.replicate_succ, run, bind, Except.bind] at hr
    split at hr
    · cases hr
    · rename_i m1 h1
      by_cases ht : clientTurn m.stack = true
      · have hm : m1 = m := by
          obtain ⟨s, st⟩ := m
          cases st with
          | nil => cases h1; rfl
          | cons f k =>
            cases f with
            | body => cases h1; rfl
            | _ => cases ht
        subst hm
        refine ih m1 ?_ hr
        have : work m1.stack = 0 := by
          cases hst : m1.stack with
          | nil => rfl
          | cons f k =>
            rw [hst] at ht
            cases f with
            | body => rfl
            | _ => cases ht
        omega
      · have ht' : clientTurn m.stack = false := by
          cases h : clientTurn m.stack with
          | true => exact (ht h).elim
          | false => rfl
        have := go_work ht' h1
        exact ih m1 (by omega) hr

/-! ### Destructors without code -/

/-- Steps of a history in which destructors have empty bodies. -/
def Quiet : Act H → Prop
  | .ret | .go => True
  | _ => False

theorem run_append {arity : Obj → Nat} {virt : Obj → Bool} : ∀ (as bs : List (Act H)) (m m1 : Machine H),
    run arity virt m as = .ok m1 → run arity virt m (as ++ bs) = run arity virt m1 bs
  | [], bs, m, m1, h => by cases h; rfl
  | a :: as, bs, m, m1, h => by
    simp only [run, List.cons_append, bind, Except.bind] at h ⊢
    split at h
    · cases h
    · rename_i m2 h2
      exact run_append as bs m2 m1 h

theorem destroySlot_ok {rel : State H → Obj → Exec (State H)} {s s2 : State H} {d : Slot H} (h : destroySlot rel s d = .ok s2) :
    ∃ s1, ((read s d = .ok none ∧ s1 = s) ∨ ∃ o, read s d = .ok (some o) ∧ rel s o = .ok s1) ∧
      s2 = { s1 with hs := s1.hs.filter (fun e => decide (e ≠ d)) } := by
  unfold destroySlot at h
  cases hv : read s d with
  | error => rw [hv] at h; cases h
  | ok v =>
    rw [hv] at h
    cases v with
    | none => cases h; exact ⟨s, .inl ⟨rfl, rfl⟩, rfl⟩
    | some o =>
      cases hr : rel s o with
      | error => simp only [bind, Except.bind, hr] at h; cases h
      | ok s1 => simp only [bind, Except.bind, hr] at h; cases h; exact ⟨s1, .inr ⟨o, rfl, hr⟩, rfl⟩

theorem members_quiet {arity : Obj → Nat} {virt : Obj → Bool} {fuel : Nat}
    (ih : ∀ (s s' : State H) (o : Obj) (k : List (Frame H)), RefPtr.release arity fuel s o = .ok s' →
      ∃ m as, release ⟨s, k⟩ o = .ok m ∧ (∀ a ∈ as, Quiet a) ∧ run arity virt m as = .ok ⟨s', k⟩) :
    ∀ (n : Nat) (s s' : State H) (o : Obj) (k : List (Frame H)), members (RefPtr.release arity fuel) o n s = .ok s' →
      ∃ as, (∀ a ∈ as, Quiet a) ∧ run arity virt ⟨s, .members o n :: k⟩ as = .ok ⟨s', k⟩ := by
  intro n
  induction n with
  | zero =>
    intro s s' o k h
    cases h
    exact ⟨[.go], by simp [Quiet], rfl⟩
  | succ n ihn =>
    intro s s' o k h
    simp only [members, bind, Except.bind] at h
    split at h
    · cases h
    · rename_i s2 h2
      obtain ⟨s1, hv, rfl⟩ := destroySlot_ok h2
      have hfin : ∃ as, (∀ a ∈ as, Quiet a) ∧ run arity virt ⟨s1, .gone (.field o n) :: .members o n :: k⟩ as = .ok ⟨s', k⟩ := by
        obtain ⟨as, h3, h4⟩ := ihn _ s' o k h
        exact ⟨.go :: as, fun a ha => (List.mem_cons.1 ha).elim (fun h => h ▸ trivial) (h3 a), h4⟩
      obtain ⟨bs, hb1, hb2⟩ := hfin
      rcases hv with ⟨hv, rfl⟩ | ⟨p, hv, h1⟩
      · refine ⟨.go :: bs, fun a ha => (List.mem_cons.1 ha).elim (fun h => h ▸ trivial) (hb1 a), ?_⟩
        simp only [run, step, resume, drop, hv, bind, Except.bind, releaseOpt]
        exact hb2
      · obtain ⟨m1, as, h3, h4, h5⟩ := ih s s1 p (.gone (.field o n) :: .members o n :: k) h1
        refine ⟨.go :: (as ++ bs), ?_, ?_⟩
        · intro a ha
          rcases List.mem_cons.1 ha with h | h
          · subst h; trivial
          · exact (List.mem_append.1 h).elim (h4 a) (hb1 a)
        · simp only [run, step, resume, drop, hv, bind, Except.bind, releaseOpt, h3]
          rw [run_append as bs m1 _ h5]
          exact hb2

theorem release_quiet {arity : Obj → Nat} {virt : Obj → Bool} : ∀ (fuel : Nat) (s s' : State H) (o : Obj) (k : List (Frame H)),
    RefPtr.release arity fuel s o = .ok s' →
      ∃ m as, release ⟨s, k⟩ o = .ok m ∧ (∀ a ∈ as, Quiet a) ∧ run arity virt m as = .ok ⟨s', k⟩ := by
  intro fuel
  induction fuel with
  | zero => intro s s' o k h; cases h
  | succ fuel ih =>
    intro s s' o k h
    simp only [RefPtr.release, if_true] at h
    split at h
    · cases h
    · rename_i ho
      have ho' : o ∈ s.live := Decidable.not_not.1 ho
      split at h
      · cases h
      · rename_i hc
        split at h
        · rename_i hz
          obtain ⟨as, h3, h4⟩ := members_quiet (virt := virt) ih _ _ s' o k h
          refine ⟨{ s := { s with live := s.live.filter (fun p => decide (p ≠ o)), cnt := fun p => if p = o then s.cnt o - 1 else s.cnt p, freed := o :: s.freed }, stack := .body o :: k },
            .ret :: as, by simp only [release, ho', not_true_eq_false, false_and, if_false, hc, if_true, hz],
            fun a ha => (List.mem_cons.1 ha).elim (fun h => h ▸ trivial) (h3 a), ?_⟩
          simp only [run, step, bind, Except.bind]
          exact h4
        · rename_i hz
          cases h
          exact ⟨⟨_, k⟩, [], by simp only [release, ho', not_true_eq_false, false_and, if_false, hc, if_true, hz], by simp, rfl⟩

theorem drop_quiet {arity : Obj → Nat} {virt : Obj → Bool} {s s1 : State H} {v : Option Obj} {d : Slot H} {f : Frame H}
    {k : List (Frame H)} (hd : read s d = .ok v) (hr : RefPtr.releaseOpt arity s v = .ok s1) :
    ∃ m as, drop ⟨s, k⟩ d f = .ok m ∧ (∀ a ∈ as, Quiet a) ∧ run arity virt m as = .ok ⟨s1, f :: k⟩ := by
  simp only [drop, hd, bind, Except.bind]
  cases v with
  | none => cases hr; exact ⟨_, [], rfl, by simp, rfl⟩
  | some o => exact release_quiet _ s s1 o (f :: k) hr

theorem addRefOpt_quiet {virt : Obj → Bool} {s s1 : State H} {v : Option Obj} (h : RefPtr.addRefOpt s v = .ok s1) :
    addRefOpt virt ⟨s, []⟩ v = .ok ⟨s1, []⟩ := by
  cases v with
  | none => cases h; rfl
  | some o =>
    simp only [RefPtr.addRefOpt, RefPtr.addRef] at h
    split at h
    · cases h
    · rename_i ho
      cases h
      simp [addRefOpt, addRef, dying, Decidable.not_not.1 ho]

/-- C123, continued: with empty destructor bodies this is the program of C45: whatever an operation does there
(`RefPtr.exec`), the machine does step by step. -/
theorem C123_quiet (arity : Obj → Nat) (virt : Obj → Bool) (s s' : State H) (op : Op H) (h : exec arity s op = .ok s') :
    ∃ as, (∀ a ∈ as, Quiet a) ∧ run arity virt ⟨s, []⟩ (.op op :: as) = .ok ⟨s', []⟩ := by
  have hdrop : ∀ (s s1 : State H) (d : Slot H) (f : Frame H) (v : Option Obj) (bs : List (Act H)), read s d = .ok v →
      RefPtr.releaseOpt arity s v = .ok s1 → (∀ a ∈ bs, Quiet a) → run arity virt ⟨s1, [f]⟩ bs = .ok ⟨s', []⟩ →
      ∃ m as, drop ⟨s, []⟩ d f = .ok m ∧ (∀ a ∈ as, Quiet a) ∧ run arity virt m as = .ok ⟨s', []⟩ := by
    intro s s1 d f v bs h1 h2 h3 h4
    obtain ⟨m, as, h5, h6, h7⟩ := drop_quiet (virt := virt) (f := f) (k := []) h1 h2
    refine ⟨m, as ++ bs, h5, fun a ha => (List.mem_append.1 ha).elim (h6 a) (h3 a), ?_⟩
    rw [run_append as bs m _ h7]; exact h4
  have hbind : ∀ (s s2 : State H) (d : Slot H) (v : Option Obj), write s d v = .ok s2 → RefPtr.addRefOpt s2 v = .ok s' →
      bindTo virt ⟨s, []⟩ d v = .ok ⟨s', []⟩ := by
    intro s s2 d v h1 h2
    simp only [bindTo, h1, bind, Except.bind]
    exact addRefOpt_quiet h2
  have hraw : ∀ (s : State H) (d : Slot H) (v : Option Obj), RefPtr.ctorRaw s d v = .ok s' →
      ctorRaw virt ⟨s, []⟩ d v = .ok ⟨s', []⟩ := by
    intro s d v h
    simp only [RefPtr.ctorRaw, bind, Except.bind] at h
    split at h
    · cases h
    · rename_i s1 h1
      simp only [ctorRaw, h1, bind, Except.bind]
      exact addRefOpt_quiet h
  have hassign : ∀ (s : State H) (d : Slot H) (v : Option Obj), assignRaw arity s d v = .ok s' →
      ∃ m as, drop ⟨s, []⟩ d (.store d v) = .ok m ∧ (∀ a ∈ as, Quiet a) ∧ run arity virt m as = .ok ⟨s', []⟩ := by
    intro s d v h
    simp only [assignRaw, bind, Except.bind] at h
    split at h
    · cases h
    · rename_i old h1
      split at h
      · cases h
      · rename_i s1 h2
        split at h
        · cases h
        · rename_i s2 h3
          refine hdrop s s1 d _ old [.go] h1 h2 (by simp [Quiet]) ?_
          simp only [run, step, resume, hbind s1 s2 d v h3 h, bind, Except.bind]
  have fin : ∀ {m : Machine H} {as : List (Act H)}, begin arity virt ⟨s, []⟩ op = .ok m → (∀ a ∈ as, Quiet a) →
      run arity virt m as = .ok ⟨s', []⟩ → ∃ as, (∀ a ∈ as, Quiet a) ∧ run arity virt ⟨s, []⟩ (.op op :: as) = .ok ⟨s', []⟩ := by
    intro m as h1 h2 h3
    refine ⟨as, h2, ?_⟩
    simp only [run, step, h1, bind, Except.bind]
    exact h3
  cases op with
  | ctorNull h0 =>
    refine fin (m := ⟨s', []⟩) (as := []) ?_ (by simp) rfl
    simp only [exec] at h
    simp only [begin, h, bind, Except.bind]
  | ctorNew h0 => exact fin (as := []) (hraw _ _ _ h) (by simp) rfl
  | ctorGet h0 e =>
    simp only [exec, bind, Except.bind] at h
    split at h
    · cases h
    · rename_i v h1
      refine fin (m := ⟨s', []⟩) (as := []) ?_ (by simp) rfl
      simp only [begin, h1, bind, Except.bind]
      exact hraw _ _ _ h
  | ctorCopy h0 e =>
    simp only [exec, RefPtr.ctorCopy, bind, Except.bind] at h
    split at h
    · cases h
    · rename_i v h1
      refine fin (m := ⟨s', []⟩) (as := []) ?_ (by simp) rfl
      simp only [begin, h1, bind, Except.bind]
      exact hraw _ _ _ (by simp only [RefPtr.ctorRaw, bind, Except.bind]; exact h)
  | ctorMove h0 e =>
    simp only [exec] at h
    refine fin (m := ⟨s', []⟩) (as := []) ?_ (by simp) rfl
    simp only [begin, h, bind, Except.bind]
  | assignNull d =>
    obtain ⟨m, as, h1, h2, h3⟩ := hassign _ _ _ h
    exact fin h1 h2 h3
  | assignNew d =>
    obtain ⟨m, as, h1, h2, h3⟩ := hassign _ _ _ h
    exact fin h1 h2 h3
  | assignGet d e =>
    simp only [exec, bind, Except.bind] at h
    split at h
    · cases h
    · rename_i v h0
      obtain ⟨m, as, h1, h2, h3⟩ := hassign _ _ _ h
      refine fin ?_ h2 h3
      simp only [begin, h0, bind, Except.bind]
      exact h1
  | assignCopy d e =>
    simp only [exec, RefPtr.assignCopy, bind, Except.bind] at h
    split at h
    · cases h
    · rename_i old h1
      split at h
      · cases h
      · rename_i s1 h2
        split at h
        · cases h
        · rename_i v h3
          split at h
          · cases h
          · rename_i s2 h4
            obtain ⟨m, as, h5, h6, h7⟩ := hdrop s s1 d (.copy d e) old [.go] h1 h2 (by simp [Quiet]) (by
              simp only [run, step, resume, h3, hbind s1 s2 d v h4 h, bind, Except.bind])
            exact fin h5 h6 h7
  | assignMove d e =>
    simp only [exec, RefPtr.assignMove, bind, Except.bind] at h
    split at h
    · cases h
    · rename_i old h1
      split at h
      · cases h
      · rename_i s1 h2
        split at h
        · cases h
        · rename_i v h3
          split at h
          · cases h
          · rename_i s2 h4
            obtain ⟨m, as, h5, h6, h7⟩ := hdrop s s1 d (.move d e) old [.go] h1 h2 (by simp [Quiet]) (by
              simp only [run, step, resume, h3, h4, h, bind, Except.bind])
            exact fin h5 h6 h7
  | destroy h0 =>
    obtain ⟨s1, hv, rfl⟩ := destroySlot_ok h
    have hv' : ∃ v, read s (.root h0) = .ok v ∧ RefPtr.releaseOpt arity s v = .ok s1 := by
      rcases hv with ⟨hv, rfl⟩ | ⟨o, hv, h1⟩
      · exact ⟨none, hv, rfl⟩
      · exact ⟨some o, hv, h1⟩
    obtain ⟨v, h1, h2⟩ := hv'
    obtain ⟨m, as, h5, h6, h7⟩ := hdrop s s1 (.root h0) (.gone (.root h0)) v [.go] h1 h2 (by simp [Quiet]) rfl
    exact fin h5 h6 h7

/-! ### Refutations -/

/-- C123, full statement: handles exist when used and operands outlive the operation; that is enough. -/
def ReentrantCorrect : Prop :=
  ∀ (arity : Obj → Nat) (virt : Obj → Bool) (as : List (Act Nat)), ObeyRun arity virt false Machine.new as →
    ∃ m, run arity virt Machine.new as = .ok m ∧ (m.stack = [] → Balanced arity m.s)

/-- `RefPtr<T> g(new T); g = nullptr;` where `~T() { g = nullptr; }`. -/
def clearTwice : List (Act Nat) := [.op (.ctorNew 0), .op (.assignNull (.root 0)), .op (.assignNull (.root 0))]

/-- C123 is false: an assignment releases the old object before it changes the pointer, so a destructor that clears the
same handle releases its object a second time. -/
theorem C123_reentrant_refuted : ¬ ReentrantCorrect := by
  intro h
  have hbad : run (fun _ => 0) (fun _ => false) Machine.new clearTwice = .error .assertFail := by rfl
  have hp : ObeyRun (fun _ => 0) (fun _ => false) false Machine.new clearTwice := by
    refine ⟨fun _ => ⟨by simp [Exists, creates, uses, Machine.new, State.new], by simp⟩, fun m h1 => ?_⟩
    cases h1
    refine ⟨fun _ => ⟨by simp [Exists, creates, uses, Machine.new, State.new, newObj], by simp⟩, fun m h1 => ?_⟩
    cases h1
    refine ⟨fun _ => ⟨by simp [Exists, creates, uses, Machine.new, State.new, newObj], by simp⟩, fun m h1 => ?_⟩
    cases h1
  obtain ⟨m, h1, -⟩ := h _ _ _ hp
  rw [hbad] at h1
  cases h1

/-- `RefPtr<T> g(new T);` and the end of `g`, where `~T() { RefPtr<T> self(this); }`. -/
def resurrect : List (Act Nat) := [.op (.ctorNew 0), .op (.destroy 0), .self 1, .op (.destroy 1)]

/-- The claim for destructors that make a handle on their own object, as long as the handle is gone again before they
return. -/
def SelfHandleSafe (virt : Bool) : Prop :=
  ∀ (arity : Obj → Nat) (as : List (Act Nat)), ObeyRun arity (fun _ => virt) false Machine.new as →
    ∃ m, run arity (fun _ => virt) Machine.new as = .ok m

/-- C123, continued: a handle on an object under destruction destroys the object a second time. -/
theorem C123_self_handle_refuted : ¬ SelfHandleSafe false := by
  intro h
  have hbad : run (fun _ => 0) (fun _ => false) Machine.new resurrect = .error .doubleFree := by rfl
  have hp : ObeyRun (fun _ => 0) (fun _ => false) false Machine.new resurrect := by
    refine ⟨fun _ => ⟨by simp [Exists, creates, uses, Machine.new, State.new], by simp⟩, fun m h1 => ?_⟩
    cases h1
    refine ⟨fun _ => ⟨by simp [Exists, creates, uses, Machine.new, State.new, newObj], by simp⟩, fun m h1 => ?_⟩
    cases h1
    refine ⟨fun _ => ⟨by simp [Machine.new, State.new, newObj], by simp⟩, fun m h1 => ?_⟩
    cases h1
    refine ⟨fun _ => ⟨by simp [Exists, creates, uses, Machine.new, State.new, newObj], by simp⟩, fun m h1 => ?_⟩
    cases h1
  obtain ⟨m, h1⟩ := h _ _ hp
  rw [hbad] at h1
  cases h1

/-- C123, continued: `VirtualRefcounted` turns every such attempt into an assertion failure, in any state. -/
theorem C123_self_handle_asserts (arity : Obj → Nat) (virt : Obj → Bool) (m : Machine H) (o : Obj) (k : List (Frame H)) (h : H)
    (hs : m.stack = .body o :: k) (hv : virt o = true) (hh : .root h ∉ m.s.hs) :
    step arity virt m (.self h) = .error .assertFail := by
  obtain ⟨s, st⟩ := m
  simp only at hs hh
  subst hs
  simp [step, ctorRaw, construct, hh, bind, Except.bind, addRefOpt, addRef, dying, hv]

/-- C123, continued: one would like no handle to hold an object whose destructor is running. -/
def NeverDangling : Prop :=
  ∀ (arity : Obj → Nat) (virt : Obj → Bool) (as : List (Act Nat)) (m : Machine Nat), ObeyRun arity virt true Machine.new as →
    run arity virt Machine.new as = .ok m → ∀ e ∈ m.s.hs, ∀ o, m.s.val e = some o → o ∈ m.s.live

/-- C123, continued: false, the destructor of the object sees the handle that is being cleared still holding it. (By
`C123_reentrant_partial` only handles in the middle of an operation do so.) -/
theorem C123_never_dangling_refuted : ¬ NeverDangling := by
  intro h
  have hp : ObeyRun (fun _ => 0) (fun _ => false) true Machine.new [.op (.ctorNew 0), .op (.assignNull (.root 0))] := by
    refine ⟨fun _ => ⟨by simp [Exists, creates, uses, Machine.new, State.new], by simp [uses]⟩, fun m h1 => ?_⟩
    cases h1
    refine ⟨fun _ => ⟨by simp [Exists, creates, uses, Machine.new, State.new, newObj], by simp [uses, inflight, Machine.new]⟩, fun m h1 => trivial⟩
  have := h _ _ _ _ hp rfl (.root 0) (by simp) 0 rfl
  simp [newObj, Machine.new, State.new] at this

/-! ### Non-vacuity -/

/-- An object with one member; its destructor makes a new object, hangs it into its own member and keeps a second one in a
variable; the member dies with the object, and its destructor clears the variable, which destroys the second one. -/
def demo : List (Act Nat) :=
  [.op (.ctorNew 0), .op (.assignNull (.root 0)),
   -- in ~T of object 0
   .op (.assignNew (.field 0 0)), .go, .op (.ctorNew 1), .ret, .go,
   -- in ~T of object 1
   .op (.destroy 1),
   -- in ~T of object 2
   .ret, .go, .go, .go, .go,
   -- back in ~T of object 1
   .ret, .go, .go, .go, .go, .go, .go,
   -- back in the program
   .op (.destroy 0), .go]

example : (run (fun _ => 1) (fun _ => false) Machine.new demo).toOption.map (fun m => (m.s.live, m.s.freed, m.s.hs, m.stack.length)) =
    some ([], [2, 1, 0], [], 0) := by decide +kernel

/-- A check of the obligations, for concrete histories. -/
def obeyB (m : Machine H) : Act H → Bool
  | .op op => !clientTurn m.stack || (decide (∀ h ∈ creates op, .root h ∉ m.s.hs) && decide (∀ e ∈ uses op, e ∈ m.s.hs) &&
      decide (∀ e ∈ uses op, e ∉ inflight m.stack))
  | .self _ => false
  | .ret => true
  | .go =>
    match m.stack with
    | .members o (n + 1) :: k => decide (.field o n ∉ inflight k)
    | .store _ (some o) :: _ => decide (o ∈ m.s.live)
    | .copy d e :: _ => decide (e ∈ m.s.hs) && decide (e ≠ d)
    | .move _ e :: _ => decide (e ∈ m.s.hs)
    | _ => true

theorem obeyB_sound {m : Machine H} {a : Act H} (h : obeyB m a = true) : Obey true m a := by
  cases a with
  | op op =>
    intro ht
    simp only [obeyB, ht, Bool.not_true, Bool.false_or, Bool.and_eq_true, decide_eq_true_eq] at h
    exact ⟨⟨h.1.1, h.1.2⟩, fun _ => h.2⟩
  | self => cases h
  | ret => trivial
  | go =>
    show Kept m
    obtain ⟨s, st⟩ := m
    cases st with
    | nil => trivial
    | cons f k =>
      cases f with
      | members o n =>
        cases n with
        | zero => trivial
        | succ n => simpa [obeyB, Kept] using h
      | store d v =>
        cases v with
        | none => intro o ho; cases ho
        | some p => intro o ho; cases ho; simpa [obeyB] using h
      | copy d e =>
        simp only [obeyB, Bool.and_eq_true, decide_eq_true_eq] at h
        exact ⟨h.1, fun he => (h.2 he).elim⟩
      | move d e => simpa [obeyB, Kept] using h
      | _ => trivial

def obeyRunB (arity : Obj → Nat) (virt : Obj → Bool) (m : Machine H) : List (Act H) → Bool
  | [] => true
  | a :: as => obeyB m a && match step arity virt m a with
    | .ok m' => obeyRunB arity virt m' as
    | .error _ => false

theorem obeyRunB_sound {arity : Obj → Nat} {virt : Obj → Bool} : ∀ (as : List (Act H)) (m : Machine H),
    obeyRunB arity virt m as = true → ObeyRun arity virt true m as
  | [], _, _ => trivial
  | a :: as, m, h => by
    simp only [obeyRunB, Bool.and_eq_true] at h
    refine ⟨obeyB_sound h.1, fun m' hm => ?_⟩
    rw [hm] at h
    exact obeyRunB_sound as m' h.2

example : ObeyRun (fun _ => 1) (fun _ => true) true Machine.new demo := obeyRunB_sound _ _ (by decide +kernel)

/-- `g = h` where the destructor of the old object of `g` moves `h` away: the assignment then finds a null handle. -/
example : ObeyRun (fun _ => 0) (fun _ => false) true Machine.new
    [.op (.ctorNew 0), .op (.ctorNew 1), .op (.assignCopy (.root 0) (.root 1)), .op (.ctorMove 2 (.root 1)), .ret, .go, .go] :=
  obeyRunB_sound _ _ (by decide +kernel)

end Verif.RefPtr.Reenter
