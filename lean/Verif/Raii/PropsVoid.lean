import Verif.Raii.Void
/-!
# Properties of `ReturnAndVoid` for types whose operations throw (C153)
-/
namespace Verif.Raii
open Verif
variable {L A E : Type} [DecidableEq L]

/-- The value goes to the caller and `T()` stays behind, or an exception arrives and nothing has changed. -/
def AllOrNothing (dflt : A) (old : L → A) (t : L) (r : Except E A) (new : L → A) : Prop :=
  (r = .ok (old t) ∧ new t = dflt ∧ ∀ k, k ≠ t → new k = old k) ∨ ((∃ e, r = .error e) ∧ ∀ k, new k = old k)

/-- Whatever throws, every object is destroyed exactly once, except the result, which exists exactly if the call returns; and no
place but `t` is touched. -/
theorem C153_no_leak (ty : Ty A E) (elide : Bool) (s : VState L A) (t : L) :
    let q := s.returnAndVoid ty elide t
    q.2.made - s.made = q.2.gone - s.gone + (match q.1 with | .ok _ => 1 | .error _ => 0) ∧ s.made ≤ q.2.made ∧ s.gone ≤ q.2.gone ∧
      ∀ k, k ≠ t → q.2.mem k = s.mem k := by
  cases h0 : ty.throws s.clock with
  | some e => simp [VState.returnAndVoid, VState.make, h0]
  | none =>
    cases h1 : ty.throws (s.clock + 1) with
    | some e => simp [VState.returnAndVoid, VState.make, VState.destroy, h0, h1]
    | none =>
      cases h2 : ty.throws (s.clock + 1 + 1) with
      | some e =>
        simp [VState.returnAndVoid, VState.make, VState.destroy, VState.assign, h0, h1, h2, store]
        refine ⟨by omega, by omega, by omega, fun k hk h => absurd h hk⟩
      | none =>
        cases elide with
        | true =>
          simp [VState.returnAndVoid, VState.make, VState.destroy, VState.assign, h0, h1, h2, store]
          refine ⟨by omega, by omega, fun k hk h => absurd h hk⟩
        | false =>
          cases h3 : ty.throws (s.clock + 1 + 1 + 1) with
          | some e =>
            simp [VState.returnAndVoid, VState.make, VState.destroy, VState.assign, h0, h1, h2, h3, store]
            refine ⟨by omega, by omega, by omega, fun k hk h => absurd h hk⟩
          | none =>
            simp [VState.returnAndVoid, VState.make, VState.destroy, VState.assign, h0, h1, h2, h3, store]
            refine ⟨by omega, by omega, by omega, fun k hk h => absurd h hk⟩

/-- What the call does, for every pattern of exceptions: the copy or `T()` throws and nothing has happened; the assignment throws and
`t` is what that assignment leaves; the final move throws, `t` is `T()` and the old value is lost; or the call returns it. -/
theorem C153_exact (ty : Ty A E) (elide : Bool) (s : VState L A) (t : L) :
    let q := s.returnAndVoid ty elide t
    let n := s.clock
    (∀ e, ty.throws n = some e → q.1 = .error e ∧ q.2.mem t = s.mem t) ∧
    (∀ e, ty.throws n = none → ty.throws (n + 1) = some e → q.1 = .error e ∧ q.2.mem t = s.mem t) ∧
    (∀ e, ty.throws n = none → ty.throws (n + 1) = none → ty.throws (n + 2) = some e →
      q.1 = .error e ∧ q.2.mem t = ty.torn (s.mem t) ty.dflt) ∧
    (∀ e, ty.throws n = none → ty.throws (n + 1) = none → ty.throws (n + 2) = none → elide = false → ty.throws (n + 3) = some e →
      q.1 = .error e ∧ q.2.mem t = ty.dflt) ∧
    (ty.throws n = none → ty.throws (n + 1) = none → ty.throws (n + 2) = none → (elide = true ∨ ty.throws (n + 3) = none) →
      q.1 = .ok (s.mem t) ∧ q.2.mem t = ty.dflt) := by
  refine ⟨fun e h => ?_, fun e h0 h1 => ?_, fun e h0 h1 h2 => ?_, fun e h0 h1 h2 he h3 => ?_, fun h0 h1 h2 h3 => ?_⟩
  · simp [VState.returnAndVoid, VState.make, h]
  · simp [VState.returnAndVoid, VState.make, VState.destroy, h0, h1]
  · simp [VState.returnAndVoid, VState.make, VState.destroy, VState.assign, h0, h1, show ty.throws (s.clock + 1 + 1) = some e from h2, store]
  · subst he
    simp [VState.returnAndVoid, VState.make, VState.destroy, VState.assign, h0, h1, show ty.throws (s.clock + 1 + 1) = none from h2,
      show ty.throws (s.clock + 1 + 1 + 1) = some e from h3, store]
  · cases elide with
    | true => simp [VState.returnAndVoid, VState.make, VState.destroy, VState.assign, h0, h1, show ty.throws (s.clock + 1 + 1) = none from h2, store]
    | false =>
      have h3 : ty.throws (s.clock + 1 + 1 + 1) = none := by rcases h3 with h3 | h3; cases h3; exact h3
      simp [VState.returnAndVoid, VState.make, VState.destroy, VState.assign, h0, h1, show ty.throws (s.clock + 1 + 1) = none from h2, h3, store]

/-- All or nothing, if an assignment that throws changes nothing and, unless the move is elided, the move does not throw. -/
theorem C153_all_or_nothing_partial (ty : Ty A E) (elide : Bool) (s : VState L A) (t : L) (htorn : ∀ a b, ty.torn a b = a)
    (hmove : elide = true ∨ ty.throws (s.clock + 3) = none) :
    AllOrNothing ty.dflt s.mem t (s.returnAndVoid ty elide t).1 (s.returnAndVoid ty elide t).2.mem := by
  obtain ⟨e0, e1, e2, _, e4⟩ := C153_exact ty elide s t
  have frame := (C153_no_leak ty elide s t).2.2.2
  have all : ∀ {x}, (s.returnAndVoid ty elide t).2.mem t = x → x = s.mem t → ∀ k, (s.returnAndVoid ty elide t).2.mem k = s.mem k :=
    fun h hx k => if hk : k = t then by rw [hk, h, hx] else frame k hk
  cases h0 : ty.throws s.clock with
  | some e => exact .inr ⟨⟨e, (e0 e h0).1⟩, all (e0 e h0).2 rfl⟩
  | none =>
    cases h1 : ty.throws (s.clock + 1) with
    | some e => exact .inr ⟨⟨e, (e1 e h0 h1).1⟩, all (e1 e h0 h1).2 rfl⟩
    | none =>
      cases h2 : ty.throws (s.clock + 2) with
      | some e => exact .inr ⟨⟨e, (e2 e h0 h1 h2).1⟩, all (e2 e h0 h1 h2).2 (htorn _ _)⟩
      | none => exact .inl ⟨(e4 h0 h1 h2 hmove).1, (e4 h0 h1 h2 hmove).2, frame⟩

/-- The property for a compiler that elides or not: all or nothing for every type whose assignment, if it throws, changes nothing. -/
def VoidCorrect (elide : Bool) : Prop :=
  ∀ (ty : Ty Nat Nat) (s : VState Nat Nat) (t : Nat), (∀ a b, ty.torn a b = a) →
    AllOrNothing ty.dflt s.mem t (s.returnAndVoid ty elide t).1 (s.returnAndVoid ty elide t).2.mem

/-- It holds if the move is elided. -/
theorem C153_elided : VoidCorrect true := fun ty s t h => C153_all_or_nothing_partial ty true s t h (.inl rfl)

/-- Without elision a move that throws loses the value: the caller has an exception and `t` is empty. -/
theorem C153_refuted : ¬ VoidCorrect false := by
  intro h
  have hx := C153_exact (L := Nat) (A := Nat) (E := Nat) ⟨0, fun n => if n = 3 then some 9 else none, fun a _ => a⟩ false ⟨fun _ => 5, 0, 0, 0⟩ 0
  have hr := hx.2.2.2.1 9 rfl rfl rfl rfl rfl
  rcases h ⟨0, fun n => if n = 3 then some 9 else none, fun a _ => a⟩ ⟨fun _ => 5, 0, 0, 0⟩ 0 (fun _ _ => rfl) with ⟨h, _⟩ | ⟨_, h⟩
  · rw [hr.1] at h; cases h
  · have := h 0; rw [hr.2] at this; cases this

/-- For a type that never throws (as the pointers for which RefPtr uses it, am-refcounting.h:95, 259, 262) this is `returnAndVoid` of C108. -/
theorem C153_nothrow (ty : Ty A E) (elide : Bool) (s : VState L A) (t : L) (h : ∀ n, ty.throws n = none) :
    (s.returnAndVoid ty elide t).1 = .ok (returnAndVoid ty.dflt s.mem t).1 ∧
      (s.returnAndVoid ty elide t).2.mem = (returnAndVoid ty.dflt s.mem t).2 := by
  cases elide <;> simp [VState.returnAndVoid, VState.make, VState.destroy, VState.assign, h, returnAndVoid, store]

-- Concrete cases: no exception; the move throws; it is elided.
example : (VState.returnAndVoid (L := Nat) (⟨0, fun _ => none, fun a _ => a⟩ : Ty Nat Nat) false ⟨fun _ => 5, 0, 0, 0⟩ 0).2.made = 3 := by
  decide +kernel
example : (VState.returnAndVoid (L := Nat) (⟨0, fun n => if n = 3 then some 9 else none, fun a _ => a⟩ : Ty Nat Nat) false ⟨fun _ => 5, 0, 0, 0⟩ 0).2.mem 0 = 0 := by
  decide +kernel
example : ((VState.returnAndVoid (L := Nat) (⟨0, fun n => if n = 3 then some 9 else none, fun a _ => a⟩ : Ty Nat Nat) true ⟨fun _ => 5, 0, 0, 0⟩ 0).1.toOption) = some 5 := by
  decide +kernel

end Verif.Raii
