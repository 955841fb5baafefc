import Verif.AtomicRef.Order
import Verif.AtomicRef.Props
/-!
# Objects shared through an `AtomicRef` are constructed and destroyed without races (C93)
-/
namespace Verif.AtomicRef
open Verif
open Verif.RefTS (Orders codeOrders)

variable {T : Type} [DecidableEq T]

/-- C93: an object that threads share through an `AtomicRef` is constructed before any thread touches it and destroyed after all have finished with it, in the
happens-before order of the memory model. In every execution the construction and the destruction of an object are ordered with every access, `AddRef` and
`Release` any thread performs on that address, for every object that lives at the address, one after the other. The synchronisation comes from the reference
count alone: nothing is assumed of the `AtomicRef`'s word. -/
theorem C93_race_free (tr : List (Deed T)) (s : State T) (h : Story tr s) : RaceFree codeOrders tr := (oinv_story h).free

/-- C93: whatever a thread that owns a reference (by `get`, by a hand-over, by `AddRef`) does next happens after the construction of the object. -/
theorem C93_seen (tr : List (Deed T)) (s : State T) (h : Story tr s) (u : T) (p : Word) (hu : (u, p) ∈ s.tok) (hp : s.pc u = .idle) (d : Deed T) (hd : d.thread = u)
    (i : Nat) (t : T) (hb : tr[i]? = some (.born t p)) : Before codeOrders (tr ++ [d]) i tr.length := by
  subst hd
  exact tok_before (oinv_story h) d hu (by rw [hp]; simp) i ⟨t, hb⟩

/-- A schedule with its history. -/
def tell (tr : List (Deed (Fin 2))) (s : State (Fin 2)) : List (Act (Fin 2)) → Option (List (Deed (Fin 2)) × State (Fin 2))
  | [] => some (tr, s)
  | a :: as => if Allowed s a then match step s a with
    | some (.ok s') => tell (tr ++ (deed s a).toList) s' as
    | _ => none
    else none

theorem tell_story : ∀ (as : List (Act (Fin 2))) (tr : List (Deed (Fin 2))) (s : State (Fin 2)) (r : List (Deed (Fin 2)) × State (Fin 2)), Story tr s →
    tell tr s as = some r → Story r.1 r.2
  | [], tr, s, r, h, he => by simp only [tell, Option.some.injEq] at he; exact he ▸ h
  | a :: as, tr, s, r, h, he => by
    simp only [tell] at he
    split at he
    · rename_i ha
      split at he
      · rename_i s1 h1
        exact tell_story as _ s1 r (.step h ha h1) he
      · cases he
    · cases he

/-- The schedule of Props.lean, in which thread 1 obtains the object by `get` from the `AtomicRef` into which thread 0 has put it; thread 1 then uses it,
drops the last reference and destroys it, and thread 0 constructs another object at the same address. -/
def demoReuse : List (Act (Fin 2)) := demoActs ++ [.use 1 16#64, .release 1 16#64, .cont 1, .cont 1, .cont 1, .create 0 16#64]

def demoHistory : List (Deed (Fin 2)) := [.born 0 16#64, .inc 0 16#64, .dec 0 16#64, .inc 1 16#64, .dec 0 16#64, .use 1 16#64, .dec 1 16#64, .check 1 16#64,
  .died 1 16#64, .born 0 16#64]

theorem demo_history : (tell [] State.start demoReuse).map (·.1) = some demoHistory := by decide +kernel

example : ∃ s, Story demoHistory s := by
  have h := demo_history
  cases e : tell [] State.start demoReuse with
  | none => rw [e] at h; cases h
  | some r =>
    rw [e] at h
    injection h with h
    exact ⟨r.2, h ▸ tell_story _ [] _ r .start e⟩

/-- ... so the construction (0) happens before the other thread's access (5), and that before the construction of the next object (9). -/
example : Before codeOrders demoHistory 0 5 ∧ Before codeOrders demoHistory 5 9 := by
  have h := demo_history
  cases e : tell [] State.start demoReuse with
  | none => rw [e] at h; cases h
  | some r =>
    rw [e] at h
    injection h with h
    have hr := C93_race_free r.1 r.2 (tell_story _ [] _ r .start e)
    have h : r.1 = demoHistory := h
    rw [h] at hr
    exact ⟨hr 0 5 _ _ 16#64 (by decide) rfl rfl rfl rfl (.inl rfl), hr 5 9 _ _ 16#64 (by decide) rfl rfl rfl rfl (.inr rfl)⟩

/-- The property is not vacuous: with a relaxed increment the second thread's access is not ordered with the construction. -/
example : ¬ RaceFree { codeOrders with incAcquire := false } demoHistory := by
  intro h
  have h05 := h 0 5 _ _ 16#64 (by decide) rfl rfl rfl rfl (.inl rfl)
  have key : ∀ i j, Before { codeOrders with incAcquire := false } demoHistory i j → (i ≤ 2 ∨ i = 4) → (j ≤ 2 ∨ j = 4 ∨ 6 ≤ j) ∧ i < j := by
    intro i j hb
    induction hb with
    | @sequenced i j a b h1 h2 h3 h4 =>
      intro hi
      refine ⟨?_, h3⟩
      have ha : a.thread = 0 := by
        match i, h1 with
        | 0, h1 => cases h1; rfl
        | 1, h1 => cases h1; rfl
        | 2, h1 => cases h1; rfl
        | 3, h1 => omega
        | 4, h1 => cases h1; rfl
        | i + 5, h1 => omega
      rw [ha] at h4
      match j, h2 with
      | 0, h2 => omega
      | 1, h2 => omega
      | 2, h2 => omega
      | 3, h2 => cases h2; cases h4
      | 4, h2 => omega
      | 5, h2 => cases h2; cases h4
      | j + 6, h2 => omega
    | @handed i j t u b h1 _ _ _ =>
      intro hi
      match i, h1 with
      | 0, h1 => cases h1
      | 1, h1 => cases h1
      | 2, h1 => cases h1
      | 3, h1 => omega
      | 4, h1 => cases h1
      | i + 5, h1 => omega
    | @counted i j p a b h1 h2 h3 h4 h5 h6 =>
      intro hi
      refine ⟨?_, h3⟩
      match j, h2 with
      | 0, h2 => omega
      | 1, h2 => omega
      | 2, h2 => omega
      | 3, h2 => cases h2; cases h5
      | 4, h2 => omega
      | 5, h2 => cases h2; cases h5
      | j + 6, h2 => omega
    | @reused i j t u p h1 h2 h3 =>
      intro hi
      match i, h1 with
      | 0, h1 => cases h1
      | 1, h1 => cases h1
      | 2, h1 => cases h1
      | 3, h1 => omega
      | 4, h1 => cases h1
      | i + 5, h1 => omega
    | @trans i j k hij hjk h1 h2 =>
      intro hi
      obtain ⟨h3, h4⟩ := h1 hi
      rcases h3 with h3 | h3 | h3
      · have := h2 (.inl h3); omega
      · have := h2 (.inr h3); omega
      · have hlt : ∀ i j, Before { codeOrders with incAcquire := false } demoHistory i j → i < j := by
          intro i j h
          induction h with
          | sequenced _ _ h _ => exact h
          | handed _ _ h _ => exact h
          | counted _ _ h _ _ _ => exact h
          | reused _ _ h => exact h
          | trans _ _ h1 h2 => omega
        have := hlt _ _ hjk
        omega
  have := key 0 5 h05 (.inl (by omega))
  omega

end Verif.AtomicRef
