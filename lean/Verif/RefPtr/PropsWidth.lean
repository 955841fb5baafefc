import Verif.RefPtr.PropsExact
import Verif.RefPtr.Width
/-!
# C146: the reference count does not overflow
-/
namespace Verif.RefPtr
open Verif

set_option linter.unusedSectionVars false

variable {H : Type} [DecidableEq H] {arity : Obj → Nat} {w : Nat}

/-- Specification: the handles are objects in memory: each has an address of its own among the `2 ^ w` addresses of a `w`-bit
machine, and none is at the null address. -/
def Addressable (w : Nat) (s : State H) : Prop :=
  ∃ addr : Slot H → Nat, (∀ e ∈ s.hs, 0 < addr e ∧ addr e < 2 ^ w) ∧ ∀ e ∈ s.hs, ∀ f ∈ s.hs, addr e = addr f → e = f

/-- In every state of the history the handles fit into memory. -/
def AddressableRun (w : Nat) (arity : Obj → Nat) (s : State H) : List (Op H) → Prop
  | [] => True
  | op :: ops => ∀ s', exec arity s op = .ok s' → Addressable w s' ∧ AddressableRun w arity s' ops

theorem nodup_bounded (n : Nat) (l : List Nat) (hn : l.Nodup) (hb : ∀ x ∈ l, 0 < x ∧ x < n) : l.length < n ∨ l = [] := by
  have h : l.length ≤ (List.range' 1 (n - 1)).length := by
    refine List.Nodup.length_le_of_subset hn (fun x hx => ?_)
    obtain ⟨h1, h2⟩ := hb x hx
    rw [List.mem_range'_1]
    omega
  rw [List.length_range'] at h
  cases l with
  | nil => exact .inr rfl
  | cons x l =>
    obtain ⟨h1, h2⟩ := hb x (by simp)
    exact .inl (by omega)

theorem Addressable.few {s : State H} (h : Addressable w s) (hn : s.hs.Nodup) : s.hs.length < 2 ^ w := by
  obtain ⟨addr, h1, h2⟩ := h
  have := nodup_bounded (2 ^ w) (s.hs.map addr) (by
    refine List.pairwise_map.2 (hn.imp_of_mem ?_)
    intro a b ha hb hab e
    exact hab (h2 a ha b hb e)) (by
    intro x hx
    obtain ⟨e, he, rfl⟩ := List.mem_map.1 hx
    exact h1 e he)
  rcases this with h | h
  · simpa using h
  · have : s.hs = [] := List.map_eq_nil_iff.1 h
    rw [this]; exact Nat.two_pow_pos w

theorem refs_le (s : State H) (o : Obj) : refs [] s o ≤ s.hs.length := List.length_filter_le _ _

/-- Where the ideal counter succeeds and stays small, the machine's does the same. -/
theorem addRefW_eq {s : State H} {v : Option Obj} (h : ∀ s', addRefOpt s v = .ok s' → ∀ o, s'.cnt o < 2 ^ w ∨ o ∉ s'.live) :
    addRefOptW w s v = addRefOpt s v := by
  cases v with
  | none => rfl
  | some o =>
    simp only [addRefOptW, addRefOpt, addRefW, addRef] at h ⊢
    by_cases ho : o ∈ s.live
    · simp only [ho, not_true_eq_false, if_false] at h ⊢
      have := h _ rfl o
      simp only [if_true, ho, not_true_eq_false, or_false] at this
      rw [Nat.mod_eq_of_lt this]
    · simp [ho]

theorem bind_tail {α β : Type} {x : Exec α} {f g : α → Exec β} (h : ∀ a, x = .ok a → f a = g a) : (x >>= f) = (x >>= g) := by
  cases x with
  | error e => rfl
  | ok a => exact h a rfl

theorem ctorRawW_eq {s : State H} {d : Slot H} {v : Option Obj} (h : ∀ s', ctorRaw s d v = .ok s' → ∀ o, s'.cnt o < 2 ^ w ∨ o ∉ s'.live) : ctorRawW w s d v = ctorRaw s d v := by
  refine bind_tail (fun a ha => addRefW_eq (fun s' hs' => h s' ?_))
  simp only [ctorRaw, ha, bind, Except.bind]
  exact hs'

theorem assignRawW_eq {s : State H} {d : Slot H} {v : Option Obj} (h : ∀ s', assignRaw arity s d v = .ok s' → ∀ o, s'.cnt o < 2 ^ w ∨ o ∉ s'.live) :
    assignRawW w arity s d v = assignRaw arity s d v := by
  refine bind_tail (fun v hv => bind_tail (fun a ha => bind_tail (fun b hb => addRefW_eq (fun s' hs' => h s' ?_))))
  simp only [assignRaw, hv, ha, hb, bind, Except.bind]
  exact hs'

theorem execW_eq {s : State H} (op : Op H) (h : ∀ s', exec arity s op = .ok s' → ∀ o, s'.cnt o < 2 ^ w ∨ o ∉ s'.live) : execW w arity s op = exec arity s op := by
  cases op with
  | ctorNull k => rfl
  | ctorMove k e => rfl
  | assignMove d e => rfl
  | destroy k => rfl
  | ctorNew k => exact ctorRawW_eq h
  | ctorGet k e =>
    refine bind_tail (fun v hv => bind_tail (fun a ha => addRefW_eq (fun s' hs' => h s' ?_)))
    simp only [exec, ctorRaw, hv, ha, bind, Except.bind]
    exact hs'
  | ctorCopy k e =>
    refine bind_tail (fun v hv => bind_tail (fun a ha => addRefW_eq (fun s' hs' => h s' ?_)))
    simp only [exec, ctorCopy, hv, ha, bind, Except.bind]
    exact hs'
  | assignNull d => exact assignRawW_eq h
  | assignNew d => exact assignRawW_eq h
  | assignGet d e =>
    refine bind_tail (fun u hu => bind_tail (fun v hv => bind_tail (fun a ha => bind_tail (fun b hb => addRefW_eq (fun s' hs' => h s' ?_)))))
    simp only [exec, assignRaw, hu, hv, ha, hb, bind, Except.bind]
    exact hs'
  | assignCopy d e =>
    refine bind_tail (fun v hv => bind_tail (fun a ha => bind_tail (fun u hu => bind_tail (fun b hb => addRefW_eq (fun s' hs' => h s' ?_)))))
    simp only [exec, assignCopy, hu, hv, ha, hb, bind, Except.bind]
    exact hs'

theorem runW_eq : ∀ (ops : List (Op H)) (s : State H), Inv arity [] [] [] s → PlainRun arity s ops → AddressableRun w arity s ops → runW w arity s ops = run arity s ops := by
  intro ops
  induction ops with
  | nil => intro s _ _ _; rfl
  | cons op ops ih =>
    intro s hi ⟨hp, hps⟩ ha
    have h2 := (exec_exact hi op hp).2
    have heq : execW w arity s op = exec arity s op := by
      refine execW_eq op (fun s' hs' o => ?_)
      obtain ⟨-, hi', -⟩ := h2 s' hs'
      by_cases ho : o ∈ s'.live
      · left
        rw [hi'.cnt o ho]
        exact Nat.lt_of_le_of_lt (refs_le s' o) ((ha s' hs').1.few hi'.nd)
      · exact .inr ho
    simp only [runW, run]
    rw [heq]
    refine bind_tail (fun s' hs' => ?_)
    exact ih s' (h2 s' hs').2.1 (hps s' hs') (ha s' hs').2

/-- C146: on a machine with `w`-bit addresses and `w`-bit counts, a program whose handles fit into memory behaves as if the counts
were unbounded: same result, same faults. -/
theorem C146_no_overflow (w : Nat) (arity : Obj → Nat) (ops : List (Op H)) (hp : PlainRun arity State.new ops) (ha : AddressableRun w arity State.new ops) :
    runW w arity State.new ops = run arity State.new ops :=
  runW_eq ops State.new inv_new hp ha

/-- C146: so the claims of C45 hold of the machine's counts: after every history that succeeds each count is the number of handles. -/
theorem C146_balanced (w : Nat) (arity : Obj → Nat) (ops : List (Op H)) (hp : PlainRun arity State.new ops) (ha : AddressableRun w arity State.new ops) :
    ((∃ s, runW w arity State.new ops = .ok s) ↔ SoundRun arity State.new ops) ∧
    ∀ s, runW w arity State.new ops = .ok s → Balanced arity s ∧ ∀ o ∈ s.live, s.cnt o = handlesOn s o := by
  rw [C146_no_overflow w arity ops hp ha]
  exact ⟨C45_exact arity ops hp, fun s h => ⟨C45_ok_balanced arity ops hp s h, (C45_ok_balanced arity ops hp s h).counted⟩⟩

/-! ### Non-vacuity -/

/-- An object with three handles, of which one is then given up. -/
def threeHandles : List (Op Nat) := [.ctorNew 0, .ctorCopy 1 (.root 0), .ctorCopy 2 (.root 0), .destroy 0]

def threeAddr : Slot Nat → Nat
  | .root h => 4 * h + 4
  | .field o i => 64 + 8 * o + i

theorem threeHandles_plain : PlainRun (fun _ => 0) State.new threeHandles := by
  refine ⟨by simp [Plain, State.new], fun s h1 => ?_⟩
  cases h1
  refine ⟨by simp [Plain, State.new, newObj], fun s h1 => ?_⟩
  cases h1
  refine ⟨by simp [Plain, State.new, newObj], fun s h1 => ?_⟩
  cases h1
  refine ⟨by simp [Plain, State.new, newObj], fun s h1 => trivial⟩

example : AddressableRun 4 (fun _ => 0) State.new threeHandles := by
  refine fun s h1 => ?_
  cases h1
  refine ⟨⟨threeAddr, by simp [threeAddr, newObj, State.new], by simp [newObj, State.new]⟩, fun s h1 => ?_⟩
  cases h1
  refine ⟨⟨threeAddr, by simp [threeAddr, newObj, State.new], by simp [threeAddr, newObj, State.new]⟩, fun s h1 => ?_⟩
  cases h1
  refine ⟨⟨threeAddr, by simp [threeAddr, newObj, State.new], by simp [threeAddr, newObj, State.new]⟩, fun s h1 => ?_⟩
  cases h1
  exact ⟨⟨threeAddr, by simp [threeAddr, newObj, State.new], by simp [threeAddr, newObj, State.new]⟩, trivial⟩

/-- With a one-bit counter, for which three handles are too many, the object dies under its handles. -/
example : (runW 1 (fun _ => 0) State.new threeHandles).toOption.map (fun s => (s.live, s.freed, s.hs.length)) = some ([], [0], 2) := by decide +kernel

example : (runW 4 (fun _ => 0) State.new threeHandles).toOption.map (fun s => (s.live, s.freed, s.hs.length)) = some ([0], [], 2) := by decide +kernel

end Verif.RefPtr
