import Verif.Thread.Props
/-!
# C98, naming, exactly: every platform, name and earlier name
-/
namespace Verif.Thread
open Verif

/-- The names a platform's own function accepts: their length in bytes, without the terminator, or their encoding. -/
inductive Accepts : Platform → List Byte → Prop
  | linux {name} (h : name.length ≤ 15) : Accepts .linux name
  | macos {name} (h : name.length ≤ 63) : Accepts .macos name
  | windows {d name w} (h : d name = some w) : Accepts (.windows true true d) name

/-- Windows without `SetThreadDescription`: the library is loaded, the function is not in it. -/
def NoDescription : Platform → Prop
  | .windows loads found _ => loads = true ∧ found = false
  | _ => False

/-- The function is there and the name is not UTF-8. -/
def BadUtf8 (name : List Byte) : Platform → Prop
  | .windows loads found d => loads = true ∧ found = true ∧ d name = none
  | _ => False

private theorem posix_exact (limit : Nat) (old : OsName) (name : List Byte) :
    (name.length < limit → posixSetName limit old name = ⟨.posix name, 0⟩) ∧ (¬ name.length < limit → posixSetName limit old name = ⟨old, 0⟩) :=
  ⟨fun h => if_pos h, fun h => if_neg h⟩

/-- What a call must do, given whether this platform lets it name this thread (`can`). -/
def NamesExactly (can : Prop) (p : Platform) (old : OsName) (name : List Byte) (r : Option Named) : Prop :=
  (r = none ↔ BadUtf8 name p) ∧
  ∀ n, r = some n →
    (can ∧ Accepts p name → Wanted name p n.name) ∧
    (¬ (can ∧ Accepts p name) → n.name = old) ∧
    (NoDescription p → n.leaked = 1) ∧ (¬ NoDescription p → n.leaked = 0)

private theorem posix_names {p : Platform} {limit : Nat} (hp : p = .linux ∧ limit = 16 ∨ p = .macos ∧ limit = 64) (old : OsName) (name : List Byte) :
    NamesExactly True p old name (some (posixSetName limit old name)) := by
  have hb : ¬ BadUtf8 name p := by rcases hp with ⟨h, -⟩ | ⟨h, -⟩ <;> subst h <;> exact id
  have hd : ¬ NoDescription p := by rcases hp with ⟨h, -⟩ | ⟨h, -⟩ <;> subst h <;> exact id
  have ha : Accepts p name ↔ name.length < limit := by
    rcases hp with ⟨h, h'⟩ | ⟨h, h'⟩ <;> subst h h'
    · exact ⟨fun h => (by cases h; omega), fun h => .linux (by omega)⟩
    · exact ⟨fun h => (by cases h; omega), fun h => .macos (by omega)⟩
  have hw : name.length < limit → Wanted name p (.posix name) := fun _ => by rcases hp with ⟨h, -⟩ | ⟨h, -⟩ <;> subst h <;> exact rfl
  refine ⟨⟨fun h => (nomatch h), fun h => (hb h).elim⟩, fun n hn => ?_⟩
  cases hn
  refine ⟨fun h => ?_, fun h => ?_, fun h => (hd h).elim, fun _ => ?_⟩
  · rw [(posix_exact limit old name).1 (ha.1 h.2)]; exact hw (ha.1 h.2)
  · rw [(posix_exact limit old name).2 (fun hl => h ⟨trivial, ha.2 hl⟩)]
  · by_cases hl : name.length < limit
    · rw [(posix_exact limit old name).1 hl]
    · rw [(posix_exact limit old name).2 hl]

private theorem win_names (loads found : Bool) (d : List Byte → Option (List (BitVec 16))) (old : OsName) (name : List Byte) :
    NamesExactly True (.windows loads found d) old name (winSetName loads found d old name) := by
  unfold winSetName
  cases loads with
  | false =>
    refine ⟨⟨fun h => (nomatch h), fun h => (nomatch h.1)⟩, fun n hn => ?_⟩
    cases hn
    exact ⟨fun h => (by have := h.2; cases this), fun _ => rfl, fun h => (nomatch h.1), fun _ => rfl⟩
  | true =>
    cases found with
    | false =>
      refine ⟨⟨fun h => (nomatch h), fun h => (nomatch h.2.1)⟩, fun n hn => ?_⟩
      cases hn
      exact ⟨fun h => (by have := h.2; cases this), fun _ => rfl, fun _ => rfl, fun h => (h ⟨rfl, rfl⟩).elim⟩
    | true =>
      cases hd : d name with
      | none =>
        simp only [Bool.not_true, Bool.false_eq_true, if_false]
        exact ⟨⟨fun _ => ⟨rfl, rfl, hd⟩, fun _ => rfl⟩, fun n hn => (nomatch hn)⟩
      | some w =>
        simp only [Bool.not_true, Bool.false_eq_true, if_false]
        refine ⟨⟨fun h => (nomatch h), fun h => by have := hd.symm.trans h.2.2; cases this⟩, fun n hn => ?_⟩
        cases hn
        exact ⟨fun _ => ⟨w, hd, rfl⟩, fun h => (h ⟨trivial, .windows hd⟩).elim, fun h => (nomatch h.2), fun _ => rfl⟩

/-- **C98**, `SetThreadName(const char*)`, and so what a thread of `NewThread` does first: it throws exactly if the name is not UTF-8 on Windows; else the thread has
the name if the platform accepts it, and otherwise the name it had; a reference to kernel32.dll is kept exactly if that library lacks the function. -/
theorem C98_own_name_exact_partial (p : Platform) (old : OsName) (name : List Byte) : NamesExactly True p old name (setOwnName p old name) := by
  cases p with
  | linux => exact posix_names (.inl ⟨rfl, rfl⟩) old name
  | macos => exact posix_names (.inr ⟨rfl, rfl⟩) old name
  | windows loads found d => exact win_names loads found d old name
  | other =>
    refine ⟨⟨fun h => (nomatch h), fun h => h.elim⟩, fun n hn => ?_⟩
    cases hn
    exact ⟨fun h => (by have := h.2; cases this), fun _ => rfl, fun h => h.elim, fun _ => rfl⟩

/-- **C98**, `SetThreadName(std::thread*, const char*)`: the same, except that on macOS another thread is never renamed. -/
theorem C98_other_name_exact_partial (p : Platform) (old : OsName) (name : List Byte) : NamesExactly (p ≠ .macos) p old name (setOtherName p old name) := by
  cases p with
  | linux =>
    have h := posix_names (p := .linux) (limit := 16) (.inl ⟨rfl, rfl⟩) old name
    exact ⟨h.1, fun n hn => ⟨fun x => (h.2 n hn).1 ⟨trivial, x.2⟩, fun x => (h.2 n hn).2.1 (fun y => x ⟨(nomatch ·), y.2⟩), (h.2 n hn).2.2⟩⟩
  | windows loads found d =>
    have h := win_names loads found d old name
    exact ⟨h.1, fun n hn => ⟨fun x => (h.2 n hn).1 ⟨trivial, x.2⟩, fun x => (h.2 n hn).2.1 (fun y => x ⟨(nomatch ·), y.2⟩), (h.2 n hn).2.2⟩⟩
  | macos =>
    refine ⟨⟨fun h => (nomatch h), fun h => h.elim⟩, fun n hn => ?_⟩
    cases hn
    exact ⟨fun h => (h.1 rfl).elim, fun _ => rfl, fun h => h.elim, fun _ => rfl⟩
  | other =>
    refine ⟨⟨fun h => (nomatch h), fun h => h.elim⟩, fun n hn => ?_⟩
    cases hn
    exact ⟨fun h => (by have := h.2; cases this), fun _ => rfl, fun h => h.elim, fun _ => rfl⟩

/-- The border: fifteen bytes are a name on Linux, sixteen are none. -/
example : Accepts .linux (List.replicate 15 97#8) ∧ ¬ Accepts .linux (List.replicate 16 97#8) :=
  ⟨.linux (by decide), fun h => by cases h with | linux h => exact absurd h (by decide)⟩

/-- A Windows on which the name has an encoding, and one that has no `SetThreadDescription`. -/
example : Accepts (.windows true true (fun n => some (n.map (·.zeroExtend 16)))) [97#8] ∧ NoDescription (.windows true false (fun _ => none)) ∧
    BadUtf8 [0xC3#8] (.windows true true (fun _ => none)) := ⟨.windows rfl, ⟨rfl, rfl⟩, ⟨rfl, rfl, rfl⟩⟩

end Verif.Thread
