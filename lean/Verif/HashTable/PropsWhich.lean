import Verif.HashTable.PropsThrows
/-!
# C143: which payload constructor throws
-/
namespace Verif.HashTable
open Verif

variable {L P S : Type}

/-- Taking apart one step of a computation that returned. -/
theorem bind_ok {A B : Type} {x : Exec A} {f : A → Exec B} {b : B} (h : x >>= f = .ok b) : ∃ a, x = .ok a ∧ f a = .ok b := by
  cases x with
  | error e => cases h
  | ok a => exact ⟨a, rfl, h⟩

theorem store_ctors {t t' : Table P} {i : Nat} {e : Slot P} (h : t.store i e = .ok t') : t'.ctors = t.ctors := by
  unfold Table.store at h
  split at h
  · cases h
  · split at h
    · cases h; rfl
    · cases h

theorem tail_ctors {t t' : Table P} {i i' : Insert} {b : Bool} (h : internalAddTail t i = .ok (b, t', i')) : t'.ctors = t.ctors := by
  unfold internalAddTail at h
  obtain ⟨e, -, h⟩ := bind_ok h
  obtain ⟨t1, h1, h⟩ := bind_ok h
  cases h
  exact (store_ctors h1).trans rfl

/-- From `t` to `t'` as many constructors ran as were used up of the plan `k`: all that do not throw, if there is nothing left (`none`: one threw). -/
def Used (t t' : Table P) (k : Option Nat) (r : Option (Option Nat)) : Prop :=
  ∀ n, k = some n → match r with
    | none => t'.ctors = t.ctors + n
    | some none => False
    | some (some m) => t'.ctors + m = t.ctors + n

theorem rehash_used (old : List (Slot P)) (rem : Nat) : ∀ (i : Nat) (k : Option Nat) (t t' : Table P) (r : Option (Option Nat)),
    rehashLoopX old i rem k t = .ok (t', r) → Used t t' k r := by
  induction rem with
  | zero => intro i k t t' r h n hn; cases h; subst hn; exact rfl
  | succ rem ih =>
    intro i k t t' r h
    unfold rehashLoopX at h
    cases he : old[i]? with
    | none => rw [he] at h; cases h
    | some o =>
      rw [he] at h
      simp only at h
      split at h
      · obtain ⟨ins, -, h⟩ := bind_ok h
        obtain ⟨e, -, h⟩ := bind_ok h
        obtain ⟨t1, h1, h⟩ := bind_ok h
        obtain ⟨p, -, h⟩ := bind_ok h
        have hc1 := store_ctors h1
        intro n hn
        subst hn
        cases n with
        | zero =>
          simp only [fire] at h
          cases h
          exact hc1
        | succ n =>
          simp only [fire] at h
          obtain ⟨e', -, h⟩ := bind_ok h
          obtain ⟨e2, -, h⟩ := bind_ok h
          obtain ⟨t2, h2, h⟩ := bind_ok h
          obtain ⟨⟨x, d⟩, -, h⟩ := bind_ok h
          have hc2 := store_ctors h2
          have := ih _ _ _ _ _ h n rfl
          simp only at this
          revert this
          cases r with
          | none => simp only; omega
          | some r => cases r with
            | none => exact id
            | some m => simp only; omega
      · obtain ⟨⟨x, d⟩, -, h⟩ := bind_ok h
        have := ih _ _ _ _ _ h
        exact fun n hn => this n hn

/-- The same for operations that also may throw before any constructor, with no effect. -/
def UsedOr (t t' : Table P) (k : Option Nat) (r : Option (Option Nat)) : Prop := (r = none ∧ t' = t) ∨ Used t t' k r

theorem change_used {c : Config} {t t' : Table P} {n : Nat} {memOk : Bool} {plan : Plan} {r : Option (Bool × Option Nat)}
    (h : changeCapacityX c t n memOk plan = .ok (t', r)) : UsedOr t t' plan.ctor (r.map (·.2)) := by
  unfold changeCapacityX at h
  split at h
  · split at h
    · cases h; exact .inl ⟨rfl, rfl⟩
    · obtain ⟨nt, -, h⟩ := bind_ok h
      cases nt with
      | none => cases h; refine .inr fun n hn => ?_; simp only [Option.map_some, hn]
      | some s =>
        simp only at h
        split at h
        · split at h
          · cases h; refine .inr fun n hn => ?_; simp only [Option.map_some, hn]
          · cases h
        · obtain ⟨⟨t1, k⟩, h1, h⟩ := bind_ok h
          have := rehash_used _ _ _ _ _ _ _ h1
          cases k with
          | none => cases h; exact .inr this
          | some k => cases h; exact .inr this
  · cases h

theorem density_used {c : Config} {t t' : Table P} {memOk : Bool} {plan : Plan} {r : Option (Bool × Option Nat)}
    (h : checkDensityX c t memOk plan = .ok (t', r)) : UsedOr t t' plan.ctor (r.map (·.2)) := by
  unfold checkDensityX at h
  split at h
  · unfold shrinkX at h
    split at h
    · cases h; refine .inr fun n hn => ?_; simp only [Option.map_some, hn]
    · exact change_used h
  · split at h
    · unfold growX at h
      split at h
      · obtain ⟨_, -, h⟩ := bind_ok h
        cases h; refine .inr fun n hn => ?_; simp only [Option.map_some, hn]
      · exact change_used h
    · cases h; refine .inr fun n hn => ?_; simp only [Option.map_some, hn]

theorem UsedOr.after {t t1 t' : Table P} {k : Option Nat} {m : Option Nat} (h : UsedOr t t1 k (some m)) (hc : t'.ctors = t1.ctors) : UsedOr t t' k (some m) := by
  rcases h with ⟨h, -⟩ | h
  · cases h
  · refine .inr fun n hn => ?_
    have := h n hn
    cases m with
    | none => exact this
    | some m => simp only at this ⊢; omega

theorem internal_used {c : Config} {t t' : Table P} {i : Insert} {memOk : Bool} {plan : Plan} {r : Option (Bool × Insert × Option Nat)}
    (h : internalAddX c t i memOk plan = .ok (t', r)) : UsedOr t t' plan.ctor (r.map (·.2.2)) := by
  have hsame : ∀ u : Table P, u.ctors = t.ctors → UsedOr t u plan.ctor (some plan.ctor) := by
    intro u hu
    refine .inr fun n hn => ?_
    rw [hn]; simp only; omega
  unfold internalAddX at h
  obtain ⟨e, -, h⟩ := bind_ok h
  split at h
  · cases h
  · split at h
    · obtain ⟨⟨ok, t1, i1⟩, h1, h⟩ := bind_ok h
      cases h
      exact hsame _ ((tail_ctors h1).trans rfl)
    · split at h
      · obtain ⟨_, -, h⟩ := bind_ok h
        cases h
        exact hsame _ rfl
      · obtain ⟨⟨t1, d⟩, h1, h⟩ := bind_ok h
        have hd := density_used h1
        cases d with
        | none => cases h; exact hd
        | some x =>
          obtain ⟨ok, k⟩ := x
          cases ok with
          | false => cases h; exact hd
          | true =>
            simp only at h
            split at h
            · obtain ⟨i1, -, h⟩ := bind_ok h
              obtain ⟨⟨ok, t2, i2⟩, h2, h⟩ := bind_ok h
              cases h
              exact hd.after (tail_ctors h2)
            · obtain ⟨⟨ok, t2, i2⟩, h2, h⟩ := bind_ok h
              cases h
              exact hd.after (tail_ctors h2)

theorem add_used {c : Config} {t t' : Table P} {i : Insert} {p : P} {memOk : Bool} {plan : Plan} {r : Option (Bool × Insert)} {n : Nat}
    (hp : plan.ctor = some n) (h : addX c t i p memOk plan = .ok (t', r)) : (r = none → t' = t ∨ t'.ctors = t.ctors + n) ∧ (r ≠ none → t'.ctors ≤ t.ctors + n) := by
  unfold addX at h
  obtain ⟨⟨t1, x⟩, h1, h⟩ := bind_ok h
  have hi := internal_used h1
  cases x with
  | none =>
    cases h
    refine ⟨fun _ => ?_, fun h => (h rfl).elim⟩
    rcases hi with ⟨-, hi⟩ | hi
    · exact .inl hi
    · exact .inr (hi n hp)
  | some x =>
    obtain ⟨ok, i1, k⟩ := x
    have hu := (hi.resolve_left (fun h => nomatch h.1)) n hp
    cases k with
    | none => exact hu.elim
    | some k =>
      simp only [Option.map_some] at hu
      cases ok with
      | false => cases h; exact ⟨fun h => (nomatch h), fun _ => by omega⟩
      | true =>
        cases k with
        | zero =>
          simp only [fire] at h
          cases h
          exact ⟨fun _ => .inr hu, fun h => (h rfl).elim⟩
        | succ k =>
          simp only [fire] at h
          obtain ⟨e, -, h⟩ := bind_ok h
          obtain ⟨e1, -, h⟩ := bind_ok h
          obtain ⟨t2, h2, h⟩ := bind_ok h
          cases h
          have := store_ctors h2
          refine ⟨fun h => (nomatch h), fun _ => ?_⟩
          show t2.ctors + 1 ≤ _
          omega

/-- **C143**: if during an `add` or a `checkDensity` the payload constructor after the `n`-th would throw, then a call that returns has constructed at most `n` payloads, and a call that throws
has either changed nothing (a policy or the allocator threw) or constructed exactly `n`: the exception is the constructor's, and it comes when it should. -/
theorem C143_which_constructor_partial {c : Config} {pol : PolicyX L P S} {t t' : Table P} {s s' : S} {op : Op L P} {plan : Plan} {n : Nat} {r : Option (Out P)}
    (hop : (∃ l p m, op = .add l p m) ∨ ∃ m, op = .checkDensity m) (hp : plan.ctor = some n) (h : execX c pol t s op plan = .ok (t', r, s')) :
    (r = none → t' = t ∨ t'.ctors = t.ctors + n) ∧ (r ≠ none → t'.ctors ≤ t.ctors + n) := by
  have hsame : ∀ r : Option (Out P), (r = none → t = t ∨ t.ctors = t.ctors + n) ∧ (r ≠ none → t.ctors ≤ t.ctors + n) := fun r => ⟨fun _ => .inl rfl, fun _ => by omega⟩
  rcases hop with ⟨l, p, m, rfl⟩ | ⟨m, rfl⟩
  · unfold execX at h
    obtain ⟨⟨x, s1⟩, -, h⟩ := bind_ok h
    cases x with
    | none => cases h; exact hsame _
    | some i =>
      obtain ⟨f, -, h⟩ := bind_ok h
      split at h
      · obtain ⟨q, -, h⟩ := bind_ok h
        cases h; exact hsame _
      · obtain ⟨⟨t1, y⟩, h1, h⟩ := bind_ok h
        have ha := add_used hp h1
        cases y with
        | none => cases h; exact ⟨fun _ => ha.1 rfl, fun h => (h rfl).elim⟩
        | some y =>
          obtain ⟨ok, i'⟩ := y
          cases ok with
          | false => cases h; exact ⟨fun h => (nomatch h), fun _ => ha.2 (fun h => nomatch h)⟩
          | true =>
            obtain ⟨q, -, h⟩ := bind_ok h
            cases h; exact ⟨fun h => (nomatch h), fun _ => ha.2 (fun h => nomatch h)⟩
  · unfold execX at h
    obtain ⟨⟨t1, y⟩, h1, h⟩ := bind_ok h
    have hd := density_used h1
    cases y with
    | none =>
      cases h
      refine ⟨fun _ => ?_, fun h => (h rfl).elim⟩
      rcases hd with ⟨-, hd⟩ | hd
      · exact .inl hd
      · exact .inr (hd n hp)
    | some y =>
      obtain ⟨ok, k⟩ := y
      have hu := (hd.resolve_left (fun h => nomatch h.1)) n hp
      cases h
      refine ⟨fun h => (nomatch h), fun _ => ?_⟩
      cases k with
      | none => exact hu.elim
      | some k => simp only [Option.map_some] at hu; omega

/-- The table with twelve elements; the next `add` makes it grow, which moves all of them. -/
def fullRun (plan : Plan) : Exec (Table Nat × List (Option (Out Nat)) × Nat) :=
  runX tinyConfig natPolicyX tinyTable 1000 (((List.range 13).map fun k => (.add k k true, ⟨false, none⟩)) ++ [(.add 50 50 true, plan)])

/-- Whether the last call returned, and how many payloads were constructed in all. -/
def outcome (plan : Plan) : Option (Option Bool × Nat) :=
  match fullRun plan with
  | .ok (t, os, _) => some (os.getLast?.map Option.isSome, t.ctors)
  | .error _ => none

/-- Growing with a constructor that throws: the call constructs as many payloads as it may, and throws; with as many allowed as there are, and one more for the new payload, it returns. -/
example : outcome ⟨false, some 5⟩ = some (some false, 13 + 5) ∧ outcome ⟨false, some 13⟩ = some (some false, 13 + 13) ∧
    outcome ⟨false, some 14⟩ = some (some true, 13 + 14) := by decide +kernel

end Verif.HashTable
