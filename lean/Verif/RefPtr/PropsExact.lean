import Verif.RefPtr.ExactLemmas
/-!
# Properties C45, C46: exactly which histories of `RefPtr` and `AlreadyRefed` are safe

Only that handles exist when they are used is asked for (`PlainRun`).
-/
namespace Verif.RefPtr
open Verif

set_option linter.unusedSectionVars false
set_option linter.unusedSimpArgs false

variable {H : Type} [DecidableEq H] {arity : Obj → Nat}

/-- C45, exact domain: a history on existing handles runs without fault exactly if every assignment in it is sound: its left-hand
side, its right-hand side and the object to be referred to are not destroyed with the reference that is given up first. -/
theorem C45_exact (arity : Obj → Nat) (ops : List (Op H)) (hp : PlainRun arity State.new ops) :
    (∃ s, run arity State.new ops = .ok s) ↔ SoundRun arity State.new ops :=
  (run_exact ops State.new inv_new hp).1

/-- C45: whenever the history runs without fault, counts, handles and live objects agree. -/
theorem C45_ok_balanced (arity : Obj → Nat) (ops : List (Op H)) (hp : PlainRun arity State.new ops) (s : State H) (hr : run arity State.new ops = .ok s) :
    Balanced arity s :=
  ((run_exact ops State.new inv_new hp).2 s hr).balanced

/-- C45: and one more operation on existing handles succeeds exactly if it is sound; then it has the expected effect on every handle. -/
theorem C45_ok_effect (arity : Obj → Nat) (ops : List (Op H)) (hp : PlainRun arity State.new ops) (s : State H) (hr : run arity State.new ops = .ok s)
    (op : Op H) (hop : Plain s op) :
    ((∃ s', exec arity s op = .ok s') ↔ Sound s op) ∧
    ∀ s', exec arity s op = .ok s' → Balanced arity s' ∧ (∀ k, .root k ∈ s'.hs ↔ varAfter s op k) ∧ ∀ x ∈ s'.hs, s'.val x = valAfter s op x := by
  have hi := (run_exact ops State.new inv_new hp).2 s hr
  obtain ⟨h1, h2⟩ := exec_exact hi op hop
  refine ⟨⟨fun ⟨s', h⟩ => (h2 s' h).1, h1⟩, fun s' h => ?_⟩
  obtain ⟨-, h3, h4, h5⟩ := h2 s' h
  exact ⟨h3.balanced, h5, h4⟩

/-! ### What is destroyed -/

theorem write_live {s s' : State H} {d : Slot H} {v : Option Obj} (h : write s d v = .ok s') : s'.live = s.live := by
  unfold write at h
  split at h
  · cases h
  · cases h; rfl

theorem addRefOpt_live {s s' : State H} {v : Option Obj} (h : addRefOpt s v = .ok s') : s'.live = s.live := by
  cases v with
  | none => cases h; rfl
  | some o =>
    simp only [addRefOpt, addRef] at h
    split at h
    · cases h
    · cases h; rfl

theorem construct_live {s s' : State H} {d : Slot H} {v : Option Obj} (h : construct s d v = .ok s') : s'.live = s.live := by
  unfold construct at h
  split at h
  · cases h
  · cases h; rfl

theorem bind_ok {α β : Type} {x : Exec α} {f : α → Exec β} {b : β} (h : (x >>= f) = .ok b) : ∃ a, x = .ok a ∧ f a = .ok b := by
  cases x with
  | error e => cases h
  | ok a => exact ⟨a, rfl, h⟩

theorem read_ok {s : State H} {d : Slot H} {v : Option Obj} (h : read s d = .ok v) : v = s.val d ∧ d ∈ s.hs := by
  unfold read at h
  split at h
  · cases h
  · rename_i hd; cases h; exact ⟨rfl, Classical.not_not.1 hd⟩

theorem raw_live {s s' : State H} {d : Slot H} {v : Option Obj} (h : assignRaw arity s d v = .ok s') :
    ∃ s1, releaseOpt arity s (s.val d) = .ok s1 ∧ s'.live = s1.live := by
  obtain ⟨old, h1, h⟩ := bind_ok h
  obtain ⟨rfl, -⟩ := read_ok h1
  obtain ⟨s1, h2, h⟩ := bind_ok h
  obtain ⟨s2, h3, h⟩ := bind_ok h
  exact ⟨s1, h2, (addRefOpt_live h).trans (write_live h3)⟩

/-- The objects that live after the handle has been given up. -/
theorem drop_live {born : List Obj} {s s1 : State H} (hi : Inv arity [] [] born s) (hf : Fresh born s) {d : Slot H} (hd : d ∈ s.hs)
    (h : releaseOpt arity s (s.val d) = .ok s1) (o : Obj) : o ∈ s1.live ↔ o ∈ s.live ∧ ¬ Dies s d o := by
  obtain ⟨-, -, hx, -, hl⟩ := drop_ok hi hf hd h
  exact ⟨fun ho => ⟨hx.live o ho, (hl o (hx.live o ho)).1 ho⟩, fun ⟨h1, h2⟩ => (hl o h1).2 h2⟩

theorem exec_live {s s' : State H} (hi : Inv arity [] [] [] s) (op : Op H) (hp : Plain s op) (h : exec arity s op = .ok s') (o : Obj) :
    o ∈ s'.live ↔ (o ∈ s.live ∨ Creates s op o) ∧ ¬ Destroys s op o := by
  have hf : Fresh [] s := by intro o ho; cases ho
  cases op with
  | ctorNull k => rw [construct_live h]; simp [Creates, Destroys]
  | ctorNew k =>
    simp only [exec] at h
    obtain ⟨s1, h1, h⟩ := bind_ok h
    rw [addRefOpt_live h, construct_live h1]
    simp [Creates, Destroys, newObj, or_comm]
  | ctorGet k e =>
    simp only [exec] at h
    obtain ⟨v, h1, h⟩ := bind_ok h
    obtain ⟨s1, h2, h⟩ := bind_ok h
    rw [addRefOpt_live h, construct_live h2]
    simp [Creates, Destroys]
  | ctorCopy k e =>
    simp only [exec] at h
    obtain ⟨v, h1, h⟩ := bind_ok h
    obtain ⟨s1, h2, h⟩ := bind_ok h
    rw [addRefOpt_live h, construct_live h2]
    simp [Creates, Destroys]
  | ctorMove k e =>
    simp only [exec] at h
    obtain ⟨v, h1, h⟩ := bind_ok h
    obtain ⟨s1, h2, h⟩ := bind_ok h
    rw [write_live h, construct_live h2]
    simp [Creates, Destroys]
  | assignNull d =>
    obtain ⟨s1, h1, h2⟩ := raw_live h
    rw [h2, drop_live hi hf hp h1]
    simp [Creates, Destroys]
  | assignGet d e =>
    obtain ⟨v, -, h⟩ := bind_ok h
    obtain ⟨s1, h1, h2⟩ := raw_live h
    rw [h2, drop_live hi hf hp.1 h1]
    simp [Creates, Destroys]
  | assignCopy d e =>
    obtain ⟨old, h1, h⟩ := bind_ok h
    obtain ⟨rfl, -⟩ := read_ok h1
    obtain ⟨s1, h2, h⟩ := bind_ok h
    obtain ⟨v, -, h⟩ := bind_ok h
    obtain ⟨s2, h3, h⟩ := bind_ok h
    rw [addRefOpt_live h, write_live h3, drop_live hi hf hp.1 h2]
    simp [Creates, Destroys]
  | assignMove d e =>
    obtain ⟨old, h1, h⟩ := bind_ok h
    obtain ⟨rfl, -⟩ := read_ok h1
    obtain ⟨s1, h2, h⟩ := bind_ok h
    obtain ⟨v, -, h⟩ := bind_ok h
    obtain ⟨s2, h3, h⟩ := bind_ok h
    rw [write_live h, write_live h3, drop_live hi hf hp.1 h2]
    simp [Creates, Destroys]
  | destroy k =>
    obtain ⟨old, h1, h⟩ := bind_ok h
    obtain ⟨rfl, -⟩ := read_ok h1
    have h3 : ∃ s1, releaseOpt arity s (s.val (.root k)) = .ok s1 ∧ s'.live = s1.live := by
      cases hv : s.val (.root k) with
      | none => rw [hv] at h; cases h; exact ⟨s, rfl, rfl⟩
      | some p =>
        rw [hv] at h
        obtain ⟨s1, h2, h⟩ := bind_ok h
        cases h
        exact ⟨s1, h2, rfl⟩
    obtain ⟨s1, h3, h4⟩ := h3
    rw [h4, drop_live hi hf hp h3]
    simp [Creates, Destroys]
  | assignNew d =>
    obtain ⟨hi0, hf0, hd0, hdies⟩ := new_facts hi hp
    simp only [exec] at h
    obtain ⟨s1, h1, h2⟩ := raw_live h
    rw [h2, drop_live hi0 hf0 hd0 h1, hdies]
    simp [Creates, Destroys, newObj, or_comm]

/-- C45: the objects that live after an operation that succeeds are exactly those that lived before or were created by it, without
those that die with the reference it gives up. -/
theorem C45_destroyed (arity : Obj → Nat) (ops : List (Op H)) (hp : PlainRun arity State.new ops) (s : State H) (hr : run arity State.new ops = .ok s)
    (op : Op H) (hop : Plain s op) (s' : State H) (h : exec arity s op = .ok s') (o : Obj) :
    o ∈ s'.live ↔ (o ∈ s.live ∨ Creates s op o) ∧ ¬ Destroys s op o :=
  exec_live ((run_exact ops State.new inv_new hp).2 s hr) op hop h o

/-! ### Self-assignment -/

theorem shared_keeps {s : State H} {d : Slot H} (hs : Shared s d) (o : Obj) : ¬ Dies s d o := by
  intro h
  induction h with
  | @mk o h1 h2 h3 ih =>
    obtain ⟨e, he, hve⟩ := h1
    have : ∃ e ∈ s.hs, s.val e = some o ∧ e ≠ d := by
      by_cases hed : e = d
      · subst hed
        rcases hs with h | ⟨e', h4, h5, h6⟩
        · rw [hve] at h; cases h
        · exact ⟨e', h4, h6.trans hve, h5⟩
      · exact ⟨e, he, hve, hed⟩
    obtain ⟨e, he, hve, hed⟩ := this
    cases e with
    | root k => exact hed (h2 k he hve)
    | field p i => exact ih p i he hve hed

theorem sole_dies {s : State H} {d : Slot H} (hd : d ∈ s.hs) (hs : ¬ Shared s d) : ∃ o, s.val d = some o ∧ Dies s d o := by
  cases hv : s.val d with
  | none => exact (hs (.inl hv)).elim
  | some o =>
    have hno : ∀ e ∈ s.hs, s.val e = some o → e = d := fun e he hve =>
      Classical.byContradiction fun hn => hs (.inr ⟨e, he, hn, hve.trans hv.symm⟩)
    exact ⟨o, rfl, .mk ⟨d, hd, hv⟩ (fun k hk hvk => hno _ hk hvk) (fun p i hpi hvp hne => (hne (hno _ hpi hvp)).elim)⟩

theorem shared_survives {s : State H} {d : Slot H} (hs : Shared s d) (e : Slot H) : Survives s d e := by
  cases e with
  | root k => trivial
  | field p i => exact shared_keeps hs p

/-- C46, exact domain: assigning a handle to itself, or its own raw pointer to it, succeeds exactly if the handle is null or is not
the only one on its object; then it holds the same pointer as before. Moving a handle to itself succeeds exactly if it is a variable or
a member of an object that does not die with the reference given up; then it is null. -/
theorem C46_exact (arity : Obj → Nat) (ops : List (Op H)) (hp : PlainRun arity State.new ops) (s : State H) (hr : run arity State.new ops = .ok s)
    (d : Slot H) (hd : d ∈ s.hs) :
    (∀ op ∈ [Op.assignCopy d d, .assignGet d d], ((∃ s', exec arity s op = .ok s') ↔ Shared s d) ∧
      ∀ s', exec arity s op = .ok s' → Balanced arity s' ∧ d ∈ s'.hs ∧ s'.val d = s.val d) ∧
    ((∃ s', exec arity s (.assignMove d d) = .ok s') ↔ Survives s d d) ∧
    ∀ s', exec arity s (.assignMove d d) = .ok s' → Balanced arity s' ∧ d ∈ s'.hs ∧ s'.val d = none := by
  have hi := (run_exact ops State.new inv_new hp).2 s hr
  have hmem : ∀ op, Plain s op → (∀ o, Destroys s op o ↔ Dies s d o) → (∀ k, varAfter s op k ↔ .root k ∈ s.hs) → Survives s d d →
      ∀ s', exec arity s op = .ok s' → d ∈ s'.hs := by
    intro op hpl hdes hvar hsv s' h
    obtain ⟨-, h3, -, h5⟩ := (exec_exact hi op hpl).2 s' h
    cases d with
    | root k => exact (h5 k).2 ((hvar k).2 hd)
    | field p i =>
      have hp1 : p ∈ s.live := by
        rcases hi.own2 p i hd with h | h
        · exact h
        · cases h
      refine (h3.own p i ?_).2 ((hi.own p i hp1).1 hd)
      rw [exec_live hi op hpl h, hdes]
      exact ⟨.inl hp1, hsv⟩
  have hcopy := exec_exact hi (.assignCopy d d) ⟨hd, hd⟩
  have hget := exec_exact hi (.assignGet d d) ⟨hd, hd⟩
  have hmove := exec_exact hi (.assignMove d d) ⟨hd, hd⟩
  have hsole : (∀ o, s.val d = some o → ¬ Dies s d o) → Shared s d := fun h => Classical.byContradiction fun hn => by
    obtain ⟨o, h1, h2⟩ := sole_dies hd hn
    exact h o h1 h2
  refine ⟨?_, ?_, ?_⟩
  · intro op hop
    simp only [List.mem_cons, List.not_mem_nil, or_false] at hop
    rcases hop with rfl | rfl
    · refine ⟨⟨fun ⟨s', h⟩ => hsole (hcopy.2 s' h).1.2.2, fun hs => hcopy.1 ⟨shared_survives hs d, shared_survives hs d, fun o _ => shared_keeps hs o⟩⟩, ?_⟩
      intro s' h
      obtain ⟨h1, h2, h3, -⟩ := hcopy.2 s' h
      have hm := hmem (.assignCopy d d) ⟨hd, hd⟩ (fun _ => Iff.rfl) (fun _ => Iff.rfl) h1.1 s' h
      exact ⟨h2.balanced, hm, by rw [h3 d hm]; simp [valAfter]⟩
    · refine ⟨⟨fun ⟨s', h⟩ => hsole (hget.2 s' h).1.2, fun hs => hget.1 ⟨shared_survives hs d, fun o _ => shared_keeps hs o⟩⟩, ?_⟩
      intro s' h
      obtain ⟨h1, h2, h3, -⟩ := hget.2 s' h
      have hm := hmem (.assignGet d d) ⟨hd, hd⟩ (fun _ => Iff.rfl) (fun _ => Iff.rfl) h1.1 s' h
      exact ⟨h2.balanced, hm, by rw [h3 d hm]; simp [valAfter]⟩
  · exact ⟨fun ⟨s', h⟩ => (hmove.2 s' h).1.1, fun h => hmove.1 ⟨h, h⟩⟩
  · intro s' h
    obtain ⟨h1, h2, h3, -⟩ := hmove.2 s' h
    have hm := hmem (.assignMove d d) ⟨hd, hd⟩ (fun _ => Iff.rfl) (fun _ => Iff.rfl) h1.1 s' h
    exact ⟨h2.balanced, hm, by rw [h3 d hm]; simp [valAfter]⟩

/-! ### Non-vacuity -/

/-- Two objects that refer to each other lose their variables (and stay alive: a leak); a third handle is then bound to one of them. -/
def leaked : List (Op Nat) :=
  [.ctorNew 0, .ctorNew 1, .assignCopy (.field 0 0) (.root 1), .assignCopy (.field 1 0) (.root 0), .destroy 1, .destroy 0,
   .ctorNew 2, .assignGet (.root 2) (.field 0 0)]

theorem leaked_plain : PlainRun (fun _ => 1) State.new leaked := by
  refine ⟨by simp [Plain, State.new], fun s h1 => ?_⟩
  cases h1
  refine ⟨by simp [Plain, State.new, newObj], fun s h1 => ?_⟩
  cases h1
  refine ⟨by simp [Plain, State.new, newObj, List.range_succ], fun s h1 => ?_⟩
  cases h1
  refine ⟨by simp [Plain, State.new, newObj, List.range_succ], fun s h1 => ?_⟩
  cases h1
  refine ⟨by simp [Plain, State.new, newObj, List.range_succ], fun s h1 => ?_⟩
  cases h1
  refine ⟨by simp [Plain, State.new, newObj, List.range_succ], fun s h1 => ?_⟩
  cases h1
  refine ⟨by simp [Plain, State.new, newObj, List.range_succ], fun s h1 => ?_⟩
  cases h1
  refine ⟨by simp [Plain, State.new, newObj, List.range_succ], fun s h1 => trivial⟩

/-- It runs: the two objects are not reachable from any variable, but they do not die with the third. -/
example : (run (fun _ => 1) State.new leaked).toOption.map (fun s => (s.live, s.freed)) = some ([1, 0], [2]) := by decide +kernel

example : SoundRun (fun _ => 1) State.new leaked := by
  refine (C45_exact _ _ leaked_plain).1 ?_
  cases h : run (fun _ => 1) State.new leaked with
  | ok s => exact ⟨s, rfl⟩
  | error f =>
    have : (run (fun _ => 1) State.new leaked).toOption.isSome = true := by decide +kernel
    rw [h] at this
    cases this

/-- Breaking the leaked cycle through a raw pointer destroys the assigned handle itself: that is not sound, and faults. -/
example : run (fun _ => 1) State.new (leaked.take 6 ++ [.assignNull (.field 0 0)]) = .error .useAfterFree := by rfl

end Verif.RefPtr
