import Verif.Thread.Spec
/-!
# C98: threads started by `NewThread`
-/
namespace Verif.Thread
open Verif

/-- C98, naming, in full: on every platform a name given to `NewThread` or `SetThreadName` is the one the system then has. -/
def NameCorrect : Prop :=
  ∀ (p : Platform) (old : OsName) (name : List Byte),
    (∃ r, setOwnName p old name = some r ∧ Wanted name p r.name ∧ r.leaked = 0) ∧ (∃ r, setOtherName p old name = some r ∧ Wanted name p r.name ∧ r.leaked = 0)

/-- C98 does not hold: on Linux a name of sixteen bytes is dropped without notice. -/
theorem C98_name_refuted : ¬ NameCorrect := by
  intro h
  obtain ⟨⟨r, h1, h2, -⟩, -⟩ := h .linux .inherited (List.replicate 16 97#8)
  have e : setOwnName .linux .inherited (List.replicate 16 97#8) = some ⟨.inherited, 0⟩ := by decide
  rw [e] at h1
  cases h1
  cases h2

/-- ... every name that long is, on Linux (16 bytes) and macOS (64); on macOS another thread is never renamed; on Windows each call without `SetThreadDescription` keeps a
reference to kernel32.dll, and a name that is not UTF-8 throws. -/
theorem C98_name_failures_refuted (old : OsName) (name : List Byte) :
    (16 ≤ name.length → setOwnName .linux old name = some ⟨old, 0⟩ ∧ setOtherName .linux old name = some ⟨old, 0⟩) ∧
    (64 ≤ name.length → setOwnName .macos old name = some ⟨old, 0⟩) ∧
    setOtherName .macos old name = some ⟨old, 0⟩ ∧
    (∀ d, (setOwnName (.windows true false d) old name = some ⟨old, 1⟩)) ∧
    (∀ d, d name = none → setOwnName (.windows true true d) old name = none) := by
  refine ⟨fun h => ?_, fun h => ?_, rfl, fun d => rfl, fun d h => ?_⟩
  · have e : posixSetName 16 old name = ⟨old, 0⟩ := if_neg (by omega)
    exact ⟨congrArg some e, congrArg some e⟩
  · have e : posixSetName 64 old name = ⟨old, 0⟩ := if_neg (by omega)
    exact congrArg some e
  · show (match d name with | none => none | some w => some (⟨.windows w, 0⟩ : Named)) = none
    rw [h]

/-- C98, naming, for names the platform accepts. What is missing: the others, other threads on macOS, and platforms without a way to name threads. -/
theorem C98_name_partial (p : Platform) (old : OsName) (name : List Byte)
    (hp : match p with | .linux => name.length < 16 | .macos => name.length < 64 | .windows loads found d => loads = true ∧ found = true ∧ (d name).isSome | .other => False) :
    (∃ r, setOwnName p old name = some r ∧ Wanted name p r.name ∧ r.leaked = 0) ∧
    (p ≠ .macos → ∃ r, setOtherName p old name = some r ∧ Wanted name p r.name ∧ r.leaked = 0) := by
  cases p with
  | linux =>
    have e : posixSetName 16 old name = ⟨.posix name, 0⟩ := if_pos hp
    exact ⟨⟨_, congrArg some e, rfl, rfl⟩, fun _ => ⟨_, congrArg some e, rfl, rfl⟩⟩
  | macos =>
    have e : posixSetName 64 old name = ⟨.posix name, 0⟩ := if_pos hp
    exact ⟨⟨_, congrArg some e, rfl, rfl⟩, fun h => (h rfl).elim⟩
  | windows loads found d =>
    obtain ⟨h1, h2, h3⟩ := hp
    subst h1 h2
    obtain ⟨w, hw⟩ := Option.isSome_iff_exists.1 h3
    have e : winSetName true true d old name = some ⟨.windows w, 0⟩ := by simp [winSetName, hw]
    exact ⟨⟨_, e, ⟨w, hw, rfl⟩, rfl⟩, fun _ => ⟨_, e, ⟨w, hw, rfl⟩, rfl⟩⟩
  | other => exact hp.elim

/-! ### The thread body -/

theorem passArgs_matches {mem : Nat → Option (List Byte)} : ∀ {as : List Bound} {vs : List (List Byte)}, passArgs mem as = .ok vs → Matches as vs
  | [], vs, h => by cases h; exact .nil
  | .val v :: as, vs, h => by
    simp only [passArgs, bind, Except.bind] at h
    cases h1 : passArgs mem as with
    | error e => rw [h1] at h; cases h
    | ok rest => rw [h1] at h; cases h; exact .val v (passArgs_matches h1)
  | .ref a :: as, vs, h => by
    simp only [passArgs, bind, Except.bind] at h
    cases h0 : load mem a with
    | error e => rw [h0] at h; cases h
    | ok v =>
      rw [h0] at h
      simp only at h
      cases h1 : passArgs mem as with
      | error e => rw [h1] at h; cases h
      | ok rest => rw [h1] at h; cases h; exact .ref a v (passArgs_matches h1)

/-- What the trace says of one thread, and how that fits its state. -/
def ChildOk (p : Platform) (i : Nat) (c : Child) (tr : List Event) : Prop :=
  match c.pc with
  | .start => c.os = .inherited ∧ tr = [.spawn i c.name c.fn c.args]
  | .named => (∃ r, setOwnName p .inherited c.name = some r ∧ c.os = r.name) ∧ tr = [.spawn i c.name c.fn c.args, .naming i c.os]
  | .finished => (∃ r, setOwnName p .inherited c.name = some r ∧ c.os = r.name) ∧
      ∃ vs, Matches c.args vs ∧ tr = [.spawn i c.name c.fn c.args, .naming i c.os, .call i c.fn vs]

/-- Invariant of all runs. -/
def Inv (p : Platform) (w : World) : Prop :=
  (∀ i c, w.children[i]? = some c → ChildOk p i c (w.trace.filter (Event.about i))) ∧ ∀ i, w.children.length ≤ i → w.trace.filter (Event.about i) = []

theorem filter_other {i j : Nat} {tr : List Event} {e : Event} (h : e.about j = false) :
    (tr ++ [e]).filter (Event.about j) = tr.filter (Event.about j) := by
  rw [List.filter_append, List.filter_cons_of_neg (by rw [h]; decide)]; simp

theorem filter_same {i : Nat} {tr : List Event} {e : Event} (h : e.about i = true) :
    (tr ++ [e]).filter (Event.about i) = tr.filter (Event.about i) ++ [e] := by
  rw [List.filter_append, List.filter_cons_of_pos h]; rfl

theorem inv_update {p : Platform} {w w' : World} {i : Nat} {c c' : Child} {e : Event} (hw : Inv p w) (hc : w.children[i]? = some c)
    (h1 : w'.children = w.children.set i c') (h2 : w'.trace = w.trace ++ [e]) (he : ∀ j, e.about j = (i == j))
    (hok : ChildOk p i c (w.trace.filter (Event.about i)) → ChildOk p i c' (w.trace.filter (Event.about i) ++ [e])) : Inv p w' := by
  have hi : i < w.children.length := (List.getElem?_eq_some_iff.1 hc).1
  refine ⟨fun j d hd => ?_, fun j hj => ?_⟩
  · rw [h1, List.getElem?_set] at hd
    rw [h2]
    by_cases hij : i = j
    · subst hij
      rw [if_pos rfl, if_pos hi] at hd
      cases hd
      rw [filter_same (by rw [he]; simp)]
      exact hok (hw.1 i c hc)
    · rw [if_neg hij] at hd
      rw [filter_other (i := i) (by rw [he]; simpa using hij)]
      exact hw.1 j d hd
  · rw [h1, List.length_set] at hj
    have hij : i ≠ j := by omega
    rw [h2, filter_other (i := i) (by rw [he]; simpa using hij)]
    exact hw.2 j hj

theorem inv_step {p : Platform} {w w' : World} {a : Action} (hw : Inv p w) (h : step p w a = .ok w') : Inv p w' := by
  cases a with
  | spawn name fn args ok =>
    simp only [step, bind, Except.bind] at h
    cases h0 : bindArgs w.mem args with
    | error e => rw [h0] at h; cases h
    | ok bound =>
      rw [h0] at h
      simp only at h
      cases h1 : load w.mem name with
      | error e => rw [h1] at h; cases h
      | ok n =>
        rw [h1] at h
        simp only at h
        cases ok with
        | false => cases h; exact hw
        | true =>
          simp only [if_true] at h
          cases h
          refine ⟨fun j d hd => ?_, fun j hj => ?_⟩
          · simp only at hd ⊢
            rcases Nat.lt_trichotomy j w.children.length with hlt | heq | hgt
            · rw [List.getElem?_append_left hlt] at hd
              rw [filter_other (i := j) (by simp only [Event.about, beq_eq_false_iff_ne]; omega)]
              exact hw.1 j d hd
            · subst heq
              rw [List.getElem?_append_right (Nat.le_refl _), Nat.sub_self] at hd
              cases hd
              rw [filter_same (by simp [Event.about]), hw.2 _ (Nat.le_refl _)]
              exact ⟨rfl, rfl⟩
            · rw [List.getElem?_eq_none (by simp; omega)] at hd; cases hd
          · simp only at hj ⊢
            rw [List.length_append] at hj
            simp only [List.length_cons, List.length_nil] at hj
            rw [filter_other (i := j) (by simp only [Event.about, beq_eq_false_iff_ne]; omega)]
            exact hw.2 j (by omega)
  | run i =>
    simp only [step] at h
    cases hc : w.children[i]? with
    | none => rw [hc] at h; cases h; exact hw
    | some c =>
      rw [hc] at h
      simp only [runChild] at h
      cases hpc : c.pc with
      | start =>
        rw [hpc] at h
        simp only at h
        cases hn : setOwnName p c.os c.name with
        | none => rw [hn] at h; cases h
        | some r =>
          rw [hn] at h
          cases h
          refine inv_update hw hc rfl rfl (fun j => rfl) (fun hok => ?_)
          simp only [ChildOk, hpc] at hok
          obtain ⟨h1, h2⟩ := hok
          rw [h2]
          exact ⟨⟨r, by rw [← h1]; exact hn, rfl⟩, rfl⟩
      | named =>
        rw [hpc] at h
        simp only [bind, Except.bind] at h
        cases hv : passArgs w.mem c.args with
        | error e => rw [hv] at h; cases h
        | ok vs =>
          rw [hv] at h
          cases h
          refine inv_update hw hc rfl rfl (fun j => rfl) (fun hok => ?_)
          simp only [ChildOk, hpc] at hok
          obtain ⟨h1, h2⟩ := hok
          rw [h2]
          exact ⟨h1, vs, passArgs_matches hv, rfl⟩
      | finished =>
        rw [hpc] at h
        cases h
        exact hw
  | write a v => cases h; exact hw
  | free a => cases h; exact hw

theorem inv_run {p : Platform} : ∀ {as : List Action} {w w' : World}, Inv p w → run p w as = .ok w' → Inv p w'
  | [], w, w', hw, h => by cases h; exact hw
  | a :: as, w, w', hw, h => by
    simp only [run, bind, Except.bind] at h
    cases h1 : step p w a with
    | error e => rw [h1] at h; cases h
    | ok w1 => rw [h1] at h; exact inv_run (inv_step hw h1) h

theorem inv_fresh {p : Platform} {w : World} (h : Fresh w) : Inv p w := by
  obtain ⟨h1, h2, -⟩ := h
  refine ⟨fun i c hc => ?_, fun i _ => ?_⟩
  · rw [h1] at hc; cases hc
  · rw [h2]; rfl

/-- C98: in every run, whatever the client does to its memory, and however the threads are scheduled: what happens of thread `i` is that it is started for a function with
a name and arguments, then sets that name, then calls that function once, with the arguments given by value as they were when it was started; in this order, and nothing else. -/
theorem C98_body (p : Platform) (w w' : World) (as : List Action) (hw : Fresh w) (h : run p w as = .ok w') (i : Nat) :
    w'.trace.filter (Event.about i) = [] ∨
    ∃ name fn args r vs, setOwnName p .inherited name = r ∧ Matches args vs ∧
      (w'.trace.filter (Event.about i) = [.spawn i name fn args] ∨
       ∃ n, r = some n ∧ (w'.trace.filter (Event.about i) = [.spawn i name fn args, .naming i n.name] ∨
         w'.trace.filter (Event.about i) = [.spawn i name fn args, .naming i n.name, .call i fn vs])) := by
  have hI := inv_run (inv_fresh (p := p) hw) h
  have exM : ∀ as : List Bound, ∃ vs, Matches as vs := by
    intro as
    induction as with
    | nil => exact ⟨_, .nil⟩
    | cons a as ih =>
      obtain ⟨vs, hvs⟩ := ih
      cases a with
      | val v => exact ⟨_, .val v hvs⟩
      | ref a => exact ⟨[] :: vs, .ref a [] hvs⟩
  cases hc : w'.children[i]? with
  | none => left; exact hI.2 i (List.getElem?_eq_none_iff.1 hc)
  | some c =>
    right
    have hok := hI.1 i c hc
    cases hpc : c.pc with
    | start =>
      simp only [ChildOk, hpc] at hok
      obtain ⟨vs, hvs⟩ := exM c.args
      exact ⟨c.name, c.fn, c.args, _, vs, rfl, hvs, Or.inl hok.2⟩
    | named =>
      simp only [ChildOk, hpc] at hok
      obtain ⟨⟨r, h1, h2⟩, h3⟩ := hok
      obtain ⟨vs, hvs⟩ := exM c.args
      exact ⟨c.name, c.fn, c.args, _, vs, rfl, hvs, Or.inr ⟨r, h1, Or.inl (by rw [← h2]; exact h3)⟩⟩
    | finished =>
      simp only [ChildOk, hpc] at hok
      obtain ⟨⟨r, h1, h2⟩, vs, hvs, h3⟩ := hok
      exact ⟨c.name, c.fn, c.args, _, vs, rfl, hvs, Or.inr ⟨r, h1, Or.inr (by rw [← h2]; exact h3)⟩⟩

theorem bindArgs_ok {mem : Nat → Option (List Byte)} : ∀ {as : List ArgExpr} {bs : List Bound}, bindArgs mem as = .ok bs → Taken mem as bs
  | [], bs, h => by cases h; exact .nil
  | .obj x :: as, bs, h => by
    simp only [bindArgs, bind, Except.bind, load] at h
    cases hm : mem x with
    | none => rw [hm] at h; cases h
    | some v =>
      rw [hm] at h
      simp only at h
      cases h1 : bindArgs mem as with
      | error e => rw [h1] at h; cases h
      | ok rest => rw [h1] at h; cases h; exact .obj hm (bindArgs_ok h1)
  | .ref x :: as, bs, h => by
    simp only [bindArgs, bind, Except.bind] at h
    cases h1 : bindArgs mem as with
    | error e => rw [h1] at h; cases h
    | ok rest => rw [h1] at h; cases h; exact .ref x (bindArgs_ok h1)

/-- C98: the trace tells what `NewThread` was given: the name and the objects passed by value, as they are in the caller's memory at that time. If the system cannot start
a thread nothing happens. -/
theorem C98_spawn (p : Platform) (w w' : World) (name fn : Nat) (args : List ArgExpr) (ok : Bool) (h : step p w (.spawn name fn args ok) = .ok w') :
    w'.mem = w.mem ∧ w'.leaked = w.leaked ∧ (ok = false → w'.trace = w.trace ∧ w'.children = w.children) ∧
    (ok = true → ∃ n bs, w.mem name = some n ∧ w'.trace = w.trace ++ [.spawn w.children.length n fn bs] ∧ Taken w.mem args bs) := by
  simp only [step, bind, Except.bind] at h
  cases h0 : bindArgs w.mem args with
  | error e => rw [h0] at h; cases h
  | ok bound =>
    rw [h0] at h
    simp only [load] at h
    cases h1 : w.mem name with
    | none => rw [h1] at h; cases h
    | some n =>
      rw [h1] at h
      simp only at h
      cases ok with
      | false => cases h; exact ⟨rfl, rfl, fun _ => ⟨rfl, rfl⟩, fun h => by cases h⟩
      | true =>
        simp only [if_true] at h
        cases h
        exact ⟨rfl, rfl, fun h => (by cases h), fun _ => ⟨n, bound, rfl, rfl, bindArgs_ok h0⟩⟩

theorem passArgs_ok {mem : Nat → Option (List Byte)} : ∀ {as : List Bound} {vs : List (List Byte)}, passArgs mem as = .ok vs → Passed mem as vs
  | [], vs, h => by cases h; exact .nil
  | .val v :: as, vs, h => by
    simp only [passArgs, bind, Except.bind] at h
    cases h1 : passArgs mem as with
    | error e => rw [h1] at h; cases h
    | ok rest => rw [h1] at h; cases h; exact .val v (passArgs_ok h1)
  | .ref a :: as, vs, h => by
    simp only [passArgs, bind, Except.bind, load] at h
    cases h0 : mem a with
    | none => rw [h0] at h; cases h
    | some v =>
      rw [h0] at h
      simp only at h
      cases h1 : passArgs mem as with
      | error e => rw [h1] at h; cases h
      | ok rest => rw [h1] at h; cases h; exact .ref h0 (passArgs_ok h1)

/-- The spawn event of a thread tells what it owns. -/
theorem inv_spawned {p : Platform} {w : World} (hI : Inv p w) {i : Nat} {name : List Byte} {fn : Nat} {args : List Bound} (hm : .spawn i name fn args ∈ w.trace) :
    ∃ c, w.children[i]? = some c ∧ c.name = name ∧ c.fn = fn ∧ c.args = args ∧ ChildOk p i c (w.trace.filter (Event.about i)) := by
  have hf : Event.spawn i name fn args ∈ w.trace.filter (Event.about i) := List.mem_filter.2 ⟨hm, by simp [Event.about]⟩
  cases hc : w.children[i]? with
  | none => rw [hI.2 i (List.getElem?_eq_none_iff.1 hc)] at hf; cases hf
  | some c =>
    have hok := hI.1 i c hc
    refine ⟨c, rfl, ?_⟩
    have hmem : Event.spawn i name fn args = .spawn i c.name c.fn c.args := by
      cases hpc : c.pc with
      | start => simp only [ChildOk, hpc] at hok; rw [hok.2] at hf; simpa using hf
      | named => simp only [ChildOk, hpc] at hok; rw [hok.2] at hf; simpa using hf
      | finished =>
        simp only [ChildOk, hpc] at hok
        obtain ⟨-, vs, -, h3⟩ := hok
        rw [h3] at hf; simpa using hf
    cases hmem
    exact ⟨rfl, rfl, rfl, hok⟩

/-- C98: when a thread calls its function, an argument given with `std::ref` is the client's object as it is then. -/
theorem C98_call (p : Platform) (w w1 w2 : World) (as : List Action) (hw : Fresh w) (h1 : run p w as = .ok w1) (a : Action) (h2 : step p w1 a = .ok w2)
    (i fn fn' : Nat) (vs : List (List Byte)) (name : List Byte) (args : List Bound) (hs : .spawn i name fn args ∈ w1.trace) (hc : w2.trace = w1.trace ++ [.call i fn' vs]) :
    fn' = fn ∧ Passed w1.mem args vs ∧ a = .run i := by
  have hI := inv_run (inv_fresh (p := p) hw) h1
  have absurd0 : ∀ {l : List Event} {e : Event}, l = l ++ [e] → False := by
    intro l e h
    have := congrArg List.length h
    simp at this
  cases a with
  | spawn name fn args ok =>
    exfalso
    have := C98_spawn p w1 w2 name fn args ok h2
    cases ok with
    | false => exact absurd0 ((this.2.2.1 rfl).1.symm.trans hc)
    | true =>
      obtain ⟨n, bs, -, h3, -⟩ := this.2.2.2 rfl
      have e := List.append_cancel_left (h3.symm.trans hc)
      cases e
  | write a v => cases h2; exact (absurd0 hc).elim
  | free a => cases h2; exact (absurd0 hc).elim
  | run j =>
    simp only [step] at h2
    cases hcj : w1.children[j]? with
    | none => rw [hcj] at h2; cases h2; exact (absurd0 hc).elim
    | some c =>
      rw [hcj] at h2
      simp only [runChild] at h2
      cases hpc : c.pc with
      | start =>
        rw [hpc] at h2
        simp only at h2
        cases hn : setOwnName p c.os c.name with
        | none => rw [hn] at h2; cases h2
        | some r =>
          rw [hn] at h2
          cases h2
          have e := List.append_cancel_left hc
          cases e
      | named =>
        rw [hpc] at h2
        simp only [bind, Except.bind] at h2
        cases hv : passArgs w1.mem c.args with
        | error e => rw [hv] at h2; cases h2
        | ok vs' =>
          rw [hv] at h2
          cases h2
          have e := List.append_cancel_left hc
          cases e
          obtain ⟨c', hc', -, rfl, rfl, -⟩ := inv_spawned hI hs
          rw [hcj] at hc'
          cases hc'
          exact ⟨rfl, passArgs_ok hv, rfl⟩
      | finished => rw [hpc] at h2; cases h2; exact (absurd0 hc).elim

theorem passArgs_vals (mem : Nat → Option (List Byte)) (vs : List (List Byte)) : passArgs mem (vs.map .val) = .ok vs := by
  induction vs with
  | nil => rfl
  | cons v vs ih => simp only [List.map_cons, passArgs, bind, Except.bind, ih]

/-- C98: a thread that was started with arguments by value (and, on Windows, a name that is UTF-8) does call its function, whatever became of the client's memory: it takes
two steps of its own. -/
theorem C98_progress (p : Platform) (w w1 : World) (as : List Action) (hw : Fresh w) (h1 : run p w as = .ok w1) (i fn : Nat) (name : List Byte) (vs : List (List Byte))
    (hs : .spawn i name fn (vs.map .val) ∈ w1.trace) (hn : setOwnName p .inherited name ≠ none) :
    ∃ w2 os, run p w1 [.run i, .run i] = .ok w2 ∧ w2.trace.filter (Event.about i) = [.spawn i name fn (vs.map .val), .naming i os, .call i fn vs] := by
  have hI := inv_run (inv_fresh (p := p) hw) h1
  obtain ⟨c, hc, rfl, rfl, ha, hok⟩ := inv_spawned hI hs
  have hi : i < w1.children.length := (List.getElem?_eq_some_iff.1 hc).1
  cases hpc : c.pc with
  | start =>
    simp only [ChildOk, hpc] at hok
    obtain ⟨h2, h3⟩ := hok
    cases hr : setOwnName p .inherited c.name with
    | none => exact (hn hr).elim
    | some r =>
      refine ⟨⟨w1.mem, (w1.children.set i { c with pc := .named, os := r.name }).set i { c with pc := .finished, os := r.name }, w1.leaked + r.leaked,
        (w1.trace ++ [.naming i r.name]) ++ [.call i c.fn vs]⟩, r.name, ?_, ?_⟩
      · simp only [run, step, hc, runChild, hpc, h2, hr, bind, Except.bind, List.getElem?_set, hi, if_true, ha, passArgs_vals]
      · simp only
        rw [filter_same (by simp [Event.about]), filter_same (by simp [Event.about]), h3, ha]
        rfl
  | named =>
    simp only [ChildOk, hpc] at hok
    obtain ⟨h2, h3⟩ := hok
    refine ⟨⟨w1.mem, w1.children.set i { c with pc := .finished }, w1.leaked, w1.trace ++ [.call i c.fn vs]⟩, c.os, ?_, ?_⟩
    · simp only [run, step, hc, runChild, hpc, bind, Except.bind, List.getElem?_set, hi, if_true, ha, passArgs_vals]
    · simp only
      rw [filter_same (by simp [Event.about]), h3, ha]
      rfl
  | finished =>
    simp only [ChildOk, hpc] at hok
    obtain ⟨h2, vs', hvs, h3⟩ := hok
    have e : vs' = vs := by
      rw [ha] at hvs
      clear h3 hs ha
      induction vs generalizing vs' with
      | nil => cases hvs; rfl
      | cons v vs ih => cases hvs with | val _ h => rw [ih _ h]
    refine ⟨w1, c.os, ?_, ?_⟩
    · simp only [run, step, hc, runChild, hpc, bind, Except.bind]
    · rw [h3, ha, e]

/-- On Linux and macOS no name stops the thread. On Windows a name that is not UTF-8 ends the program. -/
theorem C98_no_name_stops (old : OsName) (name : List Byte) : setOwnName .linux old name ≠ none ∧ setOwnName .macos old name ≠ none := ⟨by simp [setOwnName], by simp [setOwnName]⟩

/-- ... and that is a way for a thread never to call its function. -/
theorem C98_windows_name_refuted (d : List Byte → Option (List (BitVec 16))) (w : World) (i : Nat) (c : Child) (hc : w.children[i]? = some c) (hs : c.pc = .start)
    (hn : d c.name = none) : step (.windows true true d) w (.run i) = .error .abort := by
  simp only [step, hc, runChild, hs, setOwnName, winSetName, hn]
  rfl

/-- The client starts a thread with a value and a reference, then overwrites the name, the value and the referenced object. -/
example : ∃ w w', Fresh w ∧ run .linux w [.write 0 [119#8], .write 1 [1#8], .write 2 [2#8], .spawn 0 7 [.obj 1, .ref 2] true, .free 0, .write 1 [9#8], .run 0, .write 2 [5#8], .run 0, .run 0] = .ok w' ∧
    w'.trace = [.spawn 0 [119#8] 7 [.val [1#8], .ref 2], .naming 0 (.posix [119#8]), .call 0 7 [[1#8], [5#8]]] :=
  ⟨⟨fun _ => none, [], 0, []⟩, _, ⟨rfl, rfl, rfl⟩, rfl, rfl⟩

end Verif.Thread
