import Verif.ArgParser.ManyFrame
/-!
# C122: several parsers in one program
-/
namespace Verif.ArgParser.Many
open Verif Verif.ArgParser

set_option linter.unusedSectionVars false

variable {V P : Type} [DecidableEq V] [DecidableEq P]

theorem run_sim {w : Nat} : ∀ (ops : List (Op V P)) (t : Track V P) (s : World V P) (a : Apart V P), Sim t s a → Obeys Track.apart ops t →
    answers (run w ops s) = Apart.run w ops a := by
  intro ops
  induction ops with
  | nil => intro t s a _ _; rfl
  | cons o os ih =>
    intro t s a h ho
    simp only [run, Apart.run]
    have := step_sim (w := w) h o ho.1
    generalize step w s o = x at this ⊢
    generalize a.step w o = y at this ⊢
    cases this with
    | error f => rfl
    | ok hxy =>
      rename_i x y
      obtain ⟨s1, r⟩ := x
      obtain ⟨a1, r'⟩ := y
      obtain ⟨h1, h2⟩ := hxy
      simp only at h1 h2
      subst h1
      have := ih (t.step o) s1 a1 h2 ho.2
      simp only [bind, Except.bind]
      rw [← this]
      cases run w os s1 with
      | error _ => rfl
      | ok z => rfl

/-- **C122** (proved part). A program with any number of parsers and option objects, that obeys the lifetime rules and in which no static option is registered with two parsers, gives the
answers that the parsers give each on its own: what one parses, holds and reports does not depend on the others. -/
theorem C122_unshared_partial (w : Nat) (ops : List (Op V P)) (h : Obeys Track.apart ops Track.start) :
    answers (run w ops World.start) = Apart.run w ops Apart.start :=
  run_sim ops _ _ _ Sim.start h

/-- The full claim: with static options registered with several parsers, too. -/
def AsAlone : Prop := ∀ (w : Nat) (ops : List (Op Nat Nat)), Obeys Track.careful ops Track.start → answers (run w ops World.start) = Apart.run w ops Apart.start

/-- An int option with the short form `n`. -/
def optN : Opt := { short := some [110], long := none, name := none, help := [], kind := .int none }

/-- A static option, and two parsers that are given `-n 3` and `-n 4`. -/
def sharing : List (Op Nat Nat) := [.static 0 optN, .parser 0 false, .parser 1 false, .parse 0 [[45, 110], [51]], .parse 1 [[45, 110], [52]], .read 0]

theorem sharing_careful : Obeys Track.careful sharing Track.start := by
  simp [sharing, Obeys, Track.careful, Track.lives, Track.kept, Track.step, Track.start, Track.has]

/-- The second parser refuses `-n`, though it has not seen it: "Option 'n' was specified more than once." -/
theorem sharing_run : answers (run 64 sharing World.start) =
    .ok [.unit, .unit, .unit, .parsed true [] [] [], .parsed false (msgTwice optN) [] [], .holds { value := some (.int 3) }] := by decide +kernel

/-- **C122**: refuted. A static option is one object for all parsers: what the first was given makes the second refuse it. -/
theorem C122_as_alone_refuted : ¬ AsAlone := by
  intro h
  have := h 64 sharing sharing_careful
  rw [sharing_run] at this
  have e : Apart.run 64 sharing Apart.start = .ok [.unit, .unit, .unit, .parsed true [] [] [], .parsed true [] [] [], .holds { value := some (.int 4) }] := by decide +kernel
  rw [e] at this
  exact absurd this (by decide +kernel)

/-- **C122**, memory. Under the lifetime rules, and if no static option that has ended is registered with a new parser, no call touches a dead object, whatever is shared. -/
theorem C122_no_dead_object (w : Nat) (ops : List (Op V P)) (h : Obeys Track.careful ops Track.start) : run w ops World.start ≠ .error .useAfterFree := by
  have := run_own (w := w) ops _ _ Own.start h
  intro he
  rw [he] at this
  exact this rfl

/-- The claim without the condition on static options: each is reachable only while it exists. -/
def StaticsSafe : Prop := ∀ (w : Nat) (ops : List (Op Nat Nat)), Obeys Track.lives ops Track.start → run w ops World.start ≠ .error .useAfterFree

/-- **C122**, memory: refuted. An option object constructed without a parser, and then destroyed, stays in the list of static options: the next `Parser` constructor uses it. -/
theorem C122_static_lifetime_refuted : ¬ StaticsSafe := by
  intro h
  refine h 64 [.static 0 optN, .endOption 0, .parser 0 false] ?_ (by rfl)
  simp [Obeys, Track.lives, Track.step, Track.start]

theorem step_read {w : Nat} {s : World V P} {v : V} : step w s (.read v) = match s.objs (.user v) with
    | some (_, c) => .ok (s, .holds c)
    | none => .error .useAfterFree := by
  simp only [step, deref]
  cases s.objs (.user v) <;> rfl

/-- **C122**, frame. `parse` and `reset` on `p` do not change what an option object holds that is not registered with `p`. -/
theorem C122_not_registered (w : Nat) (ops : List (Op V P)) (p : P) (v : V) (act : Op V P) (hact : Acts p act) (h : Obeys Track.careful (ops ++ [.read v, act, .read v]) Track.start)
    (hv : (p, v) ∉ (Track.start.run ops).regs) (s : World V P) (outs : List Out) (a b c : Out)
    (hr : run w (ops ++ [.read v, act, .read v]) World.start = .ok (s, outs ++ [a, b, c])) : c = a := by
  obtain ⟨s1, o1, o2, e1, e2, e3, e4⟩ := run_append _ _ _ _ _ hr
  have ho := (obeys_append _ _ _).1 h
  have h1 : Own (Track.start.run ops) s1 := (run_own (w := w) ops _ _ Own.start ho.1).ok e1
  have hlen := run_length _ _ _ _ e2
  obtain ⟨rfl, rfl⟩ := List.append_inj' e3 (by simp [hlen])
  obtain ⟨hrd, ha, _⟩ := ho.2
  have hal : (Track.start.run ops).lives act := ha.1
  simp only [run, step_read, bind, Except.bind] at e2
  cases hd : s1.objs (.user v) with
  | none => rw [hd] at e2; cases e2
  | some x =>
    obtain ⟨op, cell⟩ := x
    rw [hd] at e2
    simp only at e2
    cases hs : step w s1 act with
    | error f => rw [hs] at e2; cases e2
    | ok y =>
      obtain ⟨s2, r⟩ := y
      rw [hs] at e2
      simp only at e2
      have hsame : s2.objs (.user v) = s1.objs (.user v) := by
        cases hact with
        | parse args =>
          obtain ⟨q, r, g1, g2, g3, _⟩ := h1.live p hal.1
          refine (step_parse g1 (h1.pointers hal.1 g1 hal.2) hs).rest _ ?_
          rintro (g | g | g)
          · exact hv ((g2 v).1 (.inl g))
          · exact hv ((g2 v).1 (.inr g))
          · exact g3 v g
        | reset =>
          obtain ⟨q, r, g1, g2, g3, _⟩ := h1.live p hal.1
          rw [step_reset g1 (h1.pointers hal.1 g1 hal.2)] at hs
          simp only [Except.ok.injEq, Prod.mk.injEq] at hs
          obtain ⟨rfl, rfl⟩ := hs
          refine if_neg ?_
          rintro (g | g | g)
          · exact hv ((g2 v).1 (.inl g))
          · exact hv ((g2 v).1 (.inr g))
          · exact g3 v g
      rw [hsame, hd] at e2
      simp only [Except.ok.injEq, Prod.mk.injEq, List.cons.injEq] at e2
      obtain ⟨_, rfl, _, rfl, _⟩ := e2
      rfl

/-- **C122**, reset. After `p.reset()` every option object registered with `p` is unset, whichever parser set it. -/
theorem C122_reset (w : Nat) (ops : List (Op V P)) (p : P) (v : V) (h : Obeys Track.careful (ops ++ [.reset p, .read v]) Track.start)
    (hv : (p, v) ∈ (Track.start.run ops).regs) (s : World V P) (outs : List Out) (a b : Out)
    (hr : run w (ops ++ [.reset p, .read v]) World.start = .ok (s, outs ++ [a, b])) : b = .holds {} := by
  obtain ⟨s1, o1, o2, e1, e2, e3, e4⟩ := run_append _ _ _ _ _ hr
  have ho := (obeys_append _ _ _).1 h
  have h1 : Own (Track.start.run ops) s1 := (run_own (w := w) ops _ _ Own.start ho.1).ok e1
  have hlen := run_length _ _ _ _ e2
  obtain ⟨rfl, rfl⟩ := List.append_inj' e3 (by simp [hlen])
  obtain ⟨ha, _⟩ := ho.2
  have hal : (Track.start.run ops).lives (.reset p) := ha.1
  obtain ⟨q, r, g1, g2, g3, _⟩ := h1.live p hal.1
  have halive := h1.pointers hal.1 g1 hal.2
  have hmem : Obj.user v ∈ q.options ∨ Obj.user v ∈ q.positionals := (g2 v).2 hv
  have hq : q.has (.user v) := hmem.elim .inl (fun g => .inr (.inl g))
  simp only [run, bind, Except.bind] at e2
  rw [step_reset g1 halive] at e2
  simp only [step_read, if_pos (show Obj.user v ∈ q.options ∨ Obj.user v ∈ q.positionals ∨ Obj.user v ∈ q.help.toList from hq)] at e2
  cases hx : s1.objs (.user v) with
  | none => exact absurd hx (halive _ hq)
  | some z =>
    rw [hx] at e2
    simp only [Option.map_some, Except.ok.injEq, Prod.mk.injEq, List.cons.injEq] at e2
    exact e2.2.2.1.symm

/-- **C122**, first come. A single option with a form that has a value keeps it through every `parse` of every parser. -/
theorem C122_first_value_stays (w : Nat) (ops : List (Op V P)) (p : P) (v : V) (o : Opt) (args : List Str)
    (h : Obeys Track.careful (ops ++ [.read v, .parse p args, .read v]) Track.start) (hd : Declares ops v o) (hform : o.short.isSome ∨ o.long.isSome)
    (s : World V P) (outs : List Out) (x : Cell) (b c : Out) (hx : willRepeat o x = false)
    (hr : run w (ops ++ [.read v, .parse p args, .read v]) World.start = .ok (s, outs ++ [.holds x, b, c])) : c = .holds x := by
  obtain ⟨s1, o1, o2, e1, e2, e3, e4⟩ := run_append _ _ _ _ _ hr
  have ho := (obeys_append _ _ _).1 h
  have h1 : Own (Track.start.run ops) s1 := (run_own (w := w) ops _ _ Own.start ho.1).ok e1
  have hlen := run_length _ _ _ _ e2
  obtain ⟨rfl, rfl⟩ := List.append_inj' e3 (by simp [hlen])
  obtain ⟨hrd, ha, _⟩ := ho.2
  have hal : (Track.start.run ops).lives (.parse p args) := ha.1
  have hdecl := run_decl ops _ _ _ _ Own.start ho.1 e1 v o (.inr hd) hrd.1.2
  simp only [run, step_read, bind, Except.bind] at e2
  cases hy : s1.objs (.user v) with
  | none => rw [hy] at hdecl; cases hdecl
  | some z =>
    obtain ⟨op, cell⟩ := z
    rw [hy] at hdecl
    simp only [Option.map_some, Option.some.injEq] at hdecl
    subst hdecl
    simp only [hy] at e2
    cases hs : step w s1 (.parse p args) with
    | error f => rw [hs] at e2; cases e2
    | ok y =>
      obtain ⟨s2, r⟩ := y
      rw [hs] at e2
      simp only at e2
      obtain ⟨q, r, g1, g2, g3, g4, g5⟩ := h1.live p hal.1
      have hf := step_parse g1 (h1.pointers hal.1 g1 hal.2) hs
      have hcell : cell = x := by
        cases hz : s2.objs (.user v) with
        | none => rw [hz] at e2; cases e2
        | some z =>
          rw [hz] at e2
          simp only [Except.ok.injEq, Prod.mk.injEq, List.cons.injEq, Out.holds.injEq] at e2
          exact e2.2.1
      subst hcell
      have := hf.first _ _ _ hy g5 hform hx
      rw [this] at e2
      simp only [Except.ok.injEq, Prod.mk.injEq, List.cons.injEq] at e2
      exact e2.2.2.2.1.symm

/-! ### Cases -/

/-- Two parsers with options of their own and a static option before the first. -/
def twoParsers : List (Op Nat Nat) :=
  [.parser 0 true, .declare 0 0 optN, .static 1 { optN with short := some [109] }, .parser 1 false, .declare 1 2 optN, .parse 0 [[45, 110], [51]], .parse 1 [[45, 110], [52], [45, 109], [53]],
    .reset 1, .parse 1 [[45, 110], [54]], .read 0, .read 1, .read 2]

example : Obeys Track.apart twoParsers Track.start := by
  simp [twoParsers, Obeys, Track.apart, Track.lives, Track.kept, Track.unshared, Track.step, Track.start, Track.has]

example : answers (run 64 twoParsers World.start) = .ok [.unit, .unit, .unit, .unit, .unit, .parsed true [] [] [], .parsed true [] [] [], .unit, .parsed true [] [] [],
    .holds { value := some (.int 3) }, .holds {}, .holds { value := some (.int 6) }] := by decide +kernel

/-- After the first parser's reset the second parser accepts the shared option. -/
example : answers (run 64 (sharing ++ [.reset 0, .read 0, .parse 1 [[45, 110], [52]], .read 0]) World.start) =
    .ok [.unit, .unit, .unit, .parsed true [] [] [], .parsed false (msgTwice optN) [] [], .holds { value := some (.int 3) }, .unit, .holds {},
      .parsed true (msgTwice optN) [] [], .holds { value := some (.int 4) }] := by decide +kernel

example : Obeys Track.careful (sharing ++ [.reset 0, .read 0]) Track.start ∧ (0, 0) ∈ (Track.start.run sharing).regs ∧ (1, 0) ∈ (Track.start.run sharing).regs := by
  refine ⟨?_, by decide, by decide⟩
  simp [sharing, Obeys, Track.careful, Track.lives, Track.kept, Track.step, Track.start, Track.has]

example : Obeys Track.careful (twoParsers ++ [.read 0, .parse 1 [[45, 109], [55]], .read 0]) Track.start ∧ (1, 0) ∉ (Track.start.run twoParsers).regs := by
  refine ⟨?_, by decide⟩
  simp [twoParsers, Obeys, Track.careful, Track.lives, Track.kept, Track.step, Track.start, Track.has]

example : Obeys Track.careful (sharing ++ [.read 0, .parse 1 [[45, 110], [55]], .read 0]) Track.start ∧ Declares sharing 0 optN ∧ willRepeat optN { value := some (.int 3) } = false := by
  refine ⟨?_, .inl (by simp [sharing]), rfl⟩
  simp [sharing, Obeys, Track.careful, Track.lives, Track.kept, Track.step, Track.start, Track.has]

end Verif.ArgParser.Many
