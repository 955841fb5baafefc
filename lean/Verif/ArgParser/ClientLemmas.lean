import Verif.ArgParser.SpecClient
namespace Verif.ArgParser.Client
open Verif Verif.ArgParser

variable {α σ β γ : Type}

/-! ## Sequencing -/

theorem pure_run (b : β) (s : σ) : (pure b : Run σ β) s = (.ok b, s) := rfl
theorem bind_run (x : Run σ β) (f : β → Run σ γ) (s : σ) :
    (x >>= f) s = match x s with
      | (.ok b, s') => f b s'
      | (.error e, s') => (.error e, s') := rfl
theorem fault_run (e : Fault) (s : σ) : (Run.fault e : Run σ β) s = (.error e, s) := rfl

/-- Over recorded client code: the run appends events, and result and events satisfy `P`. -/
def Emits (x : Run (List (Event α) × σ) β) (P : Except Fault β → List (Event α) → Prop) : Prop :=
  ∀ tr s, ∃ ev r s', x (tr, s) = (r, (tr ++ ev, s')) ∧ P r ev

theorem Emits.mono {x : Run (List (Event α) × σ) β} {P Q : Except Fault β → List (Event α) → Prop}
    (h : Emits x P) (hi : ∀ r ev, P r ev → Q r ev) : Emits x Q := by
  intro tr s
  obtain ⟨ev, r, s', he, hp⟩ := h tr s
  exact ⟨ev, r, s', he, hi _ _ hp⟩

theorem Emits.pure {b : β} {P : Except Fault β → List (Event α) → Prop} (h : P (.ok b) []) :
    Emits (Pure.pure b : Run (List (Event α) × σ) β) P := by
  intro tr s
  exact ⟨[], .ok b, s, by simp [pure_run], h⟩

theorem Emits.fault {e : Fault} {P : Except Fault β → List (Event α) → Prop} (h : P (.error e) []) :
    Emits (Run.fault e : Run (List (Event α) × σ) β) P := by
  intro tr s
  exact ⟨[], .error e, s, by simp [fault_run], h⟩

theorem Emits.bind {x : Run (List (Event α) × σ) β} {f : β → Run (List (Event α) × σ) γ}
    {Q : Except Fault β → List (Event α) → Prop} {P : Except Fault γ → List (Event α) → Prop}
    (hx : Emits x Q) (hf : ∀ b ev, Q (.ok b) ev → Emits (f b) (fun r ev' => P r (ev ++ ev')))
    (he : ∀ e ev, Q (.error e) ev → P (.error e) ev) : Emits (x >>= f) P := by
  intro tr s
  obtain ⟨ev, r, s', hxe, hq⟩ := hx tr s
  rw [bind_run, hxe]
  cases r with
  | error e => exact ⟨ev, .error e, s', rfl, he _ _ hq⟩
  | ok b =>
    obtain ⟨ev', r', s'', hfe, hp⟩ := hf b ev hq (tr ++ ev) s'
    refine ⟨ev ++ ev', r', s'', ?_, hp⟩
    show f b (tr ++ ev, s') = _
    rw [hfe, List.append_assoc]

theorem Emits.call {V : Virt α σ} {o : α} {q : Query} {f : Bool → Run (List (Event α) × σ) γ}
    {P : Except Fault γ → List (Event α) → Prop}
    (hf : ∀ b, Emits (f b) (fun r ev' => P r (⟨o, q, some b⟩ :: ev')))
    (he : ∀ e, P (.error e) [⟨o, q, none⟩]) : Emits (recorded V o q >>= f) P := by
  refine Emits.bind (Q := fun r ev => ev = [⟨o, q, answered r⟩]) ?_ ?_ ?_
  · intro tr s
    exact ⟨_, _, _, rfl, rfl⟩
  · intro b ev h
    subst h
    exact hf b
  · intro e ev h
    subst h
    exact he e

/-! ## The shapes of a round -/

/-- Events and result of `stop`. -/
inductive Stopped (p : PState) (o : α) (pos : Nat) (took : Bool) : Except Fault Next → List (Event α) → Prop where
  | broken (e) : Stopped p o pos took (.error e) [⟨o, .halts, none⟩]
  | halt : Stopped p o pos took (.ok (.halt p pos)) [⟨o, .halts, some true⟩]
  | next : Stopped p o pos took (.ok (.next p pos took)) [⟨o, .halts, some false⟩]

theorem stop_emits (V : Virt α σ) (p : PState) (o : α) (pos : Nat) (took : Bool) :
    Emits (stop (recorded V) p o pos took) (Stopped p o pos took) := by
  refine Emits.call ?_ (fun e => .broken e)
  intro b
  cases b
  · exact Emits.pure .next
  · exact Emits.pure .halt

/-- Events and result of `give`. -/
inductive Given (cfg : Config α) (p : PState) (o : α) (pos : Nat) (v : Option Str) (took : Bool) :
    Except Fault Next → List (Event α) → Prop where
  | broken (e) : Given cfg p o pos v took (.error e) [⟨o, .consume v, none⟩]
  | broken' (e) : Given cfg p o pos v took (.error e) [⟨o, .consume v, some false⟩, ⟨o, .canOmit, none⟩]
  | good {r ev} : Stopped p o pos took r ev → Given cfg p o pos v took r (⟨o, .consume v, some true⟩ :: ev)
  | waived {r ev} : Stopped p o pos false r ev →
      Given cfg p o pos v took r (⟨o, .consume v, some false⟩ :: ⟨o, .canOmit, some true⟩ :: ev)
  | rejected (t) : v = some t → Given cfg p o pos v took (.ok (.fail { p with error := msgInvalid (cfg.form o) t }))
      [⟨o, .consume v, some false⟩, ⟨o, .canOmit, some false⟩]
  | crash : v = none → Given cfg p o pos v took (.error .nullDeref) [⟨o, .consume v, some false⟩, ⟨o, .canOmit, some false⟩]

theorem give_emits (V : Virt α σ) (cfg : Config α) (p : PState) (o : α) (pos : Nat) (v : Option Str) (took : Bool) :
    Emits (give (recorded V) cfg p o pos v took) (Given cfg p o pos v took) := by
  refine Emits.call ?_ (fun e => .broken e)
  intro b
  cases b
  · refine Emits.call ?_ (fun e => .broken' e)
    intro c
    cases c
    · cases v with
      | none => exact Emits.fault (.crash rfl)
      | some t => exact Emits.pure (.rejected t rfl)
    · exact (stop_emits V p o pos false).mono fun r ev h => .waived h
  · exact (stop_emits V p o pos took).mono fun r ev h => .good h

/-- Events and result of `finish`. -/
inductive Finished (cfg : Config α) (p : PState) (o : α) (pos : Nat) (value next : Option Str) :
    Except Fault Next → List (Event α) → Prop where
  | attached {v r ev} : value = some v → Given cfg p o pos (some v) false r ev → Finished cfg p o pos value next r ev
  | broken (e) : value = none → next = none → Finished cfg p o pos value next (.error e) [⟨o, .canOmit, none⟩]
  | needs : value = none → next = none →
      Finished cfg p o pos value next (.ok (.fail { p with error := msgNeedsValue (cfg.form o) })) [⟨o, .canOmit, some false⟩]
  | last {r ev} : value = none → next = none → Given cfg p o pos none false r ev →
      Finished cfg p o pos value next r (⟨o, .canOmit, some true⟩ :: ev)
  | broken' (e) : value = none → next.isSome → Finished cfg p o pos value next (.error e) [⟨o, .mustOmit, none⟩]
  | bare {r ev} : value = none → next.isSome → Given cfg p o pos none false r ev →
      Finished cfg p o pos value next r (⟨o, .mustOmit, some true⟩ :: ev)
  | following {n r ev} : value = none → next = some n → Given cfg p o pos (some n) true r ev →
      Finished cfg p o pos value next r (⟨o, .mustOmit, some false⟩ :: ev)

theorem finish_emits (V : Virt α σ) (cfg : Config α) (p : PState) (o : α) (pos : Nat) (value next : Option Str) :
    Emits (finish (recorded V) cfg p o pos value next) (Finished cfg p o pos value next) := by
  cases value with
  | some v => exact (give_emits V cfg p o pos (some v) false).mono fun r ev h => .attached rfl h
  | none =>
    cases next with
    | none =>
      refine Emits.call ?_ (fun e => .broken e rfl rfl)
      intro b
      cases b
      · exact Emits.pure (.needs rfl rfl)
      · exact (give_emits V cfg p o pos none false).mono fun r ev h => .last rfl rfl h
    | some n =>
      refine Emits.call ?_ (fun e => .broken' e rfl rfl)
      intro b
      cases b
      · exact (give_emits V cfg p o pos (some n) true).mono fun r ev h => .following rfl rfl h
      · exact (give_emits V cfg p o pos none false).mono fun r ev h => .bare rfl rfl h

/-- What `lookup` may put into `value_ptr`. -/
def Literal (value : Option Str) : Prop := value = none ∨ value = some sTrue ∨ value = some sFalse

/-- Events and result of a round. -/
inductive Rounded (cfg : Config α) (p : PState) (pos : Nat) (arg : Str) (next : Option Str) :
    Except Fault Next → List (Event α) → Prop where
  | skip {p'} : Rounded cfg p pos arg next (.ok (.next p' pos false)) []
  | silent {p'} : Rounded cfg p pos arg next (.ok (.fail p')) []
  | unknown : sNo.isPrefixOf arg = true → (resolve cfg arg).1 = none →
      findLong cfg (arg.drop 5) ((sepOf cfg arg).getD arg.length - 5) = none → Rounded cfg p pos arg next (.error .nullDeref) []
  | broken (o e) : o ∈ cfg.options → Rounded cfg p pos arg next (.error e) [⟨o, .takesNo, none⟩]
  | notNo (o p') : o ∈ cfg.options → Rounded cfg p pos arg next (.ok (.fail p')) [⟨o, .takesNo, some false⟩]
  | broken' (o e b) : o ∈ cfg.options → Rounded cfg p pos arg next (.error e) [⟨o, .takesNo, some b⟩, ⟨o, .willRepeat, none⟩]
  | twice (o b) : o ∈ cfg.options → Rounded cfg p pos arg next (.ok (.fail { p with error := msgTwice (cfg.form o) }))
      [⟨o, .takesNo, some b⟩, ⟨o, .willRepeat, some false⟩]
  | broken'' (o e b) : o ∈ cfg.options → Rounded cfg p pos arg next (.error e)
      [⟨o, .takesNo, some b⟩, ⟨o, .willRepeat, some true⟩, ⟨o, .mustOmit, none⟩]
  | noValue (o b p') : o ∈ cfg.options → Rounded cfg p pos arg next (.ok (.fail p'))
      [⟨o, .takesNo, some b⟩, ⟨o, .willRepeat, some true⟩, ⟨o, .mustOmit, some true⟩]
  | attached {o b k r ev} : o ∈ cfg.options → Finished cfg p o pos (some (arg.drop (k + 1))) next r ev → Rounded cfg p pos arg next r
      (⟨o, .takesNo, some b⟩ :: ⟨o, .willRepeat, some true⟩ :: ⟨o, .mustOmit, some false⟩ :: ev)
  | plain {o b value r ev} : o ∈ cfg.options → Literal value → (value = none → b = false) → Finished cfg p o pos value next r ev →
      Rounded cfg p pos arg next r (⟨o, .takesNo, some b⟩ :: ⟨o, .willRepeat, some true⟩ :: ev)
  | positional {o r ev} : cfg.positionals[pos]? = some o → Finished cfg p o (pos + 1) (some arg) next r ev →
      Rounded cfg p pos arg next r ev

theorem find_mem {cfg : Config α} {f : α → Bool} {o : α} (h : cfg.options.find? f = some o) : o ∈ cfg.options :=
  List.mem_of_find?_eq_some h

theorem resolve_mem {cfg : Config α} {arg : Str} {o : α} {sep : Option Nat} (h : resolve cfg arg = (some o, sep)) : o ∈ cfg.options := by
  unfold resolve at h
  dsimp only at h
  split at h
  · simp only [Prod.mk.injEq] at h
    exact find_mem h.1
  · split at h
    · rename_i r hr
      simp only [Prod.mk.injEq, Option.some.injEq] at h
      rw [← h.1]
      exact find_mem hr
    · split at h
      · split at h
        · rename_i r hr
          simp only [Prod.mk.injEq, Option.some.injEq] at h
          rw [← h.1]
          exact find_mem hr
        · simp at h
      · simp at h

/-- The rest of a round, once the option is known. -/
theorem after_lookup (V : Virt α σ) (cfg : Config α) (p : PState) (pos : Nat) (arg : Str) (next : Option Str) (o : α) (b : Bool)
    (value : Option Str) (sep : Option Nat) (ho : o ∈ cfg.options) (hv : Literal value) (hb : value = none → b = false) :
    Emits (do
        let again ← recorded V o .willRepeat
        if again then
          match sep with
          | some k => do
            let m ← recorded V o .mustOmit
            if m then pure (.fail { p with error := msgInvalid (cfg.form o) (arg.drop (k + 1)) })
            else finish (recorded V) cfg p o pos (some (arg.drop (k + 1))) next
          | none => finish (recorded V) cfg p o pos value next
        else pure (.fail { p with error := msgTwice (cfg.form o) }))
      (fun r ev => Rounded cfg p pos arg next r (⟨o, .takesNo, some b⟩ :: ev)) := by
  refine Emits.call ?_ (fun e => .broken' o e b ho)
  intro again
  cases again
  · exact Emits.pure (.twice o b ho)
  · cases sep with
    | none => exact (finish_emits V cfg p o pos value next).mono fun r ev h => .plain ho hv hb h
    | some k =>
      refine Emits.call ?_ (fun e => .broken'' o e b ho)
      intro m
      cases m
      · exact (finish_emits V cfg p o pos (some (arg.drop (k + 1))) next).mono fun r ev h => Rounded.attached ho h
      · exact Emits.pure (.noValue o b _ ho)

theorem step_emits (V : Virt α σ) (cfg : Config α) (p : PState) (pos : Nat) (arg : Str) (next : Option Str) :
    Emits (stepArg (recorded V) cfg p pos arg next) (Rounded cfg p pos arg next) := by
  unfold stepArg
  split
  · exact Emits.pure .skip
  split
  · exact Emits.pure .skip
  split
  · unfold lookup
    cases hr : resolve cfg arg with
    | mk found sep =>
      cases found with
      | none =>
        dsimp only
        by_cases hno : sNo.isPrefixOf arg = true
        · rw [if_pos hno]
          cases hf : findLong cfg (arg.drop 5) ((sepOf cfg arg).getD arg.length - 5) with
          | none =>
            intro tr s
            exact ⟨[], .error .nullDeref, s, by simp [bind_run, fault_run], .unknown hno (by rw [hr]) hf⟩
          | some o =>
            have ho := find_mem hf
            intro tr s
            have key : Emits (recorded V o .takesNo >>= fun b => (if b then
                (do
                  let again ← recorded V o .willRepeat
                  if again then
                    match sep with
                    | some k => do
                      let m ← recorded V o .mustOmit
                      if m then pure (.fail { p with error := msgInvalid (cfg.form o) (arg.drop (k + 1)) })
                      else finish (recorded V) cfg p o pos (some (arg.drop (k + 1))) next
                    | none => finish (recorded V) cfg p o pos (some sFalse) next
                  else pure (.fail { p with error := msgTwice (cfg.form o) }))
                else pure (.fail { p with error := msgUnrecognized arg }) : Run (List (Event α) × σ) Next))
                (Rounded cfg p pos arg next) := by
              refine Emits.call ?_ (fun e => .broken o e ho)
              intro b
              cases b
              · exact Emits.pure (.notNo o _ ho)
              · exact after_lookup V cfg p pos arg next o true (some sFalse) sep ho (Or.inr (Or.inr rfl)) (by simp)
            obtain ⟨ev, r, s', he, hp⟩ := key tr s
            refine ⟨ev, r, s', ?_, hp⟩
            rw [← he]
            simp only [bind_run]
            cases (recorded V o .takesNo (tr, s)) with
            | mk r2 s2 =>
              cases r2 with
              | error e => rfl
              | ok b => cases b <;> rfl
        · rw [if_neg hno]
          intro tr s
          exact ⟨[], _, s, by simp [bind_run, pure_run]; rfl, .silent⟩
      | some o =>
        have ho := resolve_mem hr
        dsimp only
        intro tr s
        have key : Emits (recorded V o .takesNo >>= fun b =>
            ((do
                  let again ← recorded V o .willRepeat
                  if again then
                    match sep with
                    | some k => do
                      let m ← recorded V o .mustOmit
                      if m then pure (.fail { p with error := msgInvalid (cfg.form o) (arg.drop (k + 1)) })
                      else finish (recorded V) cfg p o pos (some (arg.drop (k + 1))) next
                    | none => finish (recorded V) cfg p o pos (if b then some sTrue else none) next
                  else pure (.fail { p with error := msgTwice (cfg.form o) })) : Run (List (Event α) × σ) Next))
                (Rounded cfg p pos arg next) := by
          refine Emits.call ?_ (fun e => .broken o e ho)
          intro b
          refine after_lookup V cfg p pos arg next o b _ sep ho ?_ ?_
          · cases b
            · exact Or.inl rfl
            · exact Or.inr (Or.inl rfl)
          · cases b <;> simp
        obtain ⟨ev, r, s', he, hp⟩ := key tr s
        refine ⟨ev, r, s', ?_, hp⟩
        rw [← he]
        simp only [bind_run]
        cases (recorded V o .takesNo (tr, s)) with
        | mk r2 s2 =>
          cases r2 with
          | error e => rfl
          | ok b => rfl
  · cases hp : cfg.positionals[pos]? with
    | none =>
      dsimp only
      split
      · exact Emits.pure .silent
      · exact Emits.pure .skip
    | some o =>
      exact (finish_emits V cfg p o (pos + 1) (some arg) next).mono fun r ev h => .positional hp h

/-! ## The whole loop -/

/-- Events and result of the loop. -/
inductive Looped (cfg : Config α) : List Str → Bool → PState → Nat → Except Fault (Option (Bool × Nat) × PState) → List (Event α) → Prop where
  | done {skip p pos} : Looped cfg [] skip p pos (.ok (some (false, pos), p)) []
  | skipped {a rest p pos r ev} : Looped cfg rest false p pos r ev → Looped cfg (a :: rest) true p pos r ev
  | broken {arg rest p pos e ev} : Rounded cfg p pos arg rest.head? (.error e) ev → Looped cfg (arg :: rest) false p pos (.error e) ev
  | fail {arg rest p pos p' ev} : Rounded cfg p pos arg rest.head? (.ok (.fail p')) ev → Looped cfg (arg :: rest) false p pos (.ok (none, p')) ev
  | halt {arg rest p pos p' pos' ev} : Rounded cfg p pos arg rest.head? (.ok (.halt p' pos')) ev →
      Looped cfg (arg :: rest) false p pos (.ok (some (true, pos'), p')) ev
  | next {arg rest p pos p' pos' took ev r ev'} : Rounded cfg p pos arg rest.head? (.ok (.next p' pos' took)) ev →
      Looped cfg rest took p' pos' r ev' → Looped cfg (arg :: rest) false p pos r (ev ++ ev')

theorem loop_emits (V : Virt α σ) (cfg : Config α) : ∀ (args : List Str) (skip : Bool) (p : PState) (pos : Nat),
    Emits (loop (recorded V) cfg args skip p pos) (Looped cfg args skip p pos)
  | [], skip, p, pos => by
    cases skip <;> exact Emits.pure .done
  | _ :: rest, true, p, pos => (loop_emits V cfg rest false p pos).mono fun _ _ h => .skipped h
  | arg :: rest, false, p, pos => by
    refine Emits.bind (step_emits V cfg p pos arg rest.head?) ?_ (fun e ev h => .broken h)
    intro b ev h
    cases b with
    | fail p' => exact Emits.pure (by simpa using Looped.fail h)
    | halt p' pos' => exact Emits.pure (by simpa using Looped.halt h)
    | next p' pos' took => exact (loop_emits V cfg rest took p' pos').mono fun _ _ h' => .next h h'

/-- Events and result of `parse`. -/
inductive Parsed (cfg : Config α) (p : PState) (args : List Str) : Except Fault (Bool × PState) → List (Event α) → Prop where
  | broken {e ev} : Looped cfg args false p 0 (.error e) ev → Parsed cfg p args (.error e) ev
  | fail {p' ev} : Looped cfg args false p 0 (.ok (none, p')) ev → Parsed cfg p args (.ok (false, p')) ev
  | missing {pos p' o ev} : Looped cfg args false p 0 (.ok (some (false, pos), p')) ev → cfg.positionals[pos]? = some o →
      Parsed cfg p args (.ok (false, { p' with error := msgMissing (cfg.form o) })) ev
  | fine {h pos p' ev} : Looped cfg args false p 0 (.ok (some (h, pos), p')) ev → (h = false → cfg.positionals[pos]? = none) → cfg.help = none →
      Parsed cfg p args (.ok (true, p')) ev
  | helped {h pos p' ev o b} : Looped cfg args false p 0 (.ok (some (h, pos), p')) ev → (h = false → cfg.positionals[pos]? = none) → cfg.help = some o →
      Parsed cfg p args (.ok (!b, p')) (ev ++ [⟨o, .value, some b⟩])
  | unhelped {h pos p' ev o e} : Looped cfg args false p 0 (.ok (some (h, pos), p')) ev → (h = false → cfg.positionals[pos]? = none) → cfg.help = some o →
      Parsed cfg p args (.error e) (ev ++ [⟨o, .value, none⟩])

theorem ending_emits (V : Virt α σ) (cfg : Config α) (p p' : PState) (args : List Str) (ev : List (Event α)) (h : Bool) (pos : Nat)
    (hl : Looped cfg args false p 0 (.ok (some (h, pos), p')) ev) (hh : h = false → cfg.positionals[pos]? = none) :
    Emits (ending (recorded V) cfg p') (fun r ev' => Parsed cfg p args r (ev ++ ev')) := by
  unfold ending
  cases hc : cfg.help with
  | none => exact Emits.pure (by simpa using Parsed.fine hl hh hc)
  | some o =>
    refine Emits.call ?_ (fun e => .unhelped hl hh hc)
    intro b
    exact Emits.pure (.helped hl hh hc)

theorem parse_emits (V : Virt α σ) (cfg : Config α) (p : PState) (args : List Str) :
    Emits (parse (recorded V) cfg p args) (Parsed cfg p args) := by
  refine Emits.bind (loop_emits V cfg args false p 0) ?_ (fun e ev h => .broken h)
  rintro ⟨r, p'⟩ ev h
  cases r with
  | none => exact Emits.pure (by simpa using Parsed.fail h)
  | some x =>
    obtain ⟨hd, pos⟩ := x
    cases hd with
    | true => exact ending_emits V cfg p p' args ev true pos h (by simp)
    | false =>
      dsimp only
      cases hp : cfg.positionals[pos]? with
      | some o => exact Emits.pure (by simpa using Parsed.missing h hp)
      | none => exact ending_emits V cfg p p' args ev false pos h (fun _ => hp)

/-! ## The record changes nothing -/

/-- `y` does the same as `x`, with a record beside the world; what is recorded has been answered by `V`. -/
def Mirrors (V : Virt α σ) (x : Run σ β) (y : Run (List (Event α) × σ) β) : Prop :=
  ∀ tr s, (y (tr, s)).1 = (x s).1 ∧ (y (tr, s)).2.2 = (x s).2 ∧
    ∀ e ∈ (y (tr, s)).2.1, e ∈ tr ∨ ∃ s0, e.answer = answered (V e.obj e.query s0).1

theorem Mirrors.pure {V : Virt α σ} (b : β) : Mirrors V (Pure.pure b : Run σ β) (Pure.pure b) := fun _ _ => ⟨rfl, rfl, fun _ h => Or.inl h⟩
theorem Mirrors.fault {V : Virt α σ} (e : Fault) : Mirrors V (Run.fault e : Run σ β) (Run.fault e) := fun _ _ => ⟨rfl, rfl, fun _ h => Or.inl h⟩
theorem Mirrors.call (V : Virt α σ) (o : α) (q : Query) : Mirrors V (V o q) (recorded V o q) := by
  intro tr s
  refine ⟨rfl, rfl, ?_⟩
  intro e he
  simp only [recorded, List.mem_append, List.mem_singleton] at he
  rcases he with he | he
  · exact Or.inl he
  · subst he
    exact Or.inr ⟨s, rfl⟩

theorem Mirrors.bind {V : Virt α σ} {x : Run σ β} {y : Run (List (Event α) × σ) β} {f : β → Run σ γ} {g : β → Run (List (Event α) × σ) γ}
    (h : Mirrors V x y) (hf : ∀ b, Mirrors V (f b) (g b)) : Mirrors V (x >>= f) (y >>= g) := by
  intro tr s
  obtain ⟨h1, h2, h3⟩ := h tr s
  rw [bind_run, bind_run]
  cases hx : x s with
  | mk r s' =>
    cases hy : y (tr, s) with
    | mk r' t =>
      obtain ⟨tr', s''⟩ := t
      rw [hx, hy] at h1 h2
      rw [hy] at h3
      dsimp only at h1 h2 h3
      subst h1 h2
      cases r' with
      | error e => exact ⟨rfl, rfl, h3⟩
      | ok b =>
        obtain ⟨k1, k2, k3⟩ := hf b tr' s''
        refine ⟨k1, k2, fun e he => ?_⟩
        rcases k3 e he with hm | hm
        · exact h3 e hm
        · exact Or.inr hm

theorem stop_mirrors (V : Virt α σ) (p o pos took) : Mirrors V (stop V p o pos took) (stop (recorded V) p o pos took) := by
  refine (Mirrors.call V o _).bind fun b => ?_
  cases b <;> exact Mirrors.pure _

theorem give_mirrors (V : Virt α σ) (cfg p o pos v took) : Mirrors V (give V cfg p o pos v took) (give (recorded V) cfg p o pos v took) := by
  refine (Mirrors.call V o _).bind fun b => ?_
  cases b
  · refine (Mirrors.call V o _).bind fun c => ?_
    cases c
    · cases v
      · exact Mirrors.fault _
      · exact Mirrors.pure _
    · exact stop_mirrors V p o pos false
  · exact stop_mirrors V p o pos took

theorem finish_mirrors (V : Virt α σ) (cfg p o pos value next) :
    Mirrors V (finish V cfg p o pos value next) (finish (recorded V) cfg p o pos value next) := by
  cases value with
  | some v => exact give_mirrors V cfg p o pos _ _
  | none =>
    cases next with
    | none =>
      refine (Mirrors.call V o _).bind fun b => ?_
      cases b
      · exact Mirrors.pure _
      · exact give_mirrors V cfg p o pos _ _
    | some n =>
      refine (Mirrors.call V o _).bind fun b => ?_
      cases b <;> exact give_mirrors V cfg p o pos _ _

theorem lookup_mirrors (V : Virt α σ) (cfg arg) : Mirrors V (lookup V cfg arg) (lookup (recorded V) cfg arg) := by
  unfold lookup
  split
  · split
    · split
      · exact Mirrors.fault _
      · refine (Mirrors.call V _ _).bind fun b => ?_
        cases b <;> exact Mirrors.pure _
    · exact Mirrors.pure _
  · exact (Mirrors.call V _ _).bind fun b => Mirrors.pure _

theorem step_mirrors (V : Virt α σ) (cfg p pos arg next) : Mirrors V (stepArg V cfg p pos arg next) (stepArg (recorded V) cfg p pos arg next) := by
  unfold stepArg
  split
  · exact Mirrors.pure _
  split
  · exact Mirrors.pure _
  split
  · refine (lookup_mirrors V cfg arg).bind fun f => ?_
    cases f with
    | none => exact Mirrors.pure _
    | some x =>
      obtain ⟨o, value, sep⟩ := x
      refine (Mirrors.call V o _).bind fun b => ?_
      cases b
      · exact Mirrors.pure _
      · cases sep with
        | none => exact finish_mirrors V cfg p o pos _ _
        | some k =>
          refine (Mirrors.call V o _).bind fun m => ?_
          cases m
          · exact finish_mirrors V cfg p o pos (some (arg.drop (k + 1))) next
          · exact Mirrors.pure _
  · split
    · split <;> exact Mirrors.pure _
    · exact finish_mirrors V cfg p _ _ _ _

theorem loop_mirrors (V : Virt α σ) (cfg : Config α) : ∀ args skip p pos,
    Mirrors V (loop V cfg args skip p pos) (loop (recorded V) cfg args skip p pos)
  | [], skip, p, pos => by cases skip <;> exact Mirrors.pure _
  | _ :: rest, true, p, pos => loop_mirrors V cfg rest false p pos
  | arg :: rest, false, p, pos => by
    refine (step_mirrors V cfg p pos arg _).bind fun b => ?_
    cases b with
    | fail p' => exact Mirrors.pure _
    | halt p' pos' => exact Mirrors.pure _
    | next p' pos' took => exact loop_mirrors V cfg rest took p' pos'

theorem ending_mirrors (V : Virt α σ) (cfg : Config α) (p) : Mirrors V (ending V cfg p) (ending (recorded V) cfg p) := by
  unfold ending
  split
  · exact Mirrors.pure _
  · exact (Mirrors.call V _ _).bind fun b => Mirrors.pure _

theorem parse_mirrors (V : Virt α σ) (cfg : Config α) (p args) : Mirrors V (parse V cfg p args) (parse (recorded V) cfg p args) := by
  refine (loop_mirrors V cfg args false p 0).bind ?_
  rintro ⟨r, p'⟩
  cases r with
  | none => exact Mirrors.pure _
  | some x =>
    obtain ⟨hd, pos⟩ := x
    cases hd with
    | true => exact ending_mirrors V cfg p'
    | false =>
      dsimp only
      split
      · exact Mirrors.pure _
      · exact ending_mirrors V cfg p'

/-- Calls and outcome of a `parse` fit together. -/
theorem parsed (V : Virt α σ) (cfg : Config α) (p : PState) (args : List Str) (s : σ) :
    Parsed cfg p args (outcome V cfg p args s) (calls V cfg p args s) := by
  obtain ⟨ev, r, s', he, hp⟩ := parse_emits V cfg p args [] s
  have hm := parse_mirrors V cfg p args [] s
  unfold outcome calls
  rw [he] at hm ⊢
  rw [← hm.1]
  simpa using hp

/-- Client code that is never undefined behaviour answers every call. -/
theorem calls_answered (V : Virt α σ) (cfg : Config α) (p : PState) (args : List Str) (s : σ) (hV : Sound V) :
    ∀ e ∈ calls V cfg p args s, e.answer ≠ none := by
  intro e he
  rcases (parse_mirrors V cfg p args [] s).2.2 e he with h | ⟨s0, h⟩
  · cases h
  · obtain ⟨b, hb⟩ := hV e.obj e.query s0
    rw [h, hb]
    simp [answered]

/-! ## What a round offers -/

theorem split_cases {x y a b : List β} {e : β} (h : x ++ y = a ++ e :: b) :
    (∃ c, x = a ++ e :: c ∧ b = c ++ y) ∨ (∃ c, a = x ++ c ∧ y = c ++ e :: b) := by
  rcases List.append_eq_append_iff.1 h with ⟨c, h1, h2⟩ | ⟨c, h1, h2⟩
  · exact Or.inr ⟨c, h1, h2⟩
  · cases c with
    | nil => exact Or.inr ⟨[], by simpa using h1.symm, by simpa using h2.symm⟩
    | cons d c =>
      simp only [List.cons_append, List.cons.injEq] at h2
      refine Or.inl ⟨c, ?_, h2.2⟩
      rw [h1, h2.1]

/-- One offer in a row of events. -/
structure Offer (ev : List (Event α)) (pre : List (Event α)) (o : α) (v : Option Str) : Prop where
  eq : ∃ r tail, ev = pre ++ ⟨o, .consume v, r⟩ :: tail ∧ ∀ e ∈ tail, e.gives = false
  pre : ∀ e ∈ pre, e.gives = false

theorem stopped_quiet {p : PState} {o : α} {pos took r ev} (h : Stopped p o pos took r ev) : ∀ e ∈ ev, Event.gives e = false := by
  cases h <;> simp [Event.gives]

theorem given_offer {cfg : Config α} {p : PState} {o : α} {pos v took r ev} (h : Given cfg p o pos v took r ev) : Offer ev [] o v := by
  refine ⟨?_, by simp⟩
  cases h with
  | broken e => exact ⟨_, _, rfl, by simp⟩
  | broken' e => exact ⟨_, _, rfl, by simp [Event.gives]⟩
  | good h => exact ⟨_, _, rfl, stopped_quiet h⟩
  | waived h => exact ⟨_, _, rfl, by
      intro e he
      rcases List.mem_cons.1 he with he | he
      · subst he; rfl
      · exact stopped_quiet h e he⟩
  | rejected t _ => exact ⟨_, _, rfl, by simp [Event.gives]⟩
  | crash _ => exact ⟨_, _, rfl, by simp [Event.gives]⟩

theorem Offer.after {ev pre x : List (Event α)} {o : α} {v : Option Str} (h : Offer ev pre o v) (hx : ∀ e ∈ x, e.gives = false) :
    Offer (x ++ ev) (x ++ pre) o v := by
  obtain ⟨⟨r, tail, he, ht⟩, hp⟩ := h
  refine ⟨⟨r, tail, by rw [he, List.append_assoc], ht⟩, ?_⟩
  intro e hm
  rcases List.mem_append.1 hm with hm | hm
  · exact hx e hm
  · exact hp e hm

/-- The question that comes before an offer, if any. -/
inductive Lead (value next : Option Str) (o : α) : List (Event α) → Option Str → Prop where
  | attached {v} : value = some v → Lead value next o [] (some v)
  | last : value = none → next = none → Lead value next o [⟨o, .canOmit, some true⟩] none
  | bare : value = none → Lead value next o [⟨o, .mustOmit, some true⟩] none
  | following {n} : value = none → next = some n → Lead value next o [⟨o, .mustOmit, some false⟩] (some n)

theorem finished_offer {cfg : Config α} {p : PState} {o : α} {pos value next r ev} (h : Finished cfg p o pos value next r ev) :
    (∀ e ∈ ev, e.gives = false) ∨ ∃ pre v, Offer ev pre o v ∧ Lead value next o pre v := by
  cases h with
  | attached hv hg => exact Or.inr ⟨_, _, given_offer hg, .attached hv⟩
  | broken e _ _ => exact Or.inl (by simp [Event.gives])
  | needs _ _ => exact Or.inl (by simp [Event.gives])
  | last hv hn hg => exact Or.inr ⟨_, _, (given_offer hg).after (x := [⟨o, .canOmit, some true⟩]) (by simp [Event.gives]), .last hv hn⟩
  | broken' e _ _ => exact Or.inl (by simp [Event.gives])
  | bare hv hn hg => exact Or.inr ⟨_, _, (given_offer hg).after (x := [⟨o, .mustOmit, some true⟩]) (by simp [Event.gives]), .bare hv⟩
  | following hv hn hg => exact Or.inr ⟨_, _, (given_offer hg).after (x := [⟨o, .mustOmit, some false⟩]) (by simp [Event.gives]), .following hv hn⟩

/-- The questions that come before the offer of a round, the object and the value. -/
inductive RLead (cfg : Config α) (pos : Nat) (arg : Str) (next : Option Str) : α → List (Event α) → Option Str → Prop where
  | positional {o} : cfg.positionals[pos]? = some o → RLead cfg pos arg next o [] (some arg)
  | attached {o b} (k : Nat) : o ∈ cfg.options →
      RLead cfg pos arg next o [⟨o, .takesNo, some b⟩, ⟨o, .willRepeat, some true⟩, ⟨o, .mustOmit, some false⟩] (some (arg.drop (k + 1)))
  | plain {o b value pre v} : o ∈ cfg.options → Literal value → (value = none → b = false) → Lead value next o pre v →
      RLead cfg pos arg next o (⟨o, .takesNo, some b⟩ :: ⟨o, .willRepeat, some true⟩ :: pre) v

theorem rounded_offer {cfg : Config α} {p : PState} {pos arg next r ev} (h : Rounded cfg p pos arg next r ev) :
    (∀ e ∈ ev, e.gives = false) ∨ ∃ pre o v, Offer ev pre o v ∧ RLead cfg pos arg next o pre v := by
  cases h with
  | attached ho hf =>
    rename_i o b k _
    rcases finished_offer hf with h | ⟨pre, v, ho', hl⟩
    · refine Or.inl ?_
      intro e he
      simp only [List.mem_cons] at he
      rcases he with rfl | rfl | rfl | he
      · rfl
      · rfl
      · rfl
      · exact h e he
    · cases hl with
      | attached hv =>
        cases hv
        exact Or.inr ⟨_, o, _, ho'.after (x := [⟨o, .takesNo, some b⟩, ⟨o, .willRepeat, some true⟩, ⟨o, .mustOmit, some false⟩])
          (by simp [Event.gives]), .attached k ho⟩
      | last hv => cases hv
      | bare hv => cases hv
      | following hv => cases hv
  | plain ho hl hb hf =>
    rename_i o b value _
    rcases finished_offer hf with h | ⟨pre, v, ho', hl'⟩
    · refine Or.inl ?_
      intro e he
      simp only [List.mem_cons] at he
      rcases he with rfl | rfl | he
      · rfl
      · rfl
      · exact h e he
    · exact Or.inr ⟨_, o, _, ho'.after (x := [⟨o, .takesNo, some b⟩, ⟨o, .willRepeat, some true⟩]) (by simp [Event.gives]), .plain ho hl hb hl'⟩
  | positional hp hf =>
    rcases finished_offer hf with h | ⟨pre, v, ho', hl⟩
    · exact Or.inl h
    · cases hl with
      | attached hv =>
        cases hv
        exact Or.inr ⟨[], _, _, ho', .positional hp⟩
      | last hv => cases hv
      | bare hv => cases hv
      | following hv => cases hv
  | _ => exact Or.inl (by simp [Event.gives])

end Verif.ArgParser.Client
