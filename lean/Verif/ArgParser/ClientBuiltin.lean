import Verif.ArgParser.ClientTrace
namespace Verif.ArgParser.Client
open Verif Verif.ArgParser

/-! ## The option classes of the header as client code -/

/-- The data members of an option. -/
def formOf (o : Opt) : Form := ⟨o.short, o.long, o.name⟩

/-- The option that a place in `options_` or `positionals_` holds. -/
def optAt (cfg : ArgParser.Config) : Ref → Option Opt
  | .opt i => cfg.options[i]?
  | .pos i => cfg.positionals[i]?

/-- A parser that has options of the header only, as a parser over objects; an object is named by its place. -/
def objects (cfg : ArgParser.Config) : Config Ref :=
  { options := (List.range' 0 cfg.options.length).map .opt
    positionals := (List.range' 0 cfg.positionals.length).map .pos
    form := fun r => match optAt cfg r with
      | some o => formOf o
      | none => ⟨none, none, none⟩
    inlineValues := cfg.inlineValues
    slashes := cfg.slashes
    collectExtra := cfg.collectExtra
    passthrough := cfg.passthrough
    help := if cfg.help then some (.opt 0) else none }

/-- A write to one option object. -/
def setAt (s : Ref → Cell) (r : Ref) (c : Cell) : Ref → Cell := fun r' => if r' = r then c else s r'

/-- The virtual functions of the header's classes; the world is what the option objects hold. -/
def headerClasses (w : Nat) (cfg : ArgParser.Config) : Virt Ref (Ref → Cell) := fun r q s =>
  match optAt cfg r with
  | none => (.ok false, s)
  | some o =>
    match q with
    | .mustOmit => (.ok o.mustOmit, s)
    | .canOmit => (.ok o.canOmit, s)
    | .halts => (.ok o.halts, s)
    | .takesNo => (.ok o.takesNo, s)
    | .willRepeat => (.ok (willRepeat o (s r)), s)
    | .consume v => match ArgParser.consume w o v (s r) with
      | .ok (b, c) => (.ok b, setAt s r c)
      | .error e => (.error e, s)
    | .reset => (.ok true, setAt s r {})
    | .value => (.ok (flagValue o (s r)), s)

/-- The parser state of `Model.lean` from the parser's own part and the option objects. -/
def joined (p : PState) (s : Ref → Cell) : State :=
  { cells := s, error := p.error, extra := p.extra, pass := p.pass, hasPass := p.hasPass }

/-- The result of a run of `parse` over objects, as `Model.lean` has it. -/
def joinedResult : Except Fault (Bool × PState) × (Ref → Cell) → Exec (Bool × State)
  | (.ok (b, p), s) => .ok (b, joined p s)
  | (.error e, _) => .error e

/-! ## The two models agree on them -/

variable {w : Nat} {cfg : ArgParser.Config}

theorem pretty_formOf (o : Opt) : (formOf o).pretty = o.pretty := rfl

theorem findFrom_get (p : Opt → Bool) (l : List Opt) (n : Nat) (i : Nat) (o : Opt) (h : findFrom p l n = some (i, o)) :
    n ≤ i ∧ l[i - n]? = some o := by
  induction l generalizing n with
  | nil => simp [findFrom] at h
  | cons a l ih =>
    unfold findFrom at h
    split at h
    · simp only [Option.some.injEq, Prod.mk.injEq] at h
      rw [← h.1, ← h.2]
      simp
    · obtain ⟨h1, h2⟩ := ih (n + 1) h
      refine ⟨by omega, ?_⟩
      obtain ⟨k, rfl⟩ : ∃ k, i = n + 1 + k := ⟨i - (n + 1), by omega⟩
      have e1 : n + 1 + k - n = k + 1 := by omega
      have e2 : n + 1 + k - (n + 1) = k := by omega
      rw [e2] at h2
      rw [e1]
      simpa using h2

theorem find_objects (cfg : ArgParser.Config) (f : Form → Bool) (l : List Opt) (pre : List Opt) (h : cfg.options = pre ++ l) :
    ((List.range' pre.length l.length).map Ref.opt).find? (fun r => f ((objects cfg).form r)) =
      (findFrom (fun o => f (formOf o)) l pre.length).map (fun x => Ref.opt x.1) := by
  induction l generalizing pre with
  | nil => rfl
  | cons a l ih =>
    have hform : (objects cfg).form (.opt pre.length) = formOf a := by
      simp [objects, optAt, h]
    have := ih (pre ++ [a]) (by simp [h])
    rw [List.length_cons, List.range'_succ, List.map_cons, List.find?_cons, hform]
    unfold findFrom
    cases hfa : f (formOf a) with
    | true => simp
    | false =>
      simp only [List.length_append, List.length_cons, List.length_nil, Nat.zero_add] at this
      simpa using this

theorem findShort_objects (text : Str) (len : Nat) :
    findShort (objects cfg) text len = (ArgParser.findShort cfg text len).map (fun x => Ref.opt x.1) :=
  find_objects cfg (fun f => formIs f.short text len) cfg.options [] rfl

theorem findLong_objects (text : Str) (len : Nat) :
    findLong (objects cfg) text len = (ArgParser.findLong cfg text len).map (fun x => Ref.opt x.1) :=
  find_objects cfg (fun f => formIs f.long text len) cfg.options [] rfl

theorem findInline_objects (c : Option UInt8) :
    findInline (objects cfg) c = (ArgParser.findInline cfg c).map (fun x => Ref.opt x.1) :=
  find_objects cfg (fun x => match x.short with
    | none => false
    | some f => f.length == 1 && (c.isSome && f[0]? == c)) cfg.options [] rfl

theorem sepOf_objects (arg : Str) : sepOf (objects cfg) arg = ArgParser.sepOf cfg arg := rfl

/-- The first half of `ArgParser.lookup`. -/
def resolveOpt (cfg : ArgParser.Config) (arg : Str) : Option (Nat × Opt) × Option Nat :=
  let sep := ArgParser.sepOf cfg arg
  let len := sep.getD arg.length
  if arg[0]? = some 45 ∧ arg[1]? = some 45 then (ArgParser.findLong cfg (arg.drop 2) (len - 2), sep)
  else match ArgParser.findShort cfg (arg.drop 1) (len - 1) with
    | some r => (some r, sep)
    | none =>
      if cfg.inlineValues then
        match ArgParser.findInline cfg arg[1]? with
        | some r => (some r, if len > 2 then some 1 else sep)
        | none => (none, sep)
      else (none, sep)

theorem resolve_objects (arg : Str) : resolve (objects cfg) arg = ((resolveOpt cfg arg).1.map (fun x => Ref.opt x.1), (resolveOpt cfg arg).2) := by
  unfold resolve resolveOpt
  simp only [findShort_objects, findLong_objects, findInline_objects, sepOf_objects]
  split
  · rfl
  · cases ArgParser.findShort cfg (arg.drop 1) ((ArgParser.sepOf cfg arg).getD arg.length - 1) with
    | some r => rfl
    | none =>
      show (if cfg.inlineValues = true then _ else _) = _
      cases cfg.inlineValues with
      | false => rfl
      | true =>
        simp only [if_true]
        cases ArgParser.findInline cfg arg[1]? with
        | some r => rfl
        | none => rfl

theorem lookup_eq (arg : Str) : ArgParser.lookup cfg arg =
    match resolveOpt cfg arg with
    | (none, sep) =>
      if sNo.isPrefixOf arg then
        match ArgParser.findLong cfg (arg.drop 5) ((ArgParser.sepOf cfg arg).getD arg.length - 5) with
        | none => .error .nullDeref
        | some (i, o) => if o.takesNo then .ok (some (i, o, some sFalse, sep)) else .ok none
      else .ok none
    | (some (i, o), sep) => .ok (some (i, o, if o.takesNo then some sTrue else none, sep)) := rfl

theorem resolveOpt_get {arg : Str} {i : Nat} {o : Opt} {sep : Option Nat} (h : resolveOpt cfg arg = (some (i, o), sep)) :
    cfg.options[i]? = some o := by
  unfold resolveOpt at h
  dsimp only at h
  split at h
  · simp only [Prod.mk.injEq] at h
    simpa using (findFrom_get _ _ _ _ _ h.1).2
  · split at h
    · rename_i r hr
      simp only [Prod.mk.injEq, Option.some.injEq] at h
      rw [h.1] at hr
      simpa using (findFrom_get _ _ _ _ _ hr).2
    · split at h
      · split at h
        · rename_i r hr
          simp only [Prod.mk.injEq, Option.some.injEq] at h
          rw [h.1] at hr
          simpa using (findFrom_get _ _ _ _ _ hr).2
        · simp at h
      · simp at h

theorem ask_no {r : Ref} {o : Opt} (ho : optAt cfg r = some o) (s : Ref → Cell) : headerClasses w cfg r .takesNo s = (.ok o.takesNo, s) := by
  simp [headerClasses, ho]

/-- The result of `lookup` over objects. -/
def refOf : Option (Nat × Opt × Option Str × Option Nat) → Option (Ref × Option Str × Option Nat)
  | none => none
  | some (i, _, v, sep) => some (.opt i, v, sep)

theorem lookup_objects (arg : Str) (s : Ref → Cell) :
    match ArgParser.lookup cfg arg with
    | .error e => lookup (headerClasses w cfg) (objects cfg) arg s = (.error e, s)
    | .ok x => lookup (headerClasses w cfg) (objects cfg) arg s = (.ok (refOf x), s) ∧ ∀ i o v sep, x = some (i, o, v, sep) → cfg.options[i]? = some o := by
  rw [lookup_eq]
  unfold lookup
  rw [resolve_objects]
  cases hr : resolveOpt cfg arg with
  | mk found sep =>
    cases found with
    | some x =>
      obtain ⟨i, o⟩ := x
      have hg := resolveOpt_get hr
      refine ⟨?_, ?_⟩
      · show (headerClasses w cfg (.opt i) .takesNo >>= _) s = _
        rw [bind_run, ask_no (cfg := cfg) (r := .opt i) (o := o) hg]
        rfl
      · intro i' o' v' sep' h
        simp only [Option.some.injEq, Prod.mk.injEq] at h
        rw [← h.1, ← h.2.1]
        exact hg
    | none =>
      dsimp only [Option.map_none]
      rw [sepOf_objects, findLong_objects]
      by_cases hno : sNo.isPrefixOf arg = true
      · rw [if_pos hno, if_pos hno]
        cases hf : ArgParser.findLong cfg (arg.drop 5) ((ArgParser.sepOf cfg arg).getD arg.length - 5) with
        | none => rfl
        | some x =>
          obtain ⟨i, o⟩ := x
          have hg : cfg.options[i]? = some o := by simpa using (findFrom_get _ _ _ _ _ hf).2
          have hq : headerClasses w cfg (.opt i) .takesNo s = (.ok o.takesNo, s) := ask_no (cfg := cfg) (r := .opt i) (o := o) hg s
          dsimp only [Option.map_some]
          rw [bind_run, hq]
          cases ho : o.takesNo with
          | true =>
            refine ⟨rfl, ?_⟩
            intro i' o' v' sep' h
            simp only [Option.some.injEq, Prod.mk.injEq] at h
            rw [← h.1, ← h.2.1]
            exact hg
          | false =>
            refine ⟨rfl, ?_⟩
            intro i' o' v' sep' h
            cases h
      · rw [if_neg hno, if_neg hno]
        refine ⟨rfl, ?_⟩
        intro i' o' v' sep' h
        cases h

/-- A round over objects as `Model.lean` has it. -/
def stepOf : Except Fault Next × (Ref → Cell) → Exec Step
  | (.error e, _) => .error e
  | (.ok (.fail p), s) => .ok (.fail (joined p s))
  | (.ok (.halt p pos), s) => .ok (.halt (joined p s) pos)
  | (.ok (.next p pos took), s) => .ok (.next (joined p s) pos took)

section
variable {r : Ref} {o : Opt} (ho : optAt cfg r = some o)
include ho

theorem ask_must (s : Ref → Cell) : headerClasses w cfg r .mustOmit s = (.ok o.mustOmit, s) := by simp [headerClasses, ho]
theorem ask_can (s : Ref → Cell) : headerClasses w cfg r .canOmit s = (.ok o.canOmit, s) := by simp [headerClasses, ho]
theorem ask_halts (s : Ref → Cell) : headerClasses w cfg r .halts s = (.ok o.halts, s) := by simp [headerClasses, ho]
theorem ask_repeat (s : Ref → Cell) : headerClasses w cfg r .willRepeat s = (.ok (willRepeat o (s r)), s) := by simp [headerClasses, ho]
theorem ask_value (s : Ref → Cell) : headerClasses w cfg r .value s = (.ok (flagValue o (s r)), s) := by simp [headerClasses, ho]
theorem form_at : (objects cfg).form r = formOf o := by simp [objects, ho]

/-- The end of `ArgParser.finish`, from `consumeValue` on. -/
def giveOpt (w : Nat) (st : State) (r : Ref) (o : Opt) (pos : Nat) (v : Option Str) (took : Bool) : Exec Step := do
  let (ok, c) ← ArgParser.consume w o v (st.cells r)
  let st' := st.setCell r c
  if !ok && !o.canOmit then
    match v with
    | none => .error .nullDeref
    | some v => .ok (.fail { st' with error := ArgParser.msgInvalid o v })
  else if o.halts then .ok (.halt st' pos)
  else .ok (.next st' pos (took && ok))

theorem stop_objects (p : PState) (pos : Nat) (took : Bool) (s : Ref → Cell) :
    stop (headerClasses w cfg) p r pos took s = (.ok (if o.halts then .halt p pos else .next p pos took), s) := by
  unfold stop
  rw [bind_run, ask_halts ho]
  cases o.halts <;> rfl

theorem give_objects (p : PState) (pos : Nat) (v : Option Str) (took : Bool) (s : Ref → Cell) :
    giveOpt w (joined p s) r o pos v took = stepOf (give (headerClasses w cfg) (objects cfg) p r pos v took s) := by
  unfold giveOpt give
  rw [bind_run]
  have hc : headerClasses w cfg r (.consume v) s = match ArgParser.consume w o v (s r) with
      | .ok (b, c) => (.ok b, setAt s r c)
      | .error e => (.error e, s) := by simp [headerClasses, ho]
  rw [hc]
  clear hc
  have hcell : (joined p s).cells r = s r := rfl
  rw [hcell]
  cases ArgParser.consume w o v (s r) with
  | error e => rfl
  | ok x =>
    obtain ⟨ok, c⟩ := x
    have hst : (joined p s).setCell r c = joined p (setAt s r c) := rfl
    cases ok with
    | true =>
      show (if (!true && !o.canOmit) = true then
          (match v with
            | none => Except.error .nullDeref
            | some v => .ok (.fail { (joined p s).setCell r c with error := ArgParser.msgInvalid o v }))
          else if o.halts = true then Except.ok (Step.halt ((joined p s).setCell r c) pos) else .ok (.next ((joined p s).setCell r c) pos (took && true))) =
        stepOf (stop (headerClasses w cfg) p r pos took (setAt s r c))
      rw [stop_objects ho, hst]
      cases o.halts <;> simp [stepOf]
    | false =>
      show (if (!false && !o.canOmit) = true then
          (match v with
            | none => Except.error .nullDeref
            | some v => .ok (.fail { (joined p s).setCell r c with error := ArgParser.msgInvalid o v }))
          else if o.halts = true then Except.ok (Step.halt ((joined p s).setCell r c) pos) else .ok (.next ((joined p s).setCell r c) pos (took && false))) =
        stepOf ((headerClasses w cfg r .canOmit >>= fun c =>
          if c then stop (headerClasses w cfg) p r pos false
          else match v with
            | none => Run.fault .nullDeref
            | some v => pure (.fail { p with error := msgInvalid ((objects cfg).form r) v })) (setAt s r c))
      rw [bind_run, ask_can ho]
      cases hcan : o.canOmit with
      | true =>
        show _ = stepOf (stop (headerClasses w cfg) p r pos false (setAt s r c))
        rw [stop_objects ho, hst]
        cases o.halts <;> simp [stepOf]
      | false =>
        cases v with
        | none => rfl
        | some t =>
          show Except.ok (Step.fail _) = Except.ok (Step.fail _)
          rw [form_at ho]
          rfl

theorem finish_objects (p : PState) (pos : Nat) (value next : Option Str) (s : Ref → Cell) :
    ArgParser.finish w (joined p s) r o pos value next = stepOf (finish (headerClasses w cfg) (objects cfg) p r pos value next s) := by
  have hgive : ArgParser.finish w (joined p s) r o pos value next =
      if (!value.isSome && next.isNone && !o.canOmit) = true then .ok (.fail { joined p s with error := ArgParser.msgNeedsValue o })
      else giveOpt w (joined p s) r o pos (if (!value.isSome && next.isSome && !o.mustOmit) = true then next else value)
        (!value.isSome && next.isSome && !o.mustOmit) := rfl
  rw [hgive]
  unfold finish
  cases value with
  | some v =>
    dsimp only
    rw [← give_objects ho]
    simp
  | none =>
    cases next with
    | none =>
      dsimp only
      rw [bind_run, ask_can ho]
      cases o.canOmit with
      | true =>
        show _ = stepOf (give (headerClasses w cfg) (objects cfg) p r pos none false s)
        rw [← give_objects ho]
        simp
      | false =>
        show Except.ok (Step.fail _) = Except.ok (Step.fail _)
        rw [form_at ho]
        rfl
    | some n =>
      dsimp only
      rw [bind_run, ask_must ho]
      cases o.mustOmit with
      | true =>
        show _ = stepOf (give (headerClasses w cfg) (objects cfg) p r pos none false s)
        rw [← give_objects ho]
        simp
      | false =>
        show _ = stepOf (give (headerClasses w cfg) (objects cfg) p r pos (some n) true s)
        rw [← give_objects ho]
        simp

end

theorem positional_at (pos : Nat) : (objects cfg).positionals[pos]? = (cfg.positionals[pos]?).map (fun _ => Ref.pos pos) := by
  show ((List.range' 0 cfg.positionals.length).map Ref.pos)[pos]? = _
  rw [List.getElem?_map]
  by_cases h : pos < cfg.positionals.length
  · rw [List.getElem?_range' h, List.getElem?_eq_getElem h]
    simp
  · rw [List.getElem?_eq_none (by simp; omega), List.getElem?_eq_none (by omega)]
    rfl

theorem step_objects (p : PState) (pos : Nat) (arg : Str) (next : Option Str) (s : Ref → Cell) :
    ArgParser.stepArg w cfg (joined p s) pos arg next = stepOf (stepArg (headerClasses w cfg) (objects cfg) p pos arg next s) := by
  unfold ArgParser.stepArg stepArg
  by_cases h1 : cfg.passthrough = true ∧ arg = [45, 45]
  · rw [if_pos (c := cfg.passthrough = true ∧ arg = [45, 45]) h1, if_pos (c := (objects cfg).passthrough = true ∧ arg = [45, 45]) h1]
    rfl
  rw [if_neg (c := cfg.passthrough = true ∧ arg = [45, 45]) h1, if_neg (c := (objects cfg).passthrough = true ∧ arg = [45, 45]) h1]
  by_cases h2 : p.hasPass = true
  · rw [if_pos (c := (joined p s).hasPass = true) h2, if_pos h2]
    rfl
  rw [if_neg (c := (joined p s).hasPass = true) h2, if_neg h2]
  by_cases h3 : arg[0]? = some 45 ∨ cfg.slashes = true ∧ arg[0]? = some 47
  · rw [if_pos h3, if_pos (c := arg[0]? = some 45 ∨ (objects cfg).slashes = true ∧ arg[0]? = some 47) h3]
    have hl := lookup_objects (w := w) (cfg := cfg) arg s
    rw [bind_run]
    cases hx : ArgParser.lookup cfg arg with
    | error e =>
      rw [hx] at hl
      dsimp only at hl
      rw [hl]
      rfl
    | ok x =>
      rw [hx] at hl
      obtain ⟨hl, hg⟩ := hl
      rw [hl]
      cases x with
      | none => rfl
      | some x =>
        obtain ⟨i, o, value, sep⟩ := x
        have ho : optAt cfg (.opt i) = some o := hg i o value sep rfl
        show (if (!willRepeat o (s (.opt i))) = true then _ else _) = stepOf ((headerClasses w cfg (.opt i) .willRepeat >>= _) s)
        rw [bind_run, ask_repeat ho]
        cases willRepeat o (s (.opt i)) with
        | false =>
          show Except.ok (Step.fail _) = Except.ok (Step.fail _)
          rw [form_at ho]
          rfl
        | true =>
          cases sep with
          | none => exact finish_objects ho p pos value next s
          | some k =>
            show (if o.mustOmit = true then _ else _) = stepOf ((headerClasses w cfg (.opt i) .mustOmit >>= _) s)
            rw [bind_run, ask_must ho]
            cases o.mustOmit with
            | true =>
              show Except.ok (Step.fail _) = Except.ok (Step.fail _)
              rw [form_at ho]
              rfl
            | false => exact finish_objects ho p pos (some (arg.drop (k + 1))) next s
  · rw [if_neg h3, if_neg (c := arg[0]? = some 45 ∨ (objects cfg).slashes = true ∧ arg[0]? = some 47) h3, positional_at]
    cases hp : cfg.positionals[pos]? with
    | none =>
      have hc : (objects cfg).collectExtra = cfg.collectExtra := rfl
      dsimp only [Option.map_none]
      rw [hc]
      cases cfg.collectExtra <;> rfl
    | some o =>
      have ho : optAt cfg (.pos pos) = some o := hp
      exact finish_objects ho p (pos + 1) (some arg) next s

/-- The loop over objects as `Model.lean` has it. -/
def loopOf : Except Fault (Option (Bool × Nat) × PState) × (Ref → Cell) → Exec (Option (Bool × Nat) × State)
  | (.error e, _) => .error e
  | (.ok (x, p), s) => .ok (x, joined p s)

theorem loop_objects : ∀ (args : List Str) (skip : Bool) (p : PState) (pos : Nat) (s : Ref → Cell),
    ArgParser.loop w cfg args skip (joined p s) pos = loopOf (loop (headerClasses w cfg) (objects cfg) args skip p pos s)
  | [], skip, p, pos, s => by cases skip <;> rfl
  | _ :: rest, true, p, pos, s => loop_objects rest false p pos s
  | arg :: rest, false, p, pos, s => by
    show (ArgParser.stepArg w cfg (joined p s) pos arg rest.head? >>= _) = loopOf ((stepArg (headerClasses w cfg) (objects cfg) p pos arg rest.head? >>= _) s)
    rw [step_objects, bind_run]
    cases stepArg (headerClasses w cfg) (objects cfg) p pos arg rest.head? s with
    | mk r s' =>
      cases r with
      | error e => rfl
      | ok x =>
        cases x with
        | fail p' => rfl
        | halt p' pos' => rfl
        | next p' pos' took => exact loop_objects rest took p' pos' s'

theorem parse_objects (hh : cfg.help = true → cfg.options[0]? = some helpOpt) (p : PState) (s : Ref → Cell) (args : List Str) :
    ArgParser.parse w cfg (joined p s) args = joinedResult (parse (headerClasses w cfg) (objects cfg) p args s) := by
  have hend : ∀ (p : PState) (s : Ref → Cell), (if cfg.help = true ∧ flagValue helpOpt (s (.opt 0)) = true then Except.ok (false, joined p s) else .ok (true, joined p s) : Exec (Bool × State)) =
      joinedResult (ending (headerClasses w cfg) (objects cfg) p s) := by
    intro p s
    unfold ending
    have : (objects cfg).help = if cfg.help then some (.opt 0) else none := rfl
    rw [this]
    cases hc : cfg.help with
    | false => rfl
    | true =>
      have ho : optAt cfg (.opt 0) = some helpOpt := hh hc
      simp only [if_true]
      rw [bind_run, ask_value ho]
      cases flagValue helpOpt (s (.opt 0)) <;> rfl
  show (ArgParser.loop w cfg args false (joined p s) 0 >>= _) = joinedResult ((loop (headerClasses w cfg) (objects cfg) args false p 0 >>= _) s)
  rw [loop_objects, bind_run]
  cases loop (headerClasses w cfg) (objects cfg) args false p 0 s with
  | mk r s' =>
    cases r with
    | error e => rfl
    | ok x =>
      obtain ⟨x, p'⟩ := x
      cases x with
      | none => rfl
      | some x =>
        obtain ⟨hd, pos⟩ := x
        cases hd with
        | true => exact hend p' s'
        | false =>
          have hpo := positional_at (cfg := cfg) pos
          cases hp : cfg.positionals[pos]? with
          | none =>
            rw [hp] at hpo
            dsimp only [loopOf, bind, Except.bind]
            rw [if_neg (by simp), hp, hpo]
            exact hend p' s'
          | some o =>
            have ho : optAt cfg (.pos pos) = some o := hp
            rw [hp] at hpo
            dsimp only [loopOf, bind, Except.bind]
            rw [if_neg (by simp), hp, hpo]
            show Except.ok (false, _) = Except.ok (false, _)
            rw [form_at ho]
            rfl

end Verif.ArgParser.Client
