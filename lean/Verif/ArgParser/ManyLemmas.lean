import Verif.ArgParser.SpecMany
/-!
# Lemmas for C122: the program simulates its parsers side by side
-/
namespace Verif.ArgParser.Many
open Verif Verif.ArgParser

set_option linter.unusedSectionVars false

variable {V P : Type} [DecidableEq V] [DecidableEq P]

/-! ### One parser -/

/-- The option at a place. -/
def _root_.Verif.ArgParser.Config.at (cfg : Config) : Ref → Option Opt
  | .opt i => cfg.options[i]?
  | .pos i => cfg.positionals[i]?

/-- The pointers of a parser lead to option objects that hold what `st` holds, and nothing else has changed since `base`. -/
structure Rel (q : Inst V P) (cfg : Config) (base : Obj V P → Option (Opt × Cell)) (m : MState V P) (st : State) : Prop where
  opts : q.options.length = cfg.options.length
  poss : q.positionals.length = cfg.positionals.length
  opt : ∀ (i : Nat) o op, q.options[i]? = some o → cfg.options[i]? = some op → m.objs o = some (op, st.cells (.opt i))
  pos : ∀ (i : Nat) o op, q.positionals[i]? = some o → cfg.positionals[i]? = some op → m.objs o = some (op, st.cells (.pos i))
  rest : ∀ o, o ∉ q.options → o ∉ q.positionals → m.objs o = base o
  error : m.error = st.error
  extra : m.extra = st.extra
  pass : m.pass = st.pass
  hasPass : m.hasPass = st.hasPass
  far : ∀ r, cfg.at r = none → st.cells r = {}

/-- The pointers of a parser are different, and the switches are those of the configuration. -/
structure Same (q : Inst V P) (cfg : Config) : Prop where
  nodup : (q.options ++ q.positionals).Nodup
  inlineValues : q.inlineValues = cfg.inlineValues
  slashes : q.slashes = cfg.slashes
  collectExtra : q.collectExtra = cfg.collectExtra
  passthrough : q.passthrough = cfg.passthrough
  help : (cfg.help = false ∧ q.help = none) ∨ (cfg.help = true ∧ ∃ o, q.help = some o ∧ q.options[0]? = some o ∧ cfg.options[0]? = some helpOpt)

/-- The same outcome, up to `R`. -/
inductive Agree {α β : Type} (R : α → β → Prop) : Exec α → Exec β → Prop
  | ok {a b} : R a b → Agree R (.ok a) (.ok b)
  | error (f) : Agree R (.error f) (.error f)

theorem Agree.bind {α β γ δ : Type} {R : α → β → Prop} {Q : γ → δ → Prop} {x : Exec α} {y : Exec β} {f : α → Exec γ} {g : β → Exec δ}
    (h : Agree R x y) (hfg : ∀ a b, R a b → Agree Q (f a) (g b)) : Agree Q (x >>= f) (y >>= g) := by
  cases h with
  | ok h => exact hfg _ _ h
  | error f => exact .error f

section one
variable {q : Inst V P} {cfg : Config} {base : Obj V P → Option (Opt × Cell)} {m : MState V P} {st : State} {w : Nat}

/-- Found the same: the pointer at the place found. -/
inductive FoundSame (q : Inst V P) (cfg : Config) : Option (Obj V P × Opt) → Option (Nat × Opt) → Prop
  | none : FoundSame q cfg none none
  | some {i o op} : q.options[i]? = some o → cfg.options[i]? = some op → FoundSame q cfg (some (o, op)) (some (i, op))

theorem findFrom_same (hr : Rel q cfg base m st) (p : Opt → Bool) : ∀ (l : List (Obj V P)) (ops : List Opt) (i : Nat), q.options = q.options.take i ++ l →
    cfg.options = cfg.options.take i ++ ops → i + l.length = q.options.length → l.length = ops.length →
    ∃ r, findFrom m.objs p l = .ok r ∧ FoundSame q cfg r (ArgParser.findFrom p ops i) := by
  intro l
  induction l with
  | nil => intro ops i h1 h2 h3 h4; cases ops with
    | nil => exact ⟨none, rfl, .none⟩
    | cons _ _ => cases h4
  | cons o l ih =>
    intro ops i h1 h2 h3 h4
    cases ops with
    | nil => cases h4
    | cons op ops =>
      have hlen := hr.opts
      simp only [List.length_cons] at h3 h4
      have hi : i < q.options.length := by omega
      have e1 : q.options[i]? = some o := by
        rw [h1, List.getElem?_append_right (by rw [List.length_take]; omega), List.length_take, Nat.min_eq_left (by omega), Nat.sub_self]; rfl
      have e2 : cfg.options[i]? = some op := by
        rw [h2, List.getElem?_append_right (by rw [List.length_take]; omega), List.length_take, Nat.min_eq_left (by omega), Nat.sub_self]; rfl
      have hd := hr.opt i o op e1 e2
      simp only [findFrom, ArgParser.findFrom, deref, hd, bind, Except.bind]
      split
      · exact ⟨_, rfl, .some e1 e2⟩
      · refine ih ops (i + 1) ?_ ?_ (by omega) (by omega)
        · have := List.take_append_drop (i + 1) q.options
          rw [← this]
          congr 1
          · rw [List.take_append_drop]
          · have h5 : q.options.drop i = o :: l := by
              have := List.drop_append (l₁ := q.options.take i) (l₂ := o :: l) (i := i)
              rw [← h1] at this
              rw [this, List.length_take, Nat.min_eq_left (by omega)]
              simp
            rw [← List.drop_drop, h5]; rfl
        · have := List.take_append_drop (i + 1) cfg.options
          rw [← this]
          congr 1
          · rw [List.take_append_drop]
          · have h5 : cfg.options.drop i = op :: ops := by
              have := List.drop_append (l₁ := cfg.options.take i) (l₂ := op :: ops) (i := i)
              rw [← h2] at this
              rw [this, List.length_take, Nat.min_eq_left (by omega)]
              simp
            rw [← List.drop_drop, h5]; rfl

theorem find_same (hr : Rel q cfg base m st) (p : Opt → Bool) :
    ∃ r, findFrom m.objs p q.options = .ok r ∧ FoundSame q cfg r (ArgParser.findFrom p cfg.options 0) :=
  findFrom_same hr p q.options cfg.options 0 (by simp) (by simp) (by simp) hr.opts

/-- The lookups agree. -/
inductive LookSame (q : Inst V P) (cfg : Config) : Option (Obj V P × Opt × Option Str × Option Nat) → Option (Nat × Opt × Option Str × Option Nat) → Prop
  | none : LookSame q cfg none none
  | some {i o op v s} : q.options[i]? = some o → cfg.options[i]? = some op → LookSame q cfg (some (o, op, v, s)) (some (i, op, v, s))

/-- The test of `find_inline_short`. -/
def inlineTest (c : Option UInt8) (o : Opt) : Bool := match o.short with
  | none => false
  | some f => f.length == 1 && (c.isSome && f[0]? == c)

/-- The first part of `ArgParser.lookup`. -/
def specFind (cfg : Config) (arg : Str) (sep : Option Nat) (len : Nat) : Option (Nat × Opt) × Option Nat :=
  if arg[0]? = some 45 ∧ arg[1]? = some 45 then (ArgParser.findLong cfg (arg.drop 2) (len - 2), sep)
  else match ArgParser.findShort cfg (arg.drop 1) (len - 1) with
    | some r => (some r, sep)
    | none =>
      if cfg.inlineValues then
        match ArgParser.findInline cfg arg[1]? with
        | some r => (some r, if len > 2 then some 1 else sep)
        | none => (none, sep)
      else (none, sep)

/-- The second part of `ArgParser.lookup`. -/
def specRest (cfg : Config) (arg : Str) (len : Nat) (x : Option (Nat × Opt) × Option Nat) : Exec (Option (Nat × Opt × Option Str × Option Nat)) :=
  match x with
  | (none, sep) =>
    if sNo.isPrefixOf arg then
      match ArgParser.findLong cfg (arg.drop 5) (len - 5) with
      | none => .error .nullDeref
      | some (i, o) => if o.takesNo then .ok (some (i, o, some sFalse, sep)) else .ok none
    else .ok none
  | (some (i, o), sep) => .ok (some (i, o, if o.takesNo then some sTrue else none, sep))

theorem lookup_split (cfg : Config) (arg : Str) : ArgParser.lookup cfg arg =
    specRest cfg arg ((ArgParser.sepOf cfg arg).getD arg.length) (specFind cfg arg (ArgParser.sepOf cfg arg) ((ArgParser.sepOf cfg arg).getD arg.length)) := rfl

theorem findOption_same (hs : Same q cfg) (hr : Rel q cfg base m st) (arg : Str) (sep : Option Nat) (len : Nat) :
    ∃ r s' r', findOption q m.objs arg sep len = .ok (r, s') ∧ FoundSame q cfg r r' ∧ specFind cfg arg sep len = (r', s') := by
  unfold findOption specFind
  split
  · obtain ⟨r, h1, h2⟩ := find_same hr (fun o => formIs o.long (arg.drop 2) (len - 2))
    refine ⟨r, sep, _, ?_, h2, rfl⟩
    simp only [findLong, h1, bind, Except.bind]
  · obtain ⟨r, h1, h2⟩ := find_same hr (fun o => formIs o.short (arg.drop 1) (len - 1))
    simp only [findShort, h1, bind, Except.bind]
    have e : ArgParser.findShort cfg (arg.drop 1) (len - 1) = ArgParser.findFrom (fun o => formIs o.short (arg.drop 1) (len - 1)) cfg.options 0 := rfl
    rw [e]
    generalize ArgParser.findFrom (fun o => formIs o.short (arg.drop 1) (len - 1)) cfg.options 0 = r0 at h2 ⊢
    cases h2 with
    | some h3 h4 => exact ⟨_, _, _, rfl, .some h3 h4, rfl⟩
    | none =>
      simp only [hs.inlineValues]
      split
      · obtain ⟨r, h1, h2⟩ := find_same hr (inlineTest arg[1]?)
        have e1 : findInline q m.objs arg[1]? = .ok r := h1
        have e : ArgParser.findInline cfg arg[1]? = ArgParser.findFrom (inlineTest arg[1]?) cfg.options 0 := rfl
        rw [e1, e]
        generalize ArgParser.findFrom (inlineTest arg[1]?) cfg.options 0 = r0 at h2 ⊢
        cases h2 with
        | some h3 h4 => exact ⟨_, _, _, rfl, .some h3 h4, rfl⟩
        | none => exact ⟨_, _, _, rfl, .none, rfl⟩
      · exact ⟨_, _, _, rfl, .none, rfl⟩

theorem sepOf_same (hs : Same q cfg) (arg : Str) : sepOf q arg = ArgParser.sepOf cfg arg := by
  simp only [sepOf, ArgParser.sepOf, hs.inlineValues]
  try rfl

theorem lookup_same (hs : Same q cfg) (hr : Rel q cfg base m st) (arg : Str) : Agree (LookSame q cfg) (lookup q m.objs arg) (ArgParser.lookup cfg arg) := by
  rw [lookup_split]
  unfold lookup
  rw [sepOf_same hs]
  simp only
  generalize ArgParser.sepOf cfg arg = sep
  obtain ⟨r, s', r', h1, h2, h3⟩ := findOption_same hs hr arg sep (sep.getD arg.length)
  rw [h1, h3]
  simp only [bind, Except.bind]
  cases h2 with
  | some h4 h5 => exact .ok (.some h4 h5)
  | none =>
    simp only [specRest]
    split
    · obtain ⟨r, h1, h2⟩ := find_same hr (fun o => formIs o.long (arg.drop 5) (sep.getD arg.length - 5))
      simp only [findLong, h1]
      have e : ArgParser.findLong cfg (arg.drop 5) (sep.getD arg.length - 5) = ArgParser.findFrom (fun o => formIs o.long (arg.drop 5) (sep.getD arg.length - 5)) cfg.options 0 := rfl
      rw [e]
      generalize ArgParser.findFrom (fun o => formIs o.long (arg.drop 5) (sep.getD arg.length - 5)) cfg.options 0 = r0 at h2 ⊢
      cases h2 with
      | none => exact .error _
      | some h4 h5 =>
        simp only
        split
        · exact .ok (.some h4 h5)
        · exact .ok .none
    · exact .ok .none

theorem Rel.setOpt (hs : Same q cfg) (hr : Rel q cfg base m st) {i : Nat} {o : Obj V P} {op : Opt} (h1 : q.options[i]? = some o)
    (h2 : cfg.options[i]? = some op) (c : Cell) : Rel q cfg base (m.setCell o op c) (st.setCell (.opt i) c) := by
  have hn := List.nodup_append.1 hs.nodup
  have hmem : o ∈ q.options := List.mem_of_getElem? h1
  refine ⟨hr.opts, hr.poss, ?_, ?_, ?_, hr.error, hr.extra, hr.pass, hr.hasPass, ?_⟩
  · intro j o' op' h3 h4
    simp only [MState.setCell, State.setCell]
    by_cases hj : j = i
    · subst hj
      rw [h1] at h3; cases h3
      rw [h2] at h4; cases h4
      simp
    · rw [if_neg, if_neg]
      · exact hr.opt j o' op' h3 h4
      · intro he; cases he; exact hj rfl
      · rintro rfl
        exact hj (List.getElem?_inj (List.getElem?_eq_some_iff.1 h3).1 hn.1 |>.1 (h3.trans h1.symm))
  · intro j o' op' h3 h4
    simp only [MState.setCell, State.setCell]
    rw [if_neg, if_neg]
    · exact hr.pos j o' op' h3 h4
    · intro he; cases he
    · rintro rfl; exact hn.2.2 _ hmem _ (List.mem_of_getElem? h3) rfl
  · intro o' h3 h4
    simp only [MState.setCell]
    rw [if_neg]
    · exact hr.rest o' h3 h4
    · rintro rfl; exact h3 hmem
  · intro r hn
    simp only [State.setCell]
    rw [if_neg]
    · exact hr.far r hn
    · rintro rfl; rw [Config.at, h2] at hn; cases hn

theorem Rel.setPos (hs : Same q cfg) (hr : Rel q cfg base m st) {i : Nat} {o : Obj V P} {op : Opt} (h1 : q.positionals[i]? = some o)
    (h2 : cfg.positionals[i]? = some op) (c : Cell) : Rel q cfg base (m.setCell o op c) (st.setCell (.pos i) c) := by
  have hn := List.nodup_append.1 hs.nodup
  have hmem : o ∈ q.positionals := List.mem_of_getElem? h1
  refine ⟨hr.opts, hr.poss, ?_, ?_, ?_, hr.error, hr.extra, hr.pass, hr.hasPass, ?_⟩
  · intro j o' op' h3 h4
    simp only [MState.setCell, State.setCell]
    rw [if_neg, if_neg]
    · exact hr.opt j o' op' h3 h4
    · intro he; cases he
    · rintro rfl; exact hn.2.2 _ (List.mem_of_getElem? h3) _ hmem rfl
  · intro j o' op' h3 h4
    simp only [MState.setCell, State.setCell]
    by_cases hj : j = i
    · subst hj
      rw [h1] at h3; cases h3
      rw [h2] at h4; cases h4
      simp
    · rw [if_neg, if_neg]
      · exact hr.pos j o' op' h3 h4
      · intro he; cases he; exact hj rfl
      · rintro rfl
        exact hj (List.getElem?_inj (List.getElem?_eq_some_iff.1 h3).1 hn.2.1 |>.1 (h3.trans h1.symm))
  · intro o' h3 h4
    simp only [MState.setCell]
    rw [if_neg]
    · exact hr.rest o' h3 h4
    · rintro rfl; exact h4 hmem
  · intro r hn
    simp only [State.setCell]
    rw [if_neg]
    · exact hr.far r hn
    · rintro rfl; rw [Config.at, h2] at hn; cases hn

theorem Rel.err (hr : Rel q cfg base m st) (e : Str) : Rel q cfg base { m with error := e } { st with error := e } :=
  ⟨hr.opts, hr.poss, hr.opt, hr.pos, hr.rest, rfl, hr.extra, hr.pass, hr.hasPass, hr.far⟩

/-- A pointer and its place. -/
inductive Points (q : Inst V P) (cfg : Config) : Obj V P → Opt → Ref → Prop
  | opt {i o op} : q.options[i]? = some o → cfg.options[i]? = some op → Points q cfg o op (.opt i)
  | pos {i o op} : q.positionals[i]? = some o → cfg.positionals[i]? = some op → Points q cfg o op (.pos i)

theorem Points.read (hr : Rel q cfg base m st) {o : Obj V P} {op : Opt} {r : Ref} (hp : Points q cfg o op r) : m.objs o = some (op, st.cells r) := by
  cases hp with
  | opt h1 h2 => exact hr.opt _ _ _ h1 h2
  | pos h1 h2 => exact hr.pos _ _ _ h1 h2

theorem Points.set (hs : Same q cfg) (hr : Rel q cfg base m st) {o : Obj V P} {op : Opt} {r : Ref} (hp : Points q cfg o op r) (c : Cell) :
    Rel q cfg base (m.setCell o op c) (st.setCell r c) := by
  cases hp with
  | opt h1 h2 => exact hr.setOpt hs h1 h2 c
  | pos h1 h2 => exact hr.setPos hs h1 h2 c

/-- The rounds agree. -/
inductive StepSame (q : Inst V P) (cfg : Config) (base : Obj V P → Option (Opt × Cell)) : Step V P → ArgParser.Step → Prop
  | fail {m' : MState V P} {st' : State} : Rel q cfg base m' st' → StepSame q cfg base (.fail m') (.fail st')
  | halt {m' : MState V P} {st' : State} {pos : Nat} : Rel q cfg base m' st' → StepSame q cfg base (.halt m' pos) (.halt st' pos)
  | next {m' : MState V P} {st' : State} {pos : Nat} {b : Bool} : Rel q cfg base m' st' → StepSame q cfg base (.next m' pos b) (.next st' pos b)

theorem finish_same (hs : Same q cfg) (hr : Rel q cfg base m st) {o : Obj V P} {op : Opt} {r : Ref} (hp : Points q cfg o op r) (pos : Nat)
    (value next : Option Str) : Agree (StepSame q cfg base) (finish w m o pos value next) (ArgParser.finish w st r op pos value next) := by
  unfold finish ArgParser.finish
  simp only [deref, hp.read hr, bind, Except.bind]
  split
  · exact .ok (.fail (hr.err _))
  · generalize (if (!value.isSome && next.isSome && !op.mustOmit) = true then next else value) = v
    cases hc : consume w op v (st.cells r) with
    | error f => exact .error f
    | ok x =>
      obtain ⟨ok, c⟩ := x
      have hr' := hp.set hs hr c
      simp only
      split
      · cases v with
        | none => exact .error _
        | some v => exact .ok (.fail (hr'.err _))
      · split
        · exact .ok (.halt hr')
        · exact .ok (.next hr')

theorem stepArg_same (hs : Same q cfg) (hr : Rel q cfg base m st) (pos : Nat) (arg : Str) (next : Option Str) :
    Agree (StepSame q cfg base) (stepArg w q m pos arg next) (ArgParser.stepArg w cfg st pos arg next) := by
  unfold stepArg ArgParser.stepArg
  rw [hs.passthrough, hs.slashes]
  split
  · exact .ok (.next ⟨hr.opts, hr.poss, hr.opt, hr.pos, hr.rest, hr.error, hr.extra, hr.pass, rfl, hr.far⟩)
  · by_cases hb : st.hasPass = true
    · rw [if_pos hb, if_pos (hr.hasPass.trans hb)]
      exact .ok (.next ⟨hr.opts, hr.poss, hr.opt, hr.pos, hr.rest, hr.error, hr.extra, by simp only [hr.pass], hr.hasPass, hr.far⟩)
    · rw [if_neg hb, if_neg (by rw [hr.hasPass]; exact hb)]
      split
      · refine (lookup_same hs hr arg).bind ?_
        intro a b hab
        cases hab with
        | none => exact .ok (.fail (hr.err _))
        | some h1 h2 =>
          rename_i i o op v sep
          have hp : Points q cfg o op (.opt i) := .opt h1 h2
          simp only [deref, hp.read hr, bind, Except.bind]
          split
          · exact .ok (.fail (hr.err _))
          · cases sep with
            | none => exact finish_same hs hr hp pos v next
            | some k =>
              simp only
              split
              · exact .ok (.fail (hr.err _))
              · exact finish_same hs hr hp pos _ next
      · have hlen := hr.poss
        cases hq : q.positionals[pos]? with
        | none =>
          have : cfg.positionals[pos]? = none := by
            rw [List.getElem?_eq_none_iff] at hq ⊢; omega
          rw [this, hs.collectExtra]
          simp only
          split
          · exact .ok (.fail (hr.err _))
          · exact .ok (.next ⟨hr.opts, hr.poss, hr.opt, hr.pos, hr.rest, hr.error, by simp only [hr.extra], hr.pass, hr.hasPass, hr.far⟩)
        | some o =>
          have hlt : pos < cfg.positionals.length := by
            have := (List.getElem?_eq_some_iff.1 hq).1; omega
          rw [List.getElem?_eq_getElem hlt]
          exact finish_same hs hr (.pos hq (List.getElem?_eq_getElem hlt)) (pos + 1) (some arg) next

theorem loop_same (hs : Same q cfg) : ∀ (args : List Str) (skip : Bool) (m : MState V P) (st : State) (pos : Nat), Rel q cfg base m st →
    Agree (fun a b => a.1 = b.1 ∧ Rel q cfg base a.2 b.2) (loop w q args skip m pos) (ArgParser.loop w cfg args skip st pos) := by
  intro args
  induction args with
  | nil => intro skip m st pos hr; cases skip <;> exact .ok ⟨rfl, hr⟩
  | cons arg rest ih =>
    intro skip m st pos hr
    cases skip with
    | true => exact ih false m st pos hr
    | false =>
      simp only [loop, ArgParser.loop]
      refine (stepArg_same hs hr pos arg rest.head?).bind ?_
      intro a b hab
      cases hab with
      | fail h => exact .ok ⟨rfl, h⟩
      | halt h => exact .ok ⟨rfl, h⟩
      | next h => exact ih _ _ _ _ h

theorem parse_same (hs : Same q cfg) (hr : Rel q cfg base m st) (args : List Str) :
    Agree (fun a b => a.1 = b.1 ∧ Rel q cfg base a.2 b.2) (parse w q m args) (ArgParser.parse w cfg st args) := by
  unfold parse ArgParser.parse
  refine (loop_same hs args false m st 0 hr).bind ?_
  rintro ⟨r, m'⟩ ⟨r', st'⟩ ⟨h1, h2⟩
  simp only at h1 h2
  subst h1
  cases r with
  | none => exact .ok ⟨rfl, h2⟩
  | some x =>
    obtain ⟨halted, pos⟩ := x
    simp only
    have hlen := hr.poss
    have hopt : ∀ o, q.positionals[pos]? = some o → ∃ op, cfg.positionals[pos]? = some op ∧ m'.objs o = some (op, st'.cells (.pos pos)) := by
      intro o ho
      have hlt : pos < cfg.positionals.length := by
        have := (List.getElem?_eq_some_iff.1 ho).1; omega
      exact ⟨_, List.getElem?_eq_getElem hlt, h2.pos _ _ _ ho (List.getElem?_eq_getElem hlt)⟩
    have hend : Agree (fun (a : Bool × MState V P) (b : Bool × State) => a.1 = b.1 ∧ Rel q cfg base a.2 b.2)
        (match q.help with
        | none => .ok (true, m')
        | some o => do
          let (op, c) ← deref m'.objs o
          if flagValue op c = true then .ok (false, m') else .ok (true, m'))
        (if cfg.help ∧ flagValue helpOpt (st'.cells (.opt 0)) = true then .ok (false, st') else .ok (true, st')) := by
      rcases hs.help with ⟨e1, e2⟩ | ⟨e1, o, e2, e3, e4⟩
      · rw [e2]; simp only [e1, Bool.false_eq_true, false_and, if_false]; exact .ok ⟨rfl, h2⟩
      · rw [e2]
        simp only [e1, deref, h2.opt _ _ _ e3 e4, bind, Except.bind, true_and]
        split
        · exact .ok ⟨rfl, h2⟩
        · exact .ok ⟨rfl, h2⟩
    cases halted with
    | true => exact hend
    | false =>
      simp only [Bool.false_eq_true, if_false]
      cases hq : q.positionals[pos]? with
      | none =>
        have : cfg.positionals[pos]? = none := by
          rw [List.getElem?_eq_none_iff] at hq ⊢; omega
        rw [this]
        exact hend
      | some o =>
        obtain ⟨op, h3, h4⟩ := hopt o hq
        rw [h3]
        simp only [deref, h4, bind, Except.bind]
        exact .ok ⟨rfl, h2.err _⟩

end one

/-! ### All parsers -/

/-- A parser of the program and its counterpart that is alone. -/
structure PInv (objs : Obj V P → Option (Opt × Cell)) (place : V → Option (P × Ref)) (p : P) (q : Inst V P) (e : Str) (x y : List Str) (b : Bool)
    (cfg : Config) (st : State) : Prop where
  same : Same q cfg
  opts : q.options.length = cfg.options.length
  poss : q.positionals.length = cfg.positionals.length
  optUser : ∀ (i : Nat) v, q.options[i]? = some (.user v) ↔ place v = some (p, .opt i)
  posUser : ∀ (i : Nat) v, q.positionals[i]? = some (.user v) ↔ place v = some (p, .pos i)
  optHelp : ∀ (i : Nat) p', q.options[i]? = some (.help p') → p' = p ∧ i = 0 ∧ cfg.options[0]? = some helpOpt ∧ objs (.help p) = some (helpOpt, st.cells (.opt 0))
  posHelp : ∀ (i : Nat) p', q.positionals[i]? ≠ some (.help p')
  far : ∀ r, cfg.at r = none → st.cells r = {}
  error : e = st.error
  extra : x = st.extra
  pass : y = st.pass
  hasPass : b = st.hasPass

/-- The program and the parsers side by side. -/
structure Sim (t : Track V P) (s : World V P) (a : Apart V P) : Prop where
  statics : s.statics = t.statics.map .user
  names : a.statics.map Prod.fst = t.statics
  nodup : t.statics.Nodup
  made : ∀ v ∈ t.statics, v ∈ t.made
  regs : ∀ p v, (p, v) ∈ t.regs ↔ ∃ r, a.place v = some (p, r)
  placedMade : ∀ v x, a.place v = some x → v ∈ t.made
  loose : ∀ v ∈ t.made, a.place v = none → v ∉ t.ended → ∃ o, s.objs (.user v) = some (o, {})
  looseStatic : ∀ v o, (v, o) ∈ a.statics → a.place v = none → v ∉ t.ended → s.objs (.user v) = some (o, {})
  placed : ∀ v p r, a.place v = some (p, r) → ∃ cfg st op, a.parsers p = some (cfg, st) ∧ cfg.at r = some op ∧
    (v ∉ t.ended → s.objs (.user v) = some (op, st.cells r))
  live : ∀ p, t.has p → ∃ q e x y b cfg st, s.parsers p = some (q, e, x, y, b) ∧ a.parsers p = some (cfg, st) ∧ PInv s.objs a.place p q e x y b cfg st
  known : ∀ p x, a.parsers p = some x → p ∈ t.parsers
  endedP : ∀ p ∈ t.endedP, p ∈ t.parsers

theorem Sim.start : Sim (Track.start : Track V P) World.start Apart.start :=
  { statics := rfl, names := rfl, nodup := .nil, made := fun _ h => (nomatch h)
    regs := fun _ _ => ⟨(fun h => nomatch h), fun ⟨_, h⟩ => (nomatch h)⟩
    placedMade := fun _ _ h => (nomatch h), loose := fun _ h => (nomatch h), looseStatic := fun _ _ h => (nomatch h)
    placed := fun _ _ _ h => (nomatch h), live := fun _ h => (nomatch h.1), known := fun _ _ h => (nomatch h), endedP := fun _ h => (nomatch h) }

theorem Sim.regsCongr {t : Track V P} {s : World V P} {a : Apart V P} {l : List (P × V)} (h : Sim t s a) (hl : ∀ x, x ∈ l ↔ x ∈ t.regs) :
    Sim { t with regs := l } s a :=
  { h with regs := fun p v => (hl _).trans (h.regs p v) }

/-- A new option object. -/
theorem Sim.newObj {t : Track V P} {s : World V P} {a : Apart V P} (h : Sim t s a) {v : V} (hv : v ∉ t.made) (o : Opt) :
    Sim { t with made := v :: t.made } (s.setObj (.user v) (some (o, {}))) a := by
  have hne : ∀ u, u ∈ t.made → (Obj.user u : Obj V P) ≠ .user v := by
    rintro u hu he; cases he; exact hv hu
  refine { h with made := ?_, placedMade := ?_, loose := ?_, looseStatic := ?_, placed := ?_, live := ?_ }
  · exact fun u hu => List.mem_cons_of_mem _ (h.made u hu)
  · exact fun u x hx => List.mem_cons_of_mem _ (h.placedMade u x hx)
  · intro u hu h1 h2
    rcases List.mem_cons.1 hu with rfl | hu
    · exact ⟨o, by simp [World.setObj]⟩
    · simp only [World.setObj, if_neg (hne u hu)]; exact h.loose u hu h1 h2
  · intro u o' hu h1 h2
    have : u ∈ t.made := h.made u (h.names ▸ List.mem_map_of_mem (f := Prod.fst) hu)
    simp only [World.setObj, if_neg (hne u this)]
    exact h.looseStatic u o' hu h1 h2
  · intro u p r hu
    simp only [World.setObj, if_neg (hne u (h.placedMade u _ hu))]
    exact h.placed u p r hu
  · intro p hp
    obtain ⟨q, e, x, y, b, cfg, st, h1, h2, h3⟩ := h.live p hp
    refine ⟨q, e, x, y, b, cfg, st, h1, h2, { h3 with optHelp := fun i p' hi => ?_ }⟩
    simp only [World.setObj]
    rw [if_neg (by intro he; cases he)]
    exact h3.optHelp i p' hi

/-- It is a static option. -/
theorem Sim.newStatic {t : Track V P} {s : World V P} {a : Apart V P} (h : Sim t s a) {v : V} {o : Opt} (hv : v ∈ t.made) (hs : v ∉ t.statics)
    (ho : s.objs (.user v) = some (o, {})) :
    Sim { t with statics := t.statics ++ [v] } { s with statics := s.statics ++ [.user v] } { a with statics := a.statics ++ [(v, o)] } := by
  refine { h with statics := ?_, names := ?_, nodup := ?_, made := ?_, looseStatic := ?_ }
  · simp [h.statics]
  · simp [h.names]
  · exact List.nodup_append.2 ⟨h.nodup, by simp, by rintro x hx y hy rfl; simp only [List.mem_singleton] at hy; subst hy; exact hs hx⟩
  · intro u hu
    rcases List.mem_append.1 hu with hu | hu
    · exact h.made u hu
    · rw [List.mem_singleton.1 hu]; exact hv
  · intro u o' hu h1 h2
    rcases List.mem_append.1 hu with hu | hu
    · exact h.looseStatic u o' hu h1 h2
    · cases List.mem_singleton.1 hu; exact ho

theorem sim_static {t : Track V P} {s : World V P} {a : Apart V P} (h : Sim t s a) {v : V} (o : Opt) (hv : v ∉ t.made) :
    Sim (t.step (.static v o)) { s.setObj (.user v) (some (o, {})) with statics := s.statics ++ [.user v] } { a with statics := a.statics ++ [(v, o)] } :=
  (h.newObj hv o).newStatic (List.mem_cons_self) (fun hs => hv (h.made v hs)) (by simp [World.setObj])

/-- The parser as the constructor makes it before the static options. -/
def bare (p : P) (help : Bool) : Inst V P :=
  if help then { options := [.help p], positionals := [], help := some (.help p) } else { options := [], positionals := [] }

theorem Sim.newParser {t : Track V P} {s : World V P} {a : Apart V P} (h : Sim t s a) {p : P} (hp : p ∉ t.parsers) (help : Bool) :
    Sim { t with parsers := p :: t.parsers } ((if help then s.setObj (.help p) (some (helpOpt, {})) else s).set p (some (bare p help, [], [], [], false)))
      { a with parsers := fun p' => if p' = p then some (mkConfig help [], fresh) else a.parsers p' } := by
  have hobj : ∀ v, ((if help then s.setObj (.help p) (some (helpOpt, {})) else s).set p (some (bare p help, [], [], [], false))).objs (.user v) = s.objs (.user v) := by
    intro v; cases help
    · rfl
    · simp [World.setObj, World.set]
  have hobjh : ∀ p', p' ≠ p → ((if help then s.setObj (.help p) (some (helpOpt, {})) else s).set p (some (bare p help, [], [], [], false))).objs (.help p') = s.objs (.help p') := by
    intro p' hne; cases help
    · rfl
    · simp [World.setObj, World.set, hne]
  have hnone : ∀ v r, a.place v ≠ some (p, r) := by
    intro v r he
    obtain ⟨cfg, st, op, h1, _⟩ := h.placed v p r he
    exact hp (h.known p _ h1)
  refine { h with statics := ?_, loose := ?_, looseStatic := ?_, placed := ?_, live := ?_, known := ?_, endedP := fun p' hp' => List.mem_cons_of_mem _ (h.endedP p' hp') }
  · cases help
    · exact h.statics
    · exact h.statics
  · intro v h1 h2 h3; rw [hobj]; exact h.loose v h1 h2 h3
  · intro v o h1 h2 h3; rw [hobj]; exact h.looseStatic v o h1 h2 h3
  · intro v p' r hv
    have hne : p' ≠ p := by rintro rfl; exact hnone v r hv
    obtain ⟨cfg, st, op, h1, h2, h3⟩ := h.placed v p' r hv
    exact ⟨cfg, st, op, by simp [hne, h1], h2, fun he => by rw [hobj]; exact h3 he⟩
  · intro p' hp'
    by_cases hne : p' = p
    · subst hne
      refine ⟨bare p' help, [], [], [], false, mkConfig help [], fresh, by simp [World.set], by simp, ?_⟩
      cases help
      · refine ⟨⟨.nil, rfl, rfl, rfl, rfl, .inl ⟨rfl, rfl⟩⟩, rfl, rfl, ?_, ?_, ?_, ?_, fun _ _ => rfl, rfl, rfl, rfl, rfl⟩
        · exact fun i v => ⟨fun hi => (by simp [bare] at hi), fun hi => absurd hi (hnone v _)⟩
        · exact fun i v => ⟨fun hi => (by simp [bare] at hi), fun hi => absurd hi (hnone v _)⟩
        · intro i p'' hi; simp [bare] at hi
        · intro i p'' hi; simp [bare] at hi
      · refine ⟨⟨by simp [bare], rfl, rfl, rfl, rfl, .inr ⟨rfl, _, rfl, rfl, rfl⟩⟩, rfl, rfl, ?_, ?_, ?_, ?_, fun _ _ => rfl, rfl, rfl, rfl, rfl⟩
        · refine fun i v => ⟨fun hi => ?_, fun hi => absurd hi (hnone v _)⟩
          cases i with
          | zero => simp [bare] at hi
          | succ i => simp [bare] at hi
        · exact fun i v => ⟨fun hi => (by simp [bare] at hi), fun hi => absurd hi (hnone v _)⟩
        · intro i p'' hi
          cases i with
          | zero =>
            simp [bare] at hi
            exact ⟨hi.symm, rfl, rfl, by simp [World.set, World.setObj, fresh]⟩
          | succ i => simp [bare] at hi
        · intro i p'' hi; simp [bare] at hi
    · have : t.has p' := ⟨(List.mem_cons.1 hp'.1).resolve_left hne, hp'.2⟩
      obtain ⟨q, e, x, y, b, cfg, st, h1, h2, h3⟩ := h.live p' this
      refine ⟨q, e, x, y, b, cfg, st, ?_, by simp [hne, h2], { h3 with optHelp := fun i p'' hi => ?_ }⟩
      · cases help
        · simp [World.set, hne, h1]
        · simp [World.set, World.setObj, hne, h1]
      · rw [hobjh p' hne]; exact h3.optHelp i p'' hi
  · intro p' x hx
    by_cases hne : p' = p
    · exact hne ▸ List.mem_cons_self
    · simp only [if_neg hne] at hx
      exact List.mem_cons_of_mem _ (h.known p' x hx)

/-- `Parser::add` on the pointers, given the option. -/
def Inst.add (q : Inst V P) (v : V) (o : Opt) : Inst V P :=
  if o.short.isSome || o.long.isSome then { q with options := q.options ++ [.user v] } else { q with positionals := q.positionals ++ [.user v] }

theorem addTo_eq {objs : Obj V P → Option (Opt × Cell)} {q : Inst V P} {v : V} {o : Opt} {c : Cell} (h : objs (.user v) = some (o, c)) :
    addTo objs q (.user v) = .ok (q.add v o) := by
  simp only [addTo, deref, h, bind, Except.bind, Inst.add]

/-- The place of the next option is new, and adding an option moves no other. -/
theorem at_placeOf (cfg : Config) (o : Opt) : cfg.at (placeOf cfg o) = none ∧ (cfg.add o).at (placeOf cfg o) = some o ∧
    ∀ r op, cfg.at r = some op → (cfg.add o).at r = some op := by
  unfold placeOf Config.add
  split
  · refine ⟨by simp [Config.at], by simp [Config.at], ?_⟩
    rintro (i | i) op h
    · simp only [Config.at] at h ⊢
      rw [List.getElem?_append_left (List.getElem?_eq_some_iff.1 h).1]; exact h
    · exact h
  · refine ⟨by simp [Config.at], by simp [Config.at], ?_⟩
    rintro (i | i) op h
    · exact h
    · simp only [Config.at] at h ⊢
      rw [List.getElem?_append_left (List.getElem?_eq_some_iff.1 h).1]; exact h

theorem getElem?_snoc {α : Type} (l : List α) (x y : α) (i : Nat) : (l ++ [x])[i]? = some y ↔ l[i]? = some y ∨ (i = l.length ∧ x = y) := by
  rcases Nat.lt_trichotomy i l.length with h | h | h
  · rw [List.getElem?_append_left h]
    exact ⟨.inl, fun h' => h'.elim id (fun h' => by omega)⟩
  · subst h
    simp
  · rw [List.getElem?_eq_none (by simp; omega), List.getElem?_eq_none (by omega)]
    simp; omega

theorem PInv.join {objs : Obj V P → Option (Opt × Cell)} {place : V → Option (P × Ref)} {p : P} {q : Inst V P} {e : Str} {x y : List Str} {b : Bool}
    {cfg : Config} {st : State} (h : PInv objs place p q e x y b cfg st) {v : V} (hv : place v = none) (o : Opt) :
    PInv objs (fun u => if u = v then some (p, placeOf cfg o) else place u) p (q.add v o) e x y b (cfg.add o) st := by
  have hno : ∀ (i : Nat), q.options[i]? ≠ some (.user v) := fun i hi => by rw [h.optUser, hv] at hi; cases hi
  have hnp : ∀ (i : Nat), q.positionals[i]? ≠ some (.user v) := fun i hi => by rw [h.posUser, hv] at hi; cases hi
  have hnm : Obj.user v ∉ q.options := fun hm => by obtain ⟨i, hi⟩ := List.mem_iff_getElem?.1 hm; exact hno i hi
  have hpm : Obj.user v ∉ q.positionals := fun hm => by obtain ⟨i, hi⟩ := List.mem_iff_getElem?.1 hm; exact hnp i hi
  have hfar : ∀ r, (cfg.add o).at r = none → st.cells r = {} := by
    intro r hr
    refine h.far r ?_
    cases hc : cfg.at r with
    | none => rfl
    | some op => rw [(at_placeOf cfg o).2.2 r op hc] at hr; cases hr
  have hnd := List.nodup_append.1 h.same.nodup
  unfold Inst.add Config.add placeOf at *
  split
  · rename_i hb
    simp only [hb, if_true] at hfar
    refine ⟨⟨?_, h.same.inlineValues, h.same.slashes, h.same.collectExtra, h.same.passthrough, ?_⟩, by simp [h.opts], h.poss, ?_, ?_, ?_, h.posHelp, hfar,
      h.error, h.extra, h.pass, h.hasPass⟩
    · refine List.nodup_append.2 ⟨List.nodup_append.2 ⟨hnd.1, by simp, ?_⟩, hnd.2.1, ?_⟩
      · rintro a ha c hc rfl; rw [List.mem_singleton] at hc; exact hnm (hc ▸ ha)
      · rintro a ha c hc rfl
        rcases List.mem_append.1 ha with ha | ha
        · exact hnd.2.2 _ ha _ hc rfl
        · rw [List.mem_singleton] at ha; exact hpm (ha ▸ hc)
    · rcases h.same.help with h1 | ⟨h1, o', h2, h3, h4⟩
      · exact .inl h1
      · exact .inr ⟨h1, o', h2, (getElem?_snoc ..).2 (.inl h3), (getElem?_snoc ..).2 (.inl h4)⟩
    · intro i u
      rw [getElem?_snoc, h.optUser]
      by_cases hu : u = v
      · subst hu
        simp only [if_true, hv, h.opts]
        constructor
        · rintro (h1 | ⟨rfl, _⟩)
          · cases h1
          · rfl
        · intro h1; cases h1; exact .inr ⟨rfl, trivial⟩
      · rw [if_neg hu]
        exact ⟨fun h1 => h1.elim id (fun h1 => by cases h1.2; exact absurd rfl hu), .inl⟩
    · intro i u
      show q.positionals[i]? = some (.user u) ↔ _
      rw [h.posUser]
      by_cases hu : u = v
      · subst hu; simp [hv]
      · rw [if_neg hu]
    · intro i p' hi
      rcases (getElem?_snoc ..).1 hi with hi | ⟨_, hi⟩
      · obtain ⟨h1, h2, h3, h4⟩ := h.optHelp i p' hi
        exact ⟨h1, h2, (getElem?_snoc ..).2 (.inl h3), h4⟩
      · cases hi
  · rename_i hb
    simp only [hb] at hfar
    refine ⟨⟨?_, h.same.inlineValues, h.same.slashes, h.same.collectExtra, h.same.passthrough, h.same.help⟩, h.opts, by simp [h.poss], ?_, ?_, h.optHelp, ?_, hfar,
      h.error, h.extra, h.pass, h.hasPass⟩
    · refine List.nodup_append.2 ⟨hnd.1, List.nodup_append.2 ⟨hnd.2.1, by simp, ?_⟩, ?_⟩
      · rintro a ha c hc rfl; rw [List.mem_singleton] at hc; exact hpm (hc ▸ ha)
      · rintro a ha c hc rfl
        rcases List.mem_append.1 hc with hc | hc
        · exact hnd.2.2 _ ha _ hc rfl
        · rw [List.mem_singleton] at hc; exact hnm (hc ▸ ha)
    · intro i u
      show q.options[i]? = some (.user u) ↔ _
      rw [h.optUser]
      by_cases hu : u = v
      · subst hu; simp [hv]
      · rw [if_neg hu]
    · intro i u
      rw [getElem?_snoc, h.posUser]
      by_cases hu : u = v
      · subst hu
        simp only [if_true, hv, h.poss]
        constructor
        · rintro (h1 | ⟨rfl, _⟩)
          · cases h1
          · rfl
        · intro h1; cases h1; exact .inr ⟨rfl, trivial⟩
      · rw [if_neg hu]
        exact ⟨fun h1 => h1.elim id (fun h1 => by cases h1.2; exact absurd rfl hu), .inl⟩
    · intro i p' hi
      rcases (getElem?_snoc ..).1 hi with hi | ⟨_, hi⟩
      · exact h.posHelp i p' hi
      · cases hi

/-- Another parser is not concerned. -/
theorem PInv.other {objs : Obj V P → Option (Opt × Cell)} {place place' : V → Option (P × Ref)} {p : P} {q : Inst V P} {e : Str} {x y : List Str} {b : Bool}
    {cfg : Config} {st : State} (h : PInv objs place p q e x y b cfg st) (hp : ∀ v r, place' v = some (p, r) ↔ place v = some (p, r)) :
    PInv objs place' p q e x y b cfg st :=
  { h with optUser := fun i v => (h.optUser i v).trans (hp v _).symm, posUser := fun i v => (h.posUser i v).trans (hp v _).symm }

theorem Sim.join {t : Track V P} {s : World V P} {a : Apart V P} (h : Sim t s a) {p : P} {v : V} {o : Opt} {q : Inst V P} {e : Str} {x y : List Str} {b : Bool}
    {cfg : Config} {st : State} (hs : s.parsers p = some (q, e, x, y, b)) (ha : a.parsers p = some (cfg, st)) (hp : t.has p) (hv : a.place v = none)
    (hm : v ∈ t.made) (ho : s.objs (.user v) = some (o, {})) :
    Sim { t with regs := (p, v) :: t.regs } (s.set p (some (q.add v o, e, x, y, b))) (a.join p cfg st v o) := by
  obtain ⟨q', e', x', y', b', cfg', st', h1, h2, h3⟩ := h.live p hp
  rw [hs] at h1; cases h1
  rw [ha] at h2; cases h2
  obtain ⟨c1, c2, c3⟩ := at_placeOf cfg o
  refine { h with regs := ?_, placedMade := ?_, loose := ?_, looseStatic := ?_, placed := ?_, live := ?_, known := ?_ }
  · intro p' u
    simp only [List.mem_cons, Apart.join, Prod.mk.injEq]
    by_cases hu : u = v
    · subst hu
      have := h.regs p' u
      simp only [hv] at this
      simp only [if_true, Option.some.injEq, Prod.mk.injEq, and_true]
      constructor
      · rintro (h1 | h1)
        · exact ⟨_, h1.symm, rfl⟩
        · obtain ⟨r, hr⟩ := this.1 h1; cases hr
      · rintro ⟨r, h1, _⟩; exact .inl h1.symm
    · simp only [hu, and_false, false_or]; exact h.regs p' u
  · intro u y hy
    simp only [Apart.join] at hy
    by_cases hu : u = v
    · exact hu ▸ hm
    · rw [if_neg hu] at hy; exact h.placedMade u y hy
  · intro u h1 h2 h3
    simp only [Apart.join] at h2
    by_cases hu : u = v
    · rw [if_pos hu] at h2; cases h2
    · rw [if_neg hu] at h2; exact h.loose u h1 h2 h3
  · intro u o' h1 h2 h3
    simp only [Apart.join] at h2
    by_cases hu : u = v
    · rw [if_pos hu] at h2; cases h2
    · rw [if_neg hu] at h2; exact h.looseStatic u o' h1 h2 h3
  · intro u p' r hu
    simp only [Apart.join] at hu ⊢
    by_cases he : u = v
    · subst he
      rw [if_pos rfl] at hu; cases hu
      exact ⟨cfg.add o, st, o, by simp, c2, fun _ => by rw [h3.far _ c1]; exact ho⟩
    · rw [if_neg he] at hu
      obtain ⟨cfg', st', op, d1, d2, d3⟩ := h.placed u p' r hu
      by_cases hpp : p' = p
      · subst hpp
        rw [ha] at d1; cases d1
        exact ⟨_, _, op, by simp only [if_true], c3 r op d2, d3⟩
      · exact ⟨cfg', st', op, by simp [hpp, d1], d2, d3⟩
  · intro p' hp'
    by_cases hpp : p' = p
    · subst hpp
      exact ⟨q.add v o, e, x, y, b, cfg.add o, st, by simp [World.set], by simp [Apart.join], h3.join hv o⟩
    · obtain ⟨q', e', x', y', b', cfg', st', h1, h2, h4⟩ := h.live p' hp'
      refine ⟨q', e', x', y', b', cfg', st', by simp [World.set, hpp, h1], by simp [Apart.join, hpp, h2], h4.other ?_⟩
      intro u r
      simp only [Apart.join]
      by_cases hu : u = v
      · subst hu
        rw [if_pos rfl, hv]
        exact ⟨fun he => by cases he; exact absurd rfl hpp, fun he => by cases he⟩
      · rw [if_neg hu]
  · intro p' y hy
    simp only [Apart.join] at hy
    by_cases hpp : p' = p
    · exact hpp ▸ hp.1
    · rw [if_neg hpp] at hy; exact h.known p' y hy

/-- All static options join. -/
theorem Sim.joinAll {s : World V P} {p : P} : ∀ (L : List (V × Opt)) (t : Track V P) (q : Inst V P) (a : Apart V P) (cfg : Config),
    Sim t (s.set p (some (q, [], [], [], false))) a → a.parsers p = some (cfg, fresh) → t.has p → (L.map Prod.fst).Nodup →
    (∀ v o, (v, o) ∈ L → a.place v = none ∧ v ∈ t.made ∧ s.objs (.user v) = some (o, {})) →
    ∃ q' regs, addAll s.objs q (L.map (fun x => .user x.1)) = .ok q' ∧ (∀ x, x ∈ regs ↔ x ∈ (L.map Prod.fst).map (fun v => (p, v)) ++ t.regs) ∧
      Sim { t with regs := regs } (s.set p (some (q', [], [], [], false))) (Apart.joinAll p a cfg L) := by
  intro L
  induction L with
  | nil => intro t q a cfg h _ _ _ _; exact ⟨q, t.regs, rfl, fun x => by simp, h⟩
  | cons x L ih =>
    intro t q a cfg h ha hp hn hL
    obtain ⟨v, o⟩ := x
    obtain ⟨h1, h2, h3⟩ := hL v o List.mem_cons_self
    have hn' := List.nodup_cons.1 hn
    have hj := h.join (q := q) (e := []) (x := []) (y := []) (b := false) (by simp [World.set]) ha hp h1 h2 h3
    have hset : (s.set p (some (q, [], [], [], false))).set p (some (q.add v o, [], [], [], false)) = s.set p (some (q.add v o, [], [], [], false)) := by
      simp only [World.set, World.mk.injEq, true_and]
      funext p'
      by_cases hpp : p' = p <;> simp [hpp]
    rw [hset] at hj
    obtain ⟨q', regs, e1, e2, e3⟩ := ih { t with regs := (p, v) :: t.regs } (q.add v o) (a.join p cfg fresh v o) (cfg.add o) hj (by simp [Apart.join]) hp hn'.2 (by
      intro u o' hu
      obtain ⟨g1, g2, g3⟩ := hL u o' (List.mem_cons_of_mem _ hu)
      have hne : u ≠ v := by rintro rfl; exact hn'.1 (List.mem_map.2 ⟨_, hu, rfl⟩)
      exact ⟨by simp only [Apart.join, if_neg hne]; exact g1, g2, g3⟩)
    refine ⟨q', regs, ?_, ?_, e3⟩
    · simp only [List.map_cons, addAll, addTo_eq h3, bind, Except.bind]
      exact e1
    · intro x
      rw [e2]
      simp only [List.mem_append, List.map_cons, List.mem_cons]
      constructor
      · rintro (g | g | g)
        · exact .inl (.inr g)
        · exact .inl (.inl g)
        · exact .inr g
      · rintro ((g | g) | g)
        · exact .inr (.inl g)
        · exact .inl g
        · exact .inr (.inr g)

/-- Parsing and resetting: `p` changes what its option objects hold, and what it keeps. -/
theorem Sim.update {t : Track V P} {s s' : World V P} {a a' : Apart V P} (h : Sim t s a) {p : P} {q : Inst V P} {e : Str} {x y : List Str} {b : Bool}
    {cfg : Config} {st : State} (hi : PInv s.objs a.place p q e x y b cfg st) (hp : t.has p) (ha : a.parsers p = some (cfg, st))
    {m : MState V P} {st' : State} (hr : Rel q cfg s.objs m st')
    (h1 : s'.statics = s.statics) (h2 : s'.objs = m.objs) (h3 : s'.parsers = fun p' => if p' = p then some (q, m.error, m.extra, m.pass, m.hasPass) else s.parsers p')
    (h4 : a' = { a with parsers := fun p' => if p' = p then some (cfg, st') else a.parsers p' }) : Sim t s' a' := by
  subst h4
  have hnot : ∀ v, (∀ r, a.place v ≠ some (p, r)) → m.objs (.user v) = s.objs (.user v) := by
    intro v hv
    refine hr.rest _ ?_ ?_
    · intro hm; obtain ⟨i, hi'⟩ := List.mem_iff_getElem?.1 hm; exact hv _ ((hi.optUser i v).1 hi')
    · intro hm; obtain ⟨i, hi'⟩ := List.mem_iff_getElem?.1 hm; exact hv _ ((hi.posUser i v).1 hi')
  refine { h with statics := h1.trans h.statics, loose := ?_, looseStatic := ?_, placed := ?_, live := ?_, known := ?_ }
  · intro v g1 g2 g3
    rw [h2, hnot v (by simp [show a.place v = none from g2])]
    exact h.loose v g1 g2 g3
  · intro v o g1 g2 g3
    rw [h2, hnot v (by simp [show a.place v = none from g2])]
    exact h.looseStatic v o g1 g2 g3
  · intro v p' r hv
    obtain ⟨cfg', st0, op, d1, d2, d3⟩ := h.placed v p' r hv
    by_cases hpp : p' = p
    · subst hpp
      rw [ha] at d1; cases d1
      refine ⟨cfg, st', op, by simp, d2, fun _ => ?_⟩
      rw [h2]
      cases r with
      | opt i => exact hr.opt i _ op ((hi.optUser i v).2 hv) d2
      | pos i => exact hr.pos i _ op ((hi.posUser i v).2 hv) d2
    · refine ⟨cfg', st0, op, by simp [hpp, d1], d2, fun he => ?_⟩
      rw [h2, hnot v (by intro r' hr'; rw [show a.place v = _ from hv] at hr'; cases hr'; exact hpp rfl)]
      exact d3 he
  · intro p' hp'
    by_cases hpp : p' = p
    · subst hpp
      refine ⟨q, m.error, m.extra, m.pass, m.hasPass, cfg, st', by simp [h3], by simp, ?_⟩
      refine { hi with optHelp := ?_, far := hr.far, error := hr.error, extra := hr.extra, pass := hr.pass, hasPass := hr.hasPass }
      intro i p'' hq
      obtain ⟨c1, c2, c3, c4⟩ := hi.optHelp i p'' hq
      subst c1 c2
      exact ⟨rfl, rfl, c3, by rw [h2]; exact hr.opt 0 _ _ hq c3⟩
    · obtain ⟨q', e', x', y', b', cfg', st0, g1, g2, g3⟩ := h.live p' hp'
      refine ⟨q', e', x', y', b', cfg', st0, by simp [h3, hpp, g1], by simp [hpp, g2], { g3 with optHelp := ?_ }⟩
      intro i p'' hq
      obtain ⟨c1, c2, c3, c4⟩ := g3.optHelp i p'' hq
      refine ⟨c1, c2, c3, ?_⟩
      rw [h2, hr.rest, c4]
      · intro hm; obtain ⟨j, hj⟩ := List.mem_iff_getElem?.1 hm; exact hpp (hi.optHelp j _ hj).1
      · intro hm; obtain ⟨j, hj⟩ := List.mem_iff_getElem?.1 hm; exact hi.posHelp j _ hj
  · intro p' z hz
    by_cases hpp : p' = p
    · exact hpp ▸ hp.1
    · simp only [if_neg hpp] at hz; exact h.known p' z hz

/-- The pointers lead to live objects. -/
theorem Sim.rel {t : Track V P} {s : World V P} {a : Apart V P} (h : Sim t s a) {p : P} {q : Inst V P} {e : Str} {x y : List Str} {b : Bool}
    {cfg : Config} {st : State} (hi : PInv s.objs a.place p q e x y b cfg st) (ha : a.parsers p = some (cfg, st))
    (hl : ∀ v, (p, v) ∈ t.regs → v ∉ t.ended) : Rel q cfg s.objs { objs := s.objs, error := e, extra := x, pass := y, hasPass := b } st := by
  refine ⟨hi.opts, hi.poss, ?_, ?_, fun _ _ _ => rfl, hi.error, hi.extra, hi.pass, hi.hasPass, hi.far⟩
  · intro i o op h1 h2
    cases o with
    | user v =>
      have hv := (hi.optUser i v).1 h1
      obtain ⟨cfg', st', op', d1, d2, d3⟩ := h.placed v p _ hv
      rw [ha] at d1; cases d1
      have : cfg.options[i]? = some op' := d2
      rw [h2] at this; cases this
      exact d3 (hl v ((h.regs p v).2 ⟨_, hv⟩))
    | help p' =>
      obtain ⟨c1, c2, c3, c4⟩ := hi.optHelp i p' h1
      subst c1 c2
      rw [c3] at h2; cases h2
      exact c4
  · intro i o op h1 h2
    cases o with
    | user v =>
      have hv := (hi.posUser i v).1 h1
      obtain ⟨cfg', st', op', d1, d2, d3⟩ := h.placed v p _ hv
      rw [ha] at d1; cases d1
      have : cfg.positionals[i]? = some op' := d2
      rw [h2] at this; cases this
      exact d3 (hl v ((h.regs p v).2 ⟨_, hv⟩))
    | help p' => exact absurd h1 (hi.posHelp i p')

theorem resetAll_eq : ∀ (l : List (Obj V P)) (objs : Obj V P → Option (Opt × Cell)), (∀ o ∈ l, objs o ≠ none) →
    resetAll l objs = .ok (fun o => if o ∈ l then (objs o).map (fun x => (x.1, {})) else objs o) := by
  intro l
  induction l with
  | nil => intro objs _; simp [resetAll]
  | cons o l ih =>
    intro objs h
    cases ho : objs o with
    | none => exact absurd ho (h o List.mem_cons_self)
    | some x =>
      obtain ⟨op, c⟩ := x
      simp only [resetAll, deref, ho, bind, Except.bind]
      rw [ih]
      · congr 1
        funext o'
        by_cases h1 : o' = o
        · subst h1; simp [ho]
        · simp [h1]
      · intro o' h'
        by_cases h1 : o' = o
        · simp [h1]
        · simp only [if_neg h1]; exact h o' (List.mem_cons_of_mem _ h')

/-- What the three loops of `reset` leave. -/
theorem reset_eq {q : Inst V P} {objs : Obj V P → Option (Opt × Cell)} (h : ∀ o, o ∈ q.options ∨ o ∈ q.positionals ∨ o ∈ q.help.toList → objs o ≠ none) :
    (do let objs ← resetAll q.options objs
        let objs ← resetAll q.positionals objs
        resetAll q.help.toList objs) =
      .ok (fun o => if o ∈ q.options ∨ o ∈ q.positionals ∨ o ∈ q.help.toList then (objs o).map (fun x => (x.1, {})) else objs o) := by
  rw [resetAll_eq _ _ (fun o ho => h o (.inl ho))]
  simp only [bind, Except.bind]
  rw [resetAll_eq]
  · simp only
    rw [resetAll_eq]
    · congr 1
      funext o
      by_cases h1 : o ∈ q.options <;> by_cases h2 : o ∈ q.positionals <;> by_cases h3 : o ∈ q.help.toList <;> simp [h1, h2, h3] <;>
        cases objs o <;> rfl
    · intro o ho
      have := h o (.inr (.inr ho))
      cases he : objs o with
      | none => exact absurd he this
      | some x => by_cases h1 : o ∈ q.options <;> by_cases h2 : o ∈ q.positionals <;> simp [h1, h2]
  · intro o ho
    have := h o (.inr (.inl ho))
    cases he : objs o with
    | none => exact absurd he this
    | some x => by_cases h1 : o ∈ q.options <;> simp [h1]

/-- Reset agrees. -/
theorem reset_same {q : Inst V P} {cfg : Config} {m : MState V P} {st : State} (hs : Same q cfg) (hr : Rel q cfg m.objs m st) :
    ∃ objs', (do let objs ← resetAll q.options m.objs
                 let objs ← resetAll q.positionals objs
                 resetAll q.help.toList objs) = .ok objs' ∧
      Rel q cfg m.objs { m with objs := objs' } (ArgParser.reset cfg st) := by
  have hh : ∀ o, o ∈ q.help.toList → o ∈ q.options := by
    intro o ho
    rcases hs.help with ⟨_, h2⟩ | ⟨_, o', h2, h3, _⟩
    · rw [h2] at ho; cases ho
    · rw [h2] at ho
      simp only [Option.toList_some, List.mem_singleton] at ho
      subst ho; exact List.mem_of_getElem? h3
  have hopt : ∀ (i : Nat) o, q.options[i]? = some o → ∃ op, cfg.options[i]? = some op ∧ m.objs o = some (op, st.cells (.opt i)) := by
    intro i o hi
    have hlt : i < cfg.options.length := by have := (List.getElem?_eq_some_iff.1 hi).1; have := hr.opts; omega
    exact ⟨_, List.getElem?_eq_getElem hlt, hr.opt i o _ hi (List.getElem?_eq_getElem hlt)⟩
  have hpos : ∀ (i : Nat) o, q.positionals[i]? = some o → ∃ op, cfg.positionals[i]? = some op ∧ m.objs o = some (op, st.cells (.pos i)) := by
    intro i o hi
    have hlt : i < cfg.positionals.length := by have := (List.getElem?_eq_some_iff.1 hi).1; have := hr.poss; omega
    exact ⟨_, List.getElem?_eq_getElem hlt, hr.pos i o _ hi (List.getElem?_eq_getElem hlt)⟩
  have hlive : ∀ o, o ∈ q.options ∨ o ∈ q.positionals ∨ o ∈ q.help.toList → m.objs o ≠ none := by
    have h1 : ∀ o ∈ q.options, m.objs o ≠ none := by
      intro o ho
      obtain ⟨i, hi⟩ := List.mem_iff_getElem?.1 ho
      obtain ⟨op, _, h2⟩ := hopt i o hi
      simp [h2]
    rintro o (ho | ho | ho)
    · exact h1 o ho
    · obtain ⟨i, hi⟩ := List.mem_iff_getElem?.1 ho
      obtain ⟨op, _, h2⟩ := hpos i o hi
      simp [h2]
    · exact h1 o (hh o ho)
  refine ⟨_, reset_eq hlive, hr.opts, hr.poss, ?_, ?_, ?_, hr.error, hr.extra, hr.pass, hr.hasPass, ?_⟩
  · intro i o op h1 h2
    have h3 := List.mem_of_getElem? h1
    simp only [h3, true_or, if_true, hr.opt i o op h1 h2, Option.map_some, ArgParser.reset]
    rw [if_pos (List.getElem?_eq_some_iff.1 h2).1]
  · intro i o op h1 h2
    have h3 := List.mem_of_getElem? h1
    simp only [h3, true_or, or_true, if_true, hr.pos i o op h1 h2, Option.map_some, ArgParser.reset]
    rw [if_pos (List.getElem?_eq_some_iff.1 h2).1]
  · intro o h1 h2
    have h3 : o ∉ q.help.toList := fun h => h1 (hh o h)
    simp [h1, h2, h3]
  · intro r h1
    have := hr.far r h1
    cases r <;> simp only [ArgParser.reset] <;> split <;> first | rfl | exact this

/-- One call agrees. -/
theorem step_sim {w : Nat} {t : Track V P} {s : World V P} {a : Apart V P} (h : Sim t s a) (o : Op V P) (ho : t.apart o) :
    Agree (fun x y => x.2 = y.2 ∧ Sim (t.step o) x.1 y.1) (step w s o) (a.step w o) := by
  obtain ⟨hl, hk, hu⟩ := ho
  cases o with
  | «static» v o => exact .ok ⟨rfl, sim_static h o hl⟩
  | parser p help =>
    have hp : p ∉ t.parsers := hl
    have hep : p ∉ t.endedP := fun h' => hp (h.endedP p h')
    · have h0 := h.newParser hp help
      have hL : ∀ v o, (v, o) ∈ a.statics → a.place v = none ∧ v ∈ t.made ∧ (if help then s.setObj (.help p) (some (helpOpt, {})) else s).objs (.user v) = some (o, {}) := by
        intro v o hv
        have hs : v ∈ t.statics := h.names ▸ List.mem_map_of_mem (f := Prod.fst) hv
        have hnone : a.place v = none := by
          cases hc : a.place v with
          | none => rfl
          | some x => exact absurd ((h.regs x.1 v).2 ⟨x.2, hc⟩) (hu v hs x.1)
        refine ⟨hnone, h.made v hs, ?_⟩
        have := h.looseStatic v o hv hnone (hk v hs)
        cases help
        · exact this
        · simpa [World.setObj] using this
      obtain ⟨q', regs, e1, e2, e3⟩ := Sim.joinAll a.statics _ _ _ _ h0 (by simp; rfl) ⟨List.mem_cons_self, hep⟩ (by rw [h.names]; exact h.nodup) hL
      have hst : (if help then s.setObj (.help p) (some (helpOpt, {})) else s).statics = a.statics.map (fun x => .user x.1) := by
        have : s.statics = a.statics.map (fun x => .user x.1) := by
          rw [h.statics, ← h.names, List.map_map]; rfl
        cases help <;> exact this
      simp only [step, Apart.step, hst]
      have e1' := e1
      unfold bare at e1'
      rw [e1']
      refine .ok ⟨rfl, ?_⟩
      refine e3.regsCongr ?_
      intro x
      rw [e2]
      simp [h.names]
  | declare p v o =>
    obtain ⟨hv, hp⟩ := hl
    obtain ⟨q, e, x, y, b, cfg, st, h1, h2, h3⟩ := h.live p hp
    have h0 := h.newObj hv o
    have hnone : a.place v = none := by
      cases hc : a.place v with
      | none => rfl
      | some x => exact absurd (h.placedMade v x hc) hv
    have hj := h0.join (p := p) (v := v) (o := o) h1 h2 hp hnone List.mem_cons_self (by simp [World.setObj])
    simp only [step, Apart.step, World.get, h1, h2, bind, Except.bind]
    rw [addTo_eq (o := o) (c := {}) (by simp [World.setObj])]
    exact .ok ⟨rfl, hj⟩
  | switches p i sl c d =>
    obtain ⟨q, e, x, y, b, cfg, st, h1, h2, h3⟩ := h.live p hl
    simp only [step, Apart.step, World.get, h1, h2, bind, Except.bind]
    refine .ok ⟨rfl, { h with placed := ?_, live := ?_, known := ?_ }⟩
    · intro v p' r hv
      obtain ⟨cfg', st0, op, d1, d2, d3⟩ := h.placed v p' r hv
      by_cases hpp : p' = p
      · subst hpp
        rw [h2] at d1; cases d1
        refine ⟨_, _, op, if_pos rfl, ?_, d3⟩
        cases r <;> exact d2
      · exact ⟨cfg', st0, op, by simp [hpp, d1], d2, d3⟩
    · intro p' hp'
      by_cases hpp : p' = p
      · subst hpp
        refine ⟨_, e, x, y, b, _, st, if_pos rfl, if_pos rfl, { h3 with same := ?_, far := ?_ }⟩
        · exact { h3.same with
            inlineValues := by simp only [h3.same.inlineValues]
            slashes := by simp only [h3.same.slashes]
            collectExtra := by simp only [h3.same.collectExtra]
            passthrough := by simp only [h3.same.passthrough] }
        · intro r hr; refine h3.far r ?_; cases r <;> exact hr
      · obtain ⟨q', e', x', y', b', cfg', st0, g1, g2, g3⟩ := h.live p' hp'
        exact ⟨q', e', x', y', b', cfg', st0, by simp [World.set, hpp, g1], by simp [hpp, g2], g3⟩
    · intro p' z hz
      by_cases hpp : p' = p
      · exact hpp ▸ hl.1
      · simp only [if_neg hpp] at hz; exact h.known p' z hz
  | parse p args =>
    obtain ⟨hp, ha⟩ := hl
    obtain ⟨q, e, x, y, b, cfg, st, h1, h2, h3⟩ := h.live p hp
    have hr := h.rel h3 h2 ha
    simp only [step, Apart.step, World.get, h1, h2]
    show Agree _ (parse w q _ args >>= _) _
    refine (parse_same h3.same hr args).bind ?_
    rintro ⟨ok, m⟩ ⟨ok', st'⟩ ⟨g1, g2⟩
    simp only at g1 g2
    subst g1
    refine .ok ⟨?_, h.update h3 hp h2 g2 rfl rfl rfl rfl⟩
    simp only [g2.error, g2.extra, g2.pass]
  | reset p =>
    obtain ⟨hp, ha⟩ := hl
    obtain ⟨q, e, x, y, b, cfg, st, h1, h2, h3⟩ := h.live p hp
    have hr := h.rel h3 h2 ha
    obtain ⟨objs', g1, g2⟩ := reset_same (m := { objs := s.objs, error := e, extra := x, pass := y, hasPass := b }) h3.same hr
    have hstep : step w s (.reset p) = .ok ({ s with objs := objs' }, .unit) := by
      have : step w s (.reset p) = (do
        let objs ← (do let objs ← resetAll q.options s.objs
                       let objs ← resetAll q.positionals objs
                       resetAll q.help.toList objs)
        .ok ({ s with objs := objs }, .unit)) := by
        simp only [step, World.get, h1, bind, Except.bind]
        cases resetAll q.options s.objs with
        | error _ => rfl
        | ok o1 =>
          simp only
          cases resetAll q.positionals o1 with
          | error _ => rfl
          | ok o2 => rfl
      rw [this, g1]; rfl
    rw [hstep]
    simp only [Apart.step, h2]
    refine .ok ⟨rfl, h.update h3 hp h2 g2 rfl rfl ?_ rfl⟩
    funext p'
    by_cases hpp : p' = p
    · simp [hpp, h1]
    · simp [hpp]
  | read v =>
    obtain ⟨hm, he⟩ := hl
    simp only [step, Apart.step]
    cases hc : a.place v with
    | none =>
      obtain ⟨o, ho⟩ := h.loose v hm hc he
      simp only [deref, ho, bind, Except.bind]
      exact .ok ⟨rfl, h⟩
    | some x =>
      obtain ⟨p, r⟩ := x
      obtain ⟨cfg, st, op, d1, d2, d3⟩ := h.placed v p r hc
      simp only [deref, d3 he, d1, bind, Except.bind]
      exact .ok ⟨rfl, h⟩
  | endOption v =>
    obtain ⟨hm, he⟩ := hl
    have halive : ∃ z, s.objs (.user v) = some z := by
      cases hc : a.place v with
      | none => obtain ⟨o, ho⟩ := h.loose v hm hc he; exact ⟨_, ho⟩
      | some x => obtain ⟨cfg, st, op, d1, d2, d3⟩ := h.placed v x.1 x.2 hc; exact ⟨_, d3 he⟩
    obtain ⟨z, hz⟩ := halive
    simp only [step, Apart.step, deref, hz, bind, Except.bind]
    have hne : ∀ u, u ∉ v :: t.ended → u ∉ t.ended ∧ (s.setObj (.user v) none).objs (.user u) = s.objs (.user u) := by
      intro u hu
      refine ⟨fun h' => hu (List.mem_cons_of_mem _ h'), ?_⟩
      simp only [World.setObj]
      rw [if_neg]
      intro h'; cases h'; exact hu List.mem_cons_self
    refine .ok ⟨rfl, { h with loose := ?_, looseStatic := ?_, placed := ?_, live := ?_ }⟩
    · intro u g1 g2 g3; rw [(hne u g3).2]; exact h.loose u g1 g2 (hne u g3).1
    · intro u o g1 g2 g3; rw [(hne u g3).2]; exact h.looseStatic u o g1 g2 (hne u g3).1
    · intro u p r hu
      obtain ⟨cfg, st, op, d1, d2, d3⟩ := h.placed u p r hu
      exact ⟨cfg, st, op, d1, d2, fun g3 => by rw [(hne u g3).2]; exact d3 (hne u g3).1⟩
    · intro p hp
      obtain ⟨q, e, x, y, b, cfg, st, h1, h2, h3⟩ := h.live p hp
      refine ⟨q, e, x, y, b, cfg, st, h1, h2, { h3 with optHelp := fun i p' hi => ?_ }⟩
      simp only [World.setObj]
      rw [if_neg (by intro he; cases he)]
      exact h3.optHelp i p' hi
  | endParser p =>
    have hp : t.has p := hl
    obtain ⟨q, e, x, y, b, cfg, st, h1, h2, h3⟩ := h.live p hp
    simp only [step, Apart.step, World.get, h1, bind, Except.bind]
    have hobj : ∀ u, ((s.set p none).setObj (.help p) none).objs (.user u) = s.objs (.user u) := by
      intro u; simp [World.set, World.setObj]
    refine .ok ⟨rfl, { h with loose := ?_, looseStatic := ?_, placed := ?_, live := ?_, endedP := ?_ }⟩
    · intro u g1 g2 g3; rw [hobj]; exact h.loose u g1 g2 g3
    · intro u o g1 g2 g3; rw [hobj]; exact h.looseStatic u o g1 g2 g3
    · intro u p r hu
      obtain ⟨cfg, st, op, d1, d2, d3⟩ := h.placed u p r hu
      exact ⟨cfg, st, op, d1, d2, fun g3 => by rw [hobj]; exact d3 g3⟩
    · intro p' hp'
      have hpp : p' ≠ p := by rintro rfl; exact hp'.2 List.mem_cons_self
      have hp'' : t.has p' := ⟨hp'.1, fun h' => hp'.2 (List.mem_cons_of_mem _ h')⟩
      obtain ⟨q', e', x', y', b', cfg', st0, g1, g2, g3⟩ := h.live p' hp''
      refine ⟨q', e', x', y', b', cfg', st0, by simp [World.set, World.setObj, hpp, g1], g2, { g3 with optHelp := fun i p'' hi => ?_ }⟩
      obtain ⟨c1, c2, c3, c4⟩ := g3.optHelp i p'' hi
      exact ⟨c1, c2, c3, by simp [World.set, World.setObj, hpp, c4]⟩
    · intro p' hp'
      rcases List.mem_cons.1 hp' with rfl | hp'
      · exact hp.1
      · exact h.endedP p' hp'

end Verif.ArgParser.Many
