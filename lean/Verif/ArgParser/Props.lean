import Verif.ArgParser.Accept
/-!
# Properties of `ke::args::Parser` (C71-C79)

`w` is the width of `long`; the theorems hold for every `w ≥ 32`.
-/
namespace Verif.ArgParser
open Verif

/-! ### Concrete parsers -/

/-- `-b, --flag` (boolean), `-n, --num` (int), `--on` (enable), `-I` (repeated string) and a positional `file`; extra and passthrough arguments allowed. -/
def demo : Config :=
  { options := [{ short := some (lit "b"), long := some (lit "flag"), name := none, help := [], kind := .boolean none },
                { short := some (lit "n"), long := some (lit "num"), name := none, help := [], kind := .int (some 5) },
                { short := none, long := some (lit "on"), name := none, help := [], kind := .enable true },
                { short := some (lit "I"), long := none, name := none, help := [], kind := .repString }]
    positionals := [{ short := none, long := none, name := some (lit "file"), help := [], kind := .string none }]
    collectExtra := true
    passthrough := true }

/-- The same with a help option. -/
def demoHelp : Config := { demo with options := helpOpt :: demo.options, help := true }

theorem valid_of_bool {cfg : Config}
    (h : (cfg.options.all fun o => o.name.isNone && (o.short.all fun f => f ≠ [] && f[0]? ≠ some 45) && (o.long.all fun f => f ≠ [] && f[0]? ≠ some 45)) = true)
    (hp : (cfg.positionals.all fun o => o.name.isSome && (match o.kind with | .boolean _ | .string _ | .int _ => true | _ => false)) = true)
    (hh : cfg.help = true → cfg.options[0]? = some helpOpt) : cfg.Valid := by
  simp only [List.all_eq_true, Bool.and_eq_true] at h hp
  refine ⟨fun o ho => by simpa using (h o ho).1.1, ?_, ?_, ?_, hh⟩
  · intro o ho f hf
    have := (h o ho).1.2
    rw [hf] at this; simpa using this
  · intro o ho f hf
    have := (h o ho).2
    rw [hf] at this; simpa using this
  · intro o ho
    obtain ⟨h1, h2⟩ := hp o ho
    refine ⟨(by intro hn; rw [hn] at h1; cases h1), ?_⟩
    split at h2
    · exact .inl ⟨_, by assumption⟩
    · exact .inr (.inl ⟨_, by assumption⟩)
    · exact .inr (.inr ⟨_, by assumption⟩)
    · cases h2

theorem demo_valid : demo.Valid := valid_of_bool (by decide) (by decide) (by intro h; cases h)
theorem demoHelp_valid : demoHelp.Valid := valid_of_bool (by decide) (by decide) (fun _ => by decide)

/-- Results in a form that can be compared: what `parse` returned, what the options and the positionals hold, the error, extra and passthrough arguments. -/
structure Summary where
  result : Bool
  options : List (Option Val × List Val)
  positionals : List (Option Val)
  error : Str
  extra : List Str
  pass : List Str
deriving DecidableEq

def summary (cfg : Config) (r : Exec (Bool × State)) : Exec Summary :=
  match r with
  | .error e => .error e
  | .ok (b, st) => .ok { result := b, options := (List.range cfg.options.length).map (fun i => ((st.cells (.opt i)).value, (st.cells (.opt i)).values)),
                         positionals := (List.range cfg.positionals.length).map (fun i => (st.cells (.pos i)).value), error := st.error, extra := st.extra, pass := st.pass }

example : summary demo (parse 64 demo fresh [lit "-n=7", lit "-I", lit "x", lit "a.c", lit "-I", lit "y", lit "b.c", lit "--no-on", lit "--", lit "-n", lit "--"]) =
    .ok ⟨true, [(none, []), (some (.int 7), []), (some (.bool false), []), (none, [.str (lit "x"), .str (lit "y")])], [some (.str (lit "a.c"))], [],
      [lit "b.c"], [lit "-n"]⟩ := by decide +kernel

/-! ### C71: no crash -/

/-- The full property: `parse` returns, whatever the options and the arguments. -/
def ParseReturns : Prop := ∀ (w : Nat) (cfg : Config) (args : List Str), 32 ≤ w → cfg.Valid → ∃ b st', parse w cfg fresh args = .ok (b, st')

/-- C71 does not hold: an unknown option that starts with `--no-` dereferences a null option. -/
theorem C71_parse_returns_refuted : ¬ ParseReturns := by
  intro h
  obtain ⟨b, st', e⟩ := h 64 demo [lit "--no-such"] (by decide) demo_valid
  have : summary demo (parse 64 demo fresh [lit "--no-such"]) = .error .nullDeref := by decide +kernel
  rw [e] at this; cases this

/-- Any such argument at the front crashes ... -/
theorem C71_unknown_no_crashes (w : Nat) (cfg : Config) (a : Str) (rest : List Str) (h : NoUnknown cfg a) :
    parse w cfg fresh (a :: rest) = .error .nullDeref := by
  have hu := (unknownNo_iff (cfg := cfg) a).2 h
  obtain ⟨t, rfl⟩ := h.1
  unfold parse
  have : stepArg w cfg fresh 0 ([45, 45, 110, 111, 45] ++ t) rest.head? = .error .nullDeref := by
    unfold stepArg
    unfold UnknownNo at hu
    rw [if_neg (by rintro ⟨_, e⟩; simp at e), if_neg (by simp [fresh]), if_pos (.inl rfl), hu]
    rfl
  simp only [loop, this, bind, Except.bind]

/-- ... and nothing else does: C71 for command lines without such arguments. -/
theorem C71_parse_returns_partial (w : Nat) (cfg : Config) (args : List Str) (hv : cfg.Valid) (h : ∀ a ∈ args, ¬ NoUnknown cfg a) :
    ∃ b st', parse w cfg fresh args = .ok (b, st') := by
  rcases parse_spec (w := w) hv args with ⟨st', _, h2⟩ | ⟨_, st', _, _, _, _, _, h2⟩ | ⟨⟨a, ha, hu⟩, _⟩
  · exact ⟨_, _, h2⟩
  · exact ⟨_, _, h2⟩
  · exact (h a ha hu).elim

theorem not_noUnknown_of {cfg : Config} {a : Str} (h : ¬ [45, 45, 110, 111, 45] <+: a) : ¬ NoUnknown cfg a := fun hn => h hn.1

example : ¬ NoUnknown demo (lit "--bogus") := not_noUnknown_of (by decide)
example : NoUnknown demo (lit "--no-such") := ⟨by decide, lit "--no-such", .whole (by decide) (by decide), by decide⟩
example : ¬ NoUnknown demo (lit "--no-on") := by
  rintro ⟨_, h, hh, hall⟩
  have : h = lit "--no-on" := by
    have := head_unique hh
    rw [this]; decide
  subst this
  exact absurd (hall { short := none, long := some (lit "on"), name := none, help := [], kind := .enable true } (by decide)) (by decide)

/-! ### C72: what is accepted -/

/-- The full property: an accepted command line is made up of arguments that all have their effect, no single-valued option is given twice, all positionals
have values; a rejected one has an error message, unless help was asked for. -/
def AcceptsOnlyExplained : Prop :=
  ∀ (w : Nat) (cfg : Config) (args : List Str) (b : Bool) (st' : State), 32 ≤ w → cfg.Valid → parse w cfg fresh args = .ok (b, st') →
    (b = true → ∃ items, Explains IntNum cfg args items ∧ Strict items ∧ Effect cfg items st'.cells st'.extra st'.pass) ∧
    (b = false → st'.error ≠ [] ∨ cfg.help = true)

/-- A parser with one boolean option `-b`. -/
def onlyB : Config := { options := [{ short := some (lit "b"), long := none, name := none, help := [], kind := .boolean none }], positionals := [] }

theorem onlyB_valid : onlyB.Valid := valid_of_bool (by decide) (by decide) (by intro h; cases h)

/-- C72 does not hold: `-b=junk` is accepted for a boolean option, and has no effect. -/
theorem C72_accepts_only_explained_refuted : ¬ AcceptsOnlyExplained := by
  intro h
  have hs : summary onlyB (parse 64 onlyB fresh [lit "-b=junk"]) = .ok ⟨true, [(none, [])], [], [], [], []⟩ := by decide +kernel
  rcases hp : parse 64 onlyB fresh [lit "-b=junk"] with e | ⟨b, st'⟩
  · rw [hp] at hs; cases hs
  · rw [hp] at hs
    simp only [summary] at hs
    injection hs with hs
    have hb : b = true := congrArg Summary.result hs
    obtain ⟨items, hx, hst, _⟩ := (h 64 onlyB [lit "-b=junk"] b st' (by decide) onlyB_valid hp).1 hb
    -- no stop option: the items cover the argument
    have nostop : ∀ it : Item, ¬ it.stops onlyB := by
      rintro it ⟨i, x, o, d, _, ho, hk⟩
      have : o ∈ onlyB.options := List.mem_of_getElem? ho
      simp [onlyB] at this
      subst this; cases hk
    have hcov : items.flatMap Item.args = [lit "-b=junk"] := by
      rcases hx.covers with h1 | ⟨_, it, _, h2⟩
      · exact h1
      · exact (nostop it h2).elim
    -- so there is an item whose first argument this is
    cases items with
    | nil => cases hcov
    | cons it rest =>
      have hok := hx.each it (by simp)
      have hsv := hst it (by simp)
      rw [List.flatMap_cons] at hcov
      have spell : ∀ i v neg, Spells onlyB (lit "-b=junk") i v neg → v = some (lit "junk") := by
        intro i v neg hsp
        have hl : ∀ (o : Opt) (l : Str), onlyB.options[i]? = some o → o.long ≠ some l := by
          intro o l ho hl
          have : o ∈ onlyB.options := List.mem_of_getElem? ho
          simp [onlyB] at this
          subst this; cases hl
        have hf : ∀ (o : Opt) (f : Str), onlyB.options[i]? = some o → o.short = some f → f = lit "b" := by
          intro o f ho hf
          have : o ∈ onlyB.options := List.mem_of_getElem? ho
          simp [onlyB] at this
          subst this; simpa using hf.symm
        generalize ha : lit "-b=junk" = a at hsp
        cases hsp with
        | long ho h2 => exact (hl _ _ ho h2).elim
        | longValue ho h2 _ => exact (hl _ _ ho h2).elim
        | short _ ho h2 => rw [hf _ _ ho h2] at ha; exact absurd (congrArg List.length ha) (by simp [lit])
        | shortValue _ ho h2 _ =>
          rw [hf _ _ ho h2] at ha
          have e : (lit "-b=junk" : Str).drop 3 = lit "junk" := by decide
          rw [ha] at e
          exact congrArg some e
        | inlineValue _ hi _ _ _ => cases hi
        | no ho h2 _ => exact (hl _ _ ho h2).elim
      cases it with
      | flag a i x =>
        injection hcov with e1 _; subst e1
        obtain ⟨_, o, neg, _, hsp, _⟩ := hok
        cases spell _ _ _ hsp
      | attached a i v x =>
        injection hcov with e1 _; subst e1
        obtain ⟨_, o, ho, hsp, hr⟩ := hok
        cases spell _ _ _ hsp
        have : o ∈ onlyB.options := List.mem_of_getElem? ho
        simp [onlyB] at this
        subst this
        rcases hr with ⟨h1, _⟩ | ⟨h1, _⟩
        · exact absurd h1 (by decide)
        · exact absurd h1 (by decide)
      | separate a i v x =>
        injection hcov with e1 _; subst e1
        obtain ⟨_, o, ho, hsp, hr⟩ := hok
        cases spell _ _ _ hsp
      | ignored a i => cases hsv
      | junk a i v => cases hsv
      | positional a x => injection hcov with e1 _; subst e1; exact hok (.inl (by decide))
      | extra a => exact absurd hok.2 (by decide)
      | dashes => cases (show onlyB.passthrough = true from hok)
      | pass a => exact absurd hok.1 (by decide)

/-- C72 except for boolean options: an accepted command line is made up of properly spelled options with the values they denote, positionals, extras and
passthrough arguments, single-valued options are given at most one value, all positionals have one, and the parser holds exactly these values. What is
missing: boolean options may be recognised and ignored (items `ignored` and `junk`). -/
theorem C72_accepted_is_explained_partial (w : Nat) (cfg : Config) (args : List Str) (st' : State) (hw : 32 ≤ w) (hv : cfg.Valid)
    (h : parse w cfg fresh args = .ok (true, st')) :
    ∃ items, Explains IntNum cfg args items ∧ Effect cfg items st'.cells st'.extra st'.pass ∧ st'.error = [] := by
  rcases parse_spec (w := w) hv args with ⟨st1, _, h2⟩ | ⟨items, st1, h1, h3, h4, _, _, h2⟩ | ⟨_, h2⟩
  · rw [h2] at h; cases h
  · rw [h2] at h
    injection h with h
    have e : st1 = st' := congrArg Prod.snd h
    subst e
    exact ⟨items, explains_mono (fun n m => codeNum_intNum hw) h1, h3, h4⟩
  · rw [h2] at h; cases h

/-- A command line is only refused with an error message, or because the help option was given (and then no message is set). -/
theorem C72_refused_has_reason (w : Nat) (cfg : Config) (args : List Str) (st' : State) (hw : 32 ≤ w) (hv : cfg.Valid)
    (h : parse w cfg fresh args = .ok (false, st')) :
    st'.error ≠ [] ∨
    (st'.error = [] ∧ cfg.help = true ∧ ∃ items, Explains IntNum cfg args items ∧ ∃ it ∈ items, it.gives = some (0, .bool true)) := by
  rcases parse_spec (w := w) hv args with ⟨st1, h1, h2⟩ | ⟨items, st1, h1, h3, h4, _, _, h2⟩ | ⟨_, h2⟩
  · rw [h2] at h; cases h; exact .inl h1
  · right
    rw [h2] at h
    injection h with h
    have e : st1 = st' := congrArg Prod.snd h
    have hb : (!(cfg.help && flagValue helpOpt (st1.cells (.opt 0)))) = false := congrArg Prod.fst h
    subst e
    simp only [Bool.not_eq_false', Bool.and_eq_true] at hb
    obtain ⟨hh, hf⟩ := hb
    refine ⟨h4, hh, items, explains_mono (fun n m => codeNum_intNum hw) h1, ?_⟩
    have hval := (h3.single 0 helpOpt (hv.help hh) rfl).1
    have : (st1.cells (.opt 0)).value = some (.bool true) := by
      unfold flagValue at hf
      split at hf
      · rename_i b hb
        rw [hb, hf]
      · cases hf
    rw [this] at hval
    have hmem : (Val.bool true) ∈ givenTo items 0 := List.mem_of_getElem? hval.symm
    unfold givenTo at hmem
    rw [List.mem_filterMap] at hmem
    obtain ⟨it, hit, he⟩ := hmem
    refine ⟨it, hit, ?_⟩
    split at he
    · rename_i j x hg
      split at he
      · rename_i hj; subst hj; cases he; exact hg
      · cases he
    · cases he
  · rw [h2] at h; cases h

example : summary demoHelp (parse 64 demoHelp fresh [lit "--help"]) =
    .ok ⟨false, [(some (.bool true), []), (none, []), (none, []), (none, []), (none, [])], [none], [], [], []⟩ := by decide +kernel
example : summary demo (parse 64 demo fresh [lit "x", lit "--bogus"]) =
    .ok ⟨false, [(none, []), (none, []), (none, []), (none, [])], [some (.str (lit "x"))], lit "Unrecognized option: --bogus", [], []⟩ := by decide +kernel
example : summary demo (parse 64 demo fresh [lit "-n=1", lit "--num", lit "2", lit "x"]) =
    .ok ⟨false, [(none, []), (some (.int 1), []), (none, []), (none, [])], [none], lit "Option 'num' was specified more than once.", [], []⟩ := by decide +kernel

/-! ### C73: positionals -/

/-- C73. An accepted command line is cut into items so that the n-th plain argument gives the n-th positional its value and the later ones are the extra
arguments, in order; when the parse was not ended by a stop option every positional has one. -/
theorem C73_positionals_in_order (w : Nat) (cfg : Config) (args : List Str) (st' : State) (hw : 32 ≤ w) (hv : cfg.Valid)
    (h : parse w cfg fresh args = .ok (true, st')) :
    ∃ items, Explains IntNum cfg args items ∧
      (∀ (k : Nat) (o : Opt), cfg.positionals[k]? = some o →
        (∀ a : Str, (items.filterMap Item.plain)[k]? = some a → ∃ x, Reads IntNum o.kind a x ∧ (st'.cells (.pos k)).value = some x) ∧
        ((items.filterMap Item.plain)[k]? = none → (st'.cells (.pos k)).value = none)) ∧
      st'.extra = (items.filterMap Item.plain).drop cfg.positionals.length ∧
      ((∀ it ∈ items, ¬ it.stops cfg) → items.flatMap Item.args = args ∧ cfg.positionals.length ≤ (items.filterMap Item.plain).length) := by
  obtain ⟨items, hx, he, _⟩ := C72_accepted_is_explained_partial w cfg args st' hw hv h
  refine ⟨items, hx, ?_, ?_, ?_⟩
  · intro k o ho
    have hk : k < cfg.positionals.length := (List.getElem?_eq_some_iff.1 ho).1
    have hpl := hx.plain
    by_cases hlt : k < (items.filterMap Item.positionalPair).length
    · have e : (items.filterMap Item.plain)[k]? = (items.filterMap Item.positionalPair)[k]?.map Prod.fst := by
        rw [hpl, List.getElem?_append_left (by simpa using hlt), List.getElem?_map]
      have e2 := he.positional k o ho
      refine ⟨fun a ha => ?_, fun hn => ?_⟩
      · rw [e] at ha
        rw [Option.map_eq_some_iff] at ha
        obtain ⟨⟨a', x⟩, hq, rfl⟩ := ha
        obtain ⟨o', h1, h2⟩ := hx.positionals k a' x hq
        rw [ho] at h1; cases h1
        exact ⟨x, h2, by rw [e2, hq]; rfl⟩
      · rw [e, List.getElem?_eq_getElem hlt] at hn; cases hn
    · -- fewer positionals than that: there are no extras either
      have hex : items.filterMap Item.extraArg = [] := by
        cases hq : items.filterMap Item.extraArg with
        | nil => rfl
        | cons y t => have := hx.extras (by rw [hq]; simp); omega
      have e : (items.filterMap Item.plain)[k]? = none := by
        rw [hpl, hex, List.append_nil, List.getElem?_eq_none_iff, List.length_map]; omega
      refine ⟨fun a ha => (by rw [e] at ha; cases ha), fun _ => ?_⟩
      rw [he.positional k o ho, List.getElem?_eq_none (by omega)]; rfl
  · rw [he.extra, hx.plain]
    cases hq : items.filterMap Item.extraArg with
    | nil =>
      rw [List.append_nil, List.drop_eq_nil_of_le]
      rw [List.length_map]
      -- no more positional values than positionals
      cases hl : (items.filterMap Item.positionalPair) with
      | nil => simp
      | cons p r =>
        have hlast : (items.filterMap Item.positionalPair)[r.length]? = some ((p :: r)[r.length]'(by simp)) := by
          rw [hl]; exact List.getElem?_eq_getElem (by simp)
        obtain ⟨o, h1, _⟩ := hx.positionals r.length _ _ hlast
        have := (List.getElem?_eq_some_iff.1 h1).1
        simp; omega
    | cons y t =>
      have := hx.extras (by rw [hq]; simp)
      rw [← this, List.drop_left' (by simp)]
  · intro hns
    have hcov : items.flatMap Item.args = args := by
      rcases hx.covers with h1 | ⟨_, it, h1, h2⟩
      · exact h1
      · exact (hns it (List.mem_of_getLast? h1) h2).elim
    refine ⟨hcov, ?_⟩
    have := hx.complete hcov (fun it hit => hns it (List.mem_of_getLast? hit))
    rw [hx.plain, List.length_append, List.length_map]
    omega

/-! ### C74: passthrough arguments -/

theorem flatMap_split {l r : List Item} {m : Item} : (l ++ m :: r).flatMap Item.args = l.flatMap Item.args ++ (m.args ++ r.flatMap Item.args) := by
  simp

/-- C74. On an accepted command line, either there is no `--` item and no passthrough arguments, or the items end in `--` and the rest, and the passthrough
arguments are exactly the arguments behind that `--` other than `--`, in order; nothing behind it is an option, a value, a positional or an extra argument. -/
theorem C74_passthrough_verbatim (w : Nat) (cfg : Config) (args : List Str) (st' : State) (hw : 32 ≤ w) (hv : cfg.Valid)
    (h : parse w cfg fresh args = .ok (true, st')) :
    (st'.pass = [] ∧ ∃ items, Explains IntNum cfg args items ∧ ∀ it ∈ items, it.inTail = false) ∨
    (∃ (front tail : List Item) (post : List Str), Explains IntNum cfg args (front ++ .dashes :: tail) ∧
      args = front.flatMap Item.args ++ [45, 45] :: post ∧
      (∀ it ∈ front, it.inTail = false) ∧ (∀ it ∈ tail, it.inTail = true) ∧ st'.pass = post.filter (fun a => a ≠ [45, 45])) := by
  obtain ⟨items, hx, he, _⟩ := C72_accepted_is_explained_partial w cfg args st' hw hv h
  -- a tail of passthrough items
  have tailArgs : ∀ l : List Item, (∀ it ∈ l, it.inTail = true) → (∀ it ∈ l, it.Ok IntNum cfg) →
      l.filterMap Item.passed = (l.flatMap Item.args).filter (fun a => a ≠ [45, 45]) := by
    intro l
    induction l with
    | nil => intro _ _; rfl
    | cons it r ih =>
      intro h1 h2
      have ih := ih (fun x hx => h1 x (by simp [hx])) (fun x hx => h2 x (by simp [hx]))
      have ht := h1 it (by simp)
      have hok := h2 it (by simp)
      rw [List.flatMap_cons, List.filter_append, ← ih]
      cases it <;> simp [Item.inTail] at ht
      · rfl
      · rename_i a
        have : a ≠ [45, 45] := hok.2
        simp [Item.passed, Item.args, this]
  by_cases hd : Item.dashes ∈ items
  · right
    obtain ⟨front, tail, e, hnf⟩ : ∃ front tail, items = front ++ .dashes :: tail ∧ Item.dashes ∉ front := by
      clear hx he
      induction items with
      | nil => cases hd
      | cons it r ih =>
        by_cases hi : it = .dashes
        · subst hi; exact ⟨[], r, rfl, by simp⟩
        · have : Item.dashes ∈ r := by
            rcases List.mem_cons.1 hd with h | h
            · exact (hi h.symm).elim
            · exact h
          obtain ⟨f, t, e, hn⟩ := ih this
          exact ⟨it :: f, t, by rw [e]; rfl, by simp [hn, Ne.symm hi]⟩
    subst e
    have hp := List.pairwise_append.1 hx.tail
    have htail : ∀ it ∈ tail, it.inTail = true := fun it hit => (List.pairwise_cons.1 hp.2.1).1 it hit rfl
    have hfront : ∀ it ∈ front, it.inTail = false := by
      intro it hit
      cases it with
      | dashes => exact (hnf hit).elim
      | pass a =>
        exfalso
        obtain ⟨l, r, e⟩ := List.append_of_mem hit
        have := hx.tailStart a l (r ++ .dashes :: tail) (by rw [e]; simp)
        exact hnf (by rw [e]; simp [this])
      | _ => rfl
    have hcov : (front ++ .dashes :: tail).flatMap Item.args = args := by
      rcases hx.covers with h1 | ⟨_, it, h1, i, x, o, d, h2, _⟩
      · exact h1
      · exfalso
        have hin : it.inTail = true := by
          rw [List.getLast?_append] at h1
          cases ht : tail with
          | nil => rw [ht] at h1; simp at h1; subst h1; rfl
          | cons y t =>
            rw [ht, List.getLast?_cons_cons] at h1
            have h2 : (y :: t).getLast? = some it := by
              rw [List.getLast?_cons] at h1 ⊢
              simpa using h1
            exact htail it (by rw [ht]; exact List.mem_of_getLast? h2)
        have := (gives_spec h2).2.2.2.2.1
        rw [hin] at this; cases this
    refine ⟨front, tail, tail.flatMap Item.args, hx, ?_, hfront, htail, ?_⟩
    · rw [← hcov, flatMap_split]; rfl
    · rw [he.pass, ← tailArgs tail htail (fun it hit => hx.each it (by simp [hit])), List.filterMap_append]
      have : front.filterMap Item.passed = [] := by
        rw [List.filterMap_eq_nil_iff]
        intro it hit
        have := hfront it hit
        cases it <;> first | rfl | (simp [Item.inTail] at this)
      rw [this]; rfl
  · left
    have hnone : ∀ it ∈ items, it.inTail = false := by
      intro it hit
      cases it with
      | dashes => exact (hd hit).elim
      | pass a =>
        exfalso
        obtain ⟨l, r, e⟩ := List.append_of_mem hit
        exact hd (by rw [e]; simp [hx.tailStart a l r e])
      | _ => rfl
    refine ⟨?_, items, hx, hnone⟩
    rw [he.pass, List.filterMap_eq_nil_iff]
    intro it hit
    have := hnone it hit
    cases it <;> first | rfl | (simp [Item.inTail] at this)

/-- What follows a `--` has no effect but to be collected, whatever it is. -/
theorem loop_pass {w : Nat} {cfg : Config} (hp : cfg.passthrough = true) : ∀ (post : List Str) (st : State) (pos : Nat), st.hasPass = true →
    loop w cfg post false st pos = .ok (some (false, pos), { st with pass := st.pass ++ post.filter (fun a => a ≠ [45, 45]) }) := by
  intro post
  induction post with
  | nil => intro st pos _; simp [loop]
  | cons a r ih =>
    intro st pos hh
    by_cases ha : a = [45, 45]
    · have hs : stepArg w cfg st pos a r.head? = .ok (.next st pos false) := by
        unfold stepArg
        rw [if_pos ⟨hp, ha⟩]
        cases st; simp at hh; subst hh; rfl
      simp only [loop, hs, bind, Except.bind]
      rw [ih st pos hh]
      simp [ha]
    · have hs : stepArg w cfg st pos a r.head? = .ok (.next { st with pass := st.pass ++ [a] } pos false) := by
        unfold stepArg
        rw [if_neg (fun h => ha h.2), if_pos hh]
      simp only [loop, hs, bind, Except.bind]
      rw [ih { st with pass := st.pass ++ [a] } pos hh]
      simp [ha]

/-- C74, directly: arguments up to a point between items, then `--`, then anything. If that is accepted, the anything has been collected verbatim, apart from
further `--`, and changing it changes nothing but what is collected. -/
theorem C74_tail_not_interpreted (w : Nat) (cfg : Config) (pre post post' : List Str) (st' : State) (hv : cfg.Valid) (hs : OnlyHelpStops cfg)
    (hp : cfg.passthrough = true) (hc : Complete cfg pre) (h : parse w cfg fresh (pre ++ [45, 45] :: post) = .ok (true, st')) :
    st'.pass = post.filter (fun a => a ≠ [45, 45]) ∧
    parse w cfg fresh (pre ++ [45, 45] :: post') = .ok (true, { st' with pass := post'.filter (fun a => a ≠ [45, 45]) }) := by
  have step : ∀ (st1 : State) (pos1 : Nat) (q : List Str), loop w cfg ([45, 45] :: q) false st1 pos1 =
      .ok (some (false, pos1), { st1 with hasPass := true, pass := st1.pass ++ q.filter (fun a => a ≠ [45, 45]) }) := by
    intro st1 pos1 q
    have h1 : stepArg w cfg st1 pos1 [45, 45] q.head? = .ok (.next { st1 with hasPass := true } pos1 false) := by
      unfold stepArg; rw [if_pos ⟨hp, rfl⟩]
    simp only [loop, h1, bind, Except.bind]
    rw [loop_pass hp _ _ _ rfl]
  obtain ⟨pos', hl⟩ := accepted_loop hv hs h
  rcases loop_split (w := w) pre false fresh 0 hc (fun _ => rfl) rfl with ⟨st1, pos1, h1, h2⟩ | ⟨r, hr, h2⟩
  · -- nothing has been collected before
    have hpass : st1.pass = [] := by
      rcases loop_spec w cfg hv pre.length pre (Nat.le_refl _) fresh 0 with ⟨s, _, e⟩ | ⟨items, s, p, hch, hcov, _, e⟩ | ⟨items, jt, s, p, _, _, _, _, e⟩ | ⟨_, e⟩
      all_goals
        have h3 := h2 []
        rw [List.append_nil] at h3
        rw [h3] at e
        simp only [loop] at e
      · cases e
      · cases e
        rw [(chain_extra hch).2]
        simp only [fresh, List.nil_append]
        rw [List.filterMap_eq_nil_iff]
        intro it hit
        cases it with
        | pass a =>
          exfalso
          obtain ⟨l, r, e⟩ := List.append_of_mem hit
          have hm := (chain_tail hch).2.2 rfl a l r e
          refine hc.2 hp ?_
          rw [← hcov, List.mem_flatMap]
          exact ⟨.dashes, by rw [e]; simp [hm], by simp [Item.args]⟩
        | _ => rfl
      · cases e
      · cases e
    rw [h2, step] at hl
    unfold parse at h ⊢
    rw [h2, step] at h ⊢
    simp only [hpass, List.nil_append, bind, Except.bind] at h ⊢
    cases hl
    refine ⟨by rw [hpass]; rfl, ?_⟩
    simp only [Bool.false_eq_true, if_false] at h ⊢
    split at h
    · cases h
    · split at h
      · cases h
      · rename_i hp' hf
        simp only [hp', hf, if_false]
  · exfalso
    rw [h2] at hl
    subst hl
    rcases hr with ⟨e, he⟩ | ⟨st, he⟩ | ⟨p, st, he⟩ <;> cases he

example : summary demo (parse 64 demo fresh [lit "f", lit "--", lit "-n", lit "--", lit "--no-such"]) =
    .ok ⟨true, [(none, []), (none, []), (none, []), (none, [])], [some (.str (lit "f"))], [], [], [lit "-n", lit "--no-such"]⟩ := by decide +kernel

end Verif.ArgParser
