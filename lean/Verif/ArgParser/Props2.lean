import Verif.ArgParser.Props
import Verif.ArgParser.Rounds
/-! # Properties of `ke::args::Parser` (C75-C79) -/
namespace Verif.ArgParser
open Verif

/-! ### C75: `--key=val` and `--key val` -/

/-- Options that cannot do without a value. -/
def TakesValue (k : Kind) : Prop :=
  match k with
  | .string _ | .int _ | .repBool | .repString | .repInt => True
  | .boolean _ | .enable _ | .toggle _ | .stop _ => False

theorem takesValue_spec {o : Opt} (h : TakesValue o.kind) : o.mustOmit = false ∧ o.canOmit = false := by
  unfold Opt.mustOmit Opt.canOmit
  cases hk : o.kind <;> simp [hk, TakesValue] at h ⊢

theorem named_ne {cfg : Config} {i : Nat} {o : Opt} {l : Str} (hv : cfg.Valid) (hn : Named cfg i o l) : l ≠ [] :=
  (hv.long o (List.mem_of_getElem? hn.opt) l hn.long).1

theorem short_not_dashes {cfg : Config} {i : Nat} {o : Opt} {f t : Str} {p : UInt8} (hv : cfg.Valid) (hn : NamedShort cfg i o f) :
    ¬ (cfg.passthrough = true ∧ (p :: (f ++ t) : Str) = [45, 45]) := by
  obtain ⟨h1, h2⟩ := hv.short o (List.mem_of_getElem? hn.opt) f hn.short
  rintro ⟨_, e⟩
  cases f with
  | nil => exact h1 rfl
  | cons c r => injection e with _ e; injection e with e _; subst e; exact h2 rfl

/-- Two argument lists that the loop cannot tell apart at a point between items are not told apart by the parser. -/
theorem parse_congr {w : Nat} {cfg : Config} {pre r1 r2 : List Str} (hc : Complete cfg pre)
    (h : ∀ st pos, st.hasPass = false → loop w cfg r1 false st pos = loop w cfg r2 false st pos) :
    parse w cfg fresh (pre ++ r1) = parse w cfg fresh (pre ++ r2) := by
  have : loop w cfg (pre ++ r1) false fresh 0 = loop w cfg (pre ++ r2) false fresh 0 := by
    rcases loop_split (w := w) pre false fresh 0 hc (fun _ => rfl) rfl with ⟨st1, pos1, h1, h2⟩ | ⟨r, _, h2⟩
    · rw [h2, h2, h st1 pos1 h1]
    · rw [h2, h2]
  unfold parse
  rw [this]

/-- C75, long form: `--key=val` and `--key val` have the same effect at any point between the arguments of a command line, whatever follows, for every
value (with inline values enabled: every value that is not empty). -/
theorem C75_long_value_syntax (w : Nat) (cfg : Config) (i : Nat) (o : Opt) (l v : Str) (pre rest : List Str) (hv : cfg.Valid) (hn : Named cfg i o l)
    (hk : TakesValue o.kind) (hi : cfg.inlineValues = true → v ≠ []) (hc : Complete cfg pre) :
    parse w cfg fresh (pre ++ (45 :: 45 :: (l ++ 61 :: v)) :: rest) = parse w cfg fresh (pre ++ (45 :: 45 :: l) :: v :: rest) := by
  obtain ⟨hm, hco⟩ := takesValue_spec hk
  refine parse_congr hc fun st pos hp => ?_
  refine loop_same (not_dashes_long (by simp)) (not_dashes_long (named_ne hv hn)) hp (.inl rfl) (.inl rfl) hm hco (lookup_longValue hn hi) (lookup_long hn) ?_
  simp [List.drop_append]

/-- C75, short form: `-k=val` and `-k val` (or with a slash). -/
theorem C75_short_value_syntax (w : Nat) (cfg : Config) (i : Nat) (o : Opt) (f v : Str) (p : UInt8) (pre rest : List Str) (hv : cfg.Valid)
    (hn : NamedShort cfg i o f) (hs : Starts cfg p) (hk : TakesValue o.kind) (hi : cfg.inlineValues = true → v ≠ []) (hc : Complete cfg pre) :
    parse w cfg fresh (pre ++ (p :: (f ++ 61 :: v)) :: rest) = parse w cfg fresh (pre ++ (p :: f) :: v :: rest) := by
  obtain ⟨hm, hco⟩ := takesValue_spec hk
  have ho : ∀ t, OptionLike cfg (p :: t) := by
    intro t
    rcases hs with rfl | ⟨h1, rfl⟩
    · exact .inl rfl
    · exact .inr ⟨h1, rfl⟩
  refine parse_congr hc fun st pos hp => ?_
  have hd := short_not_dashes (p := p) (t := []) hv hn
  rw [List.append_nil] at hd
  refine loop_same (short_not_dashes hv hn) hd hp (ho _) (ho _) hm hco (lookup_shortValue hv hn hs hi) (lookup_short hv hn hs) ?_
  simp [List.drop_append]

theorem loop_repeat {w : Nat} {cfg : Config} {i : Nat} {o : Opt} {l : Str} (hn : Named cfg i o l) (hk : o.kind = .repString) :
    ∀ (vs : List Str) (st : State) (pos : Nat), (∀ v ∈ vs, v ≠ []) → st.hasPass = false →
    ∃ st', loop w cfg (vs.map fun v => 45 :: 45 :: (l ++ 61 :: v)) false st pos = .ok (some (false, pos), st') ∧
      st'.cells (.opt i) = { st.cells (.opt i) with values := (st.cells (.opt i)).values ++ vs.map Val.str } ∧
      (∀ r, r ≠ .opt i → st'.cells r = st.cells r) ∧ st'.error = st.error ∧ st'.extra = st.extra ∧ st'.pass = st.pass := by
  intro vs
  induction vs with
  | nil => intro st pos _ _; exact ⟨st, rfl, by simp, fun _ _ => rfl, rfl, rfl, rfl⟩
  | cons v r ih =>
    intro st pos hne hp
    have hm : o.mustOmit = false := by simp [Opt.mustOmit, hk]
    have hl := lookup_longValue (v := v) hn (fun _ => hne v (by simp))
    have hs := stepArg_foundSep (w := w) (pos := pos) (next := (r.map fun v => (45 :: 45 :: (l ++ 61 :: v) : Str)).head?)
      (not_dashes_long (by simp)) hp (.inl rfl) hl
    have hw : willRepeat o (st.cells (.opt i)) = true := by simp [willRepeat, hk]
    have hdrop : (45 :: 45 :: (l ++ 61 :: v) : Str).drop (l.length + 2 + 1) = v := by simp [List.drop_append]
    rw [hw, hm, hdrop] at hs
    simp only [if_true, Bool.false_eq_true, if_false] at hs
    rcases finish_text w st (.opt i) o pos v (r.map fun v => (45 :: 45 :: (l ++ 61 :: v) : Str)).head? hm with ⟨x, hx, e⟩ | ⟨hx, _⟩
    · rw [hk] at hx
      have := hx.2; subst this
      rw [e] at hs
      obtain ⟨st', h1, h2, h3, h4, h5, h6⟩ := ih (st.setCell (.opt i) (put o (st.cells (.opt i)) (.str v))) pos (fun v hv => hne v (by simp [hv])) hp
      refine ⟨st', ?_, ?_, ?_, h4, h5, h6⟩
      · simp only [List.map_cons, loop, hs, bind, Except.bind]; exact h1
      · rw [h2, setCell_same]; simp [put, hk, Kind.repeats]
      · intro r' hr; rw [h3 r' hr, setCell_other _ _ hr]
    · exact (hx (.str v) (by rw [hk]; exact ⟨hne v (by simp), rfl⟩)).elim

/-- C75, repeated options: `--key=v1 ... --key=vn` is accepted and leaves `v1, ..., vn` in this order, and nothing else is changed. -/
theorem C75_repeated_collects (w : Nat) (cfg : Config) (i : Nat) (o : Opt) (l : Str) (vs : List Str) (hv : cfg.Valid) (hn : Named cfg i o l)
    (hk : o.kind = .repString) (hne : ∀ v ∈ vs, v ≠ []) (hp : cfg.positionals = []) :
    ∃ st', parse w cfg fresh (vs.map fun v => 45 :: 45 :: (l ++ 61 :: v)) = .ok (true, st') ∧ (st'.cells (.opt i)).values = vs.map Val.str ∧
      (∀ r, r ≠ .opt i → st'.cells r = {}) ∧ st'.error = [] ∧ st'.extra = [] ∧ st'.pass = [] := by
  obtain ⟨st', h1, h2, h3, h4, h5, h6⟩ := loop_repeat (w := w) hn hk vs fresh 0 hne rfl
  refine ⟨st', ?_, by rw [h2]; simp [fresh], fun r hr => by rw [h3 r hr]; rfl, h4, h5, h6⟩
  unfold parse
  simp only [h1, bind, Except.bind, Bool.false_eq_true, if_false, hp, List.getElem?_nil]
  rw [if_neg]
  rintro ⟨hh, hf⟩
  have h0 := hv.help hh
  have : i ≠ 0 := by
    rintro rfl
    rw [hn.opt] at h0; cases h0; cases hk
  rw [h3 (.opt 0) (by simp [Ne.symm this])] at hf
  exact absurd hf (by decide)

/-- Repeated options on any accepted command line hold the values of all their items, in order. -/
theorem C75_repeated_in_order (w : Nat) (cfg : Config) (args : List Str) (st' : State) (i : Nat) (o : Opt) (hw : 32 ≤ w) (hv : cfg.Valid)
    (ho : cfg.options[i]? = some o) (hk : o.kind.repeats = true) (h : parse w cfg fresh args = .ok (true, st')) :
    ∃ items, Explains IntNum cfg args items ∧ (st'.cells (.opt i)).values = givenTo items i := by
  obtain ⟨items, hx, he, _⟩ := C72_accepted_is_explained_partial w cfg args st' hw hv h
  exact ⟨items, hx, he.repeated i o ho hk⟩

theorem demo_named_num : Named demo 1 { short := some (lit "n"), long := some (lit "num"), name := none, help := [], kind := .int (some 5) } (lit "num") :=
  ⟨rfl, rfl, by
    intro j q hq hl
    match j with
    | 0 => simp [demo] at hq; subst hq; exact absurd hl (by decide)
    | 1 => rfl
    | 2 => simp [demo] at hq; subst hq; exact absurd hl (by decide)
    | 3 => simp [demo] at hq; subst hq; exact absurd hl (by decide)
    | j + 4 => simp [demo] at hq, by decide, by intro h; cases h⟩

theorem demo_named_on : Named demo 2 { short := none, long := some (lit "on"), name := none, help := [], kind := .enable true } (lit "on") :=
  ⟨rfl, rfl, by
    intro j q hq hl
    match j with
    | 0 => simp [demo] at hq; subst hq; exact absurd hl (by decide)
    | 1 => simp [demo] at hq; subst hq; exact absurd hl (by decide)
    | 2 => rfl
    | 3 => simp [demo] at hq; subst hq; exact absurd hl (by decide)
    | j + 4 => simp [demo] at hq, by decide, by intro h; cases h⟩

theorem demo_named_b : NamedShort demo 0 { short := some (lit "b"), long := some (lit "flag"), name := none, help := [], kind := .boolean none } (lit "b") :=
  ⟨rfl, rfl, by
    intro j q hq hl
    match j with
    | 0 => rfl
    | 1 => simp [demo] at hq; subst hq; exact absurd hl (by decide)
    | 2 => simp [demo] at hq; subst hq; exact absurd hl (by decide)
    | 3 => simp [demo] at hq; subst hq; exact absurd hl (by decide)
    | j + 4 => simp [demo] at hq, by decide, by intro h; cases h⟩

theorem demo_onlyHelpStops : OnlyHelpStops demo := by
  intro i o d ho hk
  have : o ∈ demo.options := List.mem_of_getElem? ho
  simp [demo] at this
  rcases this with rfl | rfl | rfl | rfl <;> cases hk

theorem complete_of {cfg : Config} {pre : List Str} (h1 : ∀ a, pre.getLast? = some a → a[0]? ≠ some 45 ∧ a[0]? ≠ some 47) (h2 : ([45, 45] : Str) ∉ pre) :
    Complete cfg pre :=
  ⟨fun a ha ho => by rcases ho with h | ⟨_, h⟩ <;> simp_all, fun _ => h2⟩

example (v : Str) (rest : List Str) : parse 64 demo fresh ([lit "a"] ++ (lit "--" ++ (lit "num" ++ 61 :: v)) :: rest) =
    parse 64 demo fresh ([lit "a"] ++ lit "--num" :: v :: rest) :=
  C75_long_value_syntax 64 demo 1 _ (lit "num") v [lit "a"] rest demo_valid demo_named_num trivial (by intro h; cases h)
    (complete_of (by intro a ha; simp at ha; subst ha; decide) (by decide))

/-! ### C76: enable options -/

/-- C76: `--x` sets the option. -/
theorem C76_enable_sets (w : Nat) (cfg : Config) (i : Nat) (o : Opt) (d : Bool) (l : Str) (pre rest : List Str) (st' : State) (hv : cfg.Valid)
    (hs : OnlyHelpStops cfg) (hn : Named cfg i o l) (hk : o.kind = .enable d) (hc : Complete cfg pre)
    (h : parse w cfg fresh (pre ++ (45 :: 45 :: l) :: rest) = .ok (true, st')) : (st'.cells (.opt i)).value = some (.bool true) := by
  obtain ⟨st1, pos1, pos', hp, hl⟩ := accepted_split hv hs hc h
  have ht : o.takesNo = true := by simp [Opt.takesNo, hk]
  have hlk : lookup cfg (45 :: 45 :: l) = .ok (some (i, o, some (if false then sFalse else sTrue), none)) := by
    have := lookup_long hn
    simpa [foundValue, ht] using this
  have hl := loop_enable (not_dashes_long (named_ne hv hn)) hp (.inl rfl) ht hlk hl
  rw [loop_keeps hv hl hn.opt (by simp [hk, Kind.repeats]) (by rw [setCell_same]; simp [put, hk, Kind.repeats]), setCell_same]
  simp [put, hk, Kind.repeats]

/-- C76: `--no-x` clears it (provided no option is called `no-x`). -/
theorem C76_no_clears (w : Nat) (cfg : Config) (i : Nat) (o : Opt) (d : Bool) (l : Str) (pre rest : List Str) (st' : State) (hv : cfg.Valid)
    (hs : OnlyHelpStops cfg) (hn : Named cfg i o l) (hk : o.kind = .enable d) (hno : ∀ q ∈ cfg.options, q.long ≠ some ([110, 111, 45] ++ l))
    (hc : Complete cfg pre) (h : parse w cfg fresh (pre ++ ([45, 45, 110, 111, 45] ++ l) :: rest) = .ok (true, st')) :
    (st'.cells (.opt i)).value = some (.bool false) := by
  obtain ⟨st1, pos1, pos', hp, hl⟩ := accepted_split hv hs hc h
  have ht : o.takesNo = true := by simp [Opt.takesNo, hk]
  have hlk : lookup cfg ([45, 45, 110, 111, 45] ++ l) = .ok (some (i, o, some (if true then sFalse else sTrue), none)) := lookup_no hn ht hno
  have hl := loop_enable (by rintro ⟨_, e⟩; simp at e) hp (.inl rfl) ht hlk hl
  rw [loop_keeps hv hl hn.opt (by simp [hk, Kind.repeats]) (by rw [setCell_same]; simp [put, hk, Kind.repeats]), setCell_same]
  simp [put, hk, Kind.repeats]

/-- C76: not given, the option has its default value; and on every accepted command line it has the value of the spelling that was used. -/
theorem C76_absent_default (w : Nat) (cfg : Config) (i : Nat) (o : Opt) (d : Bool) (args : List Str) (st' : State) (hw : 32 ≤ w) (hv : cfg.Valid)
    (ho : cfg.options[i]? = some o) (hk : o.kind = .enable d) (h : parse w cfg fresh args = .ok (true, st')) :
    ((∀ a ∈ args, ∀ neg, ¬ Spells cfg a i none neg) → (st'.cells (.opt i)).value = none ∧ flagValue o (st'.cells (.opt i)) = d) ∧
    ((st'.cells (.opt i)).value ≠ none → ∃ a ∈ args, ∃ neg, Spells cfg a i none neg ∧ flagValue o (st'.cells (.opt i)) = !neg) := by
  obtain ⟨items, hx, he, _⟩ := C72_accepted_is_explained_partial w cfg args st' hw hv h
  have hval := (he.single i o ho (by simp [hk, Kind.repeats])).1
  -- any item that gives the option a value is one of the flags
  have key : ∀ x, (st'.cells (.opt i)).value = some x → ∃ a ∈ args, ∃ neg, Spells cfg a i none neg ∧ x = .bool (!neg) := by
    intro x hx'
    rw [hx'] at hval
    have hm : x ∈ givenTo items i := List.mem_of_getElem? hval.symm
    unfold givenTo at hm
    rw [List.mem_filterMap] at hm
    obtain ⟨it, hit, e⟩ := hm
    have hg : it.gives = some (i, x) := by
      split at e
      · rename_i j y hg
        split at e
        · rename_i hj; subst hj; cases e; exact hg
        · cases e
      · cases e
    have hsub : ∀ a ∈ it.args, a ∈ args := by
      intro a ha
      have : a ∈ items.flatMap Item.args := List.mem_flatMap.2 ⟨it, hit, ha⟩
      rcases hx.covers with h1 | ⟨h1, _⟩
      · rw [← h1]; exact this
      · exact h1.subset this
    have hok := hx.each it hit
    cases it with
    | flag a j y =>
      cases hg
      obtain ⟨_, q, neg, hq, hsp, hf⟩ := hok
      rw [ho] at hq; cases hq
      rw [hk] at hf
      exact ⟨a, hsub a (by simp [Item.args]), neg, hsp, hf⟩
    | attached a j v y =>
      cases hg
      obtain ⟨_, q, hq, _, hr⟩ := hok
      rw [ho] at hq; cases hq
      rw [hk] at hr; exact hr.elim
    | separate a j v y =>
      cases hg
      obtain ⟨_, q, hq, _, hr⟩ := hok
      rw [ho] at hq; cases hq
      rw [hk] at hr; exact hr.elim
    | ignored a j => cases hg
    | junk a j v => cases hg
    | positional a y => cases hg
    | extra a => cases hg
    | dashes => cases hg
    | pass a => cases hg
  constructor
  · intro hno
    have hnone : (st'.cells (.opt i)).value = none := by
      cases hq : (st'.cells (.opt i)).value with
      | none => rfl
      | some x =>
        obtain ⟨a, ha, neg, hsp, _⟩ := key x hq
        exact (hno a ha neg hsp).elim
    exact ⟨hnone, by simp [flagValue, hnone, hk]⟩
  · intro hne
    cases hq : (st'.cells (.opt i)).value with
    | none => exact (hne hq).elim
    | some x =>
      obtain ⟨a, ha, neg, hsp, rfl⟩ := key x hq
      exact ⟨a, ha, neg, hsp, by simp [flagValue, hq]⟩

/-- C76: `--x=val` is rejected. -/
theorem C76_value_rejected (w : Nat) (cfg : Config) (i : Nat) (o : Opt) (d : Bool) (l v : Str) (pre rest : List Str) (hv : cfg.Valid)
    (hs : OnlyHelpStops cfg) (hn : Named cfg i o l) (hk : o.kind = .enable d) (hi : cfg.inlineValues = true → v ≠ []) (hc : Complete cfg pre) (st' : State) :
    parse w cfg fresh (pre ++ (45 :: 45 :: (l ++ 61 :: v)) :: rest) ≠ .ok (true, st') := by
  intro h
  obtain ⟨st1, pos1, pos', hp, hl⟩ := accepted_split hv hs hc h
  have := (loop_attached (not_dashes_long (by simp)) hp (.inl rfl) (lookup_longValue hn hi) hl).1
  simp [Opt.mustOmit, hk] at this

example : summary demo (parse 64 demo fresh [lit "f", lit "--on"]) =
    .ok ⟨true, [(none, []), (none, []), (some (.bool true), []), (none, [])], [some (.str (lit "f"))], [], [], []⟩ := by decide +kernel
example : summary demo (parse 64 demo fresh [lit "f", lit "--on=yes"]) =
    .ok ⟨false, [(none, []), (none, []), (none, []), (none, [])], [some (.str (lit "f"))], lit "Argument 'on' did not recognize value: yes", [], []⟩ := by decide +kernel
example (rest : List Str) (st' : State) (h : parse 64 demo fresh ([lit "a"] ++ lit "--no-on" :: rest) = .ok (true, st')) :
    (st'.cells (.opt 2)).value = some (.bool false) :=
  C76_no_clears 64 demo 2 _ true (lit "on") [lit "a"] rest st' demo_valid demo_onlyHelpStops demo_named_on rfl (by decide)
    (complete_of (by intro a ha; simp at ha; subst ha; decide) (by decide)) h

/-! ### C77: boolean options -/

/-- The full property: a boolean option that is given without a value attached has a value, which is true unless "false" follows. -/
def BoolGivenHasValue : Prop :=
  ∀ (w : Nat) (cfg : Config) (i : Nat) (o : Opt) (d : Option Bool) (f : Str) (pre rest : List Str) (st' : State), 32 ≤ w → cfg.Valid → OnlyHelpStops cfg →
    NamedShort cfg i o f → o.kind = .boolean d → Complete cfg pre → parse w cfg fresh (pre ++ (45 :: f) :: rest) = .ok (true, st') →
    ∃ b, (st'.cells (.opt i)).value = some (.bool b) ∧ (b = false → ∃ v, rest.head? = some v ∧ lowered v = lit "false")

/-- C77 does not hold: `-b file` leaves a boolean option `-b` unset. -/
theorem C77_bool_given_has_value_refuted : ¬ BoolGivenHasValue := by
  intro h
  have hs : summary demo (parse 64 demo fresh [lit "-b", lit "file"]) =
      .ok ⟨true, [(none, []), (none, []), (none, []), (none, [])], [some (.str (lit "file"))], [], [], []⟩ := by decide +kernel
  rcases hp : parse 64 demo fresh [lit "-b", lit "file"] with e | ⟨b, st'⟩
  · rw [hp] at hs; cases hs
  · rw [hp] at hs
    injection hs with hs
    have hb : b = true := congrArg Summary.result hs
    subst hb
    have ho : (List.range demo.options.length).map (fun i => ((st'.cells (.opt i)).value, (st'.cells (.opt i)).values)) =
        [(none, []), (none, []), (none, []), (none, [])] := congrArg Summary.options hs
    have h0 : (st'.cells (.opt 0)).value = none := by
      have := congrArg (fun l : List (Option Val × List Val) => l[0]?) ho
      simp [demo] at this
      exact this.1
    obtain ⟨c, h1, _⟩ := h 64 demo 0 _ none (lit "b") [] [lit "file"] st' (by decide) demo_valid demo_onlyHelpStops demo_named_b rfl
      ⟨(by intro a ha; cases ha), (by intro _ hm; cases hm)⟩ hp
    rw [h0] at h1; cases h1

/-- C77 where it holds: the option is the last argument, or is followed by a boolean, or has one attached. What is missing: an option followed by anything
else stays unset. -/
theorem C77_bool_given_has_value_partial (w : Nat) (cfg : Config) (i : Nat) (o : Opt) (d : Option Bool) (f : Str) (pre rest : List Str) (st' : State)
    (hv : cfg.Valid) (hs : OnlyHelpStops cfg) (hn : NamedShort cfg i o f) (hk : o.kind = .boolean d) (hc : Complete cfg pre) :
    (parse w cfg fresh (pre ++ [45 :: f]) = .ok (true, st') → (st'.cells (.opt i)).value = some (.bool true)) ∧
    (∀ v, lowered v = lit "true" → parse w cfg fresh (pre ++ (45 :: f) :: v :: rest) = .ok (true, st') → (st'.cells (.opt i)).value = some (.bool true)) ∧
    (∀ v, lowered v = lit "false" → parse w cfg fresh (pre ++ (45 :: f) :: v :: rest) = .ok (true, st') → (st'.cells (.opt i)).value = some (.bool false)) ∧
    (∀ v, lowered v = lit "true" → parse w cfg fresh (pre ++ (45 :: (f ++ 61 :: v)) :: rest) = .ok (true, st') → (st'.cells (.opt i)).value = some (.bool true)) ∧
    (∀ v, lowered v = lit "false" → parse w cfg fresh (pre ++ (45 :: (f ++ 61 :: v)) :: rest) = .ok (true, st') → (st'.cells (.opt i)).value = some (.bool false)) := by
  have hnm := hv.options o (List.mem_of_getElem? hn.opt)
  have hr : o.kind.repeats = false := by simp [hk, Kind.repeats]
  have hd := short_not_dashes (p := 45) (t := []) hv hn
  rw [List.append_nil] at hd
  have hlk : lookup cfg (45 :: f) = .ok (some (i, o, none, none)) := by
    have := lookup_short hv hn (p := 45) (.inl rfl)
    simpa [foundValue, Opt.takesNo, hk] using this
  have fin : ∀ (st : State) (x : Val) (args : List Str) (pos pos' : Nat),
      loop w cfg args false (st.setCell (.opt i) (put o (st.cells (.opt i)) x)) pos = .ok (some (false, pos'), st') → (st'.cells (.opt i)).value = some x := by
    intro st x args pos pos' h
    rw [loop_keeps hv h hn.opt hr (by rw [setCell_same]; simp [put, hr]), setCell_same]
    simp [put, hr]
  have sep : ∀ (v : Str) (x : Val), Reads (codeNum w) o.kind v x → parse w cfg fresh (pre ++ (45 :: f) :: v :: rest) = .ok (true, st') →
      (st'.cells (.opt i)).value = some x := by
    intro v x hx h
    obtain ⟨st1, pos1, pos', hp, hl⟩ := accepted_split hv hs hc h
    exact fin _ _ _ _ _ ((loop_bool hd hp (.inl rfl) hk hnm hlk hl).2.1 v rest x rfl hx)
  have att : ∀ (v : Str) (x : Val), v ≠ [] → Reads (codeNum w) o.kind v x → parse w cfg fresh (pre ++ (45 :: (f ++ 61 :: v)) :: rest) = .ok (true, st') →
      (st'.cells (.opt i)).value = some x := by
    intro v x hne hx h
    obtain ⟨st1, pos1, pos', hp, hl⟩ := accepted_split hv hs hc h
    have hdrop : (45 :: (f ++ 61 :: v) : Str).drop (f.length + 1 + 1) = v := by simp [List.drop_append]
    rcases (loop_attached (short_not_dashes hv hn) hp (.inl rfl) (lookup_shortValue hv hn (p := 45) (.inl rfl) (fun _ => hne)) hl).2 with ⟨y, hy, h2⟩ | ⟨hy, _⟩
    · rw [hdrop] at hy
      have : y = x := by
        rw [hk] at hx hy
        rcases hx with ⟨h1, rfl⟩ | ⟨h1, rfl⟩ <;> rcases hy with ⟨h7, rfl⟩ | ⟨h7, rfl⟩ <;> first | rfl | (rw [h1] at h7; exact absurd h7 (by decide))
      subst this
      exact fin _ _ _ _ _ h2
    · rw [hdrop] at hy; exact (hy x hx).elim
  have rt : ∀ v, lowered v = lit "true" → Reads (codeNum w) o.kind v (.bool true) := fun v h => by rw [hk]; exact .inl ⟨h, rfl⟩
  have rf : ∀ v, lowered v = lit "false" → Reads (codeNum w) o.kind v (.bool false) := fun v h => by rw [hk]; exact .inr ⟨h, rfl⟩
  have ne : ∀ (v : Str) (t : String), lowered v = lit t → lit t ≠ [] → v ≠ [] := by
    rintro v t h1 h2 rfl; exact h2 h1.symm
  refine ⟨?_, fun v h => sep v _ (rt v h), fun v h => sep v _ (rf v h), fun v h => att v _ (ne v _ h (by decide)) (rt v h),
    fun v h => att v _ (ne v _ h (by decide)) (rf v h)⟩
  intro h
  obtain ⟨st1, pos1, pos', hp, hl⟩ := accepted_split hv hs hc h
  exact fin _ _ _ _ _ ((loop_bool hd hp (.inl rfl) hk hnm hlk hl).1 rfl)

example : summary demo (parse 64 demo fresh [lit "f", lit "-b", lit "False"]) =
    .ok ⟨true, [(some (.bool false), []), (none, []), (none, []), (none, [])], [some (.str (lit "f"))], [], [], []⟩ := by decide +kernel
example : summary demo (parse 64 demo fresh [lit "f", lit "-b"]) =
    .ok ⟨true, [(some (.bool true), []), (none, []), (none, []), (none, [])], [some (.str (lit "f"))], [], [], []⟩ := by decide +kernel

/-! ### C78: integers -/

/-- The full property: an accepted integer option has the value its text denotes. -/
def IntExact : Prop :=
  ∀ (w : Nat) (cfg : Config) (i : Nat) (o : Opt) (d : Option Int) (l t : Str) (pre rest : List Str) (st' : State), 32 ≤ w → cfg.Valid → OnlyHelpStops cfg →
    Named cfg i o l → o.kind = .int d → Complete cfg pre → t ≠ [] → parse w cfg fresh (pre ++ (45 :: 45 :: (l ++ 61 :: t)) :: rest) = .ok (true, st') →
    ∃ n, Numeral t n ∧ (st'.cells (.opt i)).value = some (.int n)

/-- C78 does not hold: with a 64-bit `long`, "4294967297" gives 1. -/
theorem C78_int_exact_refuted : ¬ IntExact := by
  intro h
  have hs : summary demo (parse 64 demo fresh [lit "f", lit "--num=4294967297"]) =
      .ok ⟨true, [(none, []), (some (.int 1), []), (none, []), (none, [])], [some (.str (lit "f"))], [], [], []⟩ := by decide +kernel
  rcases hp : parse 64 demo fresh [lit "f", lit "--num=4294967297"] with e | ⟨b, st'⟩
  · rw [hp] at hs; cases hs
  · rw [hp] at hs
    injection hs with hs
    have hb : b = true := congrArg Summary.result hs
    subst hb
    have ho : (List.range demo.options.length).map (fun i => ((st'.cells (.opt i)).value, (st'.cells (.opt i)).values)) =
        [(none, []), (some (.int 1), []), (none, []), (none, [])] := congrArg Summary.options hs
    have h0 : (st'.cells (.opt 1)).value = some (.int 1) := by
      have := congrArg (fun l : List (Option Val × List Val) => l[1]?) ho
      simp [demo] at this
      exact this.1
    obtain ⟨n, h1, h2⟩ := h 64 demo 1 _ (some 5) (lit "num") (lit "4294967297") [lit "f"] [] st' (by decide) demo_valid demo_onlyHelpStops demo_named_num rfl
      (complete_of (by intro a ha; simp at ha; subst ha; decide) (by decide)) (by decide) hp
    rw [h0] at h2
    cases h2
    have := (numeral_iff.1 h1).2.2
    exact absurd this (by decide)

/-- C78 for numerals that are an `int`: the option then has exactly that value. In any case the text is a decimal numeral: others are rejected. What is
missing: a numeral out of range is accepted, with a value that is not the number it denotes. -/
theorem C78_int_exact_partial (w : Nat) (cfg : Config) (i : Nat) (o : Opt) (d : Option Int) (l t : Str) (pre rest : List Str) (st' : State) (hw : 32 ≤ w)
    (hv : cfg.Valid) (hs : OnlyHelpStops cfg) (hn : Named cfg i o l) (hk : o.kind = .int d) (hc : Complete cfg pre) (ht : t ≠ [])
    (h : parse w cfg fresh (pre ++ (45 :: 45 :: (l ++ 61 :: t)) :: rest) = .ok (true, st')) :
    ∃ n m, Numeral t n ∧ (st'.cells (.opt i)).value = some (.int m) ∧ IsInt m ∧ (IsInt n → m = n) := by
  have hr : o.kind.repeats = false := by simp [hk, Kind.repeats]
  obtain ⟨st1, pos1, pos', hp, hl⟩ := accepted_split hv hs hc h
  have hdrop : (45 :: 45 :: (l ++ 61 :: t) : Str).drop (l.length + 2 + 1) = t := by simp [List.drop_append]
  rcases (loop_attached (not_dashes_long (by simp)) hp (.inl rfl) (lookup_longValue hn (fun _ => ht)) hl).2 with ⟨y, hy, h2⟩ | ⟨_, hy⟩
  · rw [hdrop, hk] at hy
    obtain ⟨n, m, h3, h4, rfl⟩ := hy
    obtain ⟨h5, h6⟩ := codeNum_intNum hw h4
    refine ⟨n, m, h3, ?_, h5, h6⟩
    rw [loop_keeps hv h2 hn.opt hr (by rw [setCell_same]; simp [put, hr]), setCell_same]
    simp [put, hr]
  · simp [Opt.canOmit, hk] at hy

/-- Every numeral is accepted: `--num=t` alone, with no positionals wanted. -/
theorem C78_numerals_accepted (w : Nat) (cfg : Config) (i : Nat) (o : Opt) (d : Option Int) (l t : Str) (n : Int) (hw : 32 ≤ w) (hv : cfg.Valid)
    (hn : Named cfg i o l) (hk : o.kind = .int d) (hp : cfg.positionals = []) (ht : Numeral t n) (hi : IsInt n) :
    ∃ st', parse w cfg fresh [45 :: 45 :: (l ++ 61 :: t)] = .ok (true, st') ∧ (st'.cells (.opt i)).value = some (.int n) := by
  have hne : t ≠ [] := by rintro rfl; have := (numeral_iff.1 ht).1; simp [signOf] at this
  have hr : o.kind.repeats = false := by simp [hk, Kind.repeats]
  have hm : o.mustOmit = false := by simp [Opt.mustOmit, hk]
  have hl := lookup_longValue (v := t) hn (fun _ => hne)
  have hst := stepArg_foundSep (w := w) (st := fresh) (pos := 0) (next := none) (not_dashes_long (by simp)) rfl (.inl rfl) hl
  have hdrop : (45 :: 45 :: (l ++ 61 :: t) : Str).drop (l.length + 2 + 1) = t := by simp [List.drop_append]
  have hwr : willRepeat o (fresh.cells (.opt i)) = true := by simp [willRepeat, hk, fresh]
  rw [hwr, hm, hdrop] at hst
  simp only [if_true, Bool.false_eq_true, if_false] at hst
  have hnum : ∀ m, Numeral t m → m = n := by
    intro m hm; rw [(numeral_iff.1 hm).2.2, (numeral_iff.1 ht).2.2]
  rcases finish_text w fresh (.opt i) o 0 t none hm with ⟨x, hx, e⟩ | ⟨hx, _⟩
  · rw [hk] at hx
    obtain ⟨n', m, h3, h4, rfl⟩ := hx
    rw [hnum n' h3] at h4
    have := (codeNum_intNum hw h4).2 hi
    subst this
    rw [e] at hst
    refine ⟨fresh.setCell (.opt i) (put o (fresh.cells (.opt i)) (.int m)), ?_, by rw [setCell_same]; simp [put, hr]⟩
    unfold parse
    simp only [loop, List.head?_nil, hst, bind, Except.bind, Bool.false_eq_true, if_false, hp, List.getElem?_nil]
    rw [if_neg]
    rintro ⟨hh, hf⟩
    have h0 := hv.help hh
    have : i ≠ 0 := by
      rintro rfl
      rw [hn.opt] at h0; cases h0; cases hk
    rw [setCell_other _ _ (by simp [Ne.symm this])] at hf
    exact absurd hf (by decide)
  · refine (hx (.int (toInt32 (clampLong w n))) ?_).elim
    rw [hk]
    exact ⟨n, _, ht, rfl, rfl⟩

example : Numeral (lit " -42") (-42) := by
  refine .space (.inl (by decide)) (Numeral.minus (n := 42) ?_)
  exact Digits.more (ds := [52]) (m := 4) (n := 2) (.one ⟨by decide, by decide⟩) ⟨by decide, by decide⟩
example : summary demo (parse 64 demo fresh [lit "f", lit "-n", lit " -42"]) =
    .ok ⟨true, [(none, []), (some (.int (-42)), []), (none, []), (none, [])], [some (.str (lit "f"))], [], [], []⟩ := by decide +kernel
example : summary demo (parse 64 demo fresh [lit "f", lit "-n", lit "12x"]) =
    .ok ⟨false, [(none, []), (none, []), (none, []), (none, [])], [some (.str (lit "f"))], lit "Argument 'num' did not recognize value: 12x", [], []⟩ := by decide +kernel

/-! ### C79: reset -/

/-- Same result, same option values, same extra and passthrough arguments, same message. -/
def SameOutcome (cfg : Config) (r1 r2 : Exec (Bool × State)) : Prop := summary cfg r1 = summary cfg r2

/-- The full property: a parser that was used and reset behaves like a new one. -/
def ResetIsNew : Prop :=
  ∀ (w : Nat) (cfg : Config) (args1 args2 : List Str) (b : Bool) (st1 : State), 32 ≤ w → cfg.Valid → parse w cfg fresh args1 = .ok (b, st1) →
    SameOutcome cfg (parse w cfg (reset cfg st1) args2) (parse w cfg fresh args2)

/-- C79 does not hold: extra arguments of the first parse stay (and so do passthrough arguments, the passthrough mode and the error message). -/
theorem C79_reset_is_new_refuted : ¬ ResetIsNew := by
  intro h
  have hs : summary demo (match parse 64 demo fresh [lit "f", lit "--", lit "x"] with
      | .error e => .error e
      | .ok (_, st1) => parse 64 demo (reset demo st1) [lit "g"]) ≠ summary demo (parse 64 demo fresh [lit "g"]) := by decide +kernel
  rcases hp : parse 64 demo fresh [lit "f", lit "--", lit "x"] with e | ⟨b, st'⟩
  · have : summary demo (parse 64 demo fresh [lit "f", lit "--", lit "x"]) ≠ .error e := by
      intro he
      have h2 : (match summary demo (parse 64 demo fresh [lit "f", lit "--", lit "x"]) with | .ok _ => true | .error _ => false) = true := by decide +kernel
      rw [he] at h2; cases h2
    rw [hp] at this; exact this rfl
  · rw [hp] at hs
    exact hs (h 64 demo _ _ b st' (by decide) demo_valid hp)

/-- C79 for parsers that have not seen a `--`: after `reset()`, from any state, parsing gives the same result and option values as on a new parser; what was
collected as extra or passthrough arguments before is still there in front, and nothing else. -/
theorem C79_reset_is_new_partial (w : Nat) (cfg : Config) (st1 : State) (args : List Str) (hv : cfg.Valid) (hp : st1.hasPass = false) :
    (∃ f, parse w cfg (reset cfg st1) args = .error f ∧ parse w cfg fresh args = .error f) ∨
    (∃ b sa sb, parse w cfg (reset cfg st1) args = .ok (b, sa) ∧ parse w cfg fresh args = .ok (b, sb) ∧
      (∀ i, i < cfg.options.length → sa.cells (.opt i) = sb.cells (.opt i)) ∧ (∀ i, i < cfg.positionals.length → sa.cells (.pos i) = sb.cells (.pos i)) ∧
      sa.extra = st1.extra ++ sb.extra ∧ sa.pass = st1.pass ++ sb.pass) := by
  have ha : Alike cfg st1.extra st1.pass (reset cfg st1) fresh := by
    refine ⟨?_, hp, by simp [reset, fresh], by simp [reset, fresh]⟩
    intro r hr
    cases r with
    | opt i => simp only [reset, Registered] at hr ⊢; simp [hr, fresh]
    | pos i => simp only [reset, Registered] at hr ⊢; simp [hr, fresh]
  rcases parse_alike (w := w) hv ha args with ⟨f, h1, h2⟩ | ⟨r, a, b, h1, h2, h3⟩
  · exact .inl ⟨f, h1, h2⟩
  · exact .inr ⟨r, a, b, h1, h2, fun i hi => h3.cells (.opt i) hi, fun i hi => h3.cells (.pos i) hi, h3.extra, h3.pass⟩

example : summary demo (match parse 64 demo fresh [lit "f", lit "-n=3", lit "--on"] with
      | .error e => .error e
      | .ok (_, st1) => parse 64 demo (reset demo st1) [lit "g", lit "--on"]) = summary demo (parse 64 demo fresh [lit "g", lit "--on"]) := by decide +kernel

end Verif.ArgParser
