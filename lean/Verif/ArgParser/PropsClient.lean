import Verif.ArgParser.ClientBuiltin
import Verif.ArgParser.Spelled
/-!
# C138: what a class derived from `IOption` may rely on
-/
namespace Verif.ArgParser.Client
open Verif Verif.ArgParser

variable {α σ : Type}

/-- C138. A null value is offered only to an object that has just answered that it must not, or need not, have a value. -/
theorem C138_null_only_if_omissible (V : Virt α σ) (cfg : Config α) (p : PState) (args : List Str) (s : σ) :
    NullOnlyIfOmissible (calls V cfg p args s) := by
  intro a o r b heq
  refine parse_back (Q := fun a e => e.query = .consume none →
    ∃ a', a = a' ++ [⟨e.obj, .mustOmit, some true⟩] ∨ a = a' ++ [⟨e.obj, .canOmit, some true⟩]) ?_ ?_ ?_
    (parsed V cfg p args s) a _ b heq rfl
  · intro x a e h hq
    obtain ⟨a', h⟩ := h hq
    exact ⟨x ++ a', by rcases h with h | h <;> simp [h]⟩
  · intro a e hg hq
    simp [Event.gives, hq] at hg
  · intro pos arg next o pre v r _ _ hl hq
    simp only [Query.consume.injEq] at hq
    subst hq
    cases hl with
    | @plain b value pre _ _ _ _ hl =>
      cases hl with
      | last _ _ => exact ⟨[⟨o, .takesNo, some b⟩, ⟨o, .willRepeat, some true⟩], Or.inr rfl⟩
      | bare _ => exact ⟨[⟨o, .takesNo, some b⟩, ⟨o, .willRepeat, some true⟩], Or.inl rfl⟩

/-- C138. A value is offered to a positional, or to an object that has just answered that it will repeat. -/
theorem C138_only_after_will_repeat (V : Virt α σ) (cfg : Config α) (p : PState) (args : List Str) (s : σ) :
    OnlyAfterWillRepeat cfg.positionals (calls V cfg p args s) := by
  intro a o v r b heq
  refine parse_back (Q := fun a e => ∀ v, e.query = .consume v → e.obj ∈ cfg.positionals ∨
      ∃ a' m, a = a' ++ ⟨e.obj, .willRepeat, some true⟩ :: m ∧ ∀ x ∈ m, x.obj = e.obj ∧ (x.query = .mustOmit ∨ x.query = .canOmit)) ?_ ?_ ?_
    (parsed V cfg p args s) a _ b heq v rfl
  · intro x a e h v hq
    rcases h v hq with h | ⟨a', m, h, hm⟩
    · exact Or.inl h
    · exact Or.inr ⟨x ++ a', m, by simp [h], hm⟩
  · intro a e hg v hq
    simp [Event.gives, hq] at hg
  · intro pos arg next o pre v r _ _ hl v' hq
    cases hl with
    | positional hp => exact Or.inl (List.mem_of_getElem? hp)
    | attached k ho =>
      rename_i b
      exact Or.inr ⟨[⟨o, .takesNo, some b⟩], [⟨o, .mustOmit, some false⟩], rfl, by simp⟩
    | plain ho hv hb hl =>
      rename_i b value pre
      refine Or.inr ⟨[⟨o, .takesNo, some b⟩], pre, rfl, ?_⟩
      cases hl <;> simp

/-- C138. The texts offered come from the command line (or are "true" and "false"). -/
theorem C138_texts_from_line (V : Virt α σ) (cfg : Config α) (p : PState) (args : List Str) (s : σ) :
    TextsFromLine args (calls V cfg p args s) := by
  intro e he v hq
  obtain ⟨a, b, heq⟩ := List.append_of_mem he
  refine parse_back (Q := fun _ e => ∀ v, e.query = .consume (some v) → v = sTrue ∨ v = sFalse ∨ ∃ arg ∈ args, v <:+ arg) ?_ ?_ ?_
    (parsed V cfg p args s) a e b heq v hq
  · intro _ _ _ h
    exact h
  · intro a e hg v hq
    simp [Event.gives, hq] at hg
  · intro pos arg next o pre v r ha hn hl t hq
    simp only [Query.consume.injEq] at hq
    subst hq
    cases hl with
    | positional _ => exact Or.inr (Or.inr ⟨_, ha, List.suffix_refl _⟩)
    | attached k _ => exact Or.inr (Or.inr ⟨arg, ha, List.drop_suffix _ _⟩)
    | plain _ hv _ hl =>
      cases hl with
      | attached h =>
        rcases hv with hv | hv | hv <;> rw [hv] at h <;> simp at h
        · exact Or.inl h.symm
        · exact Or.inr (Or.inl h.symm)
      | following _ h => exact Or.inr (Or.inr ⟨t, hn t h, List.suffix_refl t⟩)

/-- C138. At most one value is offered per argument of the line. -/
theorem C138_one_offer_per_argument (V : Virt α σ) (cfg : Config α) (p : PState) (args : List Str) (s : σ) :
    ((calls V cfg p args s).filter Event.gives).length ≤ args.length := by
  have := parse_count (parsed V cfg p args s)
  simpa [offered] using this

/-- C138. The positionals are offered values in the order they were registered, without a gap; all of them when the line is accepted and no object has halted the
parser. -/
theorem C138_positionals_in_order [DecidableEq α] (V : Virt α σ) (cfg : Config α) (hd : ∀ o ∈ cfg.options, o ∉ cfg.positionals)
    (p : PState) (args : List Str) (s : σ) :
    (offered (calls V cfg p args s)).filter (fun o => decide (o ∈ cfg.positionals)) <+: cfg.positionals ∧
    ∀ p', outcome V cfg p args s = .ok (true, p') → (∀ e ∈ calls V cfg p args s, e.query = .halts → e.answer ≠ some true) →
      (offered (calls V cfg p args s)).filter (fun o => decide (o ∈ cfg.positionals)) = cfg.positionals := by
  have hp := parsed V cfg p args s
  have halted : ∀ {pos p' ev}, Looped cfg args false p 0 (.ok (some (true, pos), p')) ev → ∃ e ∈ ev, e.query = .halts ∧ e.answer = some true := by
    intro pos p' ev h
    have stopped : ∀ {p : PState} {o : α} {pos took p' pos' ev}, Stopped p o pos took (.ok (.halt p' pos')) ev →
        ∃ e ∈ ev, e.query = .halts ∧ e.answer = some true := by
      intro p o pos took p' pos' ev h
      cases h
      exact ⟨_, List.mem_singleton.2 rfl, rfl, rfl⟩
    have given : ∀ {p : PState} {o : α} {pos v took p' pos' ev}, Given cfg p o pos v took (.ok (.halt p' pos')) ev →
        ∃ e ∈ ev, e.query = .halts ∧ e.answer = some true := by
      intro p o pos v took p' pos' ev h
      cases h with
      | good h => obtain ⟨e, he, h⟩ := stopped h; exact ⟨e, by simp [he], h⟩
      | waived h => obtain ⟨e, he, h⟩ := stopped h; exact ⟨e, by simp [he], h⟩
    have finished : ∀ {p : PState} {o : α} {pos value next p' pos' ev}, Finished cfg p o pos value next (.ok (.halt p' pos')) ev →
        ∃ e ∈ ev, e.query = .halts ∧ e.answer = some true := by
      intro p o pos value next p' pos' ev h
      cases h with
      | attached _ h => exact given h
      | last _ _ h => obtain ⟨e, he, h⟩ := given h; exact ⟨e, by simp [he], h⟩
      | bare _ _ h => obtain ⟨e, he, h⟩ := given h; exact ⟨e, by simp [he], h⟩
      | following _ _ h => obtain ⟨e, he, h⟩ := given h; exact ⟨e, by simp [he], h⟩
    have rounded : ∀ {p : PState} {pos arg next p' pos' ev}, Rounded cfg p pos arg next (.ok (.halt p' pos')) ev →
        ∃ e ∈ ev, e.query = .halts ∧ e.answer = some true := by
      intro p pos arg next p' pos' ev h
      cases h with
      | attached _ h => obtain ⟨e, he, h⟩ := finished h; exact ⟨e, by simp [he], h⟩
      | plain _ _ _ h => obtain ⟨e, he, h⟩ := finished h; exact ⟨e, by simp [he], h⟩
      | positional _ h => exact finished h
    have : ∀ {args skip p pos res ev}, Looped cfg args skip p pos res ev → ∀ pos' p', res = .ok (some (true, pos'), p') →
        ∃ e ∈ ev, e.query = .halts ∧ e.answer = some true := by
      intro args skip p pos res ev h
      induction h with
      | done => intro _ _ h; cases h
      | skipped _ ih => exact ih
      | broken _ => intro _ _ h; cases h
      | fail _ => intro _ _ h; cases h
      | halt h => intro _ _ _; exact rounded h
      | next _ _ ih =>
        intro _ _ h
        obtain ⟨e, he, h⟩ := ih _ _ h
        exact ⟨e, by simp [he], h⟩
    exact this h _ _ rfl
  have pre : ∀ {res ev}, Looped cfg args false p 0 res ev → posOffered cfg ev <+: cfg.positionals := by
    intro res ev h
    obtain ⟨n, h, _⟩ := loop_pos hd h
    rw [h]
    exact List.take_prefix _ _
  have val : ∀ (ev : List (Event α)) o x, posOffered cfg (ev ++ [⟨o, .value, x⟩]) = posOffered cfg ev := by
    intro ev o x
    rw [posOffered_append]
    simp [posOffered, offered, Event.gives]
  have all : ∀ {h pos p' ev}, Looped cfg args false p 0 (.ok (some (h, pos), p')) ev → (h = false → cfg.positionals[pos]? = none) →
      (∀ e ∈ ev, e.query = .halts → e.answer ≠ some true) → posOffered cfg ev = cfg.positionals := by
    intro h pos p' ev hl hh hq
    cases h with
    | true =>
      obtain ⟨e, he, h1, h2⟩ := halted hl
      exact absurd h2 (hq e he h1)
    | false =>
      obtain ⟨n, h, hn⟩ := loop_pos hd hl
      have hn := hn _ _ _ rfl
      have := List.getElem?_eq_none_iff.1 (hh rfl)
      rw [h, List.drop_zero, List.take_of_length_le (by omega)]
  show posOffered cfg _ <+: _ ∧ ∀ p', _ → _ → posOffered cfg _ = _
  generalize calls V cfg p args s = ev at hp
  generalize outcome V cfg p args s = res at hp
  cases hp with
  | broken h => exact ⟨pre h, fun _ h => by cases h⟩
  | fail h => exact ⟨pre h, fun _ h => by cases h⟩
  | missing h _ => exact ⟨pre h, fun _ h => by cases h⟩
  | fine h hh _ => exact ⟨pre h, fun _ _ hq => all h hh hq⟩
  | helped h hh _ =>
    refine ⟨by rw [val]; exact pre h, fun _ _ hq => ?_⟩
    rw [val]
    exact all h hh fun e he => hq e (by simp [he])
  | unhelped h hh _ => exact ⟨by rw [val]; exact pre h, fun _ h => by cases h⟩

/-- C138. Once an object has answered that it halts the parser, no option is called any more and nothing else can fail the line: only the parser's own help option is
asked for its value. -/
theorem C138_halting_is_final (V : Virt α σ) (cfg : Config α) (p : PState) (args : List Str) (s : σ) (a b : List (Event α)) (o : α)
    (h : calls V cfg p args s = a ++ ⟨o, .halts, some true⟩ :: b) :
    (cfg.help = none ∧ b = [] ∧ ∃ p', outcome V cfg p args s = .ok (true, p')) ∨
    (∃ hp x, cfg.help = some hp ∧ b = [⟨hp, .value, some x⟩] ∧ ∃ p', outcome V cfg p args s = .ok (!x, p')) ∨
    (∃ hp e, cfg.help = some hp ∧ b = [⟨hp, .value, none⟩] ∧ outcome V cfg p args s = .error e) := by
  have hp := parsed V cfg p args s
  rw [h] at hp
  generalize outcome V cfg p args s = res at hp ⊢
  generalize hev : a ++ ⟨o, .halts, some true⟩ :: b = ev at hp
  have no : ∀ {res}, Looped cfg args false p 0 res ev → ∃ p' pos, res = .ok (some (true, pos), p') := by
    intro res h
    exact ((loop_ahead h a _ b hev.symm).1 rfl rfl).2
  cases hp with
  | broken h => obtain ⟨_, _, h⟩ := no h; cases h
  | fail h => obtain ⟨_, _, h⟩ := no h; cases h
  | missing h _ => obtain ⟨_, _, h⟩ := no h; cases h
  | fine h _ hh =>
    exact Or.inl ⟨hh, ((loop_ahead h a _ b hev.symm).1 rfl rfl).1, _, rfl⟩
  | helped h _ hh =>
    rcases split_cases hev.symm with ⟨c, h1, h2⟩ | ⟨c, h1, h2⟩
    · have := ((loop_ahead h a _ c h1).1 rfl rfl).1
      subst this
      exact Or.inr (Or.inl ⟨_, _, hh, by simpa using h2, _, rfl⟩)
    · cases c <;> simp at h2
  | unhelped h _ hh =>
    rcases split_cases hev.symm with ⟨c, h1, h2⟩ | ⟨c, h1, h2⟩
    · have := ((loop_ahead h a _ c h1).1 rfl rfl).1
      subst this
      exact Or.inr (Or.inr ⟨_, _, hh, by simpa using h2, rfl⟩)
    · cases c <;> simp at h2

/-- C138. An object that answers that it will not repeat fails the line at once, with the message that names it. -/
theorem C138_no_repeat_fails (V : Virt α σ) (cfg : Config α) (p : PState) (args : List Str) (s : σ) (a b : List (Event α)) (o : α)
    (h : calls V cfg p args s = a ++ ⟨o, .willRepeat, some false⟩ :: b) :
    b = [] ∧ ∃ p', outcome V cfg p args s = .ok (false, p') ∧
      p'.error = lit "Option '" ++ (cfg.form o).pretty ++ lit "' was specified more than once." := by
  have hp := parsed V cfg p args s
  rw [h] at hp
  generalize outcome V cfg p args s = res at hp ⊢
  generalize hev : a ++ ⟨o, .willRepeat, some false⟩ :: b = ev at hp
  have no : ∀ {res ev'}, Looped cfg args false p 0 res ev' → ∀ c, ev' = a ++ ⟨o, .willRepeat, some false⟩ :: c →
      c = [] ∧ ∃ p', res = .ok (none, p') ∧ p'.error = msgTwice (cfg.form o) := by
    intro res ev' h c heq
    exact (loop_ahead h a _ c heq).2.1 rfl rfl
  have val : ∀ {res ev' x y}, Looped cfg args false p 0 (.ok res) ev' → ev = ev' ++ [⟨x, .value, y⟩] → ∃ p', res = (none, p') := by
    intro res ev' x y h heq
    rw [heq] at hev
    rcases split_cases hev.symm with ⟨c, h1, h2⟩ | ⟨c, h1, h2⟩
    · obtain ⟨_, p', h, _⟩ := no h c h1
      exact ⟨p', by injection h⟩
    · cases c <;> simp at h2
  cases hp with
  | broken h => obtain ⟨_, _, h, _⟩ := no h b hev.symm; cases h
  | fail h =>
    obtain ⟨hb, p', h, hm⟩ := no h b hev.symm
    cases h
    exact ⟨hb, _, rfl, hm⟩
  | missing h _ => obtain ⟨_, _, h, _⟩ := no h b hev.symm; cases h
  | fine h _ _ => obtain ⟨_, _, h, _⟩ := no h b hev.symm; cases h
  | helped h _ _ => obtain ⟨_, h⟩ := val h rfl; cases h
  | unhelped h _ _ => obtain ⟨_, h⟩ := val h rfl; cases h

/-- C138. An object that refuses a value is asked whether it can omit one; if not, the line fails at once, with the message that names the object and the value. A
refused null value is undefined behaviour then. -/
theorem C138_refusal_partial (V : Virt α σ) (cfg : Config α) (p : PState) (args : List Str) (s : σ) (a b : List (Event α)) (o : α) (v : Option Str)
    (h : calls V cfg p args s = a ++ ⟨o, .consume v, some false⟩ :: b) :
    ∃ ans b', b = ⟨o, .canOmit, ans⟩ :: b' ∧ (ans = some false → b' = [] ∧
      (v = none ∧ outcome V cfg p args s = .error .nullDeref ∨
       ∃ t p', v = some t ∧ outcome V cfg p args s = .ok (false, p') ∧
        p'.error = lit "Argument '" ++ (cfg.form o).pretty ++ lit "' did not recognize value: " ++ t)) := by
  have hp := parsed V cfg p args s
  rw [h] at hp
  generalize outcome V cfg p args s = res at hp ⊢
  generalize hev : a ++ ⟨o, .consume v, some false⟩ :: b = ev at hp
  have key : ∀ {res ev'}, Looped cfg args false p 0 res ev' → ∀ c, ev' = a ++ ⟨o, .consume v, some false⟩ :: c → _ :=
    fun h c heq => (loop_ahead h a _ c heq).2.2 v rfl rfl
  have val : ∀ {x p' res' ev' y z}, Looped cfg args false p 0 (.ok (some x, p')) ev' → ev = ev' ++ [⟨y, .value, z⟩] →
      ∃ ans b', b = ⟨o, .canOmit, ans⟩ :: b' ∧ (ans = some false → b' = [] ∧
      (v = none ∧ res' = (.error .nullDeref : Except Fault (Bool × PState)) ∨
       ∃ t p', v = some t ∧ res' = .ok (false, p') ∧
        p'.error = lit "Argument '" ++ (cfg.form o).pretty ++ lit "' did not recognize value: " ++ t)) := by
    intro x p' res' ev' y z h heq
    rw [heq] at hev
    rcases split_cases hev.symm with ⟨c, h1, h2⟩ | ⟨c, h1, h2⟩
    · obtain ⟨ans, b', hb, hh⟩ := key h c h1
      refine ⟨ans, b' ++ [⟨y, .value, z⟩], by rw [h2, hb]; rfl, fun hans => ?_⟩
      rcases (hh hans).2 with ⟨_, h⟩ | ⟨_, _, _, h, _⟩ <;> cases h
    · cases c <;> simp at h2
  cases hp with
  | broken h =>
    obtain ⟨ans, b', hb, hh⟩ := key h b hev.symm
    refine ⟨ans, b', hb, fun hans => ⟨(hh hans).1, ?_⟩⟩
    rcases (hh hans).2 with ⟨hv, h⟩ | ⟨_, _, _, h, _⟩
    · cases h
      exact Or.inl ⟨hv, rfl⟩
    · cases h
  | fail h =>
    obtain ⟨ans, b', hb, hh⟩ := key h b hev.symm
    refine ⟨ans, b', hb, fun hans => ⟨(hh hans).1, ?_⟩⟩
    rcases (hh hans).2 with ⟨hv, h⟩ | ⟨t, p', ht, h, hm⟩
    · cases h
    · cases h
      exact Or.inr ⟨t, _, ht, rfl, hm⟩
  | missing h _ =>
    obtain ⟨ans, b', hb, hh⟩ := key h b hev.symm
    refine ⟨ans, b', hb, fun hans => ?_⟩
    rcases (hh hans).2 with ⟨_, h⟩ | ⟨_, _, _, h, _⟩ <;> cases h
  | fine h _ _ =>
    obtain ⟨ans, b', hb, hh⟩ := key h b hev.symm
    refine ⟨ans, b', hb, fun hans => ?_⟩
    rcases (hh hans).2 with ⟨_, h⟩ | ⟨_, _, _, h, _⟩ <;> cases h
  | helped h _ _ => exact val h rfl
  | unhelped h _ _ => exact val h rfl

/-- C138. Where undefined behaviour can come from when the classes themselves are sound: an argument that starts with "--no-" (see C71), or an object that is offered
null, refuses it, and says that it cannot omit a value. What is missing from the full claim: these two cases. -/
theorem C138_undefined_behaviour_partial (V : Virt α σ) (hV : Sound V) (cfg : Config α) (p : PState) (args : List Str) (s : σ) (f : Fault)
    (h : outcome V cfg p args s = .error f) :
    f = .nullDeref ∧ ((∃ arg ∈ args, sNo <+: arg) ∨
      ∃ a o, calls V cfg p args s = a ++ [⟨o, .consume none, some false⟩, ⟨o, .canOmit, some false⟩]) := by
  have hp := parsed V cfg p args s
  rw [h] at hp
  rcases parse_error hp with ⟨e, he, ha⟩ | ⟨⟨a, o, ha⟩, hf⟩ | ⟨ha, hf⟩
  · exact absurd ha (calls_answered V cfg p args s hV e he)
  · exact ⟨hf, Or.inr ⟨a, o, ha⟩⟩
  · exact ⟨hf, Or.inl ha⟩

/-- C138. A rule for authors of option classes: if every class either accepts null whenever it is offered or never says that it cannot omit a value, then no command line
without "--no-" makes `parse` undefined. What is missing from the full claim: classes that do not follow the rule. -/
theorem C138_rule_for_classes_partial (V : Virt α σ) (hV : Sound V)
    (hc : ∀ o, (∀ s, (V o (.consume none) s).1 ≠ .ok false) ∨ (∀ s, (V o .canOmit s).1 ≠ .ok false))
    (cfg : Config α) (p : PState) (args : List Str) (hno : ∀ arg ∈ args, ¬ sNo <+: arg) (s : σ) :
    ∃ r, outcome V cfg p args s = .ok r := by
  cases h : outcome V cfg p args s with
  | ok r => exact ⟨r, rfl⟩
  | error f =>
    exfalso
    obtain ⟨_, ⟨arg, ha, hn⟩ | ⟨a, o, hcalls⟩⟩ := C138_undefined_behaviour_partial V hV cfg p args s f h
    · exact hno arg ha hn
    · have from_ : ∀ e ∈ calls V cfg p args s, ∃ s0, e.answer = answered (V e.obj e.query s0).1 := by
        intro e he
        rcases (parse_mirrors V cfg p args [] s).2.2 e he with h | h
        · cases h
        · exact h
      rcases hc o with hc | hc
      · obtain ⟨s0, h0⟩ := from_ ⟨o, .consume none, some false⟩ (by rw [hcalls]; simp)
        obtain ⟨b, hb⟩ := hV o (.consume none) s0
        simp only [hb, answered, Option.some.injEq] at h0
        rw [← h0] at hb
        exact hc s0 hb
      · obtain ⟨s0, h0⟩ := from_ ⟨o, .canOmit, some false⟩ (by rw [hcalls]; simp)
        obtain ⟨b, hb⟩ := hV o .canOmit s0
        simp only [hb, answered, Option.some.injEq] at h0
        rw [← h0] at hb
        exact hc s0 hb

/-- A class whose objects must not have a value (`mustOmitValue`), leave `canOmitValue` as `IOption` has it, and refuse everything. -/
def refuser : Virt Unit Unit := fun _ q s =>
  match q with
  | .mustOmit | .willRepeat => (.ok true, s)
  | _ => (.ok false, s)

/-- C138. The full claim is false: a class may be sound in itself and `parse` still dereferences null ("-x y", where "-x" names such an object). -/
theorem C138_parse_safe_refuted : ¬ ParseSafe := by
  intro h
  obtain ⟨r, hr⟩ := h Unit Unit refuser
    { options := [()], positionals := [], form := fun _ => ⟨some [120], none, none⟩ } {} [[45, 120], [121]] ()
    (by intro o q s; cases q <;> exact ⟨_, rfl⟩) (by decide)
  have : (outcome refuser { options := [()], positionals := [], form := fun _ => ⟨some [120], none, none⟩ } {} [[45, 120], [121]] ()).toOption =
    none := by decide +kernel
  rw [hr] at this
  cases this

/-- C138. The record of the calls changes nothing: with and without it, `parse` returns the same and leaves the same world. -/
theorem C138_record_is_passive (V : Virt α σ) (cfg : Config α) (p : PState) (args : List Str) (s : σ) :
    (parse (recorded V) cfg p args ([], s)).1 = (parse V cfg p args s).1 ∧
    (parse (recorded V) cfg p args ([], s)).2.2 = (parse V cfg p args s).2 :=
  ⟨(parse_mirrors V cfg p args [] s).1, (parse_mirrors V cfg p args [] s).2.1⟩

/-- C138. The header's own classes are a case of this: on a parser that has only these, `parse` over objects and the `parse` of `Model.lean` agree on every command line,
in result, parser state and option values. -/
theorem C138_header_classes (w : Nat) (cfg : ArgParser.Config) (hh : cfg.help = true → cfg.options[0]? = some helpOpt) (st : State) (args : List Str) :
    ArgParser.parse w cfg st args =
      joinedResult (parse (headerClasses w cfg) (objects cfg) ⟨st.error, st.extra, st.pass, st.hasPass⟩ args st.cells) :=
  parse_objects (w := w) hh ⟨st.error, st.extra, st.pass, st.hasPass⟩ st.cells args

theorem formIs_long {form : Option Str} {text rest : Str} : formIs form (text ++ rest) text.length = true ↔ form = some text := by
  constructor
  · intro h
    simpa using formIs_iff h
  · rintro rfl
    simp [formIs]

theorem resolve_long {cfg : Config α} {f arg : Str} {v : Option Str} {o : α} {l1 l2 : List α} (hs : LongSpelling cfg f arg v)
    (hl : cfg.options = l1 ++ o :: l2) (h1 : ∀ x ∈ l1, (cfg.form x).long ≠ some f) (ho : (cfg.form o).long = some f) :
    ∃ sep, resolve cfg arg = (some o, sep) := by
  have hfind : ∀ rest, findLong cfg (f ++ rest) f.length = some o := by
    intro rest
    unfold findLong
    rw [hl, List.find?_append, List.find?_eq_none.2, List.find?_cons_of_pos]
    · rfl
    · exact formIs_long.2 ho
    · intro x hx
      rw [formIs_long]
      exact h1 x hx
  cases hs with
  | plain hf hi =>
    have hsep : sepOf cfg ([45, 45] ++ f) = none :=
      ArgParser.sepOf_whole (cfg := { options := [], positionals := [], inlineValues := cfg.inlineValues }) (a := [45, 45] ++ f)
        (by simpa using hf) (by simpa using hi)
    refine ⟨none, ?_⟩
    unfold resolve
    rw [hsep]
    have h0 : ([45, 45] ++ f : Str)[0]? = some 45 ∧ ([45, 45] ++ f : Str)[1]? = some 45 := by simp
    simp only [if_pos h0, Prod.mk.injEq, and_true]
    have := hfind []
    simpa using this
  | value v hf hi =>
    have hsep : sepOf cfg ([45, 45] ++ f ++ 61 :: v) = some ([45, 45] ++ f).length :=
      ArgParser.sepOf_equals (cfg := { options := [], positionals := [], inlineValues := cfg.inlineValues }) (n := [45, 45] ++ f) (v := v)
        (by simpa using hf) hi
    refine ⟨some ([45, 45] ++ f).length, ?_⟩
    unfold resolve
    rw [hsep]
    have h0 : ([45, 45] ++ f ++ 61 :: v : Str)[0]? = some 45 ∧ ([45, 45] ++ f ++ 61 :: v : Str)[1]? = some 45 := by simp
    simp only [if_pos h0, Prod.mk.injEq, and_true]
    have := hfind (61 :: v)
    simpa using this

/-- C138. An argument `--f` or `--f=v` goes to the object registered first among those with the long form `f`: that object is called first. -/
theorem C138_first_registered (V : Virt α σ) (cfg : Config α) (p : PState) (s : σ) (f arg : Str) (v : Option Str) (rest : List Str) (o : α) (l1 l2 : List α)
    (hs : LongSpelling cfg f arg v) (hl : cfg.options = l1 ++ o :: l2) (h1 : ∀ x ∈ l1, (cfg.form x).long ≠ some f)
    (ho : (cfg.form o).long = some f) (hp : p.hasPass = false) (hf : f ≠ []) :
    ∃ x tr, calls V cfg p (arg :: rest) s = ⟨o, .takesNo, x⟩ :: tr := by
  obtain ⟨sep, hr⟩ := resolve_long hs hl h1 ho
  have hdd : arg ≠ [45, 45] ∧ arg[0]? = some 45 := by
    cases hs with
    | plain _ _ => exact ⟨by simpa using hf, by simp⟩
    | value v _ _ => exact ⟨by simp, by simp⟩
  have hstep : Emits (stepArg (recorded V) cfg p 0 arg rest.head?) (fun _ ev => ∃ x tr, ev = ⟨o, .takesNo, x⟩ :: tr) := by
    unfold stepArg
    rw [if_neg (by simp [hdd.1]), if_neg (by simp [hp]), if_pos (Or.inl hdd.2)]
    unfold lookup
    rw [hr]
    refine Emits.bind (Q := fun r ev => (∃ x, ev = [⟨o, .takesNo, x⟩]) ∧ ∀ y, r = .ok y → ∃ b : Bool, y = some (o, if b then some sTrue else none, sep)) ?_ ?_ ?_
    · refine Emits.call ?_ ?_
      · intro b
        exact Emits.pure ⟨⟨_, rfl⟩, fun y h => ⟨b, by cases h; rfl⟩⟩
      · intro e
        exact ⟨⟨_, rfl⟩, fun y h => by cases h⟩
    · rintro y ev ⟨⟨x, rfl⟩, h⟩
      obtain ⟨b, rfl⟩ := h y rfl
      refine (after_lookup V cfg p 0 arg rest.head? o b _ sep (by simp [hl]) ?_ ?_).mono fun r ev _ => ⟨x, ev, rfl⟩
      · cases b
        · exact Or.inl rfl
        · exact Or.inr (Or.inl rfl)
      · cases b <;> simp
    · rintro e ev ⟨⟨x, rfl⟩, _⟩
      exact ⟨x, [], rfl⟩
  have hloop : Emits (loop (recorded V) cfg (arg :: rest) false p 0) (fun _ ev => ∃ x tr, ev = ⟨o, .takesNo, x⟩ :: tr) := by
    refine Emits.bind hstep ?_ (fun _ _ h => h)
    rintro b ev ⟨x, tr, rfl⟩
    cases b with
    | fail p' => exact Emits.pure ⟨x, tr, by simp⟩
    | halt p' pos' => exact Emits.pure ⟨x, tr, by simp⟩
    | next p' pos' took => exact (loop_emits V cfg rest took p' pos').mono fun _ ev' _ => ⟨x, tr ++ ev', rfl⟩
  have hall : Emits (parse (recorded V) cfg p (arg :: rest)) (fun _ ev => ∃ x tr, ev = ⟨o, .takesNo, x⟩ :: tr) := by
    refine Emits.bind hloop ?_ (fun _ _ h => h)
    rintro ⟨r, p'⟩ ev ⟨x, tr, rfl⟩
    have hend : Emits (ending (recorded V) cfg p') (fun _ ev' => ∃ x' tr', ⟨o, .takesNo, x⟩ :: tr ++ ev' = ⟨o, .takesNo, x'⟩ :: tr') := by
      unfold ending
      split
      · exact Emits.pure ⟨x, tr, by simp⟩
      · refine Emits.call ?_ ?_
        · intro b
          exact Emits.pure ⟨x, _, rfl⟩
        · intro e
          exact ⟨x, _, rfl⟩
    cases r with
    | none => exact Emits.pure ⟨x, tr, by simp⟩
    | some y =>
      obtain ⟨hd, pos⟩ := y
      cases hd with
      | true => exact hend
      | false =>
        dsimp only
        split
        · exact Emits.pure ⟨x, tr, by simp⟩
        · exact hend
  obtain ⟨ev, r, s', he, hq⟩ := hall [] s
  unfold calls
  rw [he]
  simpa using hq

theorem resetAll_calls (V : Virt α σ) (hV : Sound V) : ∀ (l : List α) (tr : List (Event α)) (s : σ),
    (∃ s', (resetAll (recorded V) l (tr, s)).1 = .ok () ∧ (resetAll (recorded V) l (tr, s)).2.2 = s') ∧
    ((resetAll (recorded V) l (tr, s)).2.1.map fun e => (e.obj, e.query)) = (tr.map fun e => (e.obj, e.query)) ++ l.map fun o => (o, .reset)
  | [], tr, s => ⟨⟨s, rfl, rfl⟩, by simp [resetAll, pure_run]⟩
  | o :: l, tr, s => by
    obtain ⟨b, hb⟩ := hV o .reset s
    have hstep : resetAll (recorded V) (o :: l) (tr, s) = resetAll (recorded V) l (tr ++ [⟨o, .reset, some b⟩], (V o .reset s).2) := by
      show (recorded V o .reset >>= fun _ => resetAll (recorded V) l) (tr, s) = _
      rw [bind_run]
      have : recorded V o .reset (tr, s) = (.ok b, (tr ++ [⟨o, .reset, some b⟩], (V o .reset s).2)) := by
        simp only [recorded, hb, answered]
      rw [this]
    rw [hstep]
    obtain ⟨h1, h2⟩ := resetAll_calls V hV l (tr ++ [⟨o, .reset, some b⟩]) (V o .reset s).2
    refine ⟨h1, ?_⟩
    rw [h2]
    simp

/-- C138. `reset` resets every registered option and every positional once, in the order of registration (the help option, which is registered too, once more at the
end), and calls nothing else. -/
theorem C138_reset_calls (V : Virt α σ) (hV : Sound V) (cfg : Config α) (s : σ) :
    (reset (recorded V) cfg ([], s)).1 = .ok () ∧
    ((reset (recorded V) cfg ([], s)).2.1.map fun e => (e.obj, e.query)) =
      (cfg.options ++ cfg.positionals ++ cfg.help.toList).map fun o => (o, Query.reset) := by
  obtain ⟨⟨_, h, _⟩, h'⟩ := resetAll_calls V hV (cfg.options ++ cfg.positionals ++ cfg.help.toList) [] s
  unfold reset
  exact ⟨h, by simpa only [List.map_nil, List.nil_append] using h'⟩

/-! A class that the header does not have: "-v" may be given any number of times and takes no value; its object counts. Beside it a positional that takes one value and
an option "-o" that needs one. -/
namespace Demo

/-- (Not part of amtl, a client of it: am-argparser.h:148-221.) Counts "-v" in the world; "-o" refuses the empty text; the positional takes what it gets. -/
def V : Virt (Fin 3) Nat := fun o q s =>
  match o, q with
  | 0, .mustOmit | 0, .canOmit => (.ok true, s)
  | _, .willRepeat => (.ok true, s)
  | 0, .consume none => (.ok true, s + 1)
  | 1, .consume (some v) => (.ok (!v.isEmpty), s)
  | 2, .consume (some _) => (.ok true, s)
  | _, .consume none => (.ok true, s)
  | _, _ => (.ok false, s)

/-- The parser it is registered with (am-argparser.h:572-579). -/
def cfg : Config (Fin 3) :=
  { options := [0, 1], positionals := [2]
    form := fun o => match o with
      | 0 => ⟨some [118], none, none⟩
      | 1 => ⟨some [111], none, none⟩
      | 2 => ⟨none, none, some [102]⟩ }

-- "-v -v f -o x": two are counted, all are taken
example : (parse V cfg {} [[45, 118], [45, 118], [102], [45, 111], [120]] 0).1.toOption = some (true, {}) ∧
    (parse V cfg {} [[45, 118], [45, 118], [102], [45, 111], [120]] 0).2 = 2 := by decide +kernel
example : (calls V cfg {} [[45, 118], [45, 118], [102], [45, 111], [120]] 0).map (fun e => (e.obj, e.query)) =
    [(0, .takesNo), (0, .willRepeat), (0, .mustOmit), (0, .consume none), (0, .halts),
     (0, .takesNo), (0, .willRepeat), (0, .mustOmit), (0, .consume none), (0, .halts),
     (2, .consume (some [102])), (2, .halts),
     (1, .takesNo), (1, .willRepeat), (1, .mustOmit), (1, .consume (some [120])), (1, .halts)] := by decide +kernel
-- "-o=" is refused
example : (calls V cfg {} [[45, 111, 61]] 0).drop 3 = [⟨1, .consume (some []), some false⟩, ⟨1, .canOmit, some false⟩] := by decide +kernel
-- the rule for classes holds of it
theorem sound : Sound V := by
  intro o q s
  unfold V
  split <;> exact ⟨_, rfl⟩

example (args : List Str) (hno : ∀ arg ∈ args, ¬ sNo <+: arg) : ∃ r, outcome V cfg {} args 0 = .ok r :=
  C138_rule_for_classes_partial V sound (fun o => Or.inl (by
    intro s
    match o with
    | 0 => simp [V]
    | 1 => simp [V]
    | 2 => simp [V])) cfg {} args hno 0
-- "--beta=1" goes to the first of two objects that have that form
example : ∃ x tr, calls (α := Fin 3) (σ := Unit) (fun _ _ s => (.ok true, s))
    { options := [0, 1, 2], positionals := [], form := fun o => if o = 0 then ⟨none, some [97], none⟩ else ⟨none, some [98], none⟩ } {}
    [[45, 45, 98, 61, 49]] () = ⟨1, .takesNo, x⟩ :: tr :=
  C138_first_registered _ _ _ _ [98] _ (some [49]) _ 1 [0] [2] (.value [49] (by decide) (by decide)) rfl (by decide) rfl rfl (by decide)
-- it is offered null only after it has been asked
example : NullOnlyIfOmissible (calls V cfg {} [[45, 118], [102]] 0) := C138_null_only_if_omissible V cfg {} _ 0

end Demo

end Verif.ArgParser.Client
