import Verif.ArgParser.Props2
/-! # C77-C79: the exact behaviour where the properties fail -/
namespace Verif.ArgParser
open Verif

/-- C77, exactly what happens in the remaining case: a boolean option followed by something that is not a boolean might as well not be there (the
following argument is parsed as if the option were absent), unless it had been given before, which is an error as always. -/
theorem C77_bool_ignored (w : Nat) (cfg : Config) (i : Nat) (o : Opt) (d : Option Bool) (f v : Str) (pre rest : List Str)
    (hv : cfg.Valid) (hn : NamedShort cfg i o f) (hk : o.kind = .boolean d) (hc : Complete cfg pre)
    (h1 : lowered v ≠ lit "true") (h2 : lowered v ≠ lit "false") :
    parse w cfg fresh (pre ++ (45 :: f) :: v :: rest) = parse w cfg fresh (pre ++ v :: rest) ∨
    ∃ st', parse w cfg fresh (pre ++ (45 :: f) :: v :: rest) = .ok (false, st') ∧
      st'.error = lit "Option '" ++ o.pretty ++ lit "' was specified more than once." := by
  have hnm := hv.options o (List.mem_of_getElem? hn.opt)
  have hd := short_not_dashes (p := 45) (t := []) hv hn
  rw [List.append_nil] at hd
  have hlk : lookup cfg (45 :: f) = .ok (some (i, o, none, none)) := by
    have := lookup_short hv hn (p := 45) (.inl rfl)
    simpa [foundValue, Opt.takesNo, hk] using this
  have hm : o.mustOmit = false := by simp [Opt.mustOmit, hk]
  have hco : o.canOmit = true := by simp [Opt.canOmit, hk, hnm]
  have hno : ∀ x, ¬ Reads (codeNum w) o.kind v x := by
    intro x hx
    rw [hk] at hx
    rcases hx with ⟨e, -⟩ | ⟨e, -⟩
    · exact h1 e
    · exact h2 e
  rcases loop_split (w := w) pre false fresh 0 hc (fun _ => rfl) rfl with ⟨st1, pos1, hp, hl⟩ | ⟨r, -, hl⟩
  · have hst := stepArg_found (w := w) (st := st1) (pos := pos1) (next := some v) hd hp (.inl rfl) hlk
    cases hw : willRepeat o (st1.cells (.opt i)) with
    | true =>
      left
      have hl' : loop w cfg (pre ++ (45 :: f) :: v :: rest) false fresh 0 = loop w cfg (pre ++ v :: rest) false fresh 0 := by
        rw [hl, hl]
        rw [hw, if_pos rfl] at hst
        rcases finish_next w st1 (.opt i) o pos1 v hm with ⟨x, hx, -⟩ | ⟨-, ⟨-, e⟩ | ⟨e, -⟩⟩
        · exact (hno x hx).elim
        · rw [e] at hst
          rw [loop]
          simp only [List.head?_cons, hst, bind, Except.bind]
        · rw [hco] at e; cases e
      unfold parse
      rw [hl']
    | false =>
      right
      rw [hw] at hst
      refine ⟨{ st1 with error := msgTwice o }, ?_, rfl⟩
      have hl' : loop w cfg (pre ++ (45 :: f) :: v :: rest) false fresh 0 = .ok (none, { st1 with error := msgTwice o }) := by
        rw [hl, loop]
        simp only [List.head?_cons, hst, bind, Except.bind]
        rfl
      unfold parse
      rw [hl']
      rfl
  · left
    unfold parse
    rw [hl, hl]

/-- C78, exactly: the value of an accepted integer option is the numeral's number, first limited to what a `long` of `w` bits can hold, then reduced to
the `int` with the same low 32 bits. -/
theorem C78_int_code (w : Nat) (cfg : Config) (i : Nat) (o : Opt) (d : Option Int) (l t : Str) (pre rest : List Str) (st' : State)
    (hv : cfg.Valid) (hs : OnlyHelpStops cfg) (hn : Named cfg i o l) (hk : o.kind = .int d) (hc : Complete cfg pre) (ht : t ≠ [])
    (h : parse w cfg fresh (pre ++ (45 :: 45 :: (l ++ 61 :: t)) :: rest) = .ok (true, st')) :
    ∃ n m, Numeral t n ∧ (st'.cells (.opt i)).value = some (.int m) ∧ IsInt m ∧
      (2 ^ 32 : Int) ∣ m - max (-(2 ^ (w - 1) : Int)) (min (2 ^ (w - 1) - 1) n) := by
  have hr : o.kind.repeats = false := by simp [hk, Kind.repeats]
  obtain ⟨st1, pos1, pos', hp, hl⟩ := accepted_split hv hs hc h
  have hdrop : (45 :: 45 :: (l ++ 61 :: t) : Str).drop (l.length + 2 + 1) = t := by simp [List.drop_append]
  rcases (loop_attached (not_dashes_long (by simp)) hp (.inl rfl) (lookup_longValue hn (fun _ => ht)) hl).2 with ⟨y, hy, h2⟩ | ⟨_, hy⟩
  · rw [hdrop, hk] at hy
    obtain ⟨n, m, h3, h4, rfl⟩ := hy
    have hcl : clampLong w n = max (-(2 ^ (w - 1) : Int)) (min (2 ^ (w - 1) - 1) n) := by
      unfold clampLong
      have hpos : (0 : Int) < 2 ^ (w - 1) := Int.pow_pos (by decide)
      generalize (2 ^ (w - 1) : Int) = p at *
      split
      · omega
      · split <;> omega
    have h4' : m = toInt32 (clampLong w n) := h4
    refine ⟨n, m, h3, ?_, ?_, ?_⟩
    · rw [loop_keeps hv h2 hn.opt hr (by rw [setCell_same]; simp [put, hr]), setCell_same]
      simp [put, hr]
    · rw [h4']; unfold toInt32 IsInt; omega
    · rw [← hcl, h4']; unfold toInt32; omega
  · simp [Opt.canOmit, hk] at hy

/-- While passthrough mode is on, arguments are only copied. -/
theorem loop_passMode (w : Nat) (cfg : Config) (hpt : cfg.passthrough = true) : ∀ (args : List Str) (st : State) (pos : Nat), st.hasPass = true →
    loop w cfg args false st pos = .ok (some (false, pos), { st with pass := st.pass ++ args.filter (fun a => a ≠ lit "--") }) := by
  intro args
  induction args with
  | nil => intro st pos h; simp [loop]
  | cons a args ih =>
    intro st pos h
    rw [loop]
    unfold stepArg
    have hdd : lit "--" = [45, 45] := by decide
    by_cases ha : a = [45, 45]
    · rw [if_pos ⟨hpt, ha⟩]
      simp only [bind, Except.bind]
      rw [ih _ _ rfl, List.filter_cons_of_neg (by simp [ha, hdd]), h]
    · rw [if_neg (by rintro ⟨-, h⟩; exact ha h), if_pos h]
      simp only [bind, Except.bind]
      have ha' : (a ≠ lit "--") := by rw [hdd]; exact ha
      rw [ih { st with pass := st.pass ++ [a] } _ h, List.filter_cons_of_pos (by simpa using ha')]
      simp

/-- C79, exactly what happens in the remaining case: a parser that has seen a `--` stays in passthrough mode after `reset()`. The next parse reads no
option and no positional at all: every argument but `--` is added to the passthrough arguments, all registered options are unset, and the result is true
exactly if there are no positionals. -/
theorem C79_reset_after_dashes (w : Nat) (cfg : Config) (args : List Str) (st1 : State) (hv : cfg.Valid)
    (hp : st1.hasPass = true) (hpt : cfg.passthrough = true) :
    ∃ st', parse w cfg (reset cfg st1) args = .ok (decide (cfg.positionals = []), st') ∧
      st'.pass = st1.pass ++ args.filter (fun a => a ≠ lit "--") ∧ st'.extra = st1.extra ∧
      (∀ i, i < cfg.options.length → st'.cells (.opt i) = {}) ∧ (∀ i, i < cfg.positionals.length → st'.cells (.pos i) = {}) := by
  unfold parse
  rw [loop_passMode w cfg hpt args (reset cfg st1) 0 hp]
  simp only [bind, Except.bind]
  have hcells : ∀ i, i < cfg.options.length → (reset cfg st1).cells (.opt i) = {} := fun i hi => by simp [reset, hi]
  have hcells' : ∀ i, i < cfg.positionals.length → (reset cfg st1).cells (.pos i) = {} := fun i hi => by simp [reset, hi]
  cases hps : cfg.positionals with
  | cons o os =>
    refine ⟨{ reset cfg st1 with pass := st1.pass ++ args.filter (fun a => a ≠ lit "--"), error := msgMissing o }, ?_, rfl, rfl, hcells, ?_⟩
    · simp [reset]
    · intro i hi; exact hcells' i (by rw [hps]; exact hi)
  | nil =>
    refine ⟨{ reset cfg st1 with pass := st1.pass ++ args.filter (fun a => a ≠ lit "--") }, ?_, rfl, rfl, hcells, ?_⟩
    · have : ¬ (cfg.help = true ∧ flagValue helpOpt ((reset cfg st1).cells (.opt 0)) = true) := by
        rintro ⟨hh, hf⟩
        have h0 := hv.help hh
        have hlen : 0 < cfg.options.length := by
          rcases ho : cfg.options with _ | ⟨x, r⟩
          · rw [ho] at h0; simp at h0
          · simp
        rw [hcells 0 hlen] at hf
        exact absurd hf (by decide)
      simp only [List.getElem?_nil, Bool.false_eq_true, if_false]
      rw [if_neg this]
      simp [reset]
    · intro i hi; simp at hi

/-! ### Non-vacuity -/

example : NamedShort demo 0 demo.options[0] (lit "b") ∧ lowered (lit "file") ≠ lit "true" ∧ lowered (lit "file") ≠ lit "false" :=
  ⟨demo_named_b, by decide, by decide⟩

example : demo.passthrough = true ∧ (match parse 64 demo fresh [lit "f", lit "--", lit "x"] with
    | .ok (_, st) => st.hasPass | .error _ => false) = true := by decide +kernel

end Verif.ArgParser
