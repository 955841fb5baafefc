import Verif.ArgParser.UsageModel
import Verif.ArgParser.SpecUsage
import Verif.ArgParser.Props
import Verif.Str.Props
/-! # Properties of `Parser::usage` (C80) -/
namespace Verif.ArgParser
open Verif

/-! ### Wrapping -/

def width (g : List Str) : Nat := (g.map (fun w => w.length + 1)).sum

theorem glue_width {g : List Str} (h : g ≠ []) : (Str.glue blank g).length + 1 = width g := by
  induction g with
  | nil => exact (h rfl).elim
  | cons w r ih =>
    cases r with
    | nil => simp [Str.glue, width]
    | cons q t =>
      have := ih (by simp)
      rw [Str.glue_cons (by simp)]
      simp only [width, List.map_cons, List.sum_cons, List.length_append] at this ⊢
      have hb : blank.length = 1 := rfl
      omega

theorem width_append (a b : List Str) : width (a ++ b) = width a + width b := by simp [width]

theorem glue_append {a b : List Str} (ha : a ≠ []) (hb : b ≠ []) : Str.glue blank (a ++ b) = Str.glue blank a ++ blank ++ Str.glue blank b := by
  induction a with
  | nil => exact (ha rfl).elim
  | cons w r ih =>
    cases r with
    | nil => rw [List.singleton_append, Str.glue_cons hb]; rfl
    | cons q t =>
      rw [List.cons_append, Str.glue_cons (by simp), ih (by simp), Str.glue_cons (ps := q :: t) (by simp)]
      simp [List.append_assoc]

theorem glue_flatten : ∀ {gs : List (List Str)}, (∀ g ∈ gs, g ≠ []) → Str.glue blank (gs.map (Str.glue blank)) = Str.glue blank gs.flatten := by
  intro gs
  induction gs with
  | nil => intro _; rfl
  | cons g r ih =>
    intro h
    have hg := h g (by simp)
    have ih := ih (fun x hx => h x (by simp [hx]))
    cases r with
    | nil => simp [Str.glue]
    | cons q t =>
      have hne : (q :: t).flatten ≠ [] := by
        have := h q (by simp)
        simp [this]
      rw [List.map_cons, Str.glue_cons (by simp), ih]
      exact (glue_append hg hne).symm

theorem join_glue {g : List Str} (h : (Str.glue blank g).length < 2 ^ 64) : Str.join g blank = .ok (Str.glue blank g) := by
  rw [Str.glue_eq] at h ⊢
  exact Str.C34_join g blank h

/-- What the wrapping loop does: it cuts the words into groups. -/
theorem wrapLoop_spec : ∀ (words line : List Str), (Str.glue blank (line ++ words)).length < 2 ^ 64 → (line.length ≤ 1 ∨ width line ≤ 51) →
    ∃ gs : List (List Str), wrapLoop words line (width line) = .ok (gs.map (Str.glue blank)) ∧ gs.flatten = line ++ words ∧ (∀ g ∈ gs, g ≠ []) ∧
      (∀ g ∈ gs, g.length = 1 ∨ width g ≤ 51) ∧
      (∀ (k : Nat) (a b : List Str), gs[k]? = some a → gs[k + 1]? = some b → 52 ≤ width a + ((b.head?).getD []).length + 1) ∧
      (line ≠ [] → ∃ g, gs[0]? = some g ∧ line <+: g) := by
  intro words
  induction words with
  | nil =>
    intro line hl hf
    unfold wrapLoop
    cases hline : line with
    | nil => exact ⟨[], by simp, by simp, by simp, by simp, by simp, by simp⟩
    | cons w r =>
      rw [hline, List.append_nil] at hl
      rw [hline] at hf
      refine ⟨[w :: r], by simp [join_glue hl, bind, Except.bind], by simp, by simp, ?_, by simp, fun _ => ⟨w :: r, rfl, List.prefix_refl _⟩⟩
      intro g hg
      simp only [List.mem_singleton] at hg; subst hg
      rcases hf with h | h
      · left; simp only [List.length_cons] at h ⊢; omega
      · exact .inr h
  | cons word rest ih =>
    intro line hl hf
    unfold wrapLoop
    split
    · rename_i hbr
      obtain ⟨h1, h2⟩ := hbr
      have hne : line ≠ [] := by rintro rfl; cases h2
      have hglue := glue_append (b := word :: rest) hne (by simp)
      rw [hglue] at hl
      simp only [List.length_append] at hl
      have hw1 : width [word] = word.length + 1 := by simp [width]
      obtain ⟨gs, g1, g2, g3, g4, g5, g6⟩ := ih [word] (by simpa using by omega) (.inl (by simp))
      rw [hw1] at g1
      refine ⟨line :: gs, ?_, ?_, ?_, ?_, ?_, fun _ => ⟨line, rfl, List.prefix_refl _⟩⟩
      · simp only [join_glue (g := line) (by omega), g1, bind, Except.bind, List.map_cons]
      · rw [List.flatten_cons, g2]; rfl
      · intro g hg; rcases List.mem_cons.1 hg with rfl | hg
        · exact hne
        · exact g3 g hg
      · intro g hg; rcases List.mem_cons.1 hg with rfl | hg
        · rcases hf with h | h
          · left
            have : 0 < g.length := List.length_pos_iff.2 hne
            omega
          · exact .inr h
        · exact g4 g hg
      · intro k a b ha hb
        cases k with
        | zero =>
          simp only [List.getElem?_cons_zero, Option.some.injEq] at ha
          subst ha
          obtain ⟨g, hg, hp⟩ := g6 (by simp)
          rw [List.getElem?_cons_succ, hg] at hb
          cases hb
          obtain ⟨t, rfl⟩ := hp
          simp only [List.singleton_append, List.head?_cons, Option.getD_some]
          simp only [rightCol] at h1
          omega
        | succ k => exact g5 k a b (by simpa using ha) (by simpa using hb)
    · rename_i hbr
      have hw : width (line ++ [word]) = width line + word.length + 1 := by simp [width_append, width]; omega
      rw [← hw]
      obtain ⟨gs, g1, g2, g3, g4, g5, g6⟩ := ih (line ++ [word]) (by simpa using hl) (by
        by_cases hn : line = []
        · subst hn; exact .inl (by simp)
        · right
          rw [hw]
          simp only [rightCol] at hbr
          have : ¬ (width line + word.length + 1 ≥ 80 - 28) := fun h => hbr ⟨h, by simpa using hn⟩
          omega)
      refine ⟨gs, g1, by rw [g2]; simp, g3, g4, g5, fun hn => ?_⟩
      obtain ⟨g, hg, hp⟩ := g6 (by simp)
      exact ⟨g, hg, (List.prefix_append line [word]).trans hp⟩

theorem takeWhile_glue {w : Str} {r : List Str} (h : 32 ∉ w) : (Str.glue blank (w :: r)).takeWhile (· ≠ 32) = w := by
  have : ∀ t : Str, (t = [] ∨ t[0]? = some 32) → (w ++ t).takeWhile (· ≠ 32) = w := by
    intro t ht
    rw [List.takeWhile_append_of_pos (by intro x hx; simp; rintro rfl; exact h hx)]
    rcases ht with rfl | ht
    · simp
    · cases t with
      | nil => simp
      | cons c t => simp only [List.getElem?_cons_zero, Option.some.injEq] at ht; subst ht; simp
  cases r with
  | nil => have := this [] (.inl rfl); simpa [Str.glue] using this
  | cons q t => rw [Str.glue_cons (by simp), List.append_assoc]; exact this _ (.inr rfl)

theorem not_infix_blank {w : Str} (h : ¬ ([32] : Str) <:+: w) : 32 ∉ w := by
  intro hm
  obtain ⟨a, b, rfl⟩ := List.append_of_mem hm
  exact h ⟨a, b, by simp⟩

/-- C80: the lines of a help text put together with blanks are the text, every line fits the right column unless it is a single word, and lines are as full
as they can be. -/
theorem C80_help_wrapped (help : Str) (hl : help.length < 2 ^ 64) : ∃ lines, helpLines help = .ok lines ∧ Wrapped help lines := by
  obtain ⟨words, h1, h2, h3, h4⟩ := Str.C33_split_fields true help [32] (by simp)
  have hw : words = Str.splitLoop [32] (by simp) help false := by
    rw [Str.split, dif_neg (by simp)] at h1; injection h1 with h1; exact h1.symm
  have hg : Str.glue blank words = help := by rw [hw]; exact Str.glue_splitLoop [32] (by simp) help false
  obtain ⟨gs, g1, g2, g3, g4, g5, _⟩ := wrapLoop_spec words [] (by rw [List.nil_append, hg]; exact hl) (.inl (by simp))
  rw [List.nil_append] at g2
  refine ⟨gs.map (Str.glue blank), ?_, ?_, ?_, ?_⟩
  · unfold helpLines
    rw [show blank = [32] from rfl, h1]
    exact g1
  · rw [← Str.glue_eq]
    have := glue_flatten g3
    rw [g2, hg] at this
    exact this
  · intro l hl
    rw [List.mem_map] at hl
    obtain ⟨g, hgm, rfl⟩ := hl
    rcases g4 g hgm with h | h
    · right
      match g, h with
      | [w], _ =>
        have : w ∈ words := by rw [← g2]; exact List.mem_flatten.2 ⟨_, hgm, by simp⟩
        exact not_infix_blank (h4 w this)
    · left
      have := glue_width (g3 g hgm)
      omega
  · intro k a b ha hb
    rw [List.getElem?_map, Option.map_eq_some_iff] at ha hb
    obtain ⟨ga, ha1, rfl⟩ := ha
    obtain ⟨gb, hb1, rfl⟩ := hb
    have h5 := g5 k ga gb ha1 hb1
    have hma := List.mem_of_getElem? ha1
    have hmb := List.mem_of_getElem? hb1
    have hwa := glue_width (g3 ga hma)
    cases hgb : gb with
    | nil => exact (g3 gb hmb hgb).elim
    | cons w r =>
      have hin : w ∈ words := by rw [← g2]; exact List.mem_flatten.2 ⟨gb, hmb, by rw [hgb]; simp⟩
      rw [takeWhile_glue (not_infix_blank (h4 w hin))]
      rw [hgb] at h5
      simp only [List.head?_cons, Option.getD_some] at h5
      omega

/-! ### Printing -/

theorem narrowLoop_spec : ∀ (ls hs : List Str), (∀ l ∈ ls, l.length ≤ 28) →
    let p := narrowLoop ls hs
    p.1.length = ls.length ∧ p.2 = hs.drop ls.length ∧
    ∀ (k : Nat) (l : Str), ls[k]? = some l → p.1[k]? = some (l ++ List.replicate (28 - l.length) 32 ++ (hs[k]?).getD []) := by
  intro ls
  induction ls with
  | nil => intro hs _; simp [narrowLoop]
  | cons x r ih =>
    intro hs hle
    cases hs with
    | nil =>
      obtain ⟨h1, h2, h3⟩ := ih [] (fun l hl => hle l (by simp [hl]))
      refine ⟨by simp [narrowLoop, h1], by simp [narrowLoop, h2], ?_⟩
      intro k l hk
      cases k with
      | zero => simp at hk; subst hk; simp [narrowLoop, padded]
      | succ k => simpa [narrowLoop] using h3 k l (by simpa using hk)
    | cons h hs =>
      obtain ⟨h1, h2, h3⟩ := ih hs (fun l hl => hle l (by simp [hl]))
      refine ⟨by simp [narrowLoop, h1], by simp [narrowLoop, h2], ?_⟩
      intro k l hk
      cases k with
      | zero => simp at hk; subst hk; simp [narrowLoop, padded]
      | succ k => simpa [narrowLoop] using h3 k l (by simpa using hk)

theorem foldl_max (ls : List Str) (n : Nat) : n ≤ ls.foldl (fun n l => max n l.length) n ∧ ∀ l ∈ ls, l.length ≤ ls.foldl (fun n l => max n l.length) n := by
  induction ls generalizing n with
  | nil => simp
  | cons x r ih =>
    obtain ⟨h1, h2⟩ := ih (max n x.length)
    refine ⟨by simp only [List.foldl_cons]; omega, ?_⟩
    intro l hl
    simp only [List.foldl_cons]
    rcases List.mem_cons.1 hl with rfl | hl
    · omega
    · exact h2 l hl

theorem colWidth_lt (e : Entry) : e.colWidth < 28 ↔ ∀ l ∈ e.optLines, l.length < 28 := by
  unfold Entry.colWidth
  constructor
  · intro h l hl; have := (foldl_max e.optLines 0).2 l hl; omega
  · intro h
    have : ∀ (ls : List Str) (n : Nat), n < 28 → (∀ l ∈ ls, l.length < 28) → ls.foldl (fun n l => max n l.length) n < 28 := by
      intro ls
      induction ls with
      | nil => intro n hn _; exact hn
      | cons x r ih =>
        intro n hn hle
        exact ih _ (by have := hle x (by simp); show max n x.length < 28; omega) (fun l hl => hle l (by simp [hl]))
    exact this _ 0 (by omega) h

/-- C80: an entry whose left-hand cells are narrow is printed in two columns; else the left-hand cells come first, on lines of their own, and the help lines
follow, indented to the right column. Either way no help line is lost, repeated or out of order. -/
theorem C80_entry_printed (e : Entry) :
    ((∀ l ∈ e.optLines, l.length < 28) → TwoColumns e.optLines e.helpLines (printEntry e)) ∧
    ((∃ l ∈ e.optLines, 28 ≤ l.length) → printEntry e = e.optLines ++ e.helpLines.map (List.replicate 28 32 ++ ·)) := by
  constructor
  · intro h
    have hc : ¬ e.colWidth ≥ leftCol := by have := (colWidth_lt e).2 h; unfold leftCol; omega
    obtain ⟨h1, h2, h3⟩ := narrowLoop_spec e.optLines e.helpLines (fun l hl => by have := h l hl; omega)
    have hp : printEntry e = (narrowLoop e.optLines e.helpLines).1 ++ (e.helpLines.drop e.optLines.length).map (List.replicate 28 32 ++ ·) := by
      unfold printEntry
      rw [if_neg hc]
      simp only [h2]
    rw [hp]
    refine ⟨by simp [h1]; omega, ?_⟩
    intro k l hk
    by_cases hlt : k < e.optLines.length
    · rw [List.getElem?_append_left (by rw [h1]; exact hlt), h3 k _ (List.getElem?_eq_getElem hlt)] at hk
      simp only [Option.some.injEq] at hk
      subst hk
      have hlen := h e.optLines[k] (List.getElem_mem hlt)
      have hcl : (e.optLines[k] ++ List.replicate (28 - e.optLines[k].length) 32).length = 28 := by simp; omega
      rw [List.getElem?_eq_getElem hlt]
      simp only [Option.getD_some]
      exact ⟨List.drop_left' hcl, List.take_left' hcl⟩
    · rw [List.getElem?_append_right (by rw [h1]; omega), h1, List.getElem?_map, Option.map_eq_some_iff] at hk
      obtain ⟨r, hr, rfl⟩ := hk
      rw [List.getElem?_drop] at hr
      have e1 : e.optLines.length + (k - e.optLines.length) = k := by omega
      rw [e1] at hr
      rw [hr, List.getElem?_eq_none (by omega : e.optLines.length ≤ k)]
      simp
  · rintro ⟨l, hl, hlen⟩
    have hc : e.colWidth ≥ leftCol := by
      rcases Nat.lt_or_ge e.colWidth 28 with h | h
      · have := (colWidth_lt e).1 h l hl; omega
      · exact h
    unfold printEntry
    rw [if_pos hc]

/-- The entries of a list of options, and the texts they come from. -/
theorem mapExec_spec {α β : Type} {f : α → Exec β} : ∀ {l : List α}, (∀ x ∈ l, ∃ y, f x = .ok y) →
    ∃ ys, mapExec f l = .ok ys ∧ ys.length = l.length ∧ ∀ (k : Nat) (x : α), l[k]? = some x → ∃ y, ys[k]? = some y ∧ f x = .ok y := by
  intro l
  induction l with
  | nil => intro _; exact ⟨[], rfl, rfl, by simp⟩
  | cons x r ih =>
    intro h
    obtain ⟨y, hy⟩ := h x (by simp)
    obtain ⟨ys, h1, h2, h3⟩ := ih (fun z hz => h z (by simp [hz]))
    refine ⟨y :: ys, by simp [mapExec, hy, h1, bind, Except.bind], by simp [h2], ?_⟩
    intro k z hk
    cases k with
    | zero => simp at hk; subst hk; exact ⟨y, rfl, hy⟩
    | succ k => exact h3 k z (by simpa using hk)

theorem repl_glue : ∀ (ps : List Str), (∀ p ∈ ps, 45 ∉ p) → Str.glue [95] ps = (Str.glue [45] ps).map fun c => if c = 45 then 95 else c := by
  have one : ∀ p : Str, 45 ∉ p → (p.map fun c => if c = 45 then (95 : UInt8) else c) = p := by
    intro p hp
    refine (List.map_congr_left (g := id) fun c hc => ?_).trans (List.map_id p)
    rw [if_neg (by rintro rfl; exact hp hc)]; rfl
  intro ps
  induction ps with
  | nil => intro _; rfl
  | cons x r ih =>
    intro h
    cases r with
    | nil => exact (one x (h x (by simp))).symm
    | cons y t =>
      rw [Str.glue_cons (ps := y :: t) (by simp), Str.glue_cons (ps := y :: t) (by simp), ih (fun p hp => h p (by simp [hp]))]
      simp only [List.map_append, one x (h x (by simp))]
      rfl

theorem valueSuffix_eq (o : Opt) (hn : o.name = none) (hs : ∀ s, o.short = some s → Showable s) (hl : ∀ s, o.long = some s → Showable s) :
    valueSuffix o = .ok o.metavar := by
  unfold valueSuffix Opt.metavar
  have hk : (!o.mustOmit && !o.canOmit) = o.kind.needsValue := by
    unfold Opt.mustOmit Opt.canOmit Kind.needsValue
    cases o.kind <;> simp [hn]
  rw [hk]
  by_cases hv : o.kind.needsValue = true
  · rw [if_pos hv, if_pos hv]
    have hgen : ∀ name : Str, Showable name → (do
        let parts ← Str.split true name [45]
        let joined ← Str.join parts [95]
        let upper ← Str.uppercase joined
        .ok (61 :: upper) : Exec Str) = .ok (61 :: name.map fun c => Str.asciiUpper (if c = 45 then 95 else c)) := by
      intro name hname
      obtain ⟨ps, e1, -, -, e4⟩ := Str.C33_split_fields true name [45] (by simp)
      have hps : Str.glue [45] ps = name := by
        have e := e1
        rw [Str.split, dif_neg (by simp)] at e
        injection e with e
        rw [← e]; exact Str.glue_splitLoop [45] (by simp) name false
      have hr := repl_glue ps (fun p hp hm => by
        obtain ⟨a, b, rfl⟩ := List.append_of_mem hm
        exact e4 _ hp ⟨a, b, by simp⟩)
      rw [hps] at hr
      have hj : Str.join ps [95] = .ok (name.map fun c => if c = 45 then 95 else c) := by
        rw [← hr]
        have hlen : (Str.glue [95] ps).length < 2 ^ 64 := by rw [hr, List.length_map]; have := hname.1; omega
        rw [Str.glue_eq] at hlen ⊢
        exact Str.C34_join ps [95] hlen
      have hup := (Str.C36_case_partial (name.map fun c => if c = 45 then 95 else c) (by
        intro b hb
        rw [List.mem_map] at hb
        obtain ⟨c, hc, rfl⟩ := hb
        split
        · decide
        · exact hname.2 c hc)).1
      rw [e1]
      simp only [bind, Except.bind]
      rw [hj]
      simp only []
      rw [hup]
      simp only [List.map_map]
      rfl
    cases hlo : o.long with
    | some l => exact hgen l (hl l hlo)
    | none => cases hso : o.short with
      | some s => exact hgen s (hs s hso)
      | none => exact hgen [] ⟨by simp, by simp⟩
  · rw [if_neg hv, if_neg hv]

theorem optLines_eq (o : Opt) (hn : o.name = none) (hs : ∀ s, o.short = some s → Showable s) (hl : ∀ s, o.long = some s → Showable s) :
    optLines o = .ok o.cells := by
  unfold optLines
  rw [valueSuffix_eq o hn hs hl]
  simp only [bind, Except.bind, Opt.cells]
  cases hso : o.short with
  | none => cases hlo : o.long <;> simp [indent]
  | some s =>
    cases hlo : o.long with
    | none => simp [indent]
    | some l =>
      simp only
      have hlen : (indent ++ [45] ++ s ++ [44, 32, 45, 45] ++ l ++ o.metavar ++ [32]).length = 8 + s.length + l.length + o.metavar.length := by
        simp [indent]; omega
      rw [hlen]
      unfold leftCol
      split <;> simp [indent]

theorem optEntry_ok (o : Opt) (hn : o.name = none) (hs : ∀ s, o.short = some s → Showable s) (hl : ∀ s, o.long = some s → Showable s)
    (hh : Showable o.help) : ∃ e, optEntry o = .ok e ∧ e.named = false ∧ Shows o.cells o.help (printEntry e) := by
  obtain ⟨lines, h1, h2⟩ := C80_help_wrapped o.help (by have := hh.1; omega)
  refine ⟨{ optLines := o.cells, helpLines := lines, named := o.name.isSome }, by simp [optEntry, optLines_eq o hn hs hl, h1, bind, Except.bind], by simp [hn], ?_⟩
  exact ⟨lines, h2, C80_entry_printed { optLines := o.cells, helpLines := lines, named := o.name.isSome }⟩

theorem namedEntry_ok (name help : Str) (hh : Showable help) :
    ∃ e, namedEntry name help = .ok e ∧ e.named = true ∧ Shows [[32, 32] ++ name] help (printEntry e) := by
  obtain ⟨lines, h1, h2⟩ := C80_help_wrapped help (by have := hh.1; omega)
  exact ⟨_, by simp only [namedEntry, h1, bind, Except.bind], rfl, lines, h2,
    C80_entry_printed { optLines := [indent ++ name], helpLines := lines, named := true }⟩

theorem printEntries_named : ∀ (es : List Entry) (b : Bool), (∀ e ∈ es, e.named = true) → ∀ rest, printEntries (es ++ rest) b = (es.map printEntry).flatten ++ printEntries rest b := by
  intro es b
  induction es with
  | nil => intro _ rest; rfl
  | cons e r ih =>
    intro h rest
    rw [List.cons_append, printEntries, if_neg (by simp [h e (by simp)]), ih (fun x hx => h x (by simp [hx]))]
    simp

theorem printEntries_started : ∀ (es : List Entry), printEntries es true = (es.map printEntry).flatten := by
  intro es
  induction es with
  | nil => rfl
  | cons e r ih => rw [printEntries, if_neg (by simp), ih]; simp

theorem printEntries_unnamed (es : List Entry) (h : ∀ e ∈ es, e.named = false) (rest : List Entry) (hr : ∀ e ∈ rest, e.named = true) :
    printEntries (es ++ rest) false = (if es.isEmpty then [] else [[], lit "optional arguments:"]) ++ (es.map printEntry).flatten ++ (rest.map printEntry).flatten := by
  cases es with
  | nil =>
    have := printEntries_named rest false hr []
    simpa [printEntries] using this
  | cons e r =>
    rw [List.cons_append, printEntries, if_pos ⟨h e (by simp), rfl⟩, printEntries_started]
    simp

/-- C80: the line that shows how the program is called. -/
theorem C80_usage_line (cfg : Config) (u : UsageInfo) (argv0 : Option Str)
    (hlen : (Str.concatWith [32] ([lit "Usage:", argv0.getD [32]] ++
      (if u.usageLine = [] then lit "[-h]" :: cfg.positionals.map (fun o => o.name.getD []) else [u.usageLine]))).length < 2 ^ 64) :
    usageLine cfg u argv0 = .ok (Str.concatWith [32] ([lit "Usage:", argv0.getD [32]] ++
      (if u.usageLine = [] then lit "[-h]" :: cfg.positionals.map (fun o => o.name.getD []) else [u.usageLine]))) := by
  unfold usageLine
  have e : (u.usageLine.isEmpty = true) = (u.usageLine = []) := by simp
  simp only [e]
  exact Str.C34_join _ [32] hlen

/-- C80: after a failed parse only the call line and the error are printed, unless there is a help option and the command line asks for help. -/
theorem C80_usage_error (cfg : Config) (u : UsageInfo) (error : Str) (argv0 : Option Str) (args : List Str) (line : Str)
    (hline : usageLine cfg u argv0 = .ok line) (he : error ≠ []) (hf : cfg.help = false ∨ (lit "-h" ∉ args ∧ lit "--help" ∉ args)) :
    usage cfg u error argv0 args = .ok [line, lit "error: " ++ error] := by
  unfold usage
  simp only [hline, bind, Except.bind]
  rw [if_pos]
  have h1 : (!error.isEmpty) = true := by simpa using he
  rw [h1, Bool.true_and, Bool.or_eq_true]
  rcases hf with h | ⟨h, h'⟩
  · left; simp [h]
  · right
    simp only [Bool.not_eq_true', List.any_eq_false, Bool.or_eq_true, beq_iff_eq]
    rintro a ha (rfl | rfl)
    · exact h ha
    · exact h' ha

/-- C80: otherwise the whole help text is printed: the program's help, the call line, and in order the positionals, the options and the extra lines, each
with all of its help, nothing left out. -/
theorem C80_usage_full (cfg : Config) (hv : cfg.Valid) (u : UsageInfo) (error : Str) (argv0 : Option Str) (args : List Str) (line : Str)
    (hline : usageLine cfg u argv0 = .ok line) (he : error = [] ∨ (cfg.help = true ∧ (lit "-h" ∈ args ∨ lit "--help" ∈ args)))
    (hopt : ∀ o ∈ cfg.options, Showable o.help ∧ (∀ s, o.short = some s → Showable s) ∧ (∀ s, o.long = some s → Showable s))
    (hpos : ∀ o ∈ cfg.positionals, Showable o.help) (hext : ∀ p ∈ u.extra, Showable p.2) :
    ∃ pos opts extra : List (List Str),
      usage cfg u error argv0 args = .ok ((if u.help = [] then [] else [u.help, []]) ++ [line] ++
        (if cfg.positionals = [] then [] else [[], lit "positional arguments:"]) ++ pos.flatten ++
        (if cfg.options = [] then [] else [[], lit "optional arguments:"]) ++ opts.flatten ++ extra.flatten) ∧
      pos.length = cfg.positionals.length ∧ opts.length = cfg.options.length ∧ extra.length = u.extra.length ∧
      (∀ (k : Nat) (o : Opt), cfg.positionals[k]? = some o → ∃ b n, pos[k]? = some b ∧ o.name = some n ∧ Shows [[32, 32] ++ n] o.help b) ∧
      (∀ (k : Nat) (o : Opt), cfg.options[k]? = some o → ∃ b, opts[k]? = some b ∧ Shows o.cells o.help b) ∧
      (∀ (k : Nat) (p : Str × Str), u.extra[k]? = some p → ∃ b, extra[k]? = some b ∧ Shows [[32, 32] ++ p.1] p.2 b) := by
  obtain ⟨es1, a1, a2, a3⟩ := mapExec_spec (f := fun o : Opt => namedEntry (o.name.getD []) o.help) (l := cfg.positionals) (fun o ho => by
    obtain ⟨e, h, _⟩ := namedEntry_ok (o.name.getD []) o.help (hpos o ho); exact ⟨e, h⟩)
  obtain ⟨es2, b1, b2, b3⟩ := mapExec_spec (f := optEntry) (l := cfg.options) (fun o ho => by
    obtain ⟨e, h, _⟩ := optEntry_ok o (hv.options o ho) (hopt o ho).2.1 (hopt o ho).2.2 (hopt o ho).1; exact ⟨e, h⟩)
  obtain ⟨es3, c1, c2, c3⟩ := mapExec_spec (f := fun p : Str × Str => namedEntry p.1 p.2) (l := u.extra) (fun p hp => by
    obtain ⟨e, h, _⟩ := namedEntry_ok p.1 p.2 (hext p hp); exact ⟨e, h⟩)
  have p1 : ∀ (k : Nat) (o : Opt), cfg.positionals[k]? = some o → ∃ e, es1[k]? = some e ∧ e.named = true ∧ Shows [[32, 32] ++ o.name.getD []] o.help (printEntry e) := by
    intro k o hk
    obtain ⟨e, h1, h2⟩ := a3 k o hk
    obtain ⟨e', h3, h4, h5⟩ := namedEntry_ok (o.name.getD []) o.help (hpos o (List.mem_of_getElem? hk))
    rw [h2] at h3; cases h3
    exact ⟨e, h1, h4, h5⟩
  have p2 : ∀ (k : Nat) (o : Opt), cfg.options[k]? = some o → ∃ e, es2[k]? = some e ∧ e.named = false ∧ Shows o.cells o.help (printEntry e) := by
    intro k o hk
    have hm := List.mem_of_getElem? hk
    obtain ⟨e, h1, h2⟩ := b3 k o hk
    obtain ⟨e', h3, h4, h5⟩ := optEntry_ok o (hv.options o hm) (hopt o hm).2.1 (hopt o hm).2.2 (hopt o hm).1
    rw [h2] at h3; cases h3
    exact ⟨e, h1, h4, h5⟩
  have p3 : ∀ (k : Nat) (p : Str × Str), u.extra[k]? = some p → ∃ e, es3[k]? = some e ∧ e.named = true ∧ Shows [[32, 32] ++ p.1] p.2 (printEntry e) := by
    intro k p hk
    obtain ⟨e, h1, h2⟩ := c3 k p hk
    obtain ⟨e', h3, h4, h5⟩ := namedEntry_ok p.1 p.2 (hext p (List.mem_of_getElem? hk))
    rw [h2] at h3; cases h3
    exact ⟨e, h1, h4, h5⟩
  have n1 : ∀ e ∈ es1, e.named = true := by
    intro e he
    obtain ⟨k, hk, rfl⟩ := List.getElem_of_mem he
    obtain ⟨e', h1, h2, _⟩ := p1 k _ (List.getElem?_eq_getElem (by omega))
    rw [List.getElem?_eq_getElem hk] at h1; cases h1; exact h2
  have n2 : ∀ e ∈ es2, e.named = false := by
    intro e he
    obtain ⟨k, hk, rfl⟩ := List.getElem_of_mem he
    obtain ⟨e', h1, h2, _⟩ := p2 k _ (List.getElem?_eq_getElem (by omega))
    rw [List.getElem?_eq_getElem hk] at h1; cases h1; exact h2
  have n3 : ∀ e ∈ es3, e.named = true := by
    intro e he
    obtain ⟨k, hk, rfl⟩ := List.getElem_of_mem he
    obtain ⟨e', h1, h2, _⟩ := p3 k _ (List.getElem?_eq_getElem (by omega))
    rw [List.getElem?_eq_getElem hk] at h1; cases h1; exact h2
  refine ⟨es1.map printEntry, es2.map printEntry, es3.map printEntry, ?_, by simp [a2], by simp [b2], by simp [c2], ?_, ?_, ?_⟩
  · unfold usage
    simp only [hline, bind, Except.bind]
    rw [if_neg]
    · simp only [a1, b1, c1]
      have i1 : (cfg.positionals.isEmpty = true) = (cfg.positionals = []) := by simp
      have i2 : (es2.isEmpty = true) = (cfg.options = []) := by
        rw [eq_iff_iff, List.isEmpty_iff, ← List.length_eq_zero_iff, ← List.length_eq_zero_iff, b2]
      have i3 : (u.help.isEmpty = true) = (u.help = []) := by simp
      simp only [i3]
      split
      · rename_i hemp
        simp only [List.isEmpty_iff, List.append_eq_nil_iff] at hemp
        obtain ⟨⟨rfl, rfl⟩, rfl⟩ := hemp
        have z1 : cfg.positionals = [] := List.length_eq_zero_iff.1 (by simpa using a2.symm)
        have z2 : cfg.options = [] := List.length_eq_zero_iff.1 (by simpa using b2.symm)
        simp [z1, z2]
      · rw [List.append_assoc es1, printEntries_named es1 false n1, printEntries_unnamed es2 n2 es3 n3]
        simp only [i1, i2, List.append_assoc]
    · rcases he with rfl | ⟨h1, h2⟩
      · simp
      · rw [h1]
        have : (args.any fun a => a == [45, 104] || a == [45, 45, 104, 101, 108, 112]) = true := by
          rw [List.any_eq_true]
          rcases h2 with h | h
          · exact ⟨_, h, by decide⟩
          · exact ⟨_, h, by decide⟩
        rw [this]; simp
  · intro k o hk
    obtain ⟨e, h1, _, h3⟩ := p1 k o hk
    obtain ⟨n, hn⟩ := Option.ne_none_iff_exists'.1 (hv.positionals o (List.mem_of_getElem? hk)).1
    refine ⟨printEntry e, n, by simp [h1], hn, ?_⟩
    rw [hn] at h3; exact h3
  · intro k o hk
    obtain ⟨e, h1, _, h3⟩ := p2 k o hk
    exact ⟨printEntry e, by simp [h1], h3⟩
  · intro k p hk
    obtain ⟨e, h1, _, h3⟩ := p3 k p hk
    exact ⟨printEntry e, by simp [h1], h3⟩

/-! ### Cases that meet the hypotheses -/

/-- A configuration whose help text has lines of every shape: a wide cell, a narrow one, and a help text too long for one line. -/
def demoText : Config :=
  { options := [helpOpt,
      { short := some (lit "n"), long := some (lit "dry-run-count"), name := none,
        help := lit "how many of the steps are only printed and not really carried out at all", kind := .int none },
      { short := some (lit "I"), long := none, name := none, help := lit "directory", kind := .repString }]
    positionals := [{ short := none, long := none, name := some (lit "file"), help := lit "the input", kind := .string none }]
    help := true }

example : demoText.Valid := valid_of_bool (by decide +kernel) (by decide +kernel) (fun _ => rfl)

example : (∀ o ∈ demoText.options, Showable o.help ∧ (∀ s, o.short = some s → Showable s) ∧ (∀ s, o.long = some s → Showable s)) ∧
    (∀ o ∈ demoText.positionals, Showable o.help) := by
  unfold Showable
  refine ⟨?_, ?_⟩
  · intro o ho
    simp only [demoText, List.mem_cons, List.not_mem_nil, or_false] at ho
    rcases ho with rfl | rfl | rfl <;>
      exact ⟨⟨by decide +kernel, by decide +kernel⟩, (by rintro s ⟨⟩ <;> exact ⟨by decide +kernel, by decide +kernel⟩), (by rintro s ⟨⟩ <;> exact ⟨by decide +kernel, by decide +kernel⟩)⟩
  · intro o ho
    simp only [demoText, List.mem_singleton] at ho
    subst ho
    exact ⟨by decide +kernel, by decide +kernel⟩

/-- `Split` by a loop the kernel can run. -/
def splitFuel (sep : Str) : Nat → Str → Bool → List Str
  | 0, _, matched => if matched then [[]] else []
  | n + 1, cursor, matched =>
    if cursor = [] then (if matched then [[]] else [])
    else match Str.strstr cursor sep with
      | none => [cursor]
      | some off => cursor.take off :: splitFuel sep n (cursor.drop (off + sep.length)) true

theorem splitFuel_eq (sep : Str) (hsep : sep ≠ []) : ∀ (n : Nat) (cursor : Str) (b : Bool), cursor.length ≤ n → Str.splitLoop sep hsep cursor b = splitFuel sep n cursor b := by
  intro n
  induction n with
  | zero =>
    intro cursor b h
    have : cursor = [] := List.length_eq_zero_iff.1 (by omega)
    subst this
    unfold Str.splitLoop splitFuel
    simp
  | succ n ih =>
    intro cursor b h
    unfold Str.splitLoop splitFuel
    by_cases hc : cursor = []
    · rw [dif_pos hc, if_pos hc]
    · rw [dif_neg hc, if_neg hc]
      cases Str.strstr cursor sep with
      | none => rfl
      | some off =>
        simp only
        have : 0 < sep.length := List.length_pos_iff.2 hsep
        have : 0 < cursor.length := List.length_pos_iff.2 hc
        rw [ih _ _ (by rw [List.length_drop]; omega)]

theorem split_eval (c : UInt8) (s : Str) : Str.split true s [c] = .ok (splitFuel [c] s.length s false) := by
  rw [Str.split, dif_neg (by simp), splitFuel_eq [c] (by simp) s.length s false (Nat.le_refl _)]

theorem helpLines_eval : helpLines = fun help => wrapLoop (splitFuel [32] help.length help false) [] 0 := by
  funext help
  unfold helpLines blank
  rw [split_eval]; rfl

theorem valueSuffix_eval : valueSuffix = fun o => if !o.mustOmit && !o.canOmit then (do
    let name := match o.long with
      | some l => l
      | none => o.short.getD []
    let joined ← Str.join (splitFuel [45] name.length name false) [95]
    let upper ← Str.uppercase joined
    .ok (61 :: upper)) else .ok [] := by
  funext o
  unfold valueSuffix
  simp only [split_eval, bind, Except.bind]
  all_goals rfl

/-- `optLines` once the suffix is known. -/
def optLinesWith (o : Opt) (suffix : Str) : Exec (List Str) :=
  let separate : List Str :=
    (match o.short with
      | some s => [indent ++ [45] ++ s ++ [32]]
      | none => []) ++
    (match o.long with
      | some l => [indent ++ [45, 45] ++ l ++ suffix ++ [32]]
      | none => [])
  match o.short, o.long with
  | some s, some l =>
    let joined := indent ++ [45] ++ s ++ [44, 32, 45, 45] ++ l ++ suffix ++ [32]
    if joined.length ≤ leftCol then .ok [joined] else .ok separate
  | _, _ => .ok separate

theorem namedEntry_eval : namedEntry = fun name help => (wrapLoop (splitFuel [32] help.length help false) [] 0).bind fun h =>
    .ok { optLines := [indent ++ name], helpLines := h, named := true } := by
  funext name help
  unfold namedEntry
  rw [helpLines_eval]
  rfl

theorem optEntry_eval : optEntry = fun o => ((if !o.mustOmit && !o.canOmit then (do
    let name := match o.long with
      | some l => l
      | none => o.short.getD []
    let joined ← Str.join (splitFuel [45] name.length name false) [95]
    let upper ← Str.uppercase joined
    .ok (61 :: upper)) else .ok []).bind (optLinesWith o)).bind fun l => (wrapLoop (splitFuel [32] o.help.length o.help false) [] 0).bind fun h =>
      .ok { optLines := l, helpLines := h, named := o.name.isSome } := by
  funext o
  unfold optEntry optLines
  rw [helpLines_eval, valueSuffix_eval]
  rfl

/-- The help text of `demoText`. -/
example : usage demoText { help := lit "A tool." } [] (some (lit "tool")) [] = .ok [
    lit "A tool.", [],
    lit "Usage: tool [-h] file", [],
    lit "positional arguments:",
    lit "  file                      the input", [],
    lit "optional arguments:",
    lit "  -h, --help                Display this help menu.",
    lit "  -n ",
    lit "  --dry-run-count=DRY_RUN_COUNT ",
    lit "                            how many of the steps are only printed and not",
    lit "                            really carried out at all",
    lit "  -I                        directory"] := by
  unfold usage
  rw [namedEntry_eval, optEntry_eval]
  decide +kernel

/-- After an error, without a request for help. -/
example : usage demoText {} (lit "bad") (some (lit "tool")) [lit "x"] = .ok [lit "Usage: tool [-h] file", lit "error: bad"] := by decide +kernel

/-- After an error, with a request for help the error is dropped. -/
example : usage demoText {} (lit "bad") (some (lit "tool")) [lit "x", lit "-h"] = usage demoText {} [] (some (lit "tool")) [] := by decide +kernel

end Verif.ArgParser
