import Verif.Restyler.Tool
/-! # Properties of the restyler's main program (C128, C129) -/
namespace Verif.Restyler.Tool
open Verif Verif.Rewriter

/-! ## C128: the search paths -/

/-- The lines of a text, without their newlines; a last line need not end with one. -/
def lines : Text → List Text
  | [] => []
  | c :: r => if c = 10 then [] :: lines r else match lines r with
    | [] => [[c]]
    | l :: ls => (c :: l) :: ls

/-- A line without the white space around it. -/
def trim (l : Text) : Text := ((l.dropWhile isSpace).reverse.dropWhile isSpace).reverse

/-- The lines after the first that begins with the start marker, and before the next that begins with the end marker, which are not markers themselves nor
blank, trimmed. -/
def listedPaths (ls : List Text) : List Text :=
  let inside := ((ls.dropWhile (fun l => !startString.isPrefixOf l)).takeWhile (fun l => !endString.isPrefixOf l)).filter (fun l => !startString.isPrefixOf l)
  (inside.map trim).filter (fun l => l != [])

/-- C128 as a user would like it: the paths are what the compiler lists. -/
def PathsCorrect : Prop := ∀ out : Text, (∀ c ∈ out, 0 < c.toNat ∧ c.toNat < 128) → getSearchPaths (some out) = .ok (listedPaths (lines out))

theorem startsWith_eq (line s : Text) : startsWith line s = s.isPrefixOf line := by
  unfold startsWith
  rw [Bool.eq_iff_iff, beq_iff_eq, List.isPrefixOf_iff_prefix, List.prefix_iff_eq_take]
  exact eq_comm

theorem trimFront_eq : ∀ (t : Text), (∀ c ∈ t, c.toNat < 128) → trimFront t = .ok (t.dropWhile isSpace) := by
  intro t
  induction t with
  | nil => intro _; rfl
  | cons c r ih =>
    intro h
    have hc := h c (by simp)
    have ih := ih (fun d hd => h d (by simp [hd]))
    have hi : isspace c = .ok (isSpace c) := by rw [isspace, if_neg (by omega)]
    unfold trimFront
    simp only [hi, bind, Except.bind]
    rw [List.dropWhile_cons]
    split
    · rw [ih]
    · rfl

theorem trim_eq (t : Text) (h : ∀ c ∈ t, c.toNat < 128) : (do let l ← trimFront t; trimBack l) = .ok (trim t) := by
  have h1 := trimFront_eq t h
  have h2 := trimFront_eq (t.dropWhile isSpace).reverse (fun c hc => h c ((List.dropWhile_sublist _).subset (List.mem_reverse.1 hc)))
  simp only [h1, trimBack, bind, Except.bind, h2]
  rfl

/-- A non-empty text begins or ends with a byte that is a negative `char`. -/
def NegativeEnd (t : Text) : Prop := ∃ c, (t.head? = some c ∨ t.getLast? = some c) ∧ 128 ≤ c.toNat

theorem isSpace_lt {c : UInt8} (h : isSpace c = true) : c.toNat < 128 := by
  simp only [isSpace, Bool.or_eq_true, Bool.and_eq_true, beq_iff_eq, decide_eq_true_eq] at h
  rcases h with h | h
  · rw [h]; decide
  · omega

theorem trimFront_exact (t : Text) : trimFront t = match t.dropWhile isSpace with
    | [] => .ok []
    | c :: r => if 128 ≤ c.toNat then .error .badBuiltin else .ok (c :: r) := by
  induction t with
  | nil => rfl
  | cons c r ih =>
    unfold trimFront
    by_cases hc : isSpace c = true
    · have hl := isSpace_lt hc
      rw [List.dropWhile_cons, if_pos hc, ← ih, isspace, if_neg (by omega), hc]
      rfl
    · rw [List.dropWhile_cons, if_neg hc, isspace]
      by_cases hl : 128 ≤ c.toNat
      · simp only [if_pos hl, bind, Except.bind]
      · simp only [if_neg hl, bind, Except.bind, hc]
        rfl

theorem head_trim (t : Text) (c : UInt8) (r : Text) (h : t.dropWhile isSpace = c :: r) : (trim t).head? = some c := by
  have hc : isSpace c = false := by
    have := List.head?_dropWhile_not isSpace t
    rw [h] at this
    simpa using this
  have hs : (c :: r).reverse = r.reverse ++ [c] := List.reverse_cons
  unfold trim
  rw [h, hs, List.head?_reverse, List.dropWhile_append]
  split
  · rw [List.dropWhile_cons, if_neg (by simp [hc])]; rfl
  · exact List.getLast?_concat

/-- C128, for every line: the line that is stored is the line without the white space around it, and `isspace` is asked about a negative `char`, which is not
defined, exactly when the first or the last character that is no white space is one. -/
theorem C128_trim_exact (t : Text) : (NegativeEnd (trim t) → (do let l ← trimFront t; trimBack l) = .error .badBuiltin) ∧
    (¬ NegativeEnd (trim t) → (do let l ← trimFront t; trimBack l) = .ok (trim t)) := by
  rcases hd : t.dropWhile isSpace with _ | ⟨c, r⟩
  · have ht : trim t = [] := by unfold trim; rw [hd]; rfl
    have h1 : trimFront t = .ok [] := by rw [trimFront_exact, hd]
    rw [ht, h1]
    refine ⟨?_, fun _ => rfl⟩
    rintro ⟨c, h | h, _⟩ <;> cases h
  · have hh := head_trim t c r hd
    have h1 : trimFront t = if 128 ≤ c.toNat then .error .badBuiltin else .ok (c :: r) := by rw [trimFront_exact, hd]
    have ht : trim t = ((c :: r).reverse.dropWhile isSpace).reverse := by unfold trim; rw [hd]
    rcases he : (c :: r).reverse.dropWhile isSpace with _ | ⟨e, s⟩
    · rw [ht, he] at hh; cases hh
    · have hl : (trim t).getLast? = some e := by rw [ht, he, List.getLast?_reverse]; rfl
      have h2 : trimFront (c :: r).reverse = if 128 ≤ e.toNat then .error .badBuiltin else .ok (e :: s) := by rw [trimFront_exact, he]
      have hk : trim t = (e :: s).reverse := by rw [ht, he]
      constructor
      · rintro ⟨d, hd', hn⟩
        rw [h1]
        by_cases hc : 128 ≤ c.toNat
        · rw [if_pos hc]; rfl
        · rw [if_neg hc]
          have hde : d = e := by
            rcases hd' with h | h
            · rw [hh] at h; cases h; exact absurd hn hc
            · rw [hl] at h; exact (Option.some.inj h).symm
          subst hde
          show trimBack (c :: r) = _
          unfold trimBack
          rw [h2, if_pos hn]
          rfl
      · intro hn
        have hc : ¬ 128 ≤ c.toNat := fun h => hn ⟨c, .inl hh, h⟩
        have he' : ¬ 128 ≤ e.toNat := fun h => hn ⟨e, .inr hl, h⟩
        rw [h1, if_neg hc]
        show trimBack (c :: r) = _
        unfold trimBack
        rw [h2, if_neg he', hk]
        rfl

/-- Both happen: ` é/inc` in UTF-8 begins with 0xC3, and the white space around `é`-free text goes. -/
example : NegativeEnd (trim [32, 0xC3, 0xA9, 47, 105]) ∧ ¬ NegativeEnd (trim [32, 47, 0xC3, 0xA9, 105, 10]) ∧
    (do let l ← trimFront [32, 47, 0xC3, 0xA9, 105, 10]; trimBack l) = .ok [47, 0xC3, 0xA9, 105] := by
  refine ⟨⟨0xC3, .inl (by decide), by decide⟩, ?_, by decide⟩
  rintro ⟨c, h | h, hc⟩
  · have := Option.some.inj (h.symm.trans (by decide : _ = some (47 : UInt8))); subst this; exact absurd hc (by decide)
  · have := Option.some.inj (h.symm.trans (by decide : _ = some (105 : UInt8))); subst this; exact absurd hc (by decide)

/-- The bytes at the border: 0x7F is a character like another, 0x80 is a negative one. -/
example : (do let l ← trimFront [0x7F]; trimBack l) = .ok [0x7F] ∧ (do let l ← trimFront [0x80]; trimBack l) = .error .badBuiltin := by decide

theorem dropWhile_nil {l : Text} (h : ∀ c ∈ l, isSpace c = true) : l.dropWhile isSpace = [] := by
  induction l with
  | nil => rfl
  | cons c r ih => rw [List.dropWhile_cons, if_pos (h c (by simp)), ih (fun d hd => h d (by simp [hd]))]

theorem nil_dropWhile {l : Text} (h : l.dropWhile isSpace = []) : ∀ c ∈ l, isSpace c = true := by
  induction l with
  | nil => intro c hc; cases hc
  | cons d r ih =>
    rw [List.dropWhile_cons] at h
    split at h
    · rename_i hd
      intro c hc
      rcases List.mem_cons.1 hc with rfl | hc
      · exact hd
      · exact ih h c hc
    · cases h

theorem takeWhile_all {p : UInt8 → Bool} {l : Text} (h : ∀ c ∈ l, p c = true) : l.takeWhile p = l := by
  induction l with
  | nil => rfl
  | cons c r ih => rw [List.takeWhile_cons, if_pos (h c (by simp)), ih (fun d hd => h d (by simp [hd]))]

theorem trim_newline (l : Text) : trim (l ++ [10]) = trim l := by
  unfold trim
  congr 1
  by_cases h : ∀ c ∈ l, isSpace c = true
  · have h1 : (l ++ [10]).dropWhile isSpace = [] := by
      refine dropWhile_nil ?_
      intro c hc
      rcases List.mem_append.1 hc with hc | hc
      · exact h c hc
      · rw [List.mem_singleton] at hc; subst hc; decide
    have h2 : l.dropWhile isSpace = [] := dropWhile_nil h
    rw [h1, h2]
  · have h1 : (l ++ [10]).dropWhile isSpace = l.dropWhile isSpace ++ [10] := by
      rw [List.dropWhile_append]
      have : (l.dropWhile isSpace).isEmpty = false := by
        cases he : l.dropWhile isSpace with
        | nil => exact absurd (nil_dropWhile he) h
        | cons _ _ => rfl
      rw [this]; rfl
    rw [h1, List.reverse_append]
    rfl

theorem marker_newline (m : Text) (hm : 10 ∉ m) (l : Text) : m.isPrefixOf (l ++ [10]) = m.isPrefixOf l := by
  rw [Bool.eq_iff_iff, List.isPrefixOf_iff_prefix, List.isPrefixOf_iff_prefix]
  constructor
  · intro h
    rcases List.prefix_concat_iff.1 h with h | h
    · exact absurd (by rw [h]; simp) hm
    · exact h
  · intro h
    exact h.trans (List.prefix_append l [10])

/-- The pieces, when the lines are short: every line with its newline, the last perhaps without. -/
inductive Whole : List Text → List Text → Prop
  | nil : Whole [] []
  | last (l : Text) : l ≠ [] → Whole [l] [l]
  | cons (l : Text) (ps ls : List Text) : Whole ps ls → Whole ((l ++ [10]) :: ps) (l :: ls)

theorem pieces_whole : ∀ (t : Text) (acc : Text), 10 ∉ acc → (∀ l ∈ lines t, l.length < 1023) →
    (∀ l ls, lines t = l :: ls → acc.length + l.length < 1023) → acc.length < 1023 →
    Whole (pieces t (1023 - acc.length) acc) (match lines t with
      | [] => if acc = [] then [] else [acc.reverse]
      | l :: ls => (acc.reverse ++ l) :: ls) := by
  intro t
  induction t with
  | nil =>
    intro acc _ _ _ _
    simp only [pieces, lines]
    split
    · exact .nil
    · exact .last _ (by simpa using ‹_›)
  | cons c r ih =>
    intro acc hacc hl hfirst hlt
    by_cases hc : c = 10
    · subst hc
      simp only [pieces, lines, true_or, if_true, List.append_nil, List.reverse_cons] at hl ⊢
      refine .cons _ _ _ ?_
      have := ih [] (by simp) (fun l h => hl l (by simp [h])) (by intro l ls h; simp only [List.length_nil, Nat.zero_add]; exact hl l (by simp [h])) (by simp)
      simp only [List.length_nil, Nat.sub_zero, if_true, List.reverse_nil, List.nil_append] at this
      cases h : lines r with
      | nil => rw [h] at this; exact this
      | cons l ls => rw [h] at this; exact this
    · have hlines : lines (c :: r) = match lines r with
        | [] => [[c]]
        | l :: ls => (c :: l) :: ls := by rw [lines, if_neg hc]
      have hlen : acc.length + 1 < 1023 := by
        cases h : lines r with
        | nil => have := hfirst [c] [] (by rw [hlines, h]); simpa using this
        | cons l ls => have := hfirst (c :: l) ls (by rw [hlines, h]); simp only [List.length_cons] at this; omega
      have hp : pieces (c :: r) (1023 - acc.length) acc = pieces r (1023 - (c :: acc).length) (c :: acc) := by
        rw [pieces, if_neg (fun h => h.elim hc (fun h => by omega)), List.length_cons]
        rfl
      rw [hp]
      have hih := ih (c :: acc) (by simp only [List.mem_cons, not_or]; exact ⟨fun h => hc h.symm, hacc⟩) (by
          intro l h
          cases hr : lines r with
          | nil => rw [hr] at h; cases h
          | cons l' ls' =>
            rw [hr] at h
            rcases List.mem_cons.1 h with rfl | h
            · have := hl (c :: l) (by rw [hlines, hr]; simp); simp only [List.length_cons] at this; omega
            · exact hl l (by rw [hlines, hr]; simp [h])) (by
          intro l ls h
          have := hfirst (c :: l) ls (by rw [hlines, h])
          simp only [List.length_cons] at this ⊢; omega) (by simpa using hlen)
      cases hr : lines r with
      | nil =>
        rw [hr] at hih hlines
        rw [hlines]
        simpa using hih
      | cons l ls =>
        rw [hr] at hih hlines
        rw [hlines]
        simpa using hih

theorem lines_no_newline : ∀ (t : Text), ∀ l ∈ lines t, 10 ∉ l ∧ ∀ c ∈ l, c ∈ t := by
  intro t
  induction t with
  | nil => intro l h; cases h
  | cons c r ih =>
    intro l h
    unfold lines at h
    split at h
    · rcases List.mem_cons.1 h with rfl | h
      · simp
      · obtain ⟨h1, h2⟩ := ih l h
        exact ⟨h1, fun d hd => by simp [h2 d hd]⟩
    · rename_i hc
      cases hr : lines r with
      | nil =>
        rw [hr] at h
        simp only [List.mem_singleton] at h
        subst h
        simp only [List.mem_singleton, forall_eq]
        exact ⟨fun h => hc h.symm, by simp⟩
      | cons l' ls =>
        rw [hr] at h
        rcases List.mem_cons.1 h with rfl | h
        · obtain ⟨h1, h2⟩ := ih l' (by simp [hr])
          refine ⟨by simp only [List.mem_cons, not_or]; exact ⟨fun h => hc h.symm, h1⟩, ?_⟩
          intro d hd
          rcases List.mem_cons.1 hd with rfl | hd
          · simp
          · simp [h2 d hd]
        · obtain ⟨h1, h2⟩ := ih l (by simp [hr, h])
          exact ⟨h1, fun d hd => by simp [h2 d hd]⟩

/-- What the loop collects once it has seen the start marker. -/
def inside (ls : List Text) : List Text :=
  (((ls.takeWhile (fun l => !endString.isPrefixOf l)).filter (fun l => !startString.isPrefixOf l)).map trim).filter (fun l => l != [])

theorem markers_differ (l : Text) (h : startString.isPrefixOf l = true) : endString.isPrefixOf l = false := by
  rw [List.isPrefixOf_iff_prefix] at h
  obtain ⟨r, rfl⟩ := h
  rw [← Bool.not_eq_true, List.isPrefixOf_iff_prefix]
  rintro ⟨x, hx⟩
  have := congrArg List.head? hx
  rw [List.head?_append, List.head?_append] at this
  revert this
  have h1 : endString.head? = some 69 := by decide +kernel
  have h2 : startString.head? = some 35 := by decide +kernel
  rw [h1, h2]
  simp

theorem pathsLoop_eq {ps ls : List Text} (h : Whole ps ls) : (∀ l ∈ ls, 10 ∉ l ∧ ∀ c ∈ l, 0 < c.toNat ∧ c.toNat < 128) →
    pathsLoop ps true = .ok (inside ls) ∧ pathsLoop ps false = .ok (listedPaths ls) := by
  have hstart : (10 : UInt8) ∉ startString := by decide +kernel
  have hend : (10 : UInt8) ∉ endString := by decide +kernel
  have step : ∀ (p l : Text) (ps ls : List Text), (p = l ∨ p = l ++ [10]) → (10 ∉ l ∧ ∀ c ∈ l, 0 < c.toNat ∧ c.toNat < 128) →
      (pathsLoop ps true = .ok (inside ls) ∧ pathsLoop ps false = .ok (listedPaths ls)) →
      pathsLoop (p :: ps) true = .ok (inside (l :: ls)) ∧ pathsLoop (p :: ps) false = .ok (listedPaths (l :: ls)) := by
    intro p l ps ls hp hl ih
    obtain ⟨ih1, ih2⟩ := ih
    have hcs : cString p = p := by
      unfold cString
      have : ∀ c ∈ p, (c != 0) = true := by
        intro c hc
        have hpos : 0 < c.toNat := by
          rcases hp with rfl | rfl
          · exact (hl.2 c hc).1
          · rcases List.mem_append.1 hc with hc | hc
            · exact (hl.2 c hc).1
            · rw [List.mem_singleton] at hc; subst hc; decide
        simp only [bne_iff_ne, ne_eq]
        rintro rfl
        exact absurd hpos (by decide)
      exact takeWhile_all this
    have hs : startsWith (cString p) startString = startString.isPrefixOf l := by
      rw [hcs, startsWith_eq]
      rcases hp with rfl | rfl
      · rfl
      · exact marker_newline _ hstart _
    have he : startsWith (cString p) endString = endString.isPrefixOf l := by
      rw [hcs, startsWith_eq]
      rcases hp with rfl | rfl
      · rfl
      · exact marker_newline _ hend _
    have ht : (do let x ← trimFront (cString p); trimBack x) = .ok (trim l) := by
      rw [hcs]
      have hasc : ∀ c ∈ p, c.toNat < 128 := by
        intro c hc
        rcases hp with rfl | rfl
        · exact (hl.2 c hc).2
        · rcases List.mem_append.1 hc with hc | hc
          · exact (hl.2 c hc).2
          · rw [List.mem_singleton] at hc; subst hc; decide
      rw [trim_eq p hasc]
      rcases hp with rfl | rfl
      · rfl
      · rw [trim_newline]
    cases hst : startString.isPrefixOf l with
    | true =>
      have hen := markers_differ l hst
      constructor
      · unfold pathsLoop
        simp only [hs, hst, if_true, ih1]
        simp [inside, hen, hst]
      · unfold pathsLoop
        simp only [hs, hst, if_true, ih1]
        simp [inside, listedPaths, hen, hst]
    | false =>
      constructor
      · cases hen : endString.isPrefixOf l with
        | true =>
          unfold pathsLoop
          simp only [hs, hst, he, hen, Bool.false_eq_true, if_false, Bool.and_true, if_true]
          simp [inside, hen]
        | false =>
          unfold pathsLoop
          simp only [hs, hst, he, hen, Bool.false_eq_true, if_false, Bool.and_true, Bool.not_true]
          have ht' : (do
              let line ← trimFront (cString p)
              let line ← trimBack line
              if line = [] then pathsLoop ps true
              else do
                let more ← pathsLoop ps true
                .ok (line :: more) : Exec (List Text)) = (if trim l = [] then pathsLoop ps true else do
                let more ← pathsLoop ps true
                .ok (trim l :: more)) := by
            simp only [bind, Except.bind] at ht ⊢
            cases h1 : trimFront (cString p) with
            | error e => rw [h1] at ht; cases ht
            | ok x =>
              rw [h1] at ht
              simp only at ht ⊢
              rw [ht]
          rw [ht', ih1]
          by_cases hb : trim l = []
          · simp [inside, hen, hst, hb]
          · rw [if_neg hb]
            simp [inside, hen, hst, hb, bind, Except.bind]
      · unfold pathsLoop
        simp only [hs, hst, Bool.false_eq_true, if_false, Bool.and_false, Bool.not_false, if_true, ih2]
        simp [listedPaths, hst]
  induction h with
  | nil => intro _; exact ⟨rfl, rfl⟩
  | last l hne => intro h; exact step l l [] [] (.inl rfl) (h l (by simp)) ⟨rfl, rfl⟩
  | cons l ps ls _ ih => intro h; exact step _ l ps ls (.inr rfl) (h l (by simp)) (ih (fun x hx => h x (by simp [hx])))

/-- C128, for lines of fewer than 1023 characters: the paths are what the compiler lists, in order. Missing: longer lines (see the refutation). -/
theorem C128_paths_partial (out : Text) (hasc : ∀ c ∈ out, 0 < c.toNat ∧ c.toNat < 128) (hshort : ∀ l ∈ lines out, l.length < 1023) :
    getSearchPaths (some out) = .ok (listedPaths (lines out)) := by
  have hw := pieces_whole out [] (by simp) hshort (by intro l ls h; simp only [List.length_nil, Nat.zero_add]; exact hshort l (by simp [h])) (by simp)
  simp only [List.length_nil, Nat.sub_zero, if_true, List.reverse_nil, List.nil_append] at hw
  have hw' : Whole (pieces out 1023 []) (lines out) := by
    cases h : lines out with
    | nil => rw [h] at hw; exact hw
    | cons l ls => rw [h] at hw; exact hw
  exact (pathsLoop_eq hw' (fun l hl => ⟨(lines_no_newline out l hl).1, fun c hc => hasc c ((lines_no_newline out l hl).2 c hc)⟩)).2

/-- C128: `-I` directories follow the compiler's, in order. -/
theorem C128_include_dirs (out : Text) (dirs paths : List Text) (h : getSearchPaths (some out) = .ok paths) : searchPaths (some out) dirs = .ok (paths ++ dirs) := by
  simp [searchPaths, h, bind, Except.bind]

/-- What a compiler with one very long path prints. -/
def longOutput : Text := startString ++ 10 :: (List.replicate 1100 97 ++ 10 :: endString ++ [10])

theorem long_result : getSearchPaths (some longOutput) = .ok [List.replicate 1023 97, List.replicate 77 97] := by decide +kernel

/-- C128 does not hold: a long path becomes two. -/
theorem C128_paths_refuted : ¬ PathsCorrect := by
  intro h
  have := h longOutput (by decide +kernel)
  rw [long_result] at this
  injection this with this
  have := congrArg List.length this
  revert this
  decide +kernel

/-- C128: if the compiler cannot be run, a null pointer is used. -/
theorem C128_popen_refuted : getSearchPaths none = .error .nullDeref := rfl

def sampleOutput : Text := "#include \"...\" search starts here:\n#include <...> search starts here:\n /usr/include/c++/v1\n\n /usr/include \nEnd of search list.\n# 1\n".toUTF8.toList

example : (∀ c ∈ sampleOutput, 0 < c.toNat ∧ c.toNat < 128) ∧ (∀ l ∈ lines sampleOutput, l.length < 1023) := by decide +kernel

example : getSearchPaths (some sampleOutput) = .ok ["/usr/include/c++/v1".toUTF8.toList, "/usr/include".toUTF8.toList] := by decide +kernel

/-! ## C129: files -/

/-- What the tool is to do with a file: its new text, if it has one. -/
def styled (env : Env) (w : World) (path : Nat) : Option Text :=
  match w.files path with
  | none => none
  | some text => match env.style text with
    | some (.ok new) => some new
    | _ => none

/-- C129 as a user would like it: whenever the tool is interrupted, the file has its old or its new text; and if it reports success, the new one. -/
def InPlaceCorrect : Prop :=
  ∀ (env : Env) (path : Nat) (w : World), env.inPlace = true →
    (∀ v ∈ (runForPath env path w).1, v.files path = w.files path ∨ ∃ new, styled env w path = some new ∧ v.files path = some new) ∧
    ((runForPath env path w).2 = .ok true → ∃ new, styled env w path = some new ∧ (lastOf w (runForPath env path w).1).files path = some new)

/-- Two files, and a tool that puts a brace on a line of its own. -/
def sampleWorld : World := { files := fun p => if p = 0 then some "f() {".toUTF8.toList else if p = 1 then some "g() {".toUTF8.toList else none, out := [] }

def sampleEnv (room : Nat) : Env where
  inPlace := true
  style t := if t.length < 5 then none else some (.ok (t.take 3 ++ 10 :: t.drop 4))
  writable _ := true
  room _ := room

/-- C129 does not hold: after a crash the file can be empty. -/
theorem C129_interrupted_refuted : ¬ InPlaceCorrect := by
  intro h
  have := (h (sampleEnv 100) 0 sampleWorld rfl).1 (sampleWorld.set 0 []) (by
    have : runForPath (sampleEnv 100) 0 sampleWorld = (sampleWorld :: writing sampleWorld 0 "f()\n{".toUTF8.toList 100, .ok true) := by
      have hf : sampleWorld.files 0 = some "f() {".toUTF8.toList := rfl
      have hst : (sampleEnv 100).style "f() {".toUTF8.toList = some (.ok "f()\n{".toUTF8.toList) := by decide +kernel
      simp only [runForPath, hf, hst]
      rfl
    rw [this]
    refine List.mem_cons_of_mem _ (List.mem_map.2 ⟨0, by decide +kernel, rfl⟩))
  rcases this with h | ⟨new, h1, h2⟩
  · revert h; decide +kernel
  · have : styled (sampleEnv 100) sampleWorld 0 = some "f()\n{".toUTF8.toList := by decide +kernel
    rw [this] at h1
    injection h1 with h1
    subst h1
    revert h2
    decide +kernel

/-- C129: on a full device the file is lost, and the tool reports success. -/
theorem C129_full_device_refuted : (runForPath (sampleEnv 0) 0 sampleWorld).2 = .ok true ∧ (lastOf sampleWorld (runForPath (sampleEnv 0) 0 sampleWorld).1).files 0 = some [] := by
  constructor <;> decide +kernel

theorem last_writing (w v : World) (path : Nat) (t : Text) (room : Nat) : lastOf v (w :: writing w path t room) = w.set path (t.take room) := by
  unfold lastOf writing
  rw [List.range_succ, List.map_append]
  simp only [List.map_cons, List.map_nil]
  rw [← List.cons_append, List.getLast?_append]
  simp only [List.getLast?_singleton, Option.some_or, Option.getD_some]
  congr 1
  rcases Nat.le_total room t.length with h | h
  · rw [Nat.min_eq_left h]
  · rw [Nat.min_eq_right h, List.take_length, List.take_of_length_le h]

theorem writing_mem {w : World} {path : Nat} {t : Text} {room : Nat} {v : World} (h : v ∈ writing w path t room) : ∃ k, k ≤ room ∧ v = w.set path (t.take k) := by
  obtain ⟨k, hk, rfl⟩ := List.mem_map.1 h
  rw [List.mem_range] at hk
  exact ⟨k, by omega, rfl⟩

/-- C129, if the device takes the text and nothing interrupts the tool: with `-p` success means that the file has its new text, failure that it has its old
one; and nothing else changes. -/
theorem C129_in_place_partial (env : Env) (path : Nat) (w : World) (hp : env.inPlace = true)
    (hroom : ∀ new, styled env w path = some new → new.length ≤ env.room path) (b : Bool) (hb : (runForPath env path w).2 = .ok b) :
    (if b = true then ∃ new, styled env w path = some new ∧ (lastOf w (runForPath env path w).1) = w.set path new
     else lastOf w (runForPath env path w).1 = w) ∧
    (b = true ↔ env.writable path = true ∧ styled env w path ≠ none) := by
  unfold runForPath at *
  unfold styled at *
  cases hf : w.files path with
  | none => simp only [hf] at hb ⊢; injection hb with hb; subst hb; simp [lastOf]
  | some text =>
    simp only [hf] at hb hroom ⊢
    cases hs : env.style text with
    | none => simp only [hs] at hb ⊢; injection hb with hb; subst hb; simp [lastOf]
    | some x =>
      cases x with
      | error e => simp only [hs] at hb; cases hb
      | ok new =>
        simp only [hs, hp, if_true] at hb hroom ⊢
        cases hw : env.writable path with
        | true =>
          simp only [hw, if_true] at hb ⊢
          injection hb with hb
          subst hb
          simp only [if_true]
          refine ⟨⟨new, rfl, ?_⟩, by simp⟩
          rw [last_writing, List.take_of_length_le (hroom new rfl)]
        | false =>
          simp only [hw, Bool.false_eq_true, if_false] at hb ⊢
          injection hb with hb
          subst hb
          simp [lastOf]

/-- C129: without `-p` no file ever changes; the new text goes to standard output if and only if the tool reports success. -/
theorem C129_print (env : Env) (path : Nat) (w : World) (hp : env.inPlace = false) :
    (∀ v ∈ (runForPath env path w).1, v.files = w.files) ∧
    ((runForPath env path w).2 = .ok true ↔ styled env w path ≠ none) ∧
    (lastOf w (runForPath env path w).1).out = w.out ++ (styled env w path).getD [] := by
  unfold runForPath styled
  cases hf : w.files path with
  | none => simp [lastOf]
  | some text =>
    simp only
    cases hs : env.style text with
    | none => simp [lastOf]
    | some x => cases x <;> simp [hp, lastOf]

/-- C129: if styling a file fails (an assertion, for instance), or the file has errors, nothing has been written yet. -/
theorem C129_fault_unchanged (env : Env) (path : Nat) (w : World) (h : styled env w path = none) : ∀ v ∈ (runForPath env path w).1, v = w := by
  unfold runForPath
  unfold styled at h
  cases hf : w.files path with
  | none => simp
  | some text =>
    simp only [hf] at h ⊢
    cases hs : env.style text with
    | none => simp
    | some x =>
      cases x with
      | error e => simp
      | ok new => simp only [hs] at h; cases h

/-- C129: the other files are not touched. -/
theorem C129_others_untouched (env : Env) (path : Nat) (w : World) : ∀ v ∈ (runForPath env path w).1, ∀ p, p ≠ path → v.files p = w.files p := by
  have h1 : ∀ v ∈ [w], ∀ p, p ≠ path → v.files p = w.files p := by simp
  unfold runForPath
  cases hf : w.files path with
  | none => exact h1
  | some text =>
    simp only
    cases hs : env.style text with
    | none => exact h1
    | some x =>
      cases x with
      | error e => exact h1
      | ok new =>
        simp only
        split
        · split
          · intro v hv p hp
            rcases List.mem_cons.1 hv with rfl | hv
            · rfl
            · obtain ⟨k, -, rfl⟩ := writing_mem hv
              simp [World.set, hp]
          · exact h1
        · simp

/-- The verdict on a single file, in the state that the files before it have left. -/
def verdicts (env : Env) : List Nat → World → List (Exec Bool)
  | [], _ => []
  | p :: r, w => (runForPath env p w).2 :: verdicts env r (lastOf w (runForPath env p w).1)

theorem runAll_acc (env : Env) : ∀ (paths : List Nat) (ok : Bool) (w : World) (b : Bool),
    (runAll env paths ok w).2 = .ok b → (b = true ↔ ok = true ∧ ∀ v ∈ verdicts env paths w, v = .ok true) ∧ ∀ v ∈ verdicts env paths w, ∃ c, v = .ok c := by
  intro paths
  induction paths with
  | nil => intro ok w b h; simp only [runAll] at h; injection h with h; subst h; simp [verdicts]
  | cons p r ih =>
    intro ok w b h
    unfold runAll at h
    unfold verdicts
    generalize hx : runForPath env p w = x at h ⊢
    obtain ⟨trace, res⟩ := x
    cases res with
    | error e => cases h
    | ok c =>
      simp only at h
      obtain ⟨h1, h2⟩ := ih (ok && c) (lastOf w trace) b h
      refine ⟨?_, ?_⟩
      · rw [h1]
        simp only [Bool.and_eq_true, List.mem_cons, forall_eq_or_imp, Except.ok.injEq]
        exact ⟨fun ⟨⟨a, b⟩, c⟩ => ⟨a, b, c⟩, fun ⟨a, b, c⟩ => ⟨⟨a, b⟩, c⟩⟩
      · intro v hv
        rcases List.mem_cons.1 hv with rfl | hv
        · exact ⟨c, rfl⟩
        · exact h2 v hv

/-- C129: the program's exit code is 0 if every file was dealt with, else 1; no file is left out because of an earlier failure. -/
theorem C129_exit_code (env : Env) (paths : List Nat) (w : World) (n : Nat) (h : exitCode env paths w = .ok n) :
    (∀ v ∈ verdicts env paths w, ∃ c, v = .ok c) ∧ ((n = 0 ∧ ∀ v ∈ verdicts env paths w, v = .ok true) ∨ (n = 1 ∧ ∃ v ∈ verdicts env paths w, v = .ok false)) := by
  unfold exitCode at h
  cases hr : (runAll env paths true w).2 with
  | error e => rw [hr] at h; cases h
  | ok b =>
    rw [hr] at h
    simp only [bind, Except.bind] at h
    injection h with h
    obtain ⟨h1, h2⟩ := runAll_acc env paths true w b hr
    refine ⟨h2, ?_⟩
    cases b with
    | true => exact .inl ⟨by simpa using h.symm, (h1.1 rfl).2⟩
    | false =>
      refine .inr ⟨by simpa using h.symm, ?_⟩
      apply Classical.byContradiction
      intro hno
      have : false = true := h1.2 ⟨rfl, fun v hv => by
        obtain ⟨c, rfl⟩ := h2 v hv
        cases c with
        | true => rfl
        | false => exact absurd ⟨_, hv, rfl⟩ hno⟩
      cases this

example : (exitCode (sampleEnv 100) [0, 7, 1] sampleWorld) = .ok 1 ∧ verdicts (sampleEnv 100) [0, 7, 1] sampleWorld = [.ok true, .ok false, .ok true] ∧
    (lastOf sampleWorld (runAll (sampleEnv 100) [0, 7, 1] true sampleWorld).1).files 1 = some "g()\n{".toUTF8.toList := by decide +kernel

example : ∀ new, styled (sampleEnv 100) sampleWorld 0 = some new → new.length ≤ (sampleEnv 100).room 0 := by
  intro new h
  have : styled (sampleEnv 100) sampleWorld 0 = some "f()\n{".toUTF8.toList := by decide +kernel
  rw [this] at h
  injection h with h
  subst h
  decide +kernel

/-- C128: the marker lines are `#include <...> search starts here:` and `End of search list.`, and white space is space, tab, line feed, vertical tab, form feed and carriage return. -/
theorem C128_markers : startString = [35, 105, 110, 99, 108, 117, 100, 101, 32, 60, 46, 46, 46, 62, 32, 115, 101, 97, 114, 99, 104, 32, 115, 116, 97, 114, 116, 115, 32, 104, 101, 114, 101, 58] ∧ endString = [69, 110, 100, 32, 111, 102, 32, 115, 101, 97, 114, 99, 104, 32, 108, 105, 115, 116, 46] ∧ ∀ c : UInt8, isSpace c = true ↔ c ∈ ([32, 9, 10, 11, 12, 13] : List UInt8) := by
  refine ⟨by decide +kernel, by decide +kernel, ?_⟩
  intro c
  have h : ∀ n : Fin 256, isSpace (UInt8.ofNat n) = true ↔ UInt8.ofNat n ∈ ([32, 9, 10, 11, 12, 13] : List UInt8) := by decide +kernel
  have := h ⟨c.toNat, c.toNat_lt⟩
  simpa using this

end Verif.Restyler.Tool
