import Verif.Restyler.Nodes
import Verif.Restyler.Demo
/-! # Properties of the restyler (C126, C127) -/
namespace Verif.Restyler
open Verif Verif.Rewriter

/-! ## What edits do to a text -/

/-- The part of the text that an edit replaces. -/
def seg (t : Text) (e : Edit) : Text := (t.take e.stop).drop e.start

theorem take_applyAll {t : Text} : ∀ (edits : List Edit) (k : Nat), Disjoint t.length edits → k ≤ t.length → (∀ e ∈ edits, k ≤ e.start) →
    (applyAll edits t).take k = t.take k := by
  intro edits
  induction edits with
  | nil => intro k _ _ _; rfl
  | cons e r ih =>
    intro k hd hk hle
    have hs := hle e (by simp)
    have hd' : Disjoint t.length r ∧ e.start ≤ e.stop ∧ e.start ≤ t.length ∧ ∀ x ∈ r, e.start ≤ x.start := by
      clear ih hle hs hk
      induction r generalizing e with
      | nil => exact ⟨trivial, hd.1, by have := hd.1; have := hd.2; omega, by simp⟩
      | cons f r ih2 =>
        obtain ⟨h1, h2, h3⟩ := hd
        obtain ⟨g1, g2, g3, g4⟩ := ih2 f h3
        refine ⟨h3, h1, by omega, ?_⟩
        intro x hx
        rcases List.mem_cons.1 hx with rfl | hx
        · omega
        · have := g4 x hx; omega
    have ih1 := ih e.start hd'.1 hd'.2.2.1 hd'.2.2.2
    show (Edit.apply e (applyAll r t)).take k = _
    unfold Edit.apply
    rw [ih1, List.append_assoc, List.take_append_of_le_length (by rw [List.length_take]; omega), List.take_take, Nat.min_eq_left hs]

theorem disjoint_cons {n : Nat} {e : Edit} {r : List Edit} (h : Disjoint n (e :: r)) : e.start ≤ e.stop ∧ e.stop ≤ n ∧ Disjoint n r ∧ ∀ x ∈ r, e.stop ≤ x.start := by
  induction r generalizing e with
  | nil => exact ⟨h.1, h.2, trivial, by simp⟩
  | cons f r ih =>
    obtain ⟨h1, h2, h3⟩ := h
    obtain ⟨g1, g2, g3, g4⟩ := ih h3
    refine ⟨h1, by omega, h3, ?_⟩
    intro x hx
    rcases List.mem_cons.1 hx with rfl | hx
    · exact h2
    · have := g4 x hx; omega

theorem split_at {u : Text} {a b : Nat} (h : a ≤ b) : u = u.take a ++ ((u.take b).drop a ++ u.drop b) := by
  have h1 : u.take b = u.take a ++ (u.take b).drop a := by
    have := List.take_append_drop a (u.take b)
    rw [List.take_take, Nat.min_eq_left h] at this
    exact this.symm
  rw [← List.append_assoc, ← h1, List.take_append_drop]

theorem code_append (a b : Text) : code (a ++ b) = code a ++ code b := by simp [code]

theorem applyAll_code {t : Text} : ∀ (edits : List Edit), Disjoint t.length edits → (∀ e ∈ edits, code e.text = [] ∧ code (seg t e) = []) →
    code (applyAll edits t) = code t := by
  intro edits
  induction edits with
  | nil => intro _ _; rfl
  | cons e r ih =>
    intro hd hc
    obtain ⟨h1, h2, h3, h4⟩ := disjoint_cons hd
    have hu : (applyAll r t).take e.stop = t.take e.stop := take_applyAll r _ h3 h2 h4
    obtain ⟨c1, c2⟩ := hc e (by simp)
    rw [← ih h3 (fun x hx => hc x (by simp [hx])), applyAll_cons]
    have hs := split_at (u := applyAll r t) h1
    rw [hu] at hs
    generalize applyAll r t = u at *
    unfold Edit.apply
    have : code u = code (u.take e.start ++ ((t.take e.stop).drop e.start ++ u.drop e.stop)) := by rw [← hs]
    rw [this]
    unfold seg at c2
    simp only [code_append, c1, c2, List.append_nil, List.nil_append]

theorem applyAll_count {t : Text} (c : UInt8) : ∀ (edits : List Edit), Disjoint t.length edits →
    (applyAll edits t).count c + (edits.map (fun e => (seg t e).count c)).sum = t.count c + (edits.map (fun e => e.text.count c)).sum := by
  intro edits
  induction edits with
  | nil => intro _; rfl
  | cons e r ih =>
    intro hd
    obtain ⟨h1, h2, h3, h4⟩ := disjoint_cons hd
    have hu : (applyAll r t).take e.stop = t.take e.stop := take_applyAll r _ h3 h2 h4
    have ih := ih h3
    rw [applyAll_cons]
    have hs := split_at (u := applyAll r t) h1
    rw [hu] at hs
    generalize applyAll r t = u at *
    have : u.count c = (u.take e.start).count c + ((seg t e).count c + (u.drop e.stop).count c) := by
      rw [← List.count_append, ← List.count_append]; exact congrArg _ hs
    unfold Edit.apply
    simp only [List.map_cons, List.sum_cons, List.count_append]
    omega

/-! ## The edits of the rules are cosmetic -/

/-- Nothing but white space and commas comes or goes, and as many commas come as go. -/
def Balanced (t : Text) (es : List Edit) : Prop :=
  (∀ e ∈ es, code e.text = [] ∧ code (seg t e) = []) ∧ (es.map (fun e => (seg t e).count 44)).sum = (es.map (fun e => e.text.count 44)).sum

theorem Balanced.nil (t : Text) : Balanced t [] := ⟨by simp, rfl⟩

theorem Balanced.append {t : Text} {a b : List Edit} (ha : Balanced t a) (hb : Balanced t b) : Balanced t (a ++ b) := by
  refine ⟨?_, by simp only [List.map_append, List.sum_append, ha.2, hb.2]⟩
  intro e he
  rcases List.mem_append.1 he with he | he
  · exact ha.1 e he
  · exact hb.1 e he

theorem Balanced.perm {t : Text} {a b : List Edit} (h : a.Perm b) (hb : Balanced t b) : Balanced t a :=
  ⟨fun e he => hb.1 e (h.subset he), by rw [(h.map _).sum_nat, (h.map _).sum_nat]; exact hb.2⟩

/-- A text of white space. -/
def Blank (t : Text) : Prop := ∀ c ∈ t, isWs c = true

theorem Blank.code {t : Text} (h : Blank t) : code t = [] := by
  unfold Restyler.code
  rw [List.filter_eq_nil_iff]
  intro c hc
  simp [h c hc]

theorem Blank.count {t : Text} (h : Blank t) : t.count 44 = 0 := by
  rw [List.count_eq_zero]
  intro hc
  exact absurd (h 44 hc) (by decide)

theorem blank_seg {t : Text} {e : Edit} (h : AllWhite t e.start e.stop) : Blank (seg t e) := by
  intro c hc
  obtain ⟨k, hk, rfl⟩ := List.getElem_of_mem hc
  have hk' := hk
  simp only [seg, List.length_drop, List.length_take] at hk'
  obtain ⟨d, hd, hw⟩ := h (e.start + k) (by omega) (by omega)
  rw [Option.mem_def, List.getElem?_eq_some_iff] at hd
  obtain ⟨hlt, hd⟩ := hd
  have : (seg t e)[k] = t[e.start + k] := by simp [seg]
  rw [this, hd]; exact hw

theorem balanced_blank {t : Text} {e : Edit} (ht : Blank e.text) (h : AllWhite t e.start e.stop) : Balanced t [e] := by
  have hs := blank_seg h
  refine ⟨?_, by simp [ht.count, hs.count]⟩
  intro x hx
  rw [List.mem_singleton] at hx
  subst hx
  exact ⟨ht.code, hs.code⟩

theorem balanced_split {t : Text} {line b : Nat} (hb : b ≤ t.length) : Balanced t [splitEdit t line b] := by
  refine balanced_blank ?_ (runStart_spec t b hb).2.1
  intro c hc
  rcases List.mem_cons.1 hc with rfl | hc
  · decide
  · unfold indentOf at hc
    exact (List.all_eq_true.1 (List.all_takeWhile (p := isWs) (l := lineUpTo t line))) c hc

theorem balanced_stmt {s : Src} {start r : Nat} {b : Body} (h : StmtOk s start r b) : Balanced s.text (stmtEdits s.text start r b) := by
  unfold stmtEdits
  split
  · exact balanced_split (Nat.le_of_lt h.1.1.lt)
  · exact Balanced.nil _

theorem balanced_join {t : Text} {left onLine : Prop} [Decidable left] [Decidable onLine] {b : Body} :
    Balanced t (if JoinsBraces t left onLine b then [joinEdit b] else []) := by
  split
  · rename_i h
    exact balanced_blank (by intro c hc; cases hc) h.2.2.2.1
  · exact Balanced.nil _

theorem balanced_comma {s : Src} (hl : Lexes s) {x : Init} (h : ∀ p ∈ x.rparen, Solid s.text x.next) : Balanced s.text (commaEdits s x) := by
  unfold commaEdits
  cases hx : x.rparen with
  | none => exact Balanced.nil _
  | some p =>
    simp only
    split
    · rename_i hc
      have hs := h p hx
      have hcomma := (hl _ hs).2 hc.1
      have hlt := hs.lt
      have hseg : seg s.text ⟨x.next, x.next + 1, [32]⟩ = [44] := by
        simp only [seg]
        rw [List.take_succ_eq_append_getElem hlt, List.drop_left' (by rw [List.length_take]; omega)]
        rw [List.getElem?_eq_getElem hlt] at hcomma
        injection hcomma with hcomma
        rw [hcomma]
      have hseg0 : seg s.text ⟨p + 1, p + 1, [44]⟩ = [] := by simp [seg]
      refine ⟨?_, by simp only [List.map_cons, List.map_nil, hseg, hseg0]; decide⟩
      intro e he
      simp only [List.mem_cons, List.not_mem_nil, or_false] at he
      rcases he with rfl | rfl
      · rw [hseg0]; exact ⟨by show code [44] = []; decide, by decide⟩
      · rw [hseg]; exact ⟨by show code [32] = []; decide, by decide⟩
    · exact Balanced.nil _

theorem balanced_flatMap {s : Src} (l : List Init) (h : ∀ x ∈ l, Balanced s.text (commaEdits s x)) : Balanced s.text (l.flatMap (commaEdits s)) := by
  induction l with
  | nil => exact Balanced.nil _
  | cons x r ih =>
    rw [List.flatMap_cons]
    exact (h x (by simp)).append (ih (fun y hy => h y (by simp [hy])))

theorem balanced_fn {s : Src} (hl : Lexes s) {f : Fn} (h : FnTextOk s f) : Balanced s.text (fnEdits s f) := by
  obtain ⟨hoper, hbody⟩ := h
  have h1 : Balanced s.text (operEdits s f) := by
    unfold operEdits
    split
    · exact balanced_blank (by intro c hc; rw [List.mem_singleton] at hc; subst hc; decide) (by intro k h1 h2; simp only at h1 h2; omega)
    · exact Balanced.nil _
  unfold fnEdits
  cases hb : f.body with
  | none => exact h1
  | some b =>
    obtain ⟨hbo, hin, hty⟩ := hbody b hb
    have h2 : Balanced s.text (fnInitEdits s f) := by
      unfold fnInitEdits
      cases hi : f.inits with
      | none => exact Balanced.nil _
      | some inits =>
        simp only
        unfold initEdits
        split
        · exact Balanced.nil _
        · rename_i hlen
          exact balanced_flatMap _ (fun x hx => balanced_comma hl (fun p hp => (hin inits hi (by omega) x hx p hp).2.1.solid))
    cases ht : f.type with
    | none => exact h1.append h2
    | some xy =>
      obtain ⟨x, y⟩ := xy
      refine (h1.append h2).append ?_
      have hbl : b.start ≤ s.text.length := Nat.le_of_lt hbo.1.lt
      unfold fnBodyEdits
      cases hi : f.inits with
      | none =>
        simp only
        unfold plainEdits
        refine balanced_join.append ?_
        split
        · exact balanced_split hbl
        · exact Balanced.nil _
      | some inits =>
        simp only
        unfold ctorEdits
        split
        · exact Balanced.nil _
        · refine balanced_join.append ?_
          split
          · exact balanced_split hbl
          · exact Balanced.nil _

theorem balanced_all {s : Src} (hl : Lexes s) {nodes : List Node} {es : List Edit} (h : AsksAll s nodes es) : Balanced s.text es := by
  induction h with
  | nil => exact Balanced.nil _
  | cons n r es fs h _ ih =>
    refine Balanced.append ?_ ih
    cases h with
    | elsewhere => exact Balanced.nil _
    | plainCond => exact Balanced.nil _
    | condNone => exact Balanced.nil _
    | plainLoop => exact Balanced.nil _
    | plainHandler => exact Balanced.nil _
    | cond start condEnd b r hc hp hs => exact balanced_stmt hs
    | loop start r b hc hs => exact balanced_stmt hs
    | handler start e b r hc hcl hs => exact balanced_stmt hs
    | fn f hf => exact balanced_fn hl hf

/-! ## C126 -/

/-- C126 as a user would like it: however the file is laid out, the tool changes nothing but white space and the places of commas. -/
def CosmeticCorrect : Prop :=
  ∀ (s : Src) (nodes : List Node) (r : Exec Text), s.text.length < npos → Lexes s → (∀ n ∈ nodes, Described s n) → Distinct s nodes → Restyles true s nodes r →
    ∃ out, r = .ok out ∧ code out = code s.text ∧ out.count 44 = s.text.count 44

/-- C126, for files that are laid out as the tool expects: the result is the file with exactly the edits that the style rules ask for, none lost, none
twice, and no overlaps, in debug and in release builds. Missing: the layouts of the refutations below. -/
theorem C126_edits_partial (debug : Bool) (s : Src) (nodes : List Node) (es : List Edit) (r : Exec Text) (hn : s.text.length < npos) (hl : Lexes s)
    (ha : AsksAll s nodes es) (hd : Distinct s nodes) (hr : Restyles debug s nodes r) :
    ∃ edits, edits.Perm es ∧ Disjoint s.text.length edits ∧ r = .ok (applyAll edits s.text) := by
  obtain ⟨st, ops, h1, h2, h3⟩ := visitAll_good hl ha { ops := [], visited := [] } hd.2.2 (by simp)
  obtain ⟨reqs, g1, g2, g3⟩ := good_separate h3 hd.1 hd.2.1
  refine ⟨_, g3, separate_disjoint g1, ?_⟩
  have hreq : requests s nodes = .ok ops := by
    simp only [requests, h1, bind, Except.bind]
    rw [h2]; rfl
  unfold Restyles at hr
  rw [hreq] at hr
  exact C81_emit_partial debug s.text reqs ops r hn g1 g2 hr

/-- C126: such a file keeps all of its characters but white space and commas, in their order, and as many commas as it had. -/
theorem C126_cosmetic_partial (debug : Bool) (s : Src) (nodes : List Node) (es : List Edit) (r : Exec Text) (hn : s.text.length < npos) (hl : Lexes s)
    (ha : AsksAll s nodes es) (hd : Distinct s nodes) (hr : Restyles debug s nodes r) :
    ∃ out, r = .ok out ∧ code out = code s.text ∧ out.count 44 = s.text.count 44 := by
  obtain ⟨edits, h1, h2, rfl⟩ := C126_edits_partial debug s nodes es r hn hl ha hd hr
  have hb := (balanced_all hl ha).perm h1
  refine ⟨_, rfl, applyAll_code edits h2 hb.1, ?_⟩
  have := applyAll_count 44 edits h2
  have := hb.2
  omega

/-- C126: there always is a result (the relation `Restyles` is not empty). -/
theorem C126_some_result (debug : Bool) (s : Src) (nodes : List Node) : ∃ r, Restyles debug s nodes r := by
  unfold Restyles
  cases requests s nodes with
  | error e => exact ⟨_, rfl⟩
  | ok ops =>
    refine ⟨_, ops.mergeSort (fun a b => decide (a.offset ≤ b.offset)), List.mergeSort_perm _ _, ?_, rfl⟩
    have := List.pairwise_mergeSort (le := fun (a b : Op) => decide (a.offset ≤ b.offset)) (by intro a b c h1 h2; simp at *; omega) (by intro a b; simp; omega) ops
    exact this.imp (by simp)

/-! ## C127 -/

/-- C127 as a user would like it: a function that is styled already, so that every rule asks for no change, is left as it is. -/
def UnchangedCorrect : Prop :=
  ∀ (s : Src) (f : Fn) (r : Exec Text), s.text.length < npos → Lexes s → Described s (.fn f) → Distinct s [.fn f] →
    (∀ e ∈ fnEdits s f, e.apply s.text = s.text) → Restyles true s [.fn f] r → r = .ok s.text

/-- C127, for files that are laid out as the tool expects: if every rule asks for no change, the result is the file. Missing: empty functions with the brace
on a line of its own (see the refutation). -/
theorem C127_styled_unchanged_partial (debug : Bool) (s : Src) (nodes : List Node) (es : List Edit) (r : Exec Text) (hn : s.text.length < npos) (hl : Lexes s)
    (ha : AsksAll s nodes es) (hd : Distinct s nodes) (hsame : ∀ e ∈ es, e.apply s.text = s.text) (hr : Restyles debug s nodes r) : r = .ok s.text := by
  obtain ⟨edits, h1, -, rfl⟩ := C126_edits_partial debug s nodes es r hn hl ha hd hr
  have hsame : ∀ e ∈ edits, e.apply s.text = s.text := fun e he => hsame e (h1.subset he)
  clear h1 hr
  congr 1
  induction edits with
  | nil => rfl
  | cons e r ih =>
    rw [applyAll_cons, ih (by intro x hx; exact hsame x (by simp [hx])) ]
    exact hsame e (by simp)

/-! ## Layouts that go wrong -/

/-- Insertion sort by offset, for the examples. -/
def insertOp (o : Op) : List Op → List Op
  | [] => [o]
  | p :: r => if o.offset ≤ p.offset then o :: p :: r else p :: insertOp o r

def sortOps : List Op → List Op
  | [] => []
  | o :: r => insertOp o (sortOps r)

theorem insertOp_perm (o : Op) (l : List Op) : (insertOp o l).Perm (o :: l) := by
  induction l with
  | nil => exact .refl _
  | cons p r ih =>
    unfold insertOp
    split
    · exact .refl _
    · exact (ih.cons p).trans (.swap ..)

theorem sortOps_perm (l : List Op) : (sortOps l).Perm l := by
  induction l with
  | nil => exact .refl _
  | cons o r ih => exact (insertOp_perm o _).trans (ih.cons o)

theorem insertOp_sorted (o : Op) (l : List Op) (h : l.Pairwise (fun a b => a.offset ≤ b.offset)) : (insertOp o l).Pairwise (fun a b => a.offset ≤ b.offset) := by
  induction l with
  | nil => simp [insertOp]
  | cons p r ih =>
    have h' := List.pairwise_cons.1 h
    unfold insertOp
    split
    · rename_i hle
      refine .cons ?_ h
      intro x hx
      rcases List.mem_cons.1 hx with rfl | hx
      · exact hle
      · have := h'.1 x hx; omega
    · rename_i hle
      refine .cons ?_ (ih h'.2)
      intro x hx
      rcases List.mem_cons.1 ((insertOp_perm o r).subset hx) with rfl | hx
      · omega
      · exact h'.1 x hx

theorem sortOps_sorted (l : List Op) : (sortOps l).Pairwise (fun a b => a.offset ≤ b.offset) := by
  induction l with
  | nil => exact .nil
  | cons o r ih => exact insertOp_sorted o _ ih

/-- One run of the tool on a text with the demonstration lexer. -/
def run (t : Text) (nodes : List Node) : Exec Text := do
  let ops ← requests (demo t) nodes
  emitLoop true t 0 (sortOps ops) npos

theorem run_restyles (t : Text) (nodes : List Node) : Restyles true (demo t) nodes (run t nodes) := by
  unfold Restyles run
  cases requests (demo t) nodes with
  | error e => rfl
  | ok ops => exact ⟨sortOps ops, sortOps_perm _, sortOps_sorted _, rfl⟩

/-- A constructor with two initialisers on the line of the brace. -/
def twoInits : Text := txt "A::A()\n : a_(1), b_(2) {\n}\n"

def twoInitsFn : Fn where
  start := 0
  oper := false
  name := 3
  body := some ⟨23, true, 25, true⟩
  inits := some [⟨some 14, 15⟩, ⟨some 21, 23⟩]
  type := some (0, 5)

theorem bodyOk_of {s : Src} {b : Body} (h1 : Solid s.text b.start) (h2 : s.tokEnd b.start = b.start + 1) (h3 : b.start < b.rbrace) (h4 : Solid s.text b.rbrace) :
    BodyOk s b := ⟨h1, fun _ => ⟨h2, h3, h4⟩⟩

theorem twoInits_described : Described (demo twoInits) (.fn twoInitsFn) := by
  refine .fn _ ⟨(by intro h; cases h), ?_⟩
  intro b hb
  cases hb
  refine ⟨bodyOk_of (by decide +kernel) (by decide +kernel) (by decide) (by decide +kernel), ?_⟩
  intro x y hxy
  cases hxy
  refine ⟨by decide +kernel, by decide, walk_of_check (n := 30) (by decide +kernel), ?_⟩
  intro inits hi i hi' p hp
  cases hi
  simp only [List.mem_cons, List.not_mem_nil, or_false] at hi'
  rcases hi' with rfl | rfl
  · cases hp
    exact ⟨by decide +kernel, by decide, by decide, next_of_check (n := 30) (by decide +kernel)⟩
  · cases hp
    exact ⟨by decide +kernel, by decide, by decide, next_of_check (n := 30) (by decide +kernel)⟩

theorem single_distinct (s : Src) (n : Node) (h1 : n.braces.Nodup) (h2 : (n.marks s).Nodup) : Distinct s [n] := by
  refine ⟨by simpa using h1, by simpa using h2, by simp⟩

/-- C126 does not hold: of two initialisers on the line of the brace, the second is deleted. -/
theorem C126_cosmetic_refuted : ¬ CosmeticCorrect := by
  intro h
  obtain ⟨out, h1, h2, -⟩ := h (demo twoInits) [.fn twoInitsFn] (run twoInits [.fn twoInitsFn]) (by decide +kernel) (demo_lexes _)
    (by simpa using twoInits_described) (single_distinct _ _ (by decide) (by decide +kernel)) (run_restyles _ _)
  have : run twoInits [.fn twoInitsFn] = .ok (txt "A::A()\n : a_(1)\n{\n}\n") := by decide +kernel
  rw [this] at h1
  injection h1 with h1
  subst h1
  revert h2
  decide +kernel

theorem stmtDescribed_of {s : Src} {start r : Nat} {b : Body} (hb : BodyOk s b) (hc : b.compound = true) (hs : Solid s.text start) (h1 : start < r) (h2 : r < b.start)
    (h3 : s.text[r]? = some 41) : StmtDescribed s start r b := ⟨hb, hc, hs, h1, h2, h3⟩

/-- C126: a comment between the parenthesis and the brace is deleted. -/
theorem C126_comment_refuted :
    Described (demo (txt "while (a &&\n b) /*c*/ {}\n")) (.cond 0 (some 13) ⟨22, true, 23, true⟩) ∧
    run (txt "while (a &&\n b) /*c*/ {}\n") [.cond 0 (some 13) ⟨22, true, 23, true⟩] = .ok (txt "while (a &&\n b)\n{}\n") :=
  ⟨.cond _ _ _ 14 ⟨by decide +kernel, next_of_check (n := 30) (by decide +kernel), by decide +kernel⟩
      (stmtDescribed_of (bodyOk_of (by decide +kernel) (by decide +kernel) (by decide) (by decide +kernel)) rfl (by decide +kernel) (by decide) (by decide) (by decide +kernel)),
    by decide +kernel⟩

/-- C126: a brace that follows the parenthesis at once is deleted. -/
theorem C126_brace_refuted :
    Described (demo (txt "while (a &&\n b){}\n")) (.cond 0 (some 13) ⟨15, true, 16, true⟩) ∧
    run (txt "while (a &&\n b){}\n") [.cond 0 (some 13) ⟨15, true, 16, true⟩] = .ok (txt "while (a &&\n b)\n}\n") :=
  ⟨.cond _ _ _ 14 ⟨by decide +kernel, next_of_check (n := 30) (by decide +kernel), by decide +kernel⟩
      (stmtDescribed_of (bodyOk_of (by decide +kernel) (by decide +kernel) (by decide) (by decide +kernel)) rfl (by decide +kernel) (by decide) (by decide) (by decide +kernel)),
    by decide +kernel⟩

def plainFn (start name typeBegin typeEnd : Nat) (b : Body) : Fn where
  start := start
  oper := false
  name := name
  body := some b
  inits := none
  type := some (typeBegin, typeEnd)

theorem plainFn_described {s : Src} {start name x y : Nat} {b : Body} (hb : BodyOk s b) (hx : Solid s.text x) (hy : y < b.start) (hw : Walk s y b.start) :
    Described s (.fn (plainFn start name x y b)) := by
  refine .fn _ ⟨(by intro h; cases h), ?_⟩
  intro b' hb'
  cases hb'
  refine ⟨hb, ?_⟩
  intro x' y' hxy
  cases hxy
  exact ⟨hx, hy, hw, (by intro inits h; cases h)⟩

/-- C126: for a function in the first column with no space before its brace, the tool fails an assertion. -/
theorem C126_no_space_refuted :
    Described (demo (txt "void a(){}\n")) (.fn (plainFn 0 5 0 7 ⟨8, true, 9, true⟩)) ∧
    run (txt "void a(){}\n") [.fn (plainFn 0 5 0 7 ⟨8, true, 9, true⟩)] = .error .assertFail :=
  ⟨plainFn_described (bodyOk_of (by decide +kernel) (by decide +kernel) (by decide) (by decide +kernel)) (by decide +kernel) (by decide)
    (walk_of_check (n := 30) (by decide +kernel)), by decide +kernel⟩

/-- C126: `catch (...)` makes the tool dereference a null pointer. -/
theorem C126_catch_all_refuted :
    Described (demo (txt "catch (...) {}\n")) (.handler 0 none ⟨12, true, 13, true⟩) ∧
    run (txt "catch (...) {}\n") [.handler 0 none ⟨12, true, 13, true⟩] = .error .nullDeref :=
  ⟨.handlerAll _ _ 10
      (stmtDescribed_of (bodyOk_of (by decide +kernel) (by decide +kernel) (by decide) (by decide +kernel)) rfl (by decide +kernel) (by decide) (by decide) (by decide +kernel)),
    by decide +kernel⟩

/-- C126: on a line that begins with a character outside ASCII, `isspace` is called with a negative number. -/
theorem C126_non_ascii_refuted :
    Described (demo (txt "é(1); while (a &&\n b) {}\n")) (.cond 7 (some 20) ⟨23, true, 24, true⟩) ∧
    run (txt "é(1); while (a &&\n b) {}\n") [.cond 7 (some 20) ⟨23, true, 24, true⟩] = .error .badBuiltin :=
  ⟨.cond _ _ _ 21 ⟨by decide +kernel, next_of_check (n := 30) (by decide +kernel), by decide +kernel⟩
      (stmtDescribed_of (bodyOk_of (by decide +kernel) (by decide +kernel) (by decide) (by decide +kernel)) rfl (by decide +kernel) (by decide) (by decide) (by decide +kernel)),
    by decide +kernel⟩

/-- C126, the other cases: the tool takes as the indentation of the line of a character that is no white space the white space at the line's beginning, and calls
`isspace` with a negative number exactly when the first other character of that line is outside ASCII. -/
theorem C126_indent_exact {t : Text} {i : Nat} (hs : Solid t i) :
    (AsciiLine t i → getIndentForLine t i = .ok (indentOf t i)) ∧ (¬ AsciiLine t i → getIndentForLine t i = .error .badBuiltin) := by
  refine ⟨getIndentForLine_eq hs, fun ha => ?_⟩
  have hl := hs.lt
  have hne : t[i]? ≠ some 10 := by
    obtain ⟨c, hc, hw⟩ := hs
    rw [Option.mem_def] at hc
    rw [hc]; intro h; injection h with h; subst h; exact absurd hw (by decide)
  unfold getIndentForLine
  rw [lineBegin, if_neg hne, drop_lineBegin t i (by omega)]
  exact indentLoop_negative _ ha

example : Solid (txt "\n  é(1);") 3 ∧ ¬ AsciiLine (txt "\n  é(1);") 3 ∧ AsciiLine [32, 0x7F] 1 ∧ ¬ AsciiLine [32, 0x80] 1 := by
  refine ⟨⟨0xC3, by decide +kernel, by decide⟩, by decide +kernel, by decide, by decide⟩

/-- C126: an empty function that is declared again after its definition (clang finds the same body for both) fails an assertion. -/
theorem C126_redeclared_refuted :
    Described (demo (txt " void q() {\n }\n void q();\n")) (.fn (plainFn 1 6 1 8 ⟨10, true, 13, true⟩)) ∧
    run (txt " void q() {\n }\n void q();\n") [.fn (plainFn 1 6 1 8 ⟨10, true, 13, true⟩), .fn (plainFn 16 21 16 23 ⟨10, true, 13, true⟩)] = .error .assertFail :=
  ⟨plainFn_described (bodyOk_of (by decide +kernel) (by decide +kernel) (by decide) (by decide +kernel)) (by decide +kernel) (by decide)
    (walk_of_check (n := 30) (by decide +kernel)), by decide +kernel⟩

/-- C127 does not hold: an empty function in the style that the tool itself produces loses its closing brace. -/
theorem C127_styled_unchanged_refuted : ¬ UnchangedCorrect := by
  intro h
  have := h (demo (txt " void q()\n {}\n")) (plainFn 1 6 1 8 ⟨11, true, 12, true⟩) _ (by decide +kernel) (demo_lexes _)
    (plainFn_described (bodyOk_of (by decide +kernel) (by decide +kernel) (by decide) (by decide +kernel)) (by decide +kernel) (by decide)
      (walk_of_check (n := 30) (by decide +kernel)))
    (single_distinct _ _ (by decide) (by decide)) (by decide +kernel) (run_restyles _ _)
  revert this
  decide +kernel

/-- C127: the tool run twice: the second run damages what the first one wrote. -/
theorem C127_idempotent_refuted :
    run (txt " void q()\n {\n }\n") [.fn (plainFn 1 6 1 8 ⟨11, true, 14, true⟩)] = .ok (txt " void q()\n {}\n") ∧
    run (txt " void q()\n {}\n") [.fn (plainFn 1 6 1 8 ⟨11, true, 12, true⟩)] = .ok (txt " void q()\n {\n") := by
  constructor <;> decide +kernel

/-! ### A file that meets the hypotheses: all the rules at work -/

def demoText : Text := txt "void\nf(int a,\n  int b) const {\n  while (a &&\n         b) {\n    g();\n  }\n}\n\nA::A()\n : a_(1) // one\n , b_(2) {\n}\n\n struct B {\n  bool operator==(B) {\n  }\n };\n"

def demoF : Fn := plainFn 0 5 0 21 ⟨29, true, 72, false⟩
def demoA : Fn := ⟨75, false, 78, some ⟨107, true, 109, true⟩, some [⟨some 89, 99⟩, ⟨some 105, 107⟩], some (75, 80)⟩
def demoEq : Fn := ⟨126, true, 131, some ⟨145, true, 149, true⟩, none, some (126, 143)⟩
def demoNodes : List Node := [.fn demoF, .cond 33 (some 54) ⟨57, true, 70, false⟩, .fn demoA, .fn demoEq]

def demoEdits : List Edit :=
  [⟨28, 29, txt "\n"⟩] ++ ([⟨56, 57, txt "\n  "⟩] ++ ([⟨90, 90, txt ","⟩, ⟨99, 100, txt " "⟩, ⟨106, 107, txt "\n"⟩] ++ ([⟨139, 139, txt " "⟩, ⟨146, 149, []⟩] ++ [])))

theorem fn_demo {s : Src} {f : Fn} {es : List Edit} (h : FnTextOk s f) (he : fnEdits s f = es) : Asks s (.fn f) es := he ▸ .fn f h

theorem cond_demo {s : Src} {start e r : Nat} {b : Body} {es : List Edit} (hc : b.compound = true) (h : ClosedAt s e r) (hs : StmtOk s start r b)
    (he : stmtEdits s.text start r b = es) : Asks s (.cond start (some e) b) es := he ▸ .cond start (some e) b r hc (.inl ⟨e, rfl, h⟩) hs

theorem demo_asks : AsksAll (demo demoText) demoNodes demoEdits := by
  refine .cons _ _ _ _ (fn_demo ?_ (by decide +kernel)) (.cons _ _ _ _ (cond_demo (r := 55) rfl ?_ ?_ (by decide +kernel))
    (.cons _ _ _ _ (fn_demo ?_ (by decide +kernel)) (.cons _ _ _ _ (fn_demo ?_ (by decide +kernel)) .nil)))
  · refine ⟨(by intro h; cases h), ?_⟩
    intro b hb
    cases hb
    refine ⟨bodyOk_of (by decide +kernel) (by decide +kernel) (by decide) (by decide +kernel), (by intro _ h; cases h), ?_⟩
    intro x y hxy
    cases hxy
    exact ⟨by decide +kernel, by decide, fun _ => by decide +kernel, fun h => absurd h (by decide +kernel),
      fun _ => ⟨by decide +kernel, walk_of_check (n := 30) (by decide +kernel)⟩⟩
  · exact ⟨by decide +kernel, next_of_check (n := 30) (by decide +kernel), by decide +kernel⟩
  · exact ⟨bodyOk_of (by decide +kernel) (by decide +kernel) (by decide) (by decide +kernel), by decide +kernel, fun _ => by decide +kernel⟩
  · refine ⟨(by intro h; cases h), ?_⟩
    intro b hb
    cases hb
    refine ⟨bodyOk_of (by decide +kernel) (by decide +kernel) (by decide) (by decide +kernel), ?_, ?_⟩
    · intro inits hi _ i hi' p hp
      cases hi
      simp only [known, List.takeWhile, Option.isSome, List.mem_cons, List.not_mem_nil, or_false] at hi'
      rcases hi' with rfl | rfl
      · cases hp; exact ⟨by decide +kernel, next_of_check (n := 30) (by decide +kernel), by decide⟩
      · cases hp; exact ⟨by decide +kernel, next_of_check (n := 30) (by decide +kernel), by decide⟩
    · intro x y hxy
      cases hxy
      refine ⟨by decide +kernel, by decide, fun _ => by decide +kernel, fun h => absurd h (by decide +kernel), by decide +kernel, ?_⟩
      decide +kernel
  · refine ⟨fun _ => by decide +kernel, ?_⟩
    intro b hb
    cases hb
    refine ⟨bodyOk_of (by decide +kernel) (by decide +kernel) (by decide) (by decide +kernel), (by intro _ h; cases h), ?_⟩
    intro x y hxy
    cases hxy
    refine ⟨by decide +kernel, by decide, fun _ => by decide +kernel, fun _ => by decide +kernel, fun h => absurd h (by decide +kernel)⟩

theorem demo_distinct : Distinct (demo demoText) demoNodes := by
  refine ⟨by decide +kernel, by decide +kernel, ?_⟩
  have key : ∀ (a : Fn) (l : List Node), (∀ n ∈ l, ∀ g, n = .fn g → a.start ≠ g.start) → ∀ n ∈ l, ∀ f g, Node.fn a = .fn f → n = .fn g → f.start = g.start → f.body = none := by
    intro a l h n hn f g hf hg he
    cases hf
    exact absurd he (h n hn g hg)
  refine .cons (key _ _ ?_) (.cons ?_ (.cons (key _ _ ?_) (.cons ?_ .nil)))
  · intro n hn g hg
    simp only [List.mem_cons, List.not_mem_nil, or_false] at hn
    rcases hn with h | h | h <;> subst h <;> cases hg <;> decide
  · intro n _ f g hf; cases hf
  · intro n hn g hg
    simp only [List.mem_cons, List.not_mem_nil, or_false] at hn
    subst hn; cases hg; decide
  · intro n hn; cases hn

example : run demoText demoNodes = .ok (txt "void\nf(int a,\n  int b) const\n{\n  while (a &&\n         b)\n  {\n    g();\n  }\n}\n\nA::A()\n : a_(1), // one\n   b_(2)\n{\n}\n\n struct B {\n  bool operator ==(B) {}\n };\n") := by
  decide +kernel

example : ∃ out, run demoText demoNodes = .ok out ∧ code out = code demoText ∧ out.count 44 = demoText.count 44 :=
  C126_cosmetic_partial true _ _ _ _ (by decide +kernel) (demo_lexes _) demo_asks demo_distinct (run_restyles _ _)

/-- A file in style: nothing is asked for. -/
example : run (txt "int\nf()\n{\n}\n") [.fn (plainFn 0 4 0 6 ⟨8, true, 10, true⟩)] = .ok (txt "int\nf()\n{\n}\n") := by decide +kernel

/-- C126: white space is space, tab, line feed, vertical tab, form feed and carriage return, and nothing else. -/
theorem C126_white (c : UInt8) : isWs c = true ↔ c ∈ ([32, 9, 10, 11, 12, 13] : List UInt8) := by
  have h : ∀ n : Fin 256, isWs (UInt8.ofNat n) = true ↔ UInt8.ofNat n ∈ ([32, 9, 10, 11, 12, 13] : List UInt8) := by decide +kernel
  have := h ⟨c.toNat, c.toNat_lt⟩
  simpa using this

end Verif.Restyler
