import Verif.Restyler.Lemmas
/-! # What a visit asks for, node by node -/
namespace Verif.Restyler
open Verif Verif.Rewriter

/-- A request to the rewriter with the token it is tied to: `run`: it covers white space that ends at the token `at_`; else it covers just that character. -/
structure Item where
  req : Request
  run : Bool
  at_ : Nat

def Item.key (x : Item) : Bool × Nat := (x.run, x.at_)

def Item.Ok (t : Text) (x : Item) : Prop :=
  Solid t x.at_ ∧ if x.run = true then x.req.place < x.req.reach ∧ x.req.reach = x.at_ ∧ AllWhite t x.req.place x.at_ else x.req.place = x.at_ ∧ x.req.reach = x.at_ + 1

def runKeys (l : List Nat) : List (Bool × Nat) := l.map (fun a => (true, a))
def chrKeys (l : List Nat) : List (Bool × Nat) := l.map (fun a => (false, a))

/-- The operations and the edits of the specification come from the same requests, each of which is tied to a token of its own among `braces` and `marks`. -/
def Good (t : Text) (braces marks : List Nat) (ops : List Op) (es : List Edit) : Prop :=
  ∃ items : List Item, ops = items.map (·.req.op) ∧ es = items.map (·.req.edit) ∧ (∀ x ∈ items, x.Ok t) ∧
    (items.map Item.key).Subset (runKeys braces ++ chrKeys marks) ∧ (braces.Nodup → marks.Nodup → (items.map Item.key).Nodup)

theorem Good.nil (t : Text) (braces marks : List Nat) : Good t braces marks [] [] :=
  ⟨[], rfl, rfl, by simp, by simp [List.Subset], by simp⟩

theorem splitBrace_good {s : Src} {line where_ : Nat} {b : Body} {braces marks : List Nat} (hs : Solid s.text b.start) (hline : Solid s.text line)
    (ha : AsciiLine s.text line) (hw : where_ = runStart s.text b.start) (hlt : where_ < b.start) (hb : b.start ∈ braces) :
    ∃ ops, splitBrace s line where_ b = .ok ops ∧ Good s.text braces marks ops [splitEdit s.text line b.start] := by
  have hl := hs.lt
  obtain ⟨h1, h2, h3, -⟩ := runStart_spec s.text b.start (by omega)
  refine ⟨_, by simp only [splitBrace, getIndentForLine_eq hline ha, bind, Except.bind]; rfl, ?_⟩
  refine ⟨[⟨.replace where_ b.start (10 :: indentOf s.text line), true, b.start⟩], rfl, ?_, ?_, ?_, ?_⟩
  · simp [Request.edit, splitEdit, hw]
  · simp only [List.mem_singleton, forall_eq, Item.Ok, if_true, Request.place, Request.reach]
    exact ⟨hs, hlt, trivial, by rw [hw]; exact h2⟩
  · intro k hk
    simp only [List.map_cons, List.map_nil, List.mem_singleton, Item.key] at hk
    subst hk
    simp [runKeys, hb]
  · simp

theorem maybeSplitBrace_good {s : Src} {start r : Nat} {b : Body} {braces marks : List Nat} (h : StmtOk s start r b) (hb : b.start ∈ braces) :
    ∃ ops, maybeSplitBrace s start r b = .ok ops ∧ Good s.text braces marks ops (stmtEdits s.text start r b) := by
  obtain ⟨⟨hs, -⟩, hst, hsp⟩ := h
  unfold maybeSplitBrace stmtEdits
  by_cases h1 : SameLine s.text start r
  · rw [if_pos ((getLine_eq_iff ..).2 h1), if_neg (fun h => h.1 h1)]
    exact ⟨_, rfl, Good.nil ..⟩
  · rw [if_neg (fun h => h1 ((getLine_eq_iff ..).1 h))]
    by_cases h2 : SameLine s.text r b.start
    · rw [if_neg (by simp [getLine_eq_iff, h2]), if_pos ⟨h1, h2⟩]
      obtain ⟨⟨g1, g2, g3⟩, g4⟩ := hsp ⟨h1, h2⟩
      have hl := hs.lt
      exact splitBrace_good hs hst g4 (runStart_eq (by omega) (by omega) g3 g2).symm (by omega) hb
    · rw [if_pos (by simp [getLine_eq_iff, h2]), if_neg (fun h => h2 h.2)]
      exact ⟨_, rfl, Good.nil ..⟩

theorem handleCond_good {s : Src} (hl : Lexes s) {start : Nat} {condEnd : Option Nat} {b : Body} {r : Nat} {braces marks : List Nat} (hc : b.compound = true)
    (hp : CondParen s start condEnd b r) (h : StmtOk s start r b) (hb : b.start ∈ braces) :
    ∃ ops, handleCond s start condEnd b = .ok ops ∧ Good s.text braces marks ops (stmtEdits s.text start r b) := by
  obtain ⟨ops, ho, hg⟩ := maybeSplitBrace_good (marks := marks) h hb
  refine ⟨ops, ?_, hg⟩
  have hbl := h.1.1.lt
  rcases hp with ⟨e, rfl, hcl⟩ | ⟨hn, h1, h2, h3, h4⟩
  · simp [handleCond, hc, getRParenLoc_closed hl hcl, bind, Except.bind, ho]
  · have hback := backwards_found h1 h3 (b.start - r) (by omega) (fun k g1 g2 => h4 k g1 (by omega))
    rw [show r + (b.start - r) = b.start by omega] at hback
    rcases hn with rfl | ⟨e, rfl, hh⟩
    · simp [handleCond, hc, hback, bind, Except.bind, ho]
    · simp [handleCond, hc, getRParenLoc_hash hl hh, hback, bind, Except.bind, ho]

theorem handleCond_none {s : Src} (hl : Lexes s) {start : Nat} {condEnd : Option Nat} {b : Body} (hc : b.compound = true)
    (hn : condEnd = none ∨ ∃ e, condEnd = some e ∧ HashAfter s e) (hle : start ≤ b.start) (hs : Solid s.text b.start)
    (hno : ∀ k, start < k → k ≤ b.start → s.text[k]? ≠ some 41) : handleCond s start condEnd b = .ok [] := by
  have hbl := hs.lt
  have hback := backwards_none (t := s.text) (start := start) (b.start - start) (by omega) (fun k g1 g2 => hno k g1 (by omega))
  rw [show start + (b.start - start) = b.start by omega] at hback
  rcases hn with rfl | ⟨e, rfl, hh⟩
  · simp [handleCond, hc, hback, bind, Except.bind]
  · simp [handleCond, hc, getRParenLoc_hash hl hh, hback, bind, Except.bind]

/-! ### Functions -/

theorem isEmptyBetween_eq {s : Src} {b : Body} (h : BodyOk s b) (hc : b.compound = true) :
    isEmptyBetween s b.start b.rbrace = .ok (decide (AllWhite s.text (b.start + 1) b.rbrace)) := by
  obtain ⟨h1, h2⟩ := h
  obtain ⟨h2, h3, h4⟩ := h2 hc
  have hl := h4.lt
  simp only [isEmptyBetween, skipToken_solid h1, h2, skipWhitespace, bind, Except.bind]
  rw [if_pos (show b.start + 1 ≤ s.text.length by omega)]
  simp only [Except.ok.injEq]
  by_cases hw : AllWhite s.text (b.start + 1) b.rbrace
  · rw [skipWs_eq (by omega) hw h4]
    simp [hw]
  · obtain ⟨g1, g2, g3, g4⟩ := skipWs_spec s.text (s.text.length - (b.start + 1)) (b.start + 1) (by omega)
    have : skipWs (s.text.drop (b.start + 1)) (b.start + 1) ≠ b.rbrace := fun e => hw (by rw [e] at g3; exact g3)
    simp [hw, this]

theorem maybeFixEmpty_eq {s : Src} {b : Body} {last : Nat} {firstCol : Bool} {left onLine : Prop} [Decidable left] [Decidable onLine] (h : BodyOk s b)
    (hleft : firstCol = true ↔ left) (hon : getLine s.text last = getLine s.text b.start ↔ onLine) :
    maybeFixEmptyFunction s b last firstCol = .ok (if JoinsBraces s.text left onLine b then [remove (b.start + 1) b.rbrace] else [],
      decide (JoinsBraces s.text left onLine b ∧ onLine)) := by
  unfold maybeFixEmptyFunction
  by_cases h1 : left
  · rw [if_pos (hleft.2 h1)]; simp [JoinsBraces, h1]
  · rw [if_neg (fun h => h1 (hleft.1 h))]
    by_cases h2 : b.compound = true
    · by_cases h3 : b.empty = true
      · rw [if_neg (by simp [h2, h3])]
        simp only [isEmptyBetween_eq h h2, bind, Except.bind]
        by_cases h4 : AllWhite s.text (b.start + 1) b.rbrace
        · rw [if_neg (by simp [h4])]
          by_cases h5 : onLine
          · rw [if_pos (hon.2 h5)]
            by_cases h6 : SameLine s.text b.start b.rbrace
            · rw [if_pos ((getLine_eq_iff ..).2 h6)]
              simp [JoinsBraces, h5, h6]
            · rw [if_neg (by rw [getLine_eq_iff]; exact h6)]
              simp [JoinsBraces, h1, h2, h3, h4, h5, h6]
          · rw [if_neg (fun h => h5 (hon.1 h))]
            simp [JoinsBraces, h1, h2, h3, h4, h5]
        · rw [if_pos (by simp [h4])]; simp [JoinsBraces, h4]
      · rw [if_pos (by simp [h3])]; simp [JoinsBraces, h3]
    · rw [if_pos (by simp [h2])]; simp [JoinsBraces, h2]

theorem join_good {s : Src} {b : Body} {braces marks : List Nat} (h : BodyOk s b) (left onLine : Prop) [Decidable left] [Decidable onLine]
    (hlt : JoinsBraces s.text left onLine b → b.start + 1 < b.rbrace) (hb : b.compound = true → b.rbrace ∈ braces) :
    Good s.text braces marks (if JoinsBraces s.text left onLine b then [remove (b.start + 1) b.rbrace] else [])
      (if JoinsBraces s.text left onLine b then [joinEdit b] else []) := by
  by_cases hj : JoinsBraces s.text left onLine b
  · rw [if_pos hj, if_pos hj]
    obtain ⟨-, g2⟩ := h
    obtain ⟨-, -, g3⟩ := g2 hj.2.1
    refine ⟨[⟨.remove (b.start + 1) b.rbrace, true, b.rbrace⟩], rfl, rfl, ?_, ?_, by simp⟩
    · simp only [List.mem_singleton, forall_eq, Item.Ok, if_true, Request.place, Request.reach]
      exact ⟨g3, hlt hj, trivial, hj.2.2.2.1⟩
    · intro k hk
      simp only [List.map_cons, List.map_nil, List.mem_singleton, Item.key] at hk
      subst hk
      simp [runKeys, hb hj.2.1]
  · rw [if_neg hj, if_neg hj]; exact Good.nil ..

/-- Two lists of requests for different braces or marks. -/
theorem Good.append {t : Text} {b1 m1 b2 m2 b m : List Nat} {o1 o2 : List Op} {e1 e2 : List Edit} (h1 : Good t b1 m1 o1 e1) (h2 : Good t b2 m2 o2 e2)
    (hb1 : b1.Subset b) (hb2 : b2.Subset b) (hm1 : m1.Subset m) (hm2 : m2.Subset m)
    (hbd : b.Nodup → b1.Nodup ∧ b2.Nodup ∧ ∀ x ∈ b1, x ∉ b2) (hmd : m.Nodup → m1.Nodup ∧ m2.Nodup ∧ ∀ x ∈ m1, x ∉ m2) : Good t b m (o1 ++ o2) (e1 ++ e2) := by
  obtain ⟨i1, rfl, rfl, h13, h14, h15⟩ := h1
  obtain ⟨i2, rfl, rfl, h23, h24, h25⟩ := h2
  have hsub : ∀ {b' m' : List Nat} {k : Bool × Nat}, b'.Subset b → m'.Subset m → k ∈ runKeys b' ++ chrKeys m' → k ∈ runKeys b ++ chrKeys m := by
    intro b' m' k hb hm hk
    rw [List.mem_append] at hk ⊢
    rcases hk with hk | hk
    · obtain ⟨a, ha, rfl⟩ := List.mem_map.1 hk
      exact .inl (List.mem_map.2 ⟨a, hb ha, rfl⟩)
    · obtain ⟨a, ha, rfl⟩ := List.mem_map.1 hk
      exact .inr (List.mem_map.2 ⟨a, hm ha, rfl⟩)
  refine ⟨i1 ++ i2, by simp, by simp, ?_, ?_, ?_⟩
  · intro x hx
    rcases List.mem_append.1 hx with hx | hx
    · exact h13 x hx
    · exact h23 x hx
  · intro k hk
    rw [List.map_append, List.mem_append] at hk
    rcases hk with hk | hk
    · exact hsub hb1 hm1 (h14 hk)
    · exact hsub hb2 hm2 (h24 hk)
  · intro hb hm
    obtain ⟨g1, g2, g3⟩ := hbd hb
    obtain ⟨f1, f2, f3⟩ := hmd hm
    rw [List.map_append, List.nodup_append]
    refine ⟨h15 g1 f1, h25 g2 f2, ?_⟩
    rintro k hk k' hk' rfl
    have q1 := h14 hk
    have q2 := h24 hk'
    rw [List.mem_append] at q1 q2
    rcases q1 with q1 | q1 <;> obtain ⟨a, ha, rfl⟩ := List.mem_map.1 q1 <;> rcases q2 with q2 | q2 <;> obtain ⟨a', ha', he⟩ := List.mem_map.1 q2
    · simp at he; subst he; exact g3 _ ha ha'
    · simp at he
    · simp at he
    · simp at he; subst he; exact f3 _ ha ha'

theorem Good.mono {t : Text} {b1 m1 b m : List Nat} {o : List Op} {e : List Edit} (h : Good t b1 m1 o e) (hb : b1.Sublist b) (hm : m1.Sublist m) : Good t b m o e := by
  obtain ⟨i, h1, h2, h3, h4, h5⟩ := h
  refine ⟨i, h1, h2, h3, ?_, fun g1 g2 => h5 (g1.sublist hb) (g2.sublist hm)⟩
  intro k hk
  have := h4 hk
  rw [List.mem_append] at this ⊢
  rcases this with hk | hk
  · obtain ⟨a, ha, rfl⟩ := List.mem_map.1 hk
    exact .inl (List.mem_map.2 ⟨a, hb.subset ha, rfl⟩)
  · obtain ⟨a, ha, rfl⟩ := List.mem_map.1 hk
    exact .inr (List.mem_map.2 ⟨a, hm.subset ha, rfl⟩)

/-! ### Initialisers -/

/-- The marks of one initialiser. -/
def initMarks (s : Src) (x : Init) : List Nat :=
  match x.rparen with
  | none => []
  | some p => if s.kind x.next = .comma then [p, x.next] else [p]

theorem comma_good {s : Src} (x : Init) (p : Nat) (hx : x.rparen = some p) (hs : Solid s.text p) (hn : Solid s.text x.next) (hlt : p < x.next)
    (hc : s.kind x.next = .comma) (hline : ¬ SameLine s.text p x.next) :
    Good s.text [] (initMarks s x) [insertAfter p [44], replace x.next (x.next + 1) [32]] (commaEdits s x) := by
  refine ⟨[⟨.insertAfter p [44], false, p⟩, ⟨.replace x.next (x.next + 1) [32], false, x.next⟩], rfl, ?_, ?_, ?_, ?_⟩
  · simp [commaEdits, hx, hc, hline, Request.edit]
  · simp only [List.mem_cons, List.not_mem_nil, or_false, forall_eq_or_imp, forall_eq, Item.Ok, Bool.false_eq_true, if_false, Request.place, Request.reach]
    exact ⟨⟨hs, trivial, trivial⟩, hn, trivial, trivial⟩
  · intro k hk
    simp only [List.map_cons, List.map_nil, Item.key] at hk
    simpa [runKeys, chrKeys, initMarks, hx, hc] using hk
  · intro _ _
    simp [Item.key]; omega

theorem fixInits_good {s : Src} (hl : Lexes s) : ∀ (inits : List Init),
    (∀ x ∈ known inits, ∀ p ∈ x.rparen, Solid s.text p ∧ NextCode s (p + 1) x.next ∧ p < x.next) →
    ∃ ops, fixInits s inits = .ok ops ∧ Good s.text [] (inits.flatMap (initMarks s)) ops ((known inits).flatMap (commaEdits s)) := by
  intro inits
  induction inits with
  | nil => intro _; exact ⟨[], rfl, Good.nil ..⟩
  | cons x r ih =>
    intro h
    cases hx : x.rparen with
    | none => exact ⟨[], by simp [fixInits, hx], by rw [known, List.takeWhile_cons]; simp [hx]; exact Good.nil ..⟩
    | some p =>
      have hk : known (x :: r) = x :: known r := by simp [known, hx]
      rw [hk] at h ⊢
      obtain ⟨ops, ho, hg⟩ := ih (fun y hy => h y (by simp [hy]))
      obtain ⟨h1, h2, h3⟩ := h x (by simp) p hx
      rw [List.flatMap_cons, List.flatMap_cons]
      have hrest : Good s.text [] (initMarks s x ++ r.flatMap (initMarks s)) ops ((known r).flatMap (commaEdits s)) :=
        hg.mono (List.Sublist.refl _) (List.sublist_append_right _ _)
      simp only [fixInits, hx, getNextToken_eq hl h2, getTokenKind_solid h2.solid, bind, Except.bind, ho]
      by_cases hc : s.kind x.next = .comma
      · rw [if_neg (by simp [hc])]
        by_cases hline : SameLine s.text p x.next
        · rw [if_pos ((getLine_eq_iff ..).2 hline)]
          refine ⟨ops, rfl, ?_⟩
          have : commaEdits s x = [] := by simp [commaEdits, hx, hline]
          rw [this]; exact hrest
        · rw [if_neg (by rw [getLine_eq_iff]; exact hline)]
          refine ⟨_, rfl, ?_⟩
          have := (comma_good x p hx h1 h2.solid h3 hc hline).append hg (b := []) (m := initMarks s x ++ r.flatMap (initMarks s)) (by intro _ h; cases h) (by intro _ h; cases h)
            (List.subset_append_left _ _) (List.subset_append_right _ _) (by simp) (by
              intro hn
              rw [List.nodup_append] at hn
              exact ⟨hn.1, hn.2.1, fun a ha hb => hn.2.2 a ha a hb rfl⟩)
          exact this
      · rw [if_pos hc]
        refine ⟨ops, rfl, ?_⟩
        have : commaEdits s x = [] := by simp [commaEdits, hx, hc]
        rw [this]; exact hrest

theorem maybeFixCtor_good {s : Src} (hl : Lexes s) (inits : List Init)
    (h : 1 < inits.length → ∀ x ∈ known inits, ∀ p ∈ x.rparen, Solid s.text p ∧ NextCode s (p + 1) x.next ∧ p < x.next) :
    ∃ ops, maybeFixCtorInitializers s inits = .ok ops ∧ Good s.text [] (inits.flatMap (initMarks s)) ops (initEdits s inits) := by
  unfold maybeFixCtorInitializers initEdits
  by_cases hlen : inits.length ≤ 1
  · rw [if_pos hlen, if_pos hlen]; exact ⟨_, rfl, Good.nil ..⟩
  · rw [if_neg hlen, if_neg hlen]; exact fixInits_good hl inits (h (by omega))

theorem oper_good {s : Src} (f : Fn) (h : f.oper = true → Solid s.text f.name ∧ (s.kind f.name = .operatorKw → f.name + 8 < s.text.length)) :
    ∃ ops, (if f.oper then maybeFixOperatorKeyword s f.name else .ok []) = .ok ops ∧
      Good s.text [] (if f.oper = true then [f.name + 8] else []) ops (operEdits s f) := by
  unfold operEdits
  cases ho : f.oper with
  | false => exact ⟨[], by simp, by simp; exact Good.nil ..⟩
  | true =>
    obtain ⟨h1, h2⟩ := h ho
    simp only [if_true, maybeFixOperatorKeyword, getTokenKind_solid h1, bind, Except.bind, true_and]
    by_cases hk : s.kind f.name = .operatorKw
    · rw [if_neg (by simp [hk])]
      by_cases hw : White s.text (f.name + 8)
      · simp only [isWhitespace_white hw, if_true]
        rw [if_neg (fun h => h.2 hw)]
        exact ⟨_, rfl, Good.nil ..⟩
      · have hs := solid_of_not_white (h2 hk) hw
        simp only [isWhitespace_solid hs, Bool.false_eq_true, if_false]
        rw [if_pos ⟨hk, hw⟩]
        refine ⟨_, rfl, [⟨.insertAt (f.name + 8) [32], false, f.name + 8⟩], rfl, rfl, ?_, ?_, by simp⟩
        · simp only [List.mem_singleton, forall_eq, Item.Ok, Bool.false_eq_true, if_false, Request.place, Request.reach]
          exact ⟨hs, trivial, trivial⟩
        · intro k hk
          simpa [runKeys, chrKeys, Item.key] using hk
    · rw [if_pos hk, if_neg (fun h => hk h.1)]
      exact ⟨_, rfl, Good.nil ..⟩

/-! ### The last initialiser -/

theorem lastRparen_spec (t : Text) : ∀ (inits : List Init) (last : Nat), getLine t last ≤ getLine t (lastRparen t last inits) ∧
    (∀ x ∈ inits, ∀ p ∈ x.rparen, getLine t p ≤ getLine t (lastRparen t last inits)) ∧
    (lastRparen t last inits = last ∨ ∃ x ∈ inits, lastRparen t last inits ∈ x.rparen) := by
  intro inits
  induction inits with
  | nil => intro last; simp [lastRparen]
  | cons x r ih =>
    intro last
    cases hx : x.rparen with
    | none =>
      obtain ⟨h1, h2, h3⟩ := ih last
      simp only [lastRparen, hx]
      refine ⟨h1, ?_, ?_⟩
      · intro y hy p hp
        rcases List.mem_cons.1 hy with rfl | hy
        · rw [hx] at hp; cases hp
        · exact h2 y hy p hp
      · rcases h3 with h3 | ⟨y, hy, h3⟩
        · exact .inl h3
        · exact .inr ⟨y, by simp [hy], h3⟩
    | some p =>
      obtain ⟨h1, h2, h3⟩ := ih (if getLine t last < getLine t p then p else last)
      have hm : getLine t last ≤ getLine t (if getLine t last < getLine t p then p else last) ∧ getLine t p ≤ getLine t (if getLine t last < getLine t p then p else last) := by
        split <;> omega
      simp only [lastRparen, hx]
      refine ⟨by omega, ?_, ?_⟩
      · intro y hy q hq
        rcases List.mem_cons.1 hy with rfl | hy
        · rw [hx] at hq; cases hq; omega
        · exact h2 y hy q hq
      · rcases h3 with h3 | ⟨y, hy, h3⟩
        · rw [h3]
          split
          · exact .inr ⟨x, by simp, by simp [hx]⟩
          · exact .inl rfl
        · exact .inr ⟨y, by simp [hy], h3⟩

theorem lastRparen_line {t : Text} {inits : List Init} {last : Nat} {b : Body} (hlast : last ≤ b.start) (hi : ∀ i ∈ inits, ∀ p ∈ i.rparen, p ≤ b.start) :
    getLine t (lastRparen t last inits) = getLine t b.start ↔ SameLine t last b.start ∨ InitOnLine t inits b := by
  obtain ⟨h1, h2, h3⟩ := lastRparen_spec t inits last
  have hle : getLine t (lastRparen t last inits) ≤ getLine t b.start := by
    rcases h3 with h3 | ⟨x, hx, h3⟩
    · rw [h3]; exact getLine_mono t hlast
    · exact getLine_mono t (hi x hx _ h3)
  constructor
  · intro he
    rcases h3 with h3 | ⟨x, hx, h3⟩
    · rw [h3] at he; exact .inl ((getLine_eq_iff ..).1 he)
    · exact .inr ⟨x, hx, _, h3, (getLine_eq_iff ..).1 he⟩
  · rintro (h | ⟨x, hx, p, hp, h⟩)
    · have := (getLine_eq_iff ..).2 h; omega
    · have := (getLine_eq_iff ..).2 h
      have := h2 x hx p hp
      omega

theorem visitCtor_good {s : Src} {inits : List Init} {x y name : Nat} {b : Body} {firstCol : Bool} (hb : BodyOk s b) (hx : Solid s.text x)
    (hleft : firstCol = true ↔ AtLeft s.text x name) (hy : y ≤ b.start) (hp : ∀ i ∈ inits, ∀ p ∈ i.rparen, p ≤ b.start)
    (hsp : ¬ SameLine s.text y b.start → ∀ i ∈ inits, ∀ p ∈ i.rparen, SameLine s.text p b.start → Spaced s.text p b.start)
    (ha : splitEdit s.text x b.start ∈ ctorEdits s.text inits name x y b → AsciiLine s.text x)
    (hj : joinEdit b ∈ ctorEdits s.text inits name x y b → b.start + 1 < b.rbrace) :
    ∃ ops, visitCtor s inits x y b firstCol = .ok ops ∧
      Good s.text (if b.compound = true then [b.start, b.rbrace] else [b.start]) [] ops (ctorEdits s.text inits name x y b) := by
  unfold visitCtor
  unfold ctorEdits at *
  by_cases hn : inits = []
  · rw [if_pos hn, if_pos hn]; exact ⟨_, rfl, Good.nil ..⟩
  rw [if_neg hn] at ha hj
  rw [if_neg hn, if_neg hn]
  have hline := lastRparen_line (t := s.text) hy hp
  simp only [maybeFixEmpty_eq hb hleft hline, bind, Except.bind]
  have hjoin := join_good (braces := if b.compound = true then [b.rbrace] else []) (marks := []) hb (AtLeft s.text x name)
    (SameLine s.text y b.start ∨ InitOnLine s.text inits b) (fun h => hj (by simp [h])) (fun h => by simp [h])
  by_cases hc : InitOnLine s.text inits b ∧ ¬ SameLine s.text y b.start
  · rw [if_pos hc] at ha ⊢
    rw [if_pos ⟨hline.2 (.inr hc.1), by rw [ne_eq, getLine_eq_iff]; exact hc.2⟩]
    obtain ⟨h1, h2, h3⟩ := lastRparen_spec s.text inits y
    have hlast : Spaced s.text (lastRparen s.text y inits) b.start := by
      have he := hline.2 (.inr hc.1)
      rcases h3 with h3 | ⟨i, hi, h3⟩
      · rw [h3] at he
        exact absurd ((getLine_eq_iff ..).1 he) hc.2
      · exact hsp hc.2 i hi _ h3 ((getLine_eq_iff ..).1 he)
    obtain ⟨g1, g2, g3⟩ := hlast
    have hbl := hb.1.lt
    obtain ⟨ops, ho, hg⟩ := splitBrace_good (b := b) (braces := [b.start]) (marks := []) hb.1 hx (ha (by simp)) (runStart_eq (by omega) (by omega) g3 g2).symm (by omega) (by simp)
    simp only [splitBraceAfter, ho]
    refine ⟨_, rfl, hjoin.append hg ?_ ?_ (by intro _ h; cases h) (by intro _ h; cases h) ?_ (by simp)⟩
    · split <;> simp [List.Subset]
    · split <;> simp [List.Subset]
    · intro _
      split
      · rename_i hcomp
        have := (hb.2 hcomp).2.1
        simp; omega
      · simp
  · rw [if_neg hc, List.append_nil]
    rw [if_neg (by
      rintro ⟨h1, h2⟩
      rcases hline.1 h1 with h | h
      · exact h2 ((getLine_eq_iff ..).2 h)
      · exact hc ⟨h, fun h' => h2 ((getLine_eq_iff ..).2 h')⟩)]
    refine ⟨_, rfl, hjoin.mono ?_ (List.Sublist.refl _)⟩
    split <;> simp

theorem visitPlain_good {s : Src} (hl : Lexes s) {x y name : Nat} {b : Body} {firstCol : Bool} (hb : BodyOk s b) (hx : Solid s.text x)
    (hleft : firstCol = true ↔ AtLeft s.text x name)
    (hsp : SplitsFn s.text (AtLeft s.text x name) x y b → runStart s.text b.start < b.start ∧ Walk s y (runStart s.text b.start))
    (ha : splitEdit s.text x b.start ∈ plainEdits s.text name x y b → AsciiLine s.text x)
    (hj : joinEdit b ∈ plainEdits s.text name x y b → b.start + 1 < b.rbrace) :
    ∃ ops, visitPlain s x y b firstCol = .ok ops ∧
      Good s.text (if b.compound = true then [b.start, b.rbrace] else [b.start]) [] ops (plainEdits s.text name x y b) := by
  unfold visitPlain
  unfold plainEdits at *
  simp only [maybeFixEmpty_eq hb hleft (getLine_eq_iff s.text y b.start), bind, Except.bind]
  have hjoin := join_good (braces := if b.compound = true then [b.rbrace] else []) (marks := []) hb (AtLeft s.text x name)
    (SameLine s.text y b.start) (fun h => hj (by simp [h])) (fun h => by simp [h])
  by_cases hc : SplitsFn s.text (AtLeft s.text x name) x y b
  · rw [if_pos hc] at ha ⊢
    have hc' := hc
    obtain ⟨g1, g2, g3⟩ := hc'
    rw [if_pos ⟨by simp [g3], by rw [hleft, ne_eq, getLine_eq_iff]; exact g2⟩, if_pos ((getLine_eq_iff ..).2 g1)]
    obtain ⟨k1, k2⟩ := hsp hc
    obtain ⟨ops, ho, hg⟩ := splitBrace_good (b := b) (braces := [b.start]) (marks := []) hb.1 hx (ha (by simp)) rfl k1 (by simp)
    simp only [getFirst_eq hl hb.1 k1 k2, ho]
    refine ⟨_, rfl, hjoin.append hg ?_ ?_ (by intro _ h; cases h) (by intro _ h; cases h) ?_ (by simp)⟩
    · split <;> simp [List.Subset]
    · split <;> simp [List.Subset]
    · intro _
      split
      · rename_i hcomp
        have := (hb.2 hcomp).2.1
        simp; omega
      · simp
  · rw [if_neg hc, List.append_nil]
    have hdone : ∃ ops, (.ok (if JoinsBraces s.text (AtLeft s.text x name) (SameLine s.text y b.start) b then [remove (b.start + 1) b.rbrace] else []) : Exec (List Op)) = .ok ops ∧
        Good s.text (if b.compound = true then [b.start, b.rbrace] else [b.start]) [] ops
          (if JoinsBraces s.text (AtLeft s.text x name) (SameLine s.text y b.start) b then [joinEdit b] else []) := by
      refine ⟨_, rfl, hjoin.mono ?_ (List.Sublist.refl _)⟩
      split <;> simp
    split
    · rename_i h
      split
      · rename_i h2
        exfalso
        refine hc ⟨(getLine_eq_iff ..).1 h2, ?_, ?_⟩
        · rw [← hleft, ← getLine_eq_iff]; exact h.2
        · intro hjj
          exact of_decide_eq_false h.1 ⟨hjj, (getLine_eq_iff ..).1 h2⟩
      · exact hdone
    · exact hdone

/-! ### One function, one node, all nodes -/

theorem marks_fn (s : Src) (f : Fn) : Node.marks s (.fn f) = (if f.oper = true then [f.name + 8] else []) ++
    match f.inits with
    | some inits => inits.flatMap (initMarks s)
    | none => [] := rfl

theorem visitInits_good {s : Src} (hl : Lexes s) {f : Fn}
    (h : ∀ inits, f.inits = some inits → 1 < inits.length → ∀ x ∈ known inits, ∀ p ∈ x.rparen, Solid s.text p ∧ NextCode s (p + 1) x.next ∧ p < x.next) :
    ∃ ops, visitInits s f = .ok ops ∧ Good s.text [] (match f.inits with
      | some inits => inits.flatMap (initMarks s)
      | none => []) ops (fnInitEdits s f) := by
  unfold visitInits fnInitEdits
  cases hi : f.inits with
  | none => exact ⟨[], rfl, Good.nil ..⟩
  | some inits => exact maybeFixCtor_good hl inits (h inits hi)

theorem visitBody_good {s : Src} (hl : Lexes s) {f : Fn} (h : FnTextOk s f) {b : Body} {x y : Nat} (hb : f.body = some b) (ht : f.type = some (x, y)) :
    ∃ ops, visitBody s f b x y = .ok ops ∧ Good s.text (if b.compound = true then [b.start, b.rbrace] else [b.start]) [] ops (fnBodyEdits s f b x y) := by
  obtain ⟨-, hbody⟩ := h
  obtain ⟨hbo, hin, hty⟩ := hbody b hb
  obtain ⟨hx, hy, hasc, hjn, hrest⟩ := hty x y ht
  have hleft : (getCol s.text x == 1 || getCol s.text f.name == 1) = true ↔ AtLeft s.text x f.name := by
    simp [AtLeft, getCol_eq_one]
  unfold visitBody
  unfold fnBodyEdits at *
  cases hi : f.inits with
  | none =>
    simp only [hi] at hrest hasc hjn ⊢
    exact visitPlain_good hl hbo hx hleft hrest hasc hjn
  | some inits =>
    simp only [hi] at hrest hasc hjn ⊢
    exact visitCtor_good hbo hx hleft hy hrest.1 hrest.2 hasc hjn

theorem visitFn_good {s : Src} (hl : Lexes s) {visited : List Nat} {f : Fn} (hv : f.start ∉ visited) (h : FnTextOk s f) :
    ∃ ops mark, visitFn s visited f = .ok (ops, mark) ∧ (mark = true → f.body ≠ none) ∧
      Good s.text (Node.braces (.fn f)) (Node.marks s (.fn f)) ops (fnEdits s f) := by
  have h' := h
  obtain ⟨hoper, hbody⟩ := h'
  obtain ⟨ops1, ho1, hg1⟩ := oper_good f hoper
  have ho1 : visitOper s f = .ok ops1 := ho1
  unfold visitFn fnEdits
  rw [if_neg hv]
  cases hb : f.body with
  | none =>
    refine ⟨ops1, false, by simp only [ho1, bind, Except.bind], by simp, ?_⟩
    exact hg1.mono (List.nil_sublist _) (by rw [marks_fn]; exact List.sublist_append_left _ _)
  | some b =>
    obtain ⟨ops2, ho2, hg2⟩ := visitInits_good hl (f := f) (hbody b hb).2.1
    have hg12 : Good s.text [] (Node.marks s (.fn f)) (ops1 ++ ops2) (operEdits s f ++ fnInitEdits s f) := by
      rw [marks_fn]
      refine hg1.append hg2 (by intro _ h; cases h) (by intro _ h; cases h) (List.subset_append_left _ _) (List.subset_append_right _ _) (by simp) ?_
      intro hn
      rw [List.nodup_append] at hn
      exact ⟨hn.1, hn.2.1, fun a ha hb => hn.2.2 a ha a hb rfl⟩
    cases ht : f.type with
    | none => exact ⟨ops1 ++ ops2, false, by simp only [ho1, ho2, bind, Except.bind], by simp, hg12.mono (List.nil_sublist _) (List.Sublist.refl _)⟩
    | some xy =>
      obtain ⟨x, y⟩ := xy
      obtain ⟨ops3, ho3, hg3⟩ := visitBody_good hl h hb ht
      have hbr : Node.braces (.fn f) = if b.compound = true then [b.start, b.rbrace] else [b.start] := by simp [Node.braces, hb]
      refine ⟨ops1 ++ ops2 ++ ops3, true, by simp only [ho1, ho2, ho3, bind, Except.bind], by simp, ?_⟩
      rw [hbr]
      exact hg12.append hg3 (by intro _ h; cases h) (by intro _ h; exact h) (by intro _ h; exact h) (by intro _ h; cases h) (by intro h; exact ⟨by simp, h, by simp⟩)
          (by intro h; exact ⟨h, by simp, by simp⟩)

theorem visit_good {s : Src} (hl : Lexes s) {st : State} {n : Node} {es : List Edit} (h : Asks s n es) (hv : ∀ f, n = .fn f → f.start ∉ st.visited) :
    ∃ st' ops, visit s st n = .ok st' ∧ st'.ops = st.ops ++ ops ∧ Good s.text n.braces (n.marks s) ops es ∧
      ∀ v ∈ st'.visited, v ∈ st.visited ∨ ∃ f, n = .fn f ∧ f.start = v ∧ f.body ≠ none := by
  cases h with
  | elsewhere => exact ⟨st, [], rfl, by simp, Good.nil .., fun v hv => .inl hv⟩
  | plainCond start condEnd b hc =>
    refine ⟨st, [], ?_, by simp, Good.nil .., fun v hv => .inl hv⟩
    simp [visit, handleCond, hc, bind, Except.bind, State.add]
  | cond start condEnd b r hc hp hs =>
    obtain ⟨ops, ho, hg⟩ := handleCond_good (braces := [b.start]) (marks := []) hl hc hp hs (by simp)
    exact ⟨st.add ops, ops, by simp [visit, ho, bind, Except.bind], rfl, hg, fun v hv => .inl hv⟩
  | condNone start condEnd b hc hn hle hs hno =>
    refine ⟨st, [], ?_, by simp, Good.nil .., fun v hv => .inl hv⟩
    simp [visit, handleCond_none hl hc hn hle hs hno, bind, Except.bind, State.add]
  | plainLoop start r b hc => exact ⟨st, [], by simp [visit, hc], by simp, Good.nil .., fun v hv => .inl hv⟩
  | loop start r b hc hs =>
    obtain ⟨ops, ho, hg⟩ := maybeSplitBrace_good (braces := [b.start]) (marks := []) hs (by simp)
    exact ⟨st.add ops, ops, by simp [visit, hc, ho, bind, Except.bind], rfl, hg, fun v hv => .inl hv⟩
  | plainHandler start e b hc => exact ⟨st, [], by simp [visit, hc], by simp, Good.nil .., fun v hv => .inl hv⟩
  | handler start e b r hc hcl hs =>
    obtain ⟨ops, ho, hg⟩ := maybeSplitBrace_good (braces := [b.start]) (marks := []) hs (by simp)
    exact ⟨st.add ops, ops, by simp [visit, hc, getRParenLoc_closed hl hcl, ho, bind, Except.bind], rfl, hg, fun v hv => .inl hv⟩
  | fn f hf =>
    obtain ⟨ops, mark, ho, hm, hg⟩ := visitFn_good hl (hv f rfl) hf
    refine ⟨{ ops := st.ops ++ ops, visited := if mark then f.start :: st.visited else st.visited }, ops, by simp [visit, ho, bind, Except.bind], rfl, hg, ?_⟩
    intro v hv
    cases mark with
    | false => exact .inl hv
    | true =>
      rcases List.mem_cons.1 hv with rfl | hv
      · exact .inr ⟨f, rfl, rfl, hm rfl⟩
      · exact .inl hv

theorem visitAll_good {s : Src} (hl : Lexes s) : ∀ {nodes : List Node} {es : List Edit}, AsksAll s nodes es → ∀ st : State,
    nodes.Pairwise (fun a b => ∀ f g, a = .fn f → b = .fn g → f.start = g.start → f.body = none) →
    (∀ n ∈ nodes, ∀ f, n = .fn f → f.start ∉ st.visited) →
    ∃ st' ops, visitAll s st nodes = .ok st' ∧ st'.ops = st.ops ++ ops ∧ Good s.text (nodes.flatMap Node.braces) (nodes.flatMap (Node.marks s)) ops es := by
  intro nodes es h
  induction h with
  | nil => intro st _ _; exact ⟨st, [], rfl, by simp, Good.nil ..⟩
  | cons n r es fs h _ ih =>
    intro st hp hv
    rw [List.pairwise_cons] at hp
    obtain ⟨st1, ops1, h1, h2, h3, h4⟩ := visit_good hl (st := st) h (hv n (by simp))
    obtain ⟨st2, ops2, k1, k2, k3⟩ := ih st1 hp.2 (by
      rintro m hm f rfl hf
      rcases h4 _ hf with h | ⟨g, rfl, hg, hb⟩
      · exact hv _ (by simp [hm]) f rfl h
      · exact hb (hp.1 _ hm g f rfl rfl hg))
    refine ⟨st2, ops1 ++ ops2, by simp [visitAll, h1, k1, bind, Except.bind], by rw [k2, h2, List.append_assoc], ?_⟩
    rw [List.flatMap_cons, List.flatMap_cons]
    refine h3.append k3 (List.subset_append_left _ _) (List.subset_append_right _ _) (List.subset_append_left _ _) (List.subset_append_right _ _) ?_ ?_
    all_goals
      intro hn
      rw [List.nodup_append] at hn
      exact ⟨hn.1, hn.2.1, fun a ha hb => hn.2.2 a ha a hb rfl⟩

/-! ### Putting the requests in order -/

theorem separate_of_pairwise {t : Text} : ∀ (items : List Item) (from_ : Nat), (∀ x ∈ items, x.Ok t) → (items.map Item.key).Nodup →
    items.Pairwise (fun a b => a.req.place ≤ b.req.place) → (∀ x ∈ items, from_ ≤ x.req.place) → Separate t.length from_ (items.map (·.req)) := by
  intro items
  induction items with
  | nil => intro _ _ _ _ _; trivial
  | cons x r ih =>
    intro from_ hok hnd hp hfrom
    rw [List.pairwise_cons] at hp
    rw [List.map_cons, List.nodup_cons] at hnd
    obtain ⟨hxs, hxo⟩ := hok x (by simp)
    have hxl := hxs.lt
    refine ⟨hfrom x (by simp), ?_, ?_, ?_⟩
    · show x.req.place < x.req.reach; split at hxo <;> omega
    · show x.req.reach ≤ t.length; split at hxo <;> omega
    · refine ih _ (fun y hy => hok y (by simp [hy])) hnd.2 hp.2 ?_
      intro y hy
      obtain ⟨hys, hyo⟩ := hok y (by simp [hy])
      have hle := hp.1 y hy
      have hne : x.key ≠ y.key := fun he => hnd.1 (he ▸ List.mem_map.2 ⟨y, hy, rfl⟩)
      rcases Nat.lt_or_ge y.req.place x.req.reach with hlt | hge
      · exfalso
        split at hxo
        · rename_i hxr
          obtain ⟨a1, a2, a3⟩ := hxo
          split at hyo
          · rename_i hyr
            obtain ⟨b1, b2, b3⟩ := hyo
            have hat : x.at_ ≠ y.at_ := fun he => hne (by simp [Item.key, hxr, hyr, he])
            rcases Nat.lt_or_gt_of_ne hat with h | h
            · exact hxs.not_white (b3 x.at_ h (by omega))
            · exact hys.not_white (a3 y.at_ h (by omega))
          · obtain ⟨b1, b2⟩ := hyo
            exact hys.not_white (a3 y.at_ (by omega) (by omega))
        · rename_i hxr
          obtain ⟨a1, a2⟩ := hxo
          split at hyo
          · obtain ⟨b1, b2, b3⟩ := hyo
            exact hxs.not_white (b3 x.at_ (by omega) (by omega))
          · rename_i hyr
            exact hne (by simp only [Item.key, Prod.mk.injEq]; exact ⟨by simp_all, by omega⟩)
      · exact hge

theorem good_separate {t : Text} {braces marks : List Nat} {ops : List Op} {es : List Edit} (h : Good t braces marks ops es) (hb : braces.Nodup) (hm : marks.Nodup) :
    ∃ reqs : List Request, Separate t.length 0 reqs ∧ ops.Perm (reqs.map Request.op) ∧ (reqs.map Request.edit).Perm es := by
  obtain ⟨items, rfl, rfl, h3, -, h5⟩ := h
  have hperm := List.mergeSort_perm items (fun a b => decide (a.req.place ≤ b.req.place))
  have hpw : (items.mergeSort (fun a b => decide (a.req.place ≤ b.req.place))).Pairwise (fun a b => decide (a.req.place ≤ b.req.place) = true) :=
    List.pairwise_mergeSort (by intro a b c h1 h2; simp at *; omega) (by intro a b; simp; omega) items
  refine ⟨(items.mergeSort (fun a b => decide (a.req.place ≤ b.req.place))).map (·.req), ?_, ?_, ?_⟩
  · refine separate_of_pairwise _ 0 (fun x hx => h3 x (hperm.subset hx)) ?_ (hpw.imp (by simp)) (by simp)
    exact ((hperm.map Item.key).nodup_iff).2 (h5 hb hm)
  · rw [List.map_map]; exact (hperm.map _).symm
  · rw [List.map_map]; exact hperm.map _

theorem separate_disjoint {n : Nat} : ∀ {reqs : List Request} {from_ : Nat}, Separate n from_ reqs → Disjoint n (reqs.map Request.edit) := by
  intro reqs
  induction reqs with
  | nil => intro _ _; trivial
  | cons q r ih =>
    rintro from_ ⟨h1, h2, h3, h4⟩
    have hq : q.place ≤ q.edit.start ∧ q.edit.start ≤ q.edit.stop ∧ q.edit.stop ≤ q.reach := by
      cases q <;> simp only [Request.place, Request.reach, Request.edit] at * <;> omega
    cases r with
    | nil => exact ⟨hq.2.1, by omega⟩
    | cons q' r' =>
      have hq' : q'.place ≤ q'.edit.start := by cases q' <;> simp only [Request.place, Request.edit] <;> omega
      exact ⟨hq.2.1, by have := h4.1; show q.edit.stop ≤ q'.edit.start; omega, ih h4⟩

end Verif.Restyler
