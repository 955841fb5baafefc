import Verif.ArgParser.ManyLemmas
/-!
# Lemmas for C122: what parsing leaves alone, with option objects shared between parsers
-/
namespace Verif.ArgParser.Many
open Verif Verif.ArgParser

set_option linter.unusedSectionVars false

variable {V P : Type} [DecidableEq V] [DecidableEq P]

/-- A pointer of the parser. -/
def Inst.has (q : Inst V P) (o : Obj V P) : Prop := o ∈ q.options ∨ o ∈ q.positionals ∨ o ∈ q.help.toList

/-- Objects stay what they are; those the parser has no pointer to hold what they held, and so do single options with a form that have a value. -/
structure Frame (q : Inst V P) (objs objs' : Obj V P → Option (Opt × Cell)) : Prop where
  same : ∀ o, (objs' o).map Prod.fst = (objs o).map Prod.fst
  rest : ∀ o, ¬ q.has o → objs' o = objs o
  first : ∀ o op c, objs o = some (op, c) → (∀ o' op' c', o' ∈ q.positionals → objs o' = some (op', c') → op'.short = none ∧ op'.long = none) →
    (op.short.isSome ∨ op.long.isSome) → willRepeat op c = false → objs' o = some (op, c)

theorem Frame.refl (q : Inst V P) (objs : Obj V P → Option (Opt × Cell)) : Frame q objs objs := ⟨fun _ => rfl, fun _ _ => rfl, fun _ _ _ h _ _ _ => h⟩

theorem Frame.trans {q : Inst V P} {a b c : Obj V P → Option (Opt × Cell)} (h : Frame q a b) (g : Frame q b c) : Frame q a c := by
  refine ⟨fun o => (g.same o).trans (h.same o), fun o ho => (g.rest o ho).trans (h.rest o ho), ?_⟩
  intro o op x h1 h2 h3 h4
  refine g.first o op x (h.first o op x h1 h2 h3 h4) ?_ h3 h4
  intro o' op' c' h5 h6
  have := h.same o'
  rw [h6] at this
  cases ha : a o' with
  | none => rw [ha] at this; cases this
  | some z => rw [ha] at this; cases this; exact h2 o' _ _ h5 ha

/-- All pointers of the parser lead to live objects. -/
def Alive (q : Inst V P) (objs : Obj V P → Option (Opt × Cell)) : Prop := ∀ o, q.has o → objs o ≠ none

theorem Alive.of_frame {q : Inst V P} {objs objs' : Obj V P → Option (Opt × Cell)} (h : Alive q objs) (f : Frame q objs objs') : Alive q objs' := by
  intro o ho hn
  have := f.same o
  rw [hn] at this
  cases hc : objs o with
  | none => exact h o ho hc
  | some z => rw [hc] at this; cases this

/-- An outcome that touches no dead object, and satisfies `R`. -/
def Fine {α : Type} (R : α → Prop) : Exec α → Prop
  | .ok a => R a
  | .error f => f ≠ .useAfterFree

theorem Fine.bind {α β : Type} {R : α → Prop} {Q : β → Prop} {x : Exec α} {f : α → Exec β} (h : Fine R x) (hf : ∀ a, R a → Fine Q (f a)) :
    Fine Q (x >>= f) := by
  cases x with
  | ok a => exact hf a h
  | error e => exact h

theorem deref_fine {objs : Obj V P → Option (Opt × Cell)} {o : Obj V P} (h : objs o ≠ none) : Fine (fun x => objs o = some x) (deref objs o) := by
  unfold deref
  cases hc : objs o with
  | none => exact absurd hc h
  | some x => exact rfl

theorem findFrom_fine {objs : Obj V P → Option (Opt × Cell)} (p : Opt → Bool) : ∀ (l : List (Obj V P)), (∀ o ∈ l, objs o ≠ none) →
    Fine (fun r => ∀ o op, r = some (o, op) → o ∈ l ∧ p op = true ∧ ∃ c, objs o = some (op, c)) (findFrom objs p l) := by
  intro l
  induction l with
  | nil => intro _ o op h; cases h
  | cons o l ih =>
    intro h
    simp only [findFrom]
    refine (deref_fine (h o List.mem_cons_self)).bind ?_
    rintro ⟨op, c⟩ hc
    simp only
    split
    · rename_i hp
      intro o' op' he; cases he; exact ⟨List.mem_cons_self, hp, c, hc⟩
    · have := ih (fun o' ho' => h o' (List.mem_cons_of_mem _ ho'))
      generalize findFrom objs p l = x at this ⊢
      cases x with
      | error _ => exact this
      | ok r => intro o' op' he; exact ⟨List.mem_cons_of_mem _ (this o' op' he).1, (this o' op' he).2⟩

/-- What the lookups find: an option of the parser, which has a form. -/
def Found (q : Inst V P) (objs : Obj V P → Option (Opt × Cell)) (o : Obj V P) (op : Opt) : Prop :=
  o ∈ q.options ∧ ∃ c, objs o = some (op, c)

theorem find_fine {q : Inst V P} {objs : Obj V P → Option (Opt × Cell)} (ha : Alive q objs) (p : Opt → Bool) :
    Fine (fun r => ∀ o op, r = some (o, op) → Found q objs o op) (findFrom objs p q.options) := by
  have := findFrom_fine (objs := objs) p q.options (fun o ho => ha o (.inl ho))
  generalize findFrom objs p q.options = x at this ⊢
  cases x with
  | error _ => exact this
  | ok r => intro o op he; exact ⟨(this o op he).1, (this o op he).2.2⟩

theorem findOption_fine {q : Inst V P} {objs : Obj V P → Option (Opt × Cell)} (ha : Alive q objs) (arg : Str) (sep : Option Nat) (len : Nat) :
    Fine (fun r => ∀ o op, r.1 = some (o, op) → Found q objs o op) (findOption q objs arg sep len) := by
  unfold findOption
  split
  · refine (find_fine ha _).bind ?_
    intro r hr; exact hr
  · refine (find_fine ha _).bind ?_
    intro r hr
    cases r with
    | some r => exact fun o op he => hr o op he
    | none =>
      simp only
      split
      · refine (find_fine ha _).bind ?_
        intro r hr
        cases r with
        | some r => exact fun o op he => hr o op he
        | none => intro o op he; cases he
      · intro o op he; cases he

theorem lookup_fine {q : Inst V P} {objs : Obj V P → Option (Opt × Cell)} (ha : Alive q objs) (arg : Str) :
    Fine (fun r => ∀ o op v s, r = some (o, op, v, s) → Found q objs o op) (lookup q objs arg) := by
  unfold lookup
  simp only
  refine (findOption_fine ha arg _ _).bind ?_
  rintro ⟨r, s⟩ hr
  cases r with
  | some x => intro o op v s he; cases he; exact hr _ _ rfl
  | none =>
    simp only
    split
    · refine (find_fine ha _).bind ?_
      intro r hr
      cases r with
      | none => intro he; cases he
      | some x =>
        simp only
        split
        · intro o op v s he; cases he; exact hr _ _ rfl
        · intro o op v s he; cases he
    · intro o op v s he; cases he

theorem consume_fine {w : Nat} {op : Opt} {arg : Option Str} {c : Cell} : Fine (fun _ => True) (consume w op arg c) := by
  unfold consume
  split <;> try exact trivial
  · unfold policyString; cases arg
    · intro he; cases he
    · exact trivial
  · unfold policyInt; cases arg
    · intro he; cases he
    · simp only; split <;> exact trivial
  · cases arg
    · intro he; cases he
    · exact trivial
  · cases arg <;> exact trivial
  · cases arg <;> exact trivial
  · unfold policyString; cases arg
    · intro he; cases he
    · exact trivial
  · unfold policyInt; cases arg
    · intro he; cases he
    · simp only; split <;> exact trivial

/-- The objects after a round. -/
def Step.objs : Step V P → Obj V P → Option (Opt × Cell)
  | .fail st => st.objs
  | .halt st _ => st.objs
  | .next st _ _ => st.objs

theorem setCell_frame {q : Inst V P} {m : MState V P} {o : Obj V P} {op : Opt} {c c' : Cell} (ho : q.has o) (hc : m.objs o = some (op, c))
    (hrep : o ∈ q.positionals ∨ willRepeat op c = true) : Frame q m.objs (m.setCell o op c').objs := by
  refine ⟨?_, ?_, ?_⟩
  · intro o'
    simp only [MState.setCell]
    by_cases h : o' = o
    · subst h; simp [hc]
    · rw [if_neg h]
  · intro o' ho'
    simp only [MState.setCell]
    rw [if_neg]
    rintro rfl; exact ho' ho
  · intro o' op' x h1 h2 h3 h4
    simp only [MState.setCell]
    rw [if_neg]
    · exact h1
    · rintro rfl
      rw [hc] at h1; cases h1
      rcases hrep with hrep | hrep
      · have := h2 o' op c hrep hc
        rw [this.1, this.2] at h3
        simp at h3
      · rw [h4] at hrep; cases hrep

theorem finish_fine {w : Nat} {q : Inst V P} {m : MState V P} {o : Obj V P} {op : Opt} {c : Cell} (ho : q.has o) (hc : m.objs o = some (op, c))
    (hrep : o ∈ q.positionals ∨ willRepeat op c = true) (pos : Nat) (value next : Option Str) :
    Fine (fun x => Frame q m.objs x.objs) (finish w m o pos value next) := by
  unfold finish
  simp only [deref, hc, bind, Except.bind]
  split
  · exact Frame.refl q m.objs
  · have := @consume_fine w op (if (!value.isSome && next.isSome && !op.mustOmit) = true then next else value) c
    generalize (if (!value.isSome && next.isSome && !op.mustOmit) = true then next else value) = v at this ⊢
    cases hx : consume w op v c with
    | error f => rw [hx] at this; exact this
    | ok x =>
      obtain ⟨ok, c'⟩ := x
      have hf := setCell_frame (c' := c') ho hc hrep
      simp only
      split
      · cases v with
        | none => intro he; cases he
        | some v => exact hf
      · split
        · exact hf
        · exact hf

theorem stepArg_fine {w : Nat} {q : Inst V P} {m : MState V P} (ha : Alive q m.objs) (pos : Nat) (arg : Str) (next : Option Str) :
    Fine (fun x => Frame q m.objs x.objs) (stepArg w q m pos arg next) := by
  unfold stepArg
  split
  · exact Frame.refl q m.objs
  · split
    · exact Frame.refl q m.objs
    · split
      · refine (lookup_fine ha arg).bind ?_
        intro a hab
        cases a with
        | none => exact Frame.refl q m.objs
        | some x =>
          obtain ⟨o, op, v, sep⟩ := x
          obtain ⟨hm, c, hc⟩ := hab o op v sep rfl
          simp only [deref, hc, bind, Except.bind]
          split
          · exact Frame.refl q m.objs
          · rename_i hw
            have hw : willRepeat op c = true := by simpa using hw
            cases sep with
            | none => exact finish_fine (.inl hm) hc (.inr hw) pos v next
            | some k =>
              simp only
              split
              · exact Frame.refl q m.objs
              · exact finish_fine (.inl hm) hc (.inr hw) pos _ next
      · cases hq : q.positionals[pos]? with
        | none =>
          simp only
          split
          · exact Frame.refl q m.objs
          · exact Frame.refl q m.objs
        | some o =>
          have hm := List.mem_of_getElem? hq
          cases hc : m.objs o with
          | none => exact absurd hc (ha o (.inr (.inl hm)))
          | some x => exact finish_fine (.inr (.inl hm)) hc (.inl hm) (pos + 1) (some arg) next

theorem loop_fine {w : Nat} {q : Inst V P} : ∀ (args : List Str) (skip : Bool) (m : MState V P) (pos : Nat), Alive q m.objs →
    Fine (fun x => Frame q m.objs x.2.objs) (loop w q args skip m pos) := by
  intro args
  induction args with
  | nil => intro skip m pos _; cases skip <;> exact Frame.refl q m.objs
  | cons arg rest ih =>
    intro skip m pos ha
    cases skip with
    | true => exact ih false m pos ha
    | false =>
      simp only [loop]
      refine (stepArg_fine ha pos arg rest.head?).bind ?_
      intro x hx
      cases x with
      | fail m' => exact hx
      | halt m' pos' => exact hx
      | next m' pos' b =>
        have := ih b m' pos' (ha.of_frame hx)
        simp only
        generalize loop w q rest b m' pos' = y at this ⊢
        cases y with
        | error _ => exact this
        | ok z => exact Frame.trans hx this

theorem parse_fine {w : Nat} {q : Inst V P} {m : MState V P} (ha : Alive q m.objs) (args : List Str) :
    Fine (fun x => Frame q m.objs x.2.objs) (parse w q m args) := by
  unfold parse
  refine (loop_fine args false m 0 ha).bind ?_
  rintro ⟨r, m'⟩ hf
  have ha' := ha.of_frame hf
  simp only at hf
  cases r with
  | none => exact hf
  | some x =>
    obtain ⟨halted, pos⟩ := x
    have hend : Fine (fun (x : Bool × MState V P) => Frame q m.objs x.2.objs)
        (match q.help with
        | none => .ok (true, m')
        | some o => do
          let (op, c) ← deref m'.objs o
          if flagValue op c = true then .ok (false, m') else .ok (true, m')) := by
      cases hq : q.help with
      | none => exact hf
      | some o =>
        refine (deref_fine (ha' o (.inr (.inr (by simp [hq]))))).bind ?_
        rintro ⟨op, c⟩ _
        simp only
        split
        · exact hf
        · exact hf
    simp only
    cases halted with
    | true => exact hend
    | false =>
      simp only [Bool.false_eq_true, if_false]
      cases hq : q.positionals[pos]? with
      | none => exact hend
      | some o =>
        refine (deref_fine (ha' o (.inr (.inl (List.mem_of_getElem? hq))))).bind ?_
        rintro ⟨op, c⟩ _
        exact hf

/-! ### Who is registered with whom -/

/-- What holds after any program that obeys the lifetime rules. -/
structure Own (t : Track V P) (s : World V P) : Prop where
  statics : s.statics = t.statics.map .user
  made : ∀ v ∈ t.statics, v ∈ t.made
  alive : ∀ v ∈ t.made, v ∉ t.ended → s.objs (.user v) ≠ none
  regMade : ∀ p v, (p, v) ∈ t.regs → v ∈ t.made ∧ p ∈ t.parsers
  endedP : ∀ p ∈ t.endedP, p ∈ t.parsers
  live : ∀ p, t.has p → ∃ q r, s.parsers p = some (q, r) ∧
    (∀ v, (Obj.user v ∈ q.options ∨ Obj.user v ∈ q.positionals) ↔ (p, v) ∈ t.regs) ∧
    (∀ v, Obj.user v ∉ q.help.toList) ∧
    (∀ p', q.has (.help p') → p' = p ∧ s.objs (.help p) ≠ none) ∧
    (∀ o op c, o ∈ q.positionals → s.objs o = some (op, c) → op.short = none ∧ op.long = none)

theorem Own.start : Own (Track.start : Track V P) World.start :=
  { statics := rfl, made := fun _ h => (nomatch h), alive := fun _ h => (nomatch h), regMade := fun _ _ h => (nomatch h)
    endedP := fun _ h => (nomatch h), live := fun _ h => (nomatch h.1) }

theorem addTo_mem {objs : Obj V P → Option (Opt × Cell)} {q : Inst V P} {o : Obj V P} (h : objs o ≠ none) :
    ∃ q', addTo objs q o = .ok q' ∧ q'.help = q.help ∧ (∀ x, (x ∈ q'.options ∨ x ∈ q'.positionals) ↔ (x ∈ q.options ∨ x ∈ q.positionals) ∨ x = o) ∧
      (∀ x, x ∈ q'.positionals → x ∈ q.positionals ∨ ∀ op c, objs x = some (op, c) → op.short = none ∧ op.long = none) := by
  cases hc : objs o with
  | none => exact absurd hc h
  | some z =>
    obtain ⟨op, c⟩ := z
    simp only [addTo, deref, hc, bind, Except.bind]
    by_cases hb : (op.short.isSome || op.long.isSome) = true
    · rw [if_pos hb]
      refine ⟨_, rfl, rfl, ?_, ?_⟩
      · intro x
        simp only [List.mem_append, List.mem_singleton]
        constructor
        · rintro ((g | g) | g)
          · exact .inl (.inl g)
          · exact .inr g
          · exact .inl (.inr g)
        · rintro ((g | g) | g)
          · exact .inl (.inl g)
          · exact .inr g
          · exact .inl (.inr g)
      · exact fun x hx => .inl hx
    · rw [if_neg hb]
      refine ⟨_, rfl, rfl, ?_, ?_⟩
      · intro x
        simp only [List.mem_append, List.mem_singleton, or_assoc]
      · intro x hx
        rcases List.mem_append.1 hx with hx | hx
        · exact .inl hx
        · refine .inr fun op' c' hx' => ?_
          rw [List.mem_singleton.1 hx, hc] at hx'; cases hx'
          cases h1 : op.short <;> cases h2 : op.long <;> simp [h1, h2] at hb <;> exact ⟨rfl, rfl⟩

theorem addAll_mem {objs : Obj V P → Option (Opt × Cell)} : ∀ (l : List (Obj V P)) (q : Inst V P), (∀ o ∈ l, objs o ≠ none) →
    ∃ q', addAll objs q l = .ok q' ∧ q'.help = q.help ∧ (∀ x, (x ∈ q'.options ∨ x ∈ q'.positionals) ↔ (x ∈ q.options ∨ x ∈ q.positionals) ∨ x ∈ l) ∧
      (∀ x, x ∈ q'.positionals → x ∈ q.positionals ∨ ∀ op c, objs x = some (op, c) → op.short = none ∧ op.long = none) := by
  intro l
  induction l with
  | nil => intro q _; exact ⟨q, rfl, rfl, fun x => by simp, fun x hx => .inl hx⟩
  | cons o l ih =>
    intro q h
    obtain ⟨q1, a1, a2, a3, a4⟩ := addTo_mem (q := q) (h o List.mem_cons_self)
    obtain ⟨q2, b1, b2, b3, b4⟩ := ih q1 (fun o' ho' => h o' (List.mem_cons_of_mem _ ho'))
    refine ⟨q2, ?_, b2.trans a2, ?_, ?_⟩
    · simp only [addAll, a1, bind, Except.bind]; exact b1
    · intro x; rw [b3, a3, List.mem_cons, or_assoc]
    · intro x hx
      rcases b4 x hx with g | g
      · exact a4 x g
      · exact .inr g

theorem Own.pointers {t : Track V P} {s : World V P} (h : Own t s) {p : P} {q : Inst V P} {r : Str × List Str × List Str × Bool} (hp : t.has p)
    (hq : s.parsers p = some (q, r)) (hl : ∀ v, (p, v) ∈ t.regs → v ∉ t.ended) : Alive q s.objs := by
  obtain ⟨q', r', h1, h2, h3, h4, h5⟩ := h.live p hp
  rw [hq] at h1; cases h1
  intro o ho
  cases o with
  | user v =>
    have hr : (p, v) ∈ t.regs := by
      rcases ho with ho | ho | ho
      · exact (h2 v).1 (.inl ho)
      · exact (h2 v).1 (.inr ho)
      · exact absurd ho (h3 v)
    exact h.alive v (h.regMade p v hr).1 (hl v hr)
  | help p' =>
    obtain ⟨g1, g2⟩ := h4 p' ho
    rw [g1]; exact g2

/-- What changes are allowed to an object so that `Own` persists. -/
theorem Own.frame {t : Track V P} {s s' : World V P} (h : Own t s) (h1 : s'.statics = s.statics) (h2 : ∀ o, (s'.objs o).map Prod.fst = (s.objs o).map Prod.fst)
    (h3 : ∀ p q r, s.parsers p = some (q, r) → ∃ r', s'.parsers p = some (q, r')) : Own t s' := by
  have hn : ∀ o, s.objs o ≠ none → s'.objs o ≠ none := by
    intro o ho hn
    have := h2 o
    rw [hn] at this
    cases hc : s.objs o with
    | none => exact ho hc
    | some z => rw [hc] at this; cases this
  refine { h with statics := h1.trans h.statics, alive := fun v g1 g2 => hn _ (h.alive v g1 g2), live := ?_ }
  intro p hp
  obtain ⟨q, r, g1, g2, g3, g4, g5⟩ := h.live p hp
  obtain ⟨r', g1'⟩ := h3 p q r g1
  refine ⟨q, r', g1', g2, g3, fun p' hp' => ⟨(g4 p' hp').1, hn _ (g4 p' hp').2⟩, ?_⟩
  intro o op c ho hc
  have := h2 o
  rw [hc] at this
  cases hx : s.objs o with
  | none => rw [hx] at this; cases this
  | some z => rw [hx] at this; cases this; exact g5 o _ _ ho hx

theorem Own.newObj {t : Track V P} {s : World V P} (h : Own t s) {v : V} (hv : v ∉ t.made) (o : Opt) :
    Own { t with made := v :: t.made } (s.setObj (.user v) (some (o, {}))) := by
  refine { h with made := fun u hu => List.mem_cons_of_mem _ (h.made u hu), alive := ?_, regMade := ?_, live := ?_ }
  · intro u hu he
    simp only [World.setObj]
    by_cases hc : u = v
    · simp [hc]
    · rw [if_neg (by intro hx; cases hx; exact hc rfl)]
      exact h.alive u ((List.mem_cons.1 hu).resolve_left hc) he
  · exact fun p u hu => ⟨List.mem_cons_of_mem _ (h.regMade p u hu).1, (h.regMade p u hu).2⟩
  · intro p hp
    obtain ⟨q, r, g1, g2, g3, g4, g5⟩ := h.live p hp
    refine ⟨q, r, g1, g2, g3, ?_, ?_⟩
    · intro p' hp'
      refine ⟨(g4 p' hp').1, ?_⟩
      simp only [World.setObj]
      rw [if_neg (by intro hx; cases hx)]
      exact (g4 p' hp').2
    · intro o' op c ho hc
      have hne : o' ≠ .user v := by
        rintro rfl
        exact hv (h.regMade p v ((g2 v).1 (.inr ho))).1
      simp only [World.setObj, if_neg hne] at hc
      exact g5 o' op c ho hc

/-- One call keeps the invariant, and touches no dead object. -/
theorem own_step {w : Nat} {t : Track V P} {s : World V P} (h : Own t s) (o : Op V P) (hl : t.lives o) (hk : t.kept o) :
    Fine (fun x => Own (t.step o) x.1) (step w s o) := by
  cases o with
  | «static» v o =>
    have h0 := h.newObj hl o
    refine { h0 with statics := ?_, made := ?_ }
    · show s.statics ++ [Obj.user v] = (t.statics ++ [v]).map .user
      simp [h.statics]
    · intro u hu
      rcases List.mem_append.1 hu with hu | hu
      · exact h0.made u hu
      · rw [List.mem_singleton.1 hu]; exact List.mem_cons_self
  | parser p help =>
    have hp : p ∉ t.parsers := hl
    have hep : p ∉ t.endedP := fun h' => hp (h.endedP p h')
    let s0 : World V P := if help then s.setObj (.help p) (some (helpOpt, {})) else s
    have hu : ∀ v, s0.objs (.user v) = s.objs (.user v) := by
      intro v; cases help
      · rfl
      · simp [s0, World.setObj]
    have hh : ∀ p', p' ≠ p → s0.objs (.help p') = s.objs (.help p') := by
      intro p' hne; cases help
      · rfl
      · simp [s0, World.setObj, hne]
    have hst : s0.statics = s.statics := by cases help <;> rfl
    have hps : s0.parsers = s.parsers := by cases help <;> rfl
    obtain ⟨q', a1, a2, a3, a4⟩ := addAll_mem (objs := s0.objs) s0.statics (bare p help) (by
      intro o ho
      rw [hst, h.statics] at ho
      obtain ⟨v, hv, rfl⟩ := List.mem_map.1 ho
      rw [hu]; exact h.alive v (h.made v hv) (hk v hv))
    have hstep : step w s (.parser p help) = .ok (s0.set p (some (q', [], [], [], false)), .unit) := by
      simp only [step]
      have a1' := a1
      unfold bare at a1'
      rw [a1']; rfl
    rw [hstep]
    have hbare : ∀ v, ¬ (Obj.user v ∈ (bare p help : Inst V P).options ∨ Obj.user v ∈ (bare p help : Inst V P).positionals) := by
      intro v; cases help <;> simp [bare]
    refine { h with statics := hst.trans h.statics, alive := ?_, regMade := ?_, endedP := ?_, live := ?_ }
    · intro v h1 h2
      show s0.objs (.user v) ≠ none
      rw [hu]; exact h.alive v h1 h2
    · intro p' v hv
      simp only [Track.step, List.mem_append, List.mem_map, Prod.mk.injEq] at hv
      rcases hv with ⟨u, hu1, rfl, rfl⟩ | hv
      · exact ⟨h.made u hu1, List.mem_cons_self⟩
      · exact ⟨(h.regMade p' v hv).1, List.mem_cons_of_mem _ (h.regMade p' v hv).2⟩
    · exact fun p' hp' => List.mem_cons_of_mem _ (h.endedP p' hp')
    · intro p' hp'
      by_cases hpp : p' = p
      · subst hpp
        refine ⟨q', _, by simp only [World.set, if_true]; rfl, ?_, ?_, ?_, ?_⟩
        · intro v
          rw [a3, hst, h.statics]
          simp only [Track.step, List.mem_append, List.mem_map, Prod.mk.injEq]
          constructor
          · rintro (g | ⟨u, g1, g2⟩)
            · exact absurd g (hbare v)
            · cases g2; exact .inl ⟨v, g1, trivial, rfl⟩
          · rintro (⟨u, g1, _, rfl⟩ | g)
            · exact .inr ⟨u, g1, rfl⟩
            · exact absurd (h.regMade _ _ g).2 hp
        · intro v; rw [a2]; cases help <;> simp [bare]
        · intro p'' hq
          have hmem : Obj.help p'' ∈ (bare p' help : Inst V P).options ∨ Obj.help p'' ∈ (bare p' help : Inst V P).help.toList := by
            have hnm : Obj.help p'' ∉ s0.statics := by
              rw [hst, h.statics]; intro hm; obtain ⟨v, _, hv⟩ := List.mem_map.1 hm; cases hv
            have hnp : Obj.help p'' ∉ (bare p' help : Inst V P).positionals := by cases help <;> simp [bare]
            rcases hq with hq | hq | hq
            · rcases (a3 _).1 (.inl hq) with (g | g) | g
              · exact .inl g
              · exact absurd g hnp
              · exact absurd g hnm
            · rcases (a3 _).1 (.inr hq) with (g | g) | g
              · exact .inl g
              · exact absurd g hnp
              · exact absurd g hnm
            · rw [a2] at hq; exact .inr hq
          cases help with
          | false => simp [bare] at hmem
          | true =>
            simp [bare] at hmem
            subst hmem
            refine ⟨rfl, ?_⟩
            show s0.objs (.help p'') ≠ none
            simp [s0, World.setObj]
        · intro o op c ho hc
          rcases a4 o ho with g | g
          · cases help <;> simp [bare] at g
          · exact g op c hc
      · have hp'' : t.has p' := ⟨(List.mem_cons.1 hp'.1).resolve_left hpp, hp'.2⟩
        obtain ⟨q, r, g1, g2, g3, g4, g5⟩ := h.live p' hp''
        refine ⟨q, r, by simp only [World.set, if_neg hpp, hps]; exact g1, ?_, g3, ?_, ?_⟩
        · intro v
          rw [g2]
          simp only [Track.step, List.mem_append, List.mem_map, Prod.mk.injEq]
          exact ⟨.inr, fun g => g.resolve_left (by rintro ⟨_, _, g, _⟩; exact hpp g.symm)⟩
        · intro p'' hq
          refine ⟨(g4 p'' hq).1, ?_⟩
          show s0.objs (.help p') ≠ none
          rw [hh p' hpp]; exact (g4 p'' hq).2
        · intro o op c ho hc
          have hc : s0.objs o = some (op, c) := hc
          cases o with
          | user v => rw [hu] at hc; exact g5 _ op c ho hc
          | help p'' =>
            have : p'' = p' := (g4 p'' (.inr (.inl ho))).1
            subst this
            rw [hh _ hpp] at hc; exact g5 _ op c ho hc
  | declare p v o =>
    obtain ⟨hv, hp⟩ := hl
    obtain ⟨q, r, g1, g2, g3, g4, g5⟩ := h.live p hp
    have h0 := h.newObj hv o
    obtain ⟨q', a1, a2, a3, a4⟩ := addTo_mem (objs := (s.setObj (.user v) (some (o, {}))).objs) (q := q) (o := .user v) (by simp [World.setObj])
    have hstep : step w s (.declare p v o) = .ok ((s.setObj (.user v) (some (o, {}))).set p (some (q', r)), .unit) := by
      simp only [step, World.get, g1, bind, Except.bind, a1]
    rw [hstep]
    refine { h0 with alive := h0.alive, regMade := ?_, live := ?_ }
    · intro p' u hu
      rcases List.mem_cons.1 hu with hu | hu
      · cases hu; exact ⟨List.mem_cons_self, hp.1⟩
      · exact h0.regMade p' u hu
    · intro p' hp'
      by_cases hpp : p' = p
      · subst hpp
        obtain ⟨q0, r0, k1, k2, k3, k4, k5⟩ := h0.live p' hp'
        have : s.parsers p' = some (q0, r0) := k1
        rw [g1] at this; cases this
        refine ⟨q', r, by simp only [World.set, if_true], ?_, ?_, ?_, ?_⟩
        · intro u
          rw [a3, g2]
          simp only [Track.step, List.mem_cons, Prod.mk.injEq, true_and]
          constructor
          · rintro (g | g)
            · exact .inr g
            · cases g; exact .inl rfl
          · rintro (g | g)
            · exact .inr (by rw [g])
            · exact .inl g
        · intro u; rw [a2]; exact g3 u
        · intro p'' hq
          refine k4 p'' ?_
          rcases hq with hq | hq | hq
          · rcases (a3 _).1 (.inl hq) with (g | g) | g
            · exact .inl g
            · exact .inr (.inl g)
            · cases g
          · rcases (a3 _).1 (.inr hq) with (g | g) | g
            · exact .inl g
            · exact .inr (.inl g)
            · cases g
          · rw [a2] at hq; exact .inr (.inr hq)
        · intro o' op c ho hc
          rcases a4 o' ho with g | g
          · exact k5 o' op c g hc
          · exact g op c hc
      · obtain ⟨q0, r0, k1, k2, k3, k4, k5⟩ := h0.live p' hp'
        refine ⟨q0, r0, by simp only [World.set, if_neg hpp]; exact k1, ?_, k3, k4, k5⟩
        intro u
        rw [k2]
        simp only [Track.step, List.mem_cons, Prod.mk.injEq]
        exact ⟨.inr, fun g => g.resolve_left (fun g => hpp g.1)⟩
  | switches p i sl c d =>
    obtain ⟨q, r, g1, g2, g3, g4, g5⟩ := h.live p hl
    simp only [step, World.get, g1, bind, Except.bind]
    refine { h with alive := h.alive, live := ?_ }
    intro p' hp'
    by_cases hpp : p' = p
    · subst hpp
      exact ⟨_, r, if_pos rfl, g2, g3, g4, g5⟩
    · obtain ⟨q0, r0, k1, k⟩ := h.live p' hp'
      exact ⟨q0, r0, by simp only [World.set, if_neg hpp]; exact k1, k⟩
  | parse p args =>
    obtain ⟨hp, ha⟩ := hl
    obtain ⟨q, ⟨e, x, y, b⟩, g1, g2, g3, g4, g5⟩ := h.live p hp
    have halive := h.pointers hp g1 ha
    simp only [step, World.get, g1]
    show Fine _ (parse w q _ args >>= _)
    refine (parse_fine (m := { objs := s.objs, error := e, extra := x, pass := y, hasPass := b }) halive args).bind ?_
    rintro ⟨ok, m⟩ hf
    refine Own.frame (s' := { s.set p (some (q, m.error, m.extra, m.pass, m.hasPass)) with objs := m.objs }) h rfl hf.same ?_
    intro p' q' r' hq'
    by_cases hpp : p' = p
    · subst hpp
      rw [g1] at hq'; cases hq'
      exact ⟨_, by simp only [World.set, if_true]; rfl⟩
    · exact ⟨r', by simp only [World.set, if_neg hpp]; exact hq'⟩
  | reset p =>
    obtain ⟨hp, ha⟩ := hl
    obtain ⟨q, r, g1, g2, g3, g4, g5⟩ := h.live p hp
    have halive := h.pointers hp g1 ha
    have hr := reset_eq (q := q) halive
    have hstep : step w s (.reset p) = (do
      let objs ← (do let objs ← resetAll q.options s.objs
                     let objs ← resetAll q.positionals objs
                     resetAll q.help.toList objs)
      .ok ({ s with objs := objs }, .unit)) := by
      simp only [step, World.get, g1, bind, Except.bind]
      cases resetAll q.options s.objs with
      | error _ => rfl
      | ok o1 =>
        simp only
        cases resetAll q.positionals o1 with
        | error _ => rfl
        | ok o2 => rfl
    rw [hstep, hr]
    refine Own.frame (s' := { s with objs := _ }) h rfl ?_ (fun p' q' r' hq' => ⟨r', hq'⟩)
    intro o
    simp only
    split
    · cases s.objs o <;> rfl
    · rfl
  | read v =>
    obtain ⟨hm, he⟩ := hl
    simp only [step]
    refine (deref_fine (h.alive v hm he)).bind ?_
    rintro ⟨op, c⟩ _
    exact h
  | endOption v =>
    obtain ⟨hm, he⟩ := hl
    simp only [step]
    refine (deref_fine (h.alive v hm he)).bind ?_
    rintro _ _
    refine { h with alive := ?_, live := ?_ }
    · intro u h1 h2
      simp only [World.setObj]
      rw [if_neg]
      · exact h.alive u h1 (fun h' => h2 (List.mem_cons_of_mem _ h'))
      · intro h'; cases h'; exact h2 List.mem_cons_self
    · intro p hp
      obtain ⟨q, r, g1, g2, g3, g4, g5⟩ := h.live p hp
      refine ⟨q, r, g1, g2, g3, ?_, ?_⟩
      · intro p' hp'
        refine ⟨(g4 p' hp').1, ?_⟩
        simp only [World.setObj]
        rw [if_neg (by intro hx; cases hx)]
        exact (g4 p' hp').2
      · intro o op c ho hc
        simp only [World.setObj] at hc
        by_cases hov : o = .user v
        · rw [if_pos hov] at hc; cases hc
        · rw [if_neg hov] at hc; exact g5 o op c ho hc
  | endParser p =>
    obtain ⟨q, r, g1, g2, g3, g4, g5⟩ := h.live p hl
    simp only [step, World.get, g1, bind, Except.bind]
    refine { h with alive := ?_, endedP := ?_, live := ?_ }
    · intro u h1 h2
      simp only [World.setObj, World.set]
      rw [if_neg (by intro hx; cases hx)]
      exact h.alive u h1 h2
    · intro p' hp'
      rcases List.mem_cons.1 hp' with rfl | hp'
      · exact hl.1
      · exact h.endedP p' hp'
    · intro p' hp'
      have hpp : p' ≠ p := by rintro rfl; exact hp'.2 List.mem_cons_self
      have hp'' : t.has p' := ⟨hp'.1, fun h' => hp'.2 (List.mem_cons_of_mem _ h')⟩
      obtain ⟨q0, r0, k1, k2, k3, k4, k5⟩ := h.live p' hp''
      refine ⟨q0, r0, by simp only [World.set, World.setObj, if_neg hpp]; exact k1, k2, k3, ?_, ?_⟩
      · intro p'' hq
        refine ⟨(k4 p'' hq).1, ?_⟩
        simp only [World.set, World.setObj]
        rw [if_neg (by intro hx; cases hx; exact hpp rfl)]
        exact (k4 p'' hq).2
      · intro o op c ho hc
        simp only [World.set, World.setObj] at hc
        by_cases hov : o = .help p
        · rw [if_pos hov] at hc; cases hc
        · rw [if_neg hov] at hc; exact k5 o op c ho hc

theorem Fine.ok {α : Type} {R : α → Prop} {x : Exec α} {a : α} (h : Fine R x) (hx : x = .ok a) : R a := by subst hx; exact h

/-- `reset` as one assignment. -/
theorem step_reset {w : Nat} {s : World V P} {p : P} {q : Inst V P} {r : Str × List Str × List Str × Bool} (g1 : s.parsers p = some (q, r)) (ha : Alive q s.objs) :
    step w s (.reset p) = .ok ({ s with objs := fun o => if o ∈ q.options ∨ o ∈ q.positionals ∨ o ∈ q.help.toList then (s.objs o).map (fun x => (x.1, {})) else s.objs o }, .unit) := by
  have hr := reset_eq (q := q) ha
  have hstep : step w s (.reset p) = (do
    let objs ← (do let objs ← resetAll q.options s.objs
                   let objs ← resetAll q.positionals objs
                   resetAll q.help.toList objs)
    .ok ({ s with objs := objs }, .unit)) := by
    simp only [step, World.get, g1, bind, Except.bind]
    cases resetAll q.options s.objs with
    | error _ => rfl
    | ok o1 =>
      simp only
      cases resetAll q.positionals o1 with
      | error _ => rfl
      | ok o2 => rfl
  rw [hstep, hr]; rfl

/-- `parse` changes objects as `Frame` says. -/
theorem step_parse {w : Nat} {s s' : World V P} {p : P} {args : List Str} {out : Out} {q : Inst V P} {r : Str × List Str × List Str × Bool} (g1 : s.parsers p = some (q, r))
    (ha : Alive q s.objs) (hs : step w s (.parse p args) = .ok (s', out)) : Frame q s.objs s'.objs := by
  obtain ⟨e, x, y, b⟩ := r
  simp only [step, World.get, g1, bind, Except.bind] at hs
  have hf := parse_fine (w := w) (m := { objs := s.objs, error := e, extra := x, pass := y, hasPass := b }) ha args
  cases hp : parse w q { objs := s.objs, error := e, extra := x, pass := y, hasPass := b } args with
  | error f => rw [hp] at hs; cases hs
  | ok z =>
    rw [hp] at hs hf
    simp only [Except.ok.injEq, Prod.mk.injEq] at hs
    obtain ⟨rfl, rfl⟩ := hs
    exact hf

/-- An option object stays the option it is. -/
theorem step_decl {w : Nat} {t : Track V P} {s s' : World V P} {out : Out} (h : Own t s) (o : Op V P) (hl : t.lives o) (hs : step w s o = .ok (s', out))
    {u : V} (hu : u ∈ t.made) (he : u ∉ (t.step o).ended) : (s'.objs (.user u)).map Prod.fst = (s.objs (.user u)).map Prod.fst := by
  cases o with
  | «static» v o =>
    simp only [step, Except.ok.injEq, Prod.mk.injEq] at hs
    obtain ⟨rfl, rfl⟩ := hs
    simp only [World.setObj]
    rw [if_neg]
    intro hx; cases hx; exact hl hu
  | parser p help =>
    simp only [step, bind, Except.bind] at hs
    split at hs
    · cases hs
    · simp only [Except.ok.injEq, Prod.mk.injEq] at hs
      obtain ⟨rfl, rfl⟩ := hs
      cases help <;> simp [World.set, World.setObj]
  | declare p v o =>
    obtain ⟨q, r, g1, _⟩ := h.live p hl.2
    simp only [step, World.get, g1, bind, Except.bind] at hs
    split at hs
    · cases hs
    · simp only [Except.ok.injEq, Prod.mk.injEq] at hs
      obtain ⟨rfl, rfl⟩ := hs
      simp only [World.set, World.setObj]
      rw [if_neg]
      intro hx; cases hx; exact hl.1 hu
  | switches p i sl c d =>
    obtain ⟨q, r, g1, _⟩ := h.live p hl
    simp only [step, World.get, g1, bind, Except.bind, Except.ok.injEq, Prod.mk.injEq] at hs
    obtain ⟨rfl, rfl⟩ := hs
    rfl
  | parse p args =>
    obtain ⟨q, r, g1, _⟩ := h.live p hl.1
    exact (step_parse g1 (h.pointers hl.1 g1 hl.2) hs).same _
  | reset p =>
    obtain ⟨q, r, g1, _⟩ := h.live p hl.1
    rw [step_reset g1 (h.pointers hl.1 g1 hl.2)] at hs
    simp only [Except.ok.injEq, Prod.mk.injEq] at hs
    obtain ⟨rfl, rfl⟩ := hs
    simp only
    split
    · cases s.objs (.user u) <;> rfl
    · rfl
  | read v =>
    simp only [step, bind, Except.bind] at hs
    split at hs
    · cases hs
    · simp only [Except.ok.injEq, Prod.mk.injEq] at hs
      obtain ⟨rfl, rfl⟩ := hs
      rfl
  | endOption v =>
    simp only [step, bind, Except.bind] at hs
    split at hs
    · cases hs
    · simp only [Except.ok.injEq, Prod.mk.injEq] at hs
      obtain ⟨rfl, rfl⟩ := hs
      simp only [World.setObj]
      rw [if_neg]
      intro hx; cases hx; exact he List.mem_cons_self
  | endParser p =>
    obtain ⟨q, r, g1, _⟩ := h.live p hl
    simp only [step, World.get, g1, bind, Except.bind, Except.ok.injEq, Prod.mk.injEq] at hs
    obtain ⟨rfl, rfl⟩ := hs
    simp [World.set, World.setObj]

theorem run_own {w : Nat} : ∀ (ops : List (Op V P)) (t : Track V P) (s : World V P), Own t s → Obeys Track.careful ops t →
    Fine (fun x => Own (t.run ops) x.1) (run w ops s) := by
  intro ops
  induction ops with
  | nil => intro t s h _; exact h
  | cons o os ih =>
    intro t s h ho
    simp only [run]
    refine (own_step h o ho.1.1 ho.1.2).bind ?_
    rintro ⟨s', r⟩ h'
    have := ih (t.step o) s' h' ho.2
    simp only
    generalize run w os s' = x at this ⊢
    cases x with
    | error _ => exact this
    | ok z => exact this

theorem ended_mono : ∀ (ops : List (Op V P)) (t : Track V P) (v : V), v ∈ t.ended → v ∈ (t.run ops).ended := by
  intro ops
  induction ops with
  | nil => intro t v h; exact h
  | cons o os ih =>
    intro t v h
    refine ih (t.step o) v ?_
    cases o <;> first | exact h | exact List.mem_cons_of_mem _ h

theorem made_mono (t : Track V P) (o : Op V P) (v : V) (h : v ∈ t.made) : v ∈ (t.step o).made := by
  cases o <;> first | exact h | exact List.mem_cons_of_mem _ h

/-- What a program declared is what the object is. -/
theorem run_decl {w : Nat} : ∀ (ops : List (Op V P)) (t : Track V P) (s s' : World V P) (outs : List Out), Own t s → Obeys Track.careful ops t →
    run w ops s = .ok (s', outs) → ∀ v o, ((v ∈ t.made ∧ (v ∉ t.ended → (s.objs (.user v)).map Prod.fst = some o)) ∨ Declares ops v o) → v ∉ (t.run ops).ended →
    (s'.objs (.user v)).map Prod.fst = some o := by
  intro ops
  induction ops with
  | nil =>
    intro t s s' outs _ _ hr v o hd he
    cases hr
    rcases hd with ⟨_, hd⟩ | hd | ⟨_, hd⟩
    · exact hd he
    · cases hd
    · cases hd
  | cons a as ih =>
    intro t s s' outs h ho hr v o hd he
    simp only [run] at hr
    cases hs : step w s a with
    | error f => rw [hs] at hr; cases hr
    | ok x =>
      obtain ⟨s1, r⟩ := x
      rw [hs] at hr
      simp only [bind, Except.bind] at hr
      cases hr2 : run w as s1 with
      | error f => rw [hr2] at hr; cases hr
      | ok y =>
        obtain ⟨s2, rs⟩ := y
        rw [hr2] at hr
        simp only [Except.ok.injEq, Prod.mk.injEq] at hr
        obtain ⟨rfl, rfl⟩ := hr
        have h1 := (own_step (w := w) h a ho.1.1 ho.1.2).ok hs
        refine ih (t.step a) s1 s2 rs h1 ho.2 hr2 v o ?_ he
        rcases hd with ⟨hm, hd⟩ | hd | ⟨p, hd⟩
        · refine .inl ⟨made_mono t a v hm, fun he' => ?_⟩
          rw [step_decl h a ho.1.1 hs hm he']
          refine hd fun h' => he' ?_
          exact ended_mono [a] t v h'
        · rcases List.mem_cons.1 hd with hd | hd
          · subst hd
            simp only [step, Except.ok.injEq, Prod.mk.injEq] at hs
            obtain ⟨rfl, rfl⟩ := hs
            exact .inl ⟨List.mem_cons_self, fun _ => by simp [World.setObj]⟩
          · exact .inr (.inl hd)
        · rcases List.mem_cons.1 hd with hd | hd
          · subst hd
            refine .inl ⟨List.mem_cons_self, fun _ => ?_⟩
            obtain ⟨q, r', g1, _⟩ := h.live p ho.1.1.2
            simp only [step, World.get, g1, bind, Except.bind] at hs
            split at hs
            · cases hs
            · simp only [Except.ok.injEq, Prod.mk.injEq] at hs
              obtain ⟨rfl, rfl⟩ := hs
              simp [World.set, World.setObj]
          · exact .inr (.inr ⟨p, hd⟩)

theorem obeys_append {rule : Track V P → Op V P → Prop} : ∀ (xs ys : List (Op V P)) (t : Track V P), Obeys rule (xs ++ ys) t ↔ Obeys rule xs t ∧ Obeys rule ys (t.run xs) := by
  intro xs
  induction xs with
  | nil => intro ys t; exact ⟨fun h => ⟨trivial, h⟩, fun h => h.2⟩
  | cons x xs ih =>
    intro ys t
    simp only [List.cons_append, Obeys, ih, Track.run, List.foldl_cons, and_assoc]

theorem run_append {w : Nat} : ∀ (xs ys : List (Op V P)) (s s' : World V P) (outs : List Out), run w (xs ++ ys) s = .ok (s', outs) →
    ∃ s1 o1 o2, run w xs s = .ok (s1, o1) ∧ run w ys s1 = .ok (s', o2) ∧ outs = o1 ++ o2 ∧ o1.length = xs.length := by
  intro xs
  induction xs with
  | nil => intro ys s s' outs h; exact ⟨s, [], outs, rfl, h, rfl, rfl⟩
  | cons x xs ih =>
    intro ys s s' outs h
    simp only [List.cons_append, run] at h
    cases hs : step w s x with
    | error f => rw [hs] at h; cases h
    | ok a =>
      obtain ⟨s1, r⟩ := a
      rw [hs] at h
      simp only [bind, Except.bind] at h
      cases hr : run w (xs ++ ys) s1 with
      | error f => rw [hr] at h; cases h
      | ok b =>
        obtain ⟨s2, rs⟩ := b
        rw [hr] at h
        simp only [Except.ok.injEq, Prod.mk.injEq] at h
        obtain ⟨rfl, rfl⟩ := h
        obtain ⟨s3, o1, o2, e1, e2, e3, e4⟩ := ih ys s1 s2 rs hr
        refine ⟨s3, r :: o1, o2, ?_, e2, by simp [e3], by simp [e4]⟩
        simp only [run, hs, bind, Except.bind, e1]

theorem run_length {w : Nat} (xs : List (Op V P)) (s s' : World V P) (outs : List Out) (h : run w xs s = .ok (s', outs)) : outs.length = xs.length := by
  have := run_append xs [] s s' outs (by simpa using h)
  obtain ⟨s1, o1, o2, e1, e2, e3, e4⟩ := this
  rw [h] at e1; cases e1; exact e4

end Verif.ArgParser.Many
