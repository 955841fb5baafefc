import Verif.Rewriter.Model
import Verif.Rewriter.Spec
/-! # Properties of `TextRewriter` (C81) -/
namespace Verif.Rewriter
open Verif

/-- A call of one of the four editing functions. -/
inductive Request where
  | replace (b e : Nat) (t : Text)
  | remove (b e : Nat)
  | insertAt (p : Nat) (t : Text)
  | insertAfter (p : Nat) (t : Text)
deriving DecidableEq

/-- The edit a call asks for. -/
def Request.edit : Request → Edit
  | .replace b e t => ⟨b, e, t⟩
  | .remove b e => ⟨b, e, []⟩
  | .insertAt p t => ⟨p, p, t⟩
  | .insertAfter p t => ⟨p + 1, p + 1, t⟩

/-- The operation that the call appends to the rewriter. -/
def Request.op : Request → Op
  | .replace b e t => Rewriter.replace b e t
  | .remove b e => Rewriter.remove b e
  | .insertAt p t => Rewriter.insertAt p t
  | .insertAfter p t => Rewriter.insertAfter p t

/-- C81 as a user would like it: whatever the order of the calls, `emit` returns the text with the requested edits, if those do not overlap. -/
def EmitCorrect : Prop :=
  ∀ (text : Text) (reqs : List Request) (ops : List Op) (r : Exec Text), text.length < npos →
    Disjoint text.length (reqs.map Request.edit) → ops.Perm (reqs.map Request.op) → Emits true text ops r →
    r = .ok (applyAll (reqs.map Request.edit) text)

/-- C81 does not hold: a replacement of an empty range swallows a character. -/
theorem C81_emit_refuted : ¬ EmitCorrect := by
  intro h
  have := h [97, 98] [.replace 1 1 [120]] [Rewriter.replace 1 1 [120]] (.ok [97, 120]) (by decide +kernel)
    (by refine ⟨by decide, by decide⟩) (List.Perm.refl _)
    ⟨[Rewriter.replace 1 1 [120]], List.Perm.refl _, by simp, by decide +kernel⟩
  revert this
  decide +kernel

/-- An insertion at the end of the text fails an assertion. -/
theorem C81_insert_at_end_refuted : Disjoint 1 [Request.edit (.insertAt 1 [120])] ∧ Emits true [97] [Request.op (.insertAt 1 [120])] (.error .assertFail) :=
  ⟨⟨by decide, by decide⟩, _, List.Perm.refl _, by simp, by decide +kernel⟩

/-- So does an insertion just before a replacement. -/
theorem C81_insert_before_replace_refuted : Disjoint 2 [Request.edit (.insertAt 0 [120]), Request.edit (.replace 0 1 [121])] ∧
    ∀ r, Emits true [97, 98] [Request.op (.insertAt 0 [120]), Request.op (.replace 0 1 [121])] r → r = .error .assertFail := by
  refine ⟨⟨by decide, by decide, by decide, by decide⟩, ?_⟩
  rintro r ⟨sorted, hp, -, rfl⟩
  have : sorted = [Request.op (.insertAt 0 [120]), Request.op (.replace 0 1 [121])] ∨ sorted = [Request.op (.replace 0 1 [121]), Request.op (.insertAt 0 [120])] := by
    have hl : sorted.length = 2 := by simpa using hp.length_eq
    match sorted, hl with
    | [a, b], _ =>
      have ha : a ∈ [Request.op (.insertAt 0 [120]), Request.op (.replace 0 1 [121])] := hp.subset (by simp)
      simp only [List.mem_cons, List.not_mem_nil, or_false] at ha
      rcases ha with rfl | rfl
      · left
        have := (List.perm_cons _).1 hp
        rw [List.perm_singleton.1 this]
      · right
        have := (List.perm_cons _).1 (hp.trans (List.Perm.swap _ _ _))
        rw [List.perm_singleton.1 this]
  rcases this with rfl | rfl <;> decide +kernel

/-- The place in the text at which a call is carried out. -/
def Request.place : Request → Nat
  | .replace b _ _ | .remove b _ | .insertAt b _ | .insertAfter b _ => b

/-- The first place at which another call can be carried out. -/
def Request.reach : Request → Nat
  | .replace _ e _ | .remove _ e => e
  | .insertAt p _ | .insertAfter p _ => p + 1

/-- From left to right: every call has a character of its own, ranges are not empty and within the text, and the next call is behind this one. -/
def Separate (n : Nat) : Nat → List Request → Prop
  | _, [] => True
  | from_, q :: rest => from_ ≤ q.place ∧ q.place < q.reach ∧ q.reach ≤ n ∧ Separate n q.reach rest

theorem skip (debug : Bool) (text : Text) (ops : List Op) (u : Nat) (hn : text.length < npos) (hu : u ≤ text.length) :
    ∀ (k i : Nat), i + k = u → emitLoop debug (text.drop i) i ops u = emitLoop debug (text.drop u) u ops npos := by
  intro k
  induction k with
  | zero =>
    intro i hi
    have : i = u := by omega
    subst this
    cases h : text.drop i with
    | nil => unfold emitLoop; rfl
    | cons c rest =>
      unfold emitLoop
      rw [if_neg (by omega), if_neg (by simp)]
  | succ k ih =>
    intro i hi
    have hlt : i < text.length := by omega
    rw [List.drop_eq_getElem_cons hlt, emitLoop.eq_def]
    simp only
    rw [if_pos (by unfold npos at hn ⊢; omega)]
    exact ih (i + 1) (by omega)

theorem applyAll_cons (e : Edit) (r : List Edit) (t : Text) : applyAll (e :: r) t = e.apply (applyAll r t) := rfl

theorem loop_spec (debug : Bool) (text : Text) (hn : text.length < npos) : ∀ (k i : Nat) (reqs : List Request), i + k = text.length → Separate text.length i reqs →
    ∃ out, emitLoop debug (text.drop i) i (reqs.map Request.op) npos = .ok out ∧ text.take i ++ out = applyAll (reqs.map Request.edit) text := by
  intro k
  induction k using Nat.strongRecOn with
  | ind k ih =>
    intro i reqs hi hs
    cases hk : k with
    | zero =>
      have he : i = text.length := by omega
      cases reqs with
      | cons q r => exfalso; obtain ⟨h1, h2, h3, _⟩ := hs; omega
      | nil =>
        rw [he, List.drop_length]
        exact ⟨[], by simp [emitLoop], by simp [applyAll]⟩
    | succ m =>
      have hlt : i < text.length := by omega
      have hnext : text.take (i + 1) = text.take i ++ [text[i]] := by rw [List.take_succ_eq_append_getElem hlt]
      have hself : ¬ (npos ≠ npos ∧ i < npos) := by simp
      rw [List.drop_eq_getElem_cons hlt, emitLoop.eq_def]
      simp only [if_neg hself]
      cases reqs with
      | nil =>
        obtain ⟨out, h1, h2⟩ := ih m (by omega) (i + 1) [] (by omega) trivial
        refine ⟨text[i] :: out, ?_, ?_⟩
        · simp only [List.map_nil] at h1 ⊢
          simp only [h1, bind, Except.bind]
        · rw [hnext, List.append_assoc] at h2; exact h2
      | cons q r =>
        obtain ⟨h1, h2, h3, h4⟩ := hs
        have hoff : q.op.offset = q.place := by cases q <;> rfl
        simp only [List.map_cons]
        have hd : ¬ ((debug = true) ∧ q.op.offset < i) := by rw [hoff]; omega
        rw [if_neg hd]
        by_cases heq : q.place = i
        · rw [if_neg (by rw [hoff]; omega)]
          obtain ⟨out, g1, g2⟩ := ih (text.length - q.reach) (by omega) q.reach r (by omega) h4
          have hsd : ∀ b e : Nat, b = i → b < e → e ≤ text.length → (i + sizeDiff b e) % 2 ^ 64 = e := by
            intro b e hb h1 h2; unfold sizeDiff npos at *; omega
          cases q with
          | replace b e t =>
            simp only [Request.place, Request.reach] at *
            subst heq
            have hu : (b + sizeDiff b e) % 2 ^ 64 = e := hsd b e rfl h2 h3
            have hsk := skip debug text (r.map Request.op) e hn h3 (e - (b + 1)) (b + 1) (by omega)
            refine ⟨t ++ out, ?_, ?_⟩
            · simp only [Request.op, Rewriter.replace, hu]
              rw [hsk, g1]; rfl
            · rw [applyAll_cons, ← g2]
              simp only [Request.edit, Edit.apply]
              rw [List.take_append_of_le_length (by rw [List.length_take]; omega), List.take_take, Nat.min_eq_left (by omega)]
              rw [List.drop_left' (by rw [List.length_take]; omega)]
              simp
          | remove b e =>
            simp only [Request.place, Request.reach] at *
            subst heq
            have hu : (b + sizeDiff b e) % 2 ^ 64 = e := hsd b e rfl h2 h3
            have hsk := skip debug text (r.map Request.op) e hn h3 (e - (b + 1)) (b + 1) (by omega)
            refine ⟨out, ?_, ?_⟩
            · simp only [Request.op, Rewriter.remove, hu]
              rw [hsk, g1]
            · rw [applyAll_cons, ← g2]
              simp only [Request.edit, Edit.apply]
              rw [List.take_append_of_le_length (by rw [List.length_take]; omega), List.take_take, Nat.min_eq_left (by omega)]
              rw [List.drop_left' (by rw [List.length_take]; omega)]
              simp
          | insertAt p t =>
            simp only [Request.place, Request.reach] at *
            subst heq
            refine ⟨t ++ text[p] :: out, ?_, ?_⟩
            · simp only [Request.op, Rewriter.insertAt, g1, bind, Except.bind]
            · rw [applyAll_cons, ← g2, hnext]
              simp only [Request.edit, Edit.apply, List.append_assoc]
              rw [List.take_left' (by rw [List.length_take]; omega), List.drop_left' (by rw [List.length_take]; omega)]
              simp
          | insertAfter p t =>
            simp only [Request.place, Request.reach] at *
            subst heq
            refine ⟨text[p] :: t ++ out, ?_, ?_⟩
            · simp only [Request.op, Rewriter.insertAfter, g1, bind, Except.bind]
            · rw [applyAll_cons, ← g2]
              simp only [Request.edit, Edit.apply]
              rw [List.take_left' (by rw [List.length_take]; omega), List.drop_left' (by rw [List.length_take]; omega), hnext]
              simp only [List.append_assoc, List.cons_append, List.nil_append]
        · rw [if_pos (by rw [hoff]; exact heq)]
          obtain ⟨out, g1, g2⟩ := ih m (by omega) (i + 1) (q :: r) (by omega) ⟨by omega, h2, h3, h4⟩
          refine ⟨text[i] :: out, ?_, ?_⟩
          · simp only [List.map_cons] at g1
            simp only [g1, bind, Except.bind]
          · rw [hnext, List.append_assoc] at g2; exact g2

theorem separate_place {n : Nat} : ∀ {reqs : List Request} {i : Nat}, Separate n i reqs → (∀ q ∈ reqs, i ≤ q.place) ∧ reqs.Pairwise (fun a b => a.place < b.place) := by
  intro reqs
  induction reqs with
  | nil => intro i _; simp
  | cons q r ih =>
    rintro i ⟨h1, h2, h3, h4⟩
    obtain ⟨g1, g2⟩ := ih h4
    refine ⟨?_, List.pairwise_cons.2 ⟨fun a ha => by have := g1 a ha; omega, g2⟩⟩
    intro a ha
    rcases List.mem_cons.1 ha with rfl | ha
    · exact h1
    · have := g1 a ha; omega

/-- C81, for calls that are separate: `emit` returns the text with exactly the requested edits, whatever the order of the calls, in debug and in release
builds. What is missing: empty ranges, insertions at the end of the text, and two calls for the same place (see the refutations above). -/
theorem C81_emit_partial (debug : Bool) (text : Text) (reqs : List Request) (ops : List Op) (r : Exec Text) (hn : text.length < npos)
    (hs : Separate text.length 0 reqs) (hp : ops.Perm (reqs.map Request.op)) (he : Emits debug text ops r) :
    r = .ok (applyAll (reqs.map Request.edit) text) := by
  obtain ⟨sorted, h1, h2, rfl⟩ := he
  have hoff : ∀ q : Request, q.op.offset = q.place := by intro q; cases q <;> rfl
  obtain ⟨-, hpw⟩ := separate_place hs
  have hpw2 : (reqs.map Request.op).Pairwise (fun a b => a.offset < b.offset) := by
    rw [List.pairwise_map]
    exact hpw.imp (fun h => by rw [hoff, hoff]; exact h)
  have hinj : ∀ a b : Op, a ∈ reqs.map Request.op → b ∈ reqs.map Request.op → a.offset = b.offset → a = b := by
    intro a b ha hb hab
    obtain ⟨x, hx, rfl⟩ := List.getElem_of_mem ha
    obtain ⟨y, hy, rfl⟩ := List.getElem_of_mem hb
    have hxy : x = y := by
      rcases Nat.lt_trichotomy x y with h | h | h
      · have := List.pairwise_iff_getElem.1 hpw2 x y hx hy h; omega
      · exact h
      · have := List.pairwise_iff_getElem.1 hpw2 y x hy hx h; omega
    subst hxy; rfl
  have hperm := h1.trans hp
  have heq : sorted = reqs.map Request.op := by
    refine hperm.eq_of_pairwise (le := fun a b => a.offset ≤ b.offset) ?_ h2 (hpw2.imp (fun h => Nat.le_of_lt h))
    intro a b ha hb hab hba
    exact hinj a b (hperm.subset ha) hb (by omega)
  rw [heq]
  obtain ⟨out, g1, g2⟩ := loop_spec debug text hn text.length 0 reqs (by omega) hs
  rw [List.drop_zero] at g1
  rw [g1]
  simpa using g2

/-- The first place behind an operation. -/
def Op.behind (o : Op) : Nat :=
  match o.kind with
  | .replace | .remove => max (o.offset + 1) (o.offset + o.length)
  | .insertAt | .insertAfter => o.offset + 1

/-- No operation, from left to right, is at a place that the one before it covers, or outside the text. -/
def Clear (n : Nat) : Nat → List Op → Prop
  | _, [] => True
  | from_, o :: rest => from_ ≤ o.offset ∧ o.offset < n ∧ Clear n o.behind rest

theorem clear_mono {n a b : Nat} (h : a ≤ b) {ops : List Op} (hc : Clear n b ops) : Clear n a ops := by
  cases ops with
  | nil => trivial
  | cons o r => exact ⟨Nat.le_trans h hc.1, hc.2⟩

theorem loop_detects : ∀ (rest : Text) (i : Nat) (ops : List Op) (ign : Nat) (out : Text), i + rest.length < npos →
    (∀ o ∈ ops, o.offset + o.length < npos) → emitLoop true rest i ops ign = .ok out →
    Clear (i + rest.length) (if ign = npos then i else max i ign) ops := by
  intro rest
  induction rest with
  | nil =>
    intro i ops ign out _ _ h
    cases ops with
    | nil => trivial
    | cons o r => simp [emitLoop] at h
  | cons c rest ih =>
    intro i ops ign out hn ho h
    rw [List.length_cons] at hn ⊢
    have e : i + (rest.length + 1) = i + 1 + rest.length := by omega
    rw [e] at hn ⊢
    unfold emitLoop at h
    split at h
    · rename_i hi
      have := ih (i + 1) ops ign out hn ho h
      rw [if_neg hi.1] at this ⊢
      rw [show max i ign = max (i + 1) ign by omega]; exact this
    · rename_i hi
      have hcur : (if ign = npos then i else max i ign) = i := by
        split
        · rfl
        · rename_i hne; have : ¬ i < ign := fun h => hi ⟨hne, h⟩; omega
      rw [hcur]
      cases ops with
      | nil => trivial
      | cons o r =>
        simp only at h
        split at h
        · cases h
        · rename_i hlt
          have hle : i ≤ o.offset := by
            rcases Nat.lt_or_ge o.offset i with h' | h'
            · exact (hlt ⟨trivial, h'⟩).elim
            · exact h'
          split at h
          · rename_i hne
            cases hr : emitLoop true rest (i + 1) (o :: r) npos with
            | error _ => rw [hr] at h; cases h
            | ok out' =>
              have := ih (i + 1) (o :: r) npos out' hn ho hr
              rw [if_pos rfl] at this
              exact clear_mono (by omega) this
          · rename_i heq
            have heq : o.offset = i := by omega
            have hor : ∀ x ∈ r, x.offset + x.length < npos := fun x hx => ho x (by simp [hx])
            have hlen := ho o (by simp)
            have hmod : (i + o.length) % 2 ^ 64 = i + o.length := by unfold npos at hlen; omega
            refine ⟨hle, by omega, ?_⟩
            have key : ∀ u out', emitLoop true rest (i + 1) r u = .ok out' → Clear (i + 1 + rest.length) (if u = npos then i + 1 else max (i + 1) u) r :=
              fun u out' hr => ih (i + 1) r u out' hn hor hr
            have hne : i + o.length ≠ npos := by omega
            unfold Op.behind
            cases hk : o.kind with
            | replace =>
              simp only [hk, hmod] at h
              cases hr : emitLoop true rest (i + 1) r (i + o.length) with
              | error _ => rw [hr] at h; cases h
              | ok out' => have := key _ _ hr; rw [if_neg hne] at this; simpa [heq] using this
            | remove =>
              simp only [hk, hmod] at h
              have := key _ _ h; rw [if_neg hne] at this; simpa [heq] using this
            | insertAt =>
              simp only [hk] at h
              cases hr : emitLoop true rest (i + 1) r npos with
              | error _ => rw [hr] at h; cases h
              | ok out' => have := key _ _ hr; rw [if_pos rfl] at this; simpa [heq] using this
            | insertAfter =>
              simp only [hk] at h
              cases hr : emitLoop true rest (i + 1) r npos with
              | error _ => rw [hr] at h; cases h
              | ok out' => have := key _ _ hr; rw [if_pos rfl] at this; simpa [heq] using this

/-- C81: in a debug build conflicting calls never go unnoticed: if `emit` returns, then no call was for a place outside the text or one covered by another. -/
theorem C81_conflicts_detected (text : Text) (ops : List Op) (out : Text) (hn : text.length < npos) (ho : ∀ o ∈ ops, o.offset + o.length < npos)
    (he : Emits true text ops (.ok out)) : ∃ sorted : List Op, sorted.Perm ops ∧ Clear text.length 0 sorted := by
  obtain ⟨sorted, h1, h2, h3⟩ := he
  refine ⟨sorted, h1, ?_⟩
  have := loop_detects text 0 sorted npos out (by omega) (fun o h => ho o (h1.subset h)) h3.symm
  rw [if_pos rfl, Nat.zero_add] at this
  exact this

/-! ### Cases that meet the hypotheses -/

/-- Edits of all four kinds, some of them side by side. -/
def demoReqs : List Request := [.insertAfter 0 [49], .insertAt 1 [50], .replace 2 4 [51, 52, 53], .remove 4 5, .replace 6 7 []]

example : Separate 7 0 demoReqs := by
  simp [demoReqs, Separate, Request.place, Request.reach]

example : Emits true [97, 98, 99, 100, 101, 102, 103] (demoReqs.map Request.op).reverse (.ok [97, 49, 50, 98, 51, 52, 53, 102]) :=
  ⟨demoReqs.map Request.op, (List.reverse_perm _).symm, by decide +kernel, by decide +kernel⟩

example : applyAll (demoReqs.map Request.edit) [97, 98, 99, 100, 101, 102, 103] = [97, 49, 50, 98, 51, 52, 53, 102] := by decide +kernel

example : ∀ o ∈ demoReqs.map Request.op, o.offset + o.length < npos := by decide +kernel

end Verif.Rewriter
