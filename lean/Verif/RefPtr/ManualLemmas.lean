import Verif.RefPtr.SpecManual
import Verif.RefPtr.PropsExact
import Verif.RefPtr.PropsCopy
/-!
# The ledger: what holds in every history without fault, however unbalanced
-/
namespace Verif.RefPtr
open Verif

set_option linter.unusedSectionVars false
set_option linter.unusedSimpArgs false

variable {H : Type} [DecidableEq H] {arity : Obj → Nat}

/-- One for a handle on `o`. -/
def on (v : Option Obj) (o : Obj) : Int := if v = some o then 1 else 0

theorem on_some (p o : Obj) : on (some p) o = if o = p then 1 else 0 := by
  unfold on
  by_cases h : o = p
  · subst h; simp
  · rw [if_neg h, if_neg (fun e => h (by injection e with e; exact e.symm))]

theorem root_ne (k : H) : ∀ (p : Obj) (i : Nat), Slot.root k ≠ .field p i := by
  intro p i h; cases h

/-- Handles minus count. -/
def bal (s : State H) (o : Obj) : Int := handlesOn s o - s.cnt o

theorem bind_ok_iff {α β : Type} {x : Exec α} {f : α → Exec β} {b : β} : (x >>= f) = .ok b ↔ ∃ a, x = .ok a ∧ f a = .ok b := by
  cases x with
  | error e => exact ⟨fun h => (nomatch h), fun ⟨_, h, _⟩ => (nomatch h)⟩
  | ok a => exact ⟨fun h => ⟨a, rfl, h⟩, fun ⟨_, h, h'⟩ => by cases h; exact h'⟩

theorem handlesOn_cons (s : State H) (d : Slot H) (v : Option Obj) (hd : d ∉ s.hs) (o : Obj) :
    (handlesOn { s with hs := d :: s.hs, val := fun e => if e = d then v else s.val e } o : Int) = handlesOn s o + on v o := by
  unfold handlesOn on
  simp only [List.filter_cons, if_true]
  have : s.hs.filter (fun e => decide ((if e = d then v else s.val e) = some o)) = s.hs.filter (fun e => decide (s.val e = some o)) := by
    refine List.filter_congr (fun x hx => ?_)
    have hxd : x ≠ d := by rintro rfl; exact hd hx
    simp only [if_neg hxd]
  rw [this]
  by_cases hv : v = some o
  · simp [hv]
  · simp [hv]

theorem handlesOn_filter (s : State H) (d : Slot H) (nd : s.hs.Nodup) (hd : d ∈ s.hs) (o : Obj) :
    (handlesOn { s with hs := s.hs.filter (fun e => decide (e ≠ d)) } o : Int) + on (s.val d) o = handlesOn s o := by
  unfold handlesOn on
  simp only [List.filter_filter]
  by_cases hv : s.val d = some o
  · rw [filter_split nd hd (fun e => decide (s.val e = some o)) (fun e => decide (s.val e = some o) && decide (e ≠ d)) (by simp [hv]) (by simp)
      (fun x _ hx => by simp [hx])]
    simp [hv]
  · rw [if_neg hv]
    have : s.hs.filter (fun e => decide (s.val e = some o) && decide (e ≠ d)) = s.hs.filter (fun e => decide (s.val e = some o)) := by
      refine List.filter_congr (fun x _ => ?_)
      by_cases hx : x = d
      · subst hx; simp [hv]
      · simp [hx]
    rw [this]; simp

theorem handlesOn_write (s : State H) (d : Slot H) (v : Option Obj) (nd : s.hs.Nodup) (hd : d ∈ s.hs) (o : Obj) :
    (handlesOn { s with val := fun e => if e = d then v else s.val e } o : Int) + on (s.val d) o = handlesOn s o + on v o := by
  have h1 := handlesOn_filter s d nd hd o
  have h2 := handlesOn_filter { s with val := fun e => if e = d then v else s.val e } d nd hd o
  have h3 : handlesOn { s with val := fun e => if e = d then v else s.val e, hs := s.hs.filter (fun e => decide (e ≠ d)) } o =
      handlesOn { s with hs := s.hs.filter (fun e => decide (e ≠ d)) } o := by
    unfold handlesOn
    congr 1
    refine List.filter_congr (fun x hx => ?_)
    have : x ≠ d := by simpa using (List.mem_filter.1 hx).2
    simp only [if_neg this]
  rw [h3] at h2
  simp only [if_true] at h2
  omega

/-- Counts and lifetimes agree, but for newborn objects (some of `x`), which live without a reference. -/
structure Wf (x : Obj → Prop) (s : State H) : Prop where
  nd : s.hs.Nodup
  fld : ∀ p i, .field p i ∈ s.hs → p < s.fresh
  lt : ∀ o ∈ s.live, o < s.fresh
  alive : ∀ o, 0 < s.cnt o → o ∈ s.live
  held : ∀ o ∈ s.live, ¬ x o → 0 < s.cnt o

/-- No newborn objects. -/
abbrev Nobody : Obj → Prop := fun _ => False

theorem Wf.iff {s : State H} (h : Wf Nobody s) (o : Obj) : o ∈ s.live ↔ 0 < s.cnt o := ⟨fun ho => h.held o ho (fun h => h), h.alive o⟩

theorem Wf.mono {x y : Obj → Prop} {s : State H} (h : Wf x s) (hxy : ∀ o ∈ s.live, x o → s.cnt o = 0 → y o) : Wf y s :=
  ⟨h.nd, h.fld, h.lt, h.alive, fun o ho hy => Nat.pos_of_ne_zero fun h0 => by
    have hx : ¬ x o := fun hx => hy (hxy o ho hx h0)
    exact absurd (h.held o ho hx) (by omega)⟩

/-- What a release does, whatever the state. -/
structure Rel (p : Option Obj) (s s' : State H) : Prop where
  val : s'.val = s.val
  fresh : s'.fresh = s.fresh
  live : ∀ o ∈ s'.live, o ∈ s.live
  sub : ∀ e ∈ s'.hs, e ∈ s.hs
  gone : ∀ e ∈ s.hs, e ∉ s'.hs → ∃ q i, e = .field q i ∧ q ∈ s.live ∧ q ∉ s'.live
  bal : ∀ o, bal s' o = bal s o + on p o
  le : ∀ o, s'.cnt o ≤ s.cnt o
  keep : ∀ o ∈ s.live, s.cnt o = 0 → o ∈ s'.live

theorem Rel.refl (s : State H) : Rel none s s :=
  ⟨rfl, rfl, fun _ h => h, fun _ h => h, fun _ h h' => (h' h).elim, fun o => by simp [on], fun _ => Nat.le_refl _, fun _ h _ => h⟩

theorem Rel.root {p : Option Obj} {s s' : State H} (h : Rel p s s') (k : H) : .root k ∈ s'.hs ↔ .root k ∈ s.hs := by
  refine ⟨h.sub _, fun hk => Classical.byContradiction (fun hn => ?_)⟩
  obtain ⟨q, i, he, -⟩ := h.gone _ hk hn
  cases he

theorem destroySlot_ok {rel : State H → Obj → Exec (State H)} {s s' : State H} {d : Slot H} (h : destroySlot rel s d = .ok s') :
    d ∈ s.hs ∧ ∃ t, (match s.val d with | none => Except.ok s | some o => rel s o) = Except.ok t ∧ s' = { t with hs := t.hs.filter (fun e => decide (e ≠ d)) } := by
  unfold destroySlot at h
  obtain ⟨v, hv, h⟩ := bind_ok h
  obtain ⟨rfl, hm⟩ := read_ok hv
  refine ⟨hm, ?_⟩
  cases hvv : s.val d with
  | none => rw [hvv] at h; cases h; exact ⟨s, rfl, rfl⟩
  | some q =>
    rw [hvv] at h
    obtain ⟨t, ht, h⟩ := bind_ok h
    cases h
    exact ⟨t, ht, rfl⟩

theorem Rel.drop {s t : State H} {d : Slot H} {x : Obj → Prop} (hw : Wf x t) (hr : Rel (s.val d) s t) (hm : d ∈ t.hs) (o : Obj) :
    RefPtr.bal { t with hs := t.hs.filter (fun e => decide (e ≠ d)) } o = RefPtr.bal s o := by
  have h4 := handlesOn_filter t d hw.nd hm o
  have h5 := hr.bal o
  rw [hr.val] at h4
  simp only [RefPtr.bal] at h5 ⊢
  have h6 : (handlesOn ({ t with hs := t.hs.filter (fun e => decide (e ≠ d)) }) o : Int) + on (s.val d) o = handlesOn t o := by
    rw [← h4, hr.val]
  omega

theorem Wf.filter {x : Obj → Prop} {t : State H} (hw : Wf x t) (d : Slot H) : Wf x { t with hs := t.hs.filter (fun e => decide (e ≠ d)) } :=
  ⟨hw.nd.filter _, fun q i h => hw.fld q i (List.mem_filter.1 h).1, hw.lt, hw.alive, hw.held⟩

theorem release_rel : ∀ (fuel : Nat) (x : Obj → Prop) (s s' : State H) (p : Obj), Wf x s → release arity fuel s p = .ok s' →
    Wf x s' ∧ Rel (some p) s s' := by
  intro fuel
  induction fuel with
  | zero => intro x s s' p _ h; cases h
  | succ fuel ih =>
    intro x s s' p hw h
    have ih' : ∀ (t t2 : State H) (v : Option Obj), Wf x t → (match v with | none => Except.ok t | some o => release arity fuel t o) = .ok t2 →
        Wf x t2 ∧ Rel v t t2 := by
      intro t t2 v hwt ht
      cases v with
      | none => cases ht; exact ⟨hwt, Rel.refl _⟩
      | some q => exact ih x t t2 q hwt ht
    have key : ∀ (n : Nat) (t t' : State H), Wf x t → p ∉ t.live → members (release arity fuel) p n t = .ok t' →
        Wf x t' ∧ t'.val = t.val ∧ t'.fresh = t.fresh ∧ (∀ o ∈ t'.live, o ∈ t.live) ∧ (∀ e ∈ t'.hs, e ∈ t.hs) ∧
        (∀ e ∈ t.hs, e ∉ t'.hs → (∃ i, e = .field p i) ∨ ∃ q i, e = .field q i ∧ q ∈ t.live ∧ q ∉ t'.live) ∧
        (∀ o, RefPtr.bal t' o = RefPtr.bal t o) ∧ (∀ o, t'.cnt o ≤ t.cnt o) ∧ ∀ o ∈ t.live, t.cnt o = 0 → o ∈ t'.live := by
      intro n
      induction n with
      | zero => intro t t' hwt _ ht; cases ht; exact ⟨hwt, rfl, rfl, fun _ h => h, fun _ h => h, fun _ h h' => (h' h).elim, fun _ => rfl, fun _ => Nat.le_refl _, fun _ h _ => h⟩
      | succ n ihn =>
        intro t t' hwt hpt ht
        unfold members at ht
        obtain ⟨t1, ht1, ht⟩ := bind_ok ht
        obtain ⟨hm, t2, ht2, rfl⟩ := destroySlot_ok ht1
        obtain ⟨hw2, hr⟩ := ih' t t2 _ hwt ht2
        have hm2 : Slot.field p n ∈ t2.hs := by
          refine Classical.byContradiction (fun hn => ?_)
          obtain ⟨q, i, he, hq, -⟩ := hr.gone _ hm hn
          cases he
          exact hpt hq
        obtain ⟨b1, b2, b3, b4, b5, b6, b7, b8, b9⟩ := ihn _ t' (hw2.filter _) (fun h => hpt (hr.live _ h)) ht
        refine ⟨b1, b2.trans hr.val, b3.trans hr.fresh, fun o h => hr.live o (b4 o h), fun e h => hr.sub e (List.mem_filter.1 (b5 e h)).1,
          fun e he hne => ?_, fun o => (b7 o).trans (hr.drop hw2 hm2 o), fun o => Nat.le_trans (b8 o) (hr.le o),
          fun o ho h0 => b9 o (hr.keep o ho h0) (by have := hr.le o; simp only; omega)⟩
        by_cases h : e ∈ t2.hs
        · by_cases hen : e = .field p n
          · exact .inl ⟨n, hen⟩
          · rcases b6 e (List.mem_filter.2 ⟨h, by simpa using hen⟩) hne with h | ⟨q, i, h1, h2, h3⟩
            · exact .inl h
            · exact .inr ⟨q, i, h1, hr.live q h2, h3⟩
        · obtain ⟨q, i, h1, h2, h3⟩ := hr.gone e he h
          exact .inr ⟨q, i, h1, h2, fun h => h3 (b4 q h)⟩
    unfold release at h
    by_cases h1 : p ∈ s.live
    · rw [if_neg (fun h => h h1)] at h
      by_cases h2 : s.cnt p = 0
      · rw [if_pos h2] at h; cases h
      · have hb : ∀ (l fr : List Obj) (o : Obj), RefPtr.bal { s with cnt := fun q => if q = p then s.cnt p - 1 else s.cnt q, live := l, freed := fr } o = RefPtr.bal s o + on (some p) o := by
          intro l fr o
          have : handlesOn { s with cnt := fun q => if q = p then s.cnt p - 1 else s.cnt q, live := l, freed := fr } o = handlesOn s o := rfl
          simp only [RefPtr.bal, this, on]
          by_cases ho : o = p
          · subst ho; simp; omega
          · simp [ho, Ne.symm ho]
        rw [if_neg h2] at h
        simp only [if_true] at h
        by_cases h3 : s.cnt p - 1 = 0
        · rw [if_pos h3] at h
          have hw0 : Wf x { s with cnt := fun q => if q = p then s.cnt p - 1 else s.cnt q, live := s.live.filter (fun q => decide (q ≠ p)), freed := p :: s.freed } := by
            refine ⟨hw.nd, hw.fld, fun o ho => hw.lt o (List.mem_filter.1 ho).1, fun o ho => ?_, fun o ho hx => ?_⟩
            · by_cases hop : o = p
              · subst hop; simp [h3] at ho
              · simp only [if_neg hop] at ho
                exact List.mem_filter.2 ⟨hw.alive o ho, by simpa using hop⟩
            · obtain ⟨ho, hop⟩ := List.mem_filter.1 ho
              have hop : o ≠ p := by simpa using hop
              simp only [if_neg hop]
              exact hw.held o ho hx
          obtain ⟨b1, b2, b3, b4, b5, b6, b7, b8, b9⟩ := key _ _ _ hw0 (by simp [List.mem_filter]) h
          refine ⟨b1, b2, b3, fun o ho => (List.mem_filter.1 (b4 o ho)).1, b5, fun e he hne => ?_, fun o => (b7 o).trans (hb _ _ o), fun o => Nat.le_trans (b8 o) ?_, fun o ho h0 => ?_⟩
          rcases b6 e he hne with ⟨i, h⟩ | ⟨q, i, h4, h5, h6⟩
          · exact ⟨p, i, h, h1, fun h => by simpa [List.mem_filter] using b4 p h⟩
          · exact ⟨q, i, h4, (List.mem_filter.1 h5).1, h6⟩
          · by_cases hop : o = p
            · subst hop; simp
            · simp [hop]
          · have hop : o ≠ p := by rintro rfl; exact h2 h0
            exact b9 o (List.mem_filter.2 ⟨ho, by simpa using hop⟩) (by simpa [hop] using h0)
        · rw [if_neg h3] at h
          cases h
          refine ⟨⟨hw.nd, hw.fld, hw.lt, fun o ho => ?_, fun o ho hx => ?_⟩, rfl, rfl, fun _ h => h, fun _ h => h, fun _ h h' => (h' h).elim, fun o => hb _ _ o, fun o => ?_, fun _ h _ => h⟩
          · by_cases hop : o = p
            · subst hop; exact h1
            · simp only [if_neg hop] at ho
              exact hw.alive o ho
          · by_cases hop : o = p
            · subst hop; simp; omega
            · simp only [if_neg hop]
              exact hw.held o ho hx
          · by_cases hop : o = p
            · subst hop; simp
            · simp [hop]
    · rw [if_pos h1] at h; cases h

theorem releaseOpt_rel {x : Obj → Prop} {s s' : State H} {v : Option Obj} (hw : Wf x s) (h : releaseOpt arity s v = .ok s') :
    Wf x s' ∧ Rel v s s' := by
  cases v with
  | none => cases h; exact ⟨hw, Rel.refl _⟩
  | some p => exact release_rel _ x s s' p hw h

/-- What a statement may do: handles minus count changes by `δ`. -/
structure Step (δ : Obj → Int) (s s' : State H) : Prop where
  fresh : s.fresh ≤ s'.fresh
  bal : ∀ o, bal s' o = bal s o + δ o

theorem construct_wf {x : Obj → Prop} {s s' : State H} {d : Slot H} {v : Option Obj} (hw : Wf x s) (hd : ∀ p i, d ≠ .field p i)
    (h : construct s d v = .ok s') : Wf x s' ∧ s'.fresh = s.fresh ∧ s'.cnt = s.cnt ∧ s'.live = s.live ∧ ∀ o, bal s' o = bal s o + on v o := by
  unfold construct at h
  by_cases hm : d ∈ s.hs
  · rw [if_pos hm] at h; cases h
  · rw [if_neg hm] at h
    cases h
    refine ⟨⟨List.nodup_cons.2 ⟨hm, hw.nd⟩, fun p i h => ?_, hw.lt, hw.alive, hw.held⟩, rfl, rfl, rfl, fun o => ?_⟩
    · rcases List.mem_cons.1 h with h | h
      · exact (hd p i h.symm).elim
      · exact hw.fld p i h
    · have := handlesOn_cons s d v hm o
      simp only [bal]
      omega

theorem write_wf {x : Obj → Prop} {s s' : State H} {d : Slot H} {v : Option Obj} (hw : Wf x s) (h : write s d v = .ok s') :
    d ∈ s.hs ∧ Wf x s' ∧ s'.fresh = s.fresh ∧ s'.live = s.live ∧ s'.hs = s.hs ∧ s'.val = (fun e => if e = d then v else s.val e) ∧
      ∀ o, bal s' o = bal s o + on v o - on (s.val d) o := by
  unfold write at h
  by_cases hm : d ∈ s.hs
  · rw [if_neg (fun h => h hm)] at h
    cases h
    refine ⟨hm, ⟨hw.nd, hw.fld, hw.lt, hw.alive, hw.held⟩, rfl, rfl, rfl, rfl, fun o => ?_⟩
    have := handlesOn_write s d v hw.nd hm o
    simp only [bal]
    omega
  · rw [if_pos hm] at h; cases h

theorem addRef_wf {x y : Obj → Prop} {s s' : State H} {p : Obj} (hw : Wf x s) (hx : ∀ o, x o → o = p ∨ y o) (h : addRef s p = .ok s') :
    Wf y s' ∧ s'.fresh = s.fresh ∧ s'.live = s.live ∧ ∀ o, bal s' o = bal s o - on (some p) o := by
  unfold addRef at h
  by_cases hm : p ∈ s.live
  · rw [if_neg (fun h => h hm)] at h
    cases h
    refine ⟨⟨hw.nd, hw.fld, hw.lt, fun o h => ?_, fun o ho hy => ?_⟩, rfl, rfl, fun o => ?_⟩
    · by_cases ho : o = p
      · subst ho; exact hm
      · simp only [if_neg ho] at h
        exact hw.alive o h
    · by_cases hop : o = p
      · subst hop; simp
      · simp only [if_neg hop]
        exact hw.held o ho (fun h => (hx o h).elim hop hy)
    · have : handlesOn { s with cnt := fun q => if q = p then s.cnt p + 1 else s.cnt q } o = handlesOn s o := rfl
      simp only [bal, this, on]
      by_cases ho : o = p
      · subst ho; simp; omega
      · simp [ho, Ne.symm ho]
  · rw [if_pos hm] at h; cases h

theorem addRefOpt_wf {x : Obj → Prop} {s s' : State H} {v : Option Obj} (hw : Wf x s) (h : addRefOpt s v = .ok s') :
    Wf x s' ∧ s'.fresh = s.fresh ∧ ∀ o, bal s' o = bal s o - on v o := by
  cases v with
  | none => cases h; exact ⟨hw, rfl, fun o => by simp [on]⟩
  | some p =>
    obtain ⟨h1, h2, -, h3⟩ := addRef_wf hw (fun o h => .inr h) h
    exact ⟨h1, h2, h3⟩

theorem newObj_wf {x : Obj → Prop} {s : State H} (hw : Wf x s) : Wf (fun o => x o ∨ o = s.fresh) (newObj arity s).1 ∧ (newObj arity s).1.fresh = s.fresh + 1 ∧
    (newObj arity s).2 = s.fresh ∧ (∀ e ∈ s.hs, e ∈ (newObj arity s).1.hs ∧ (newObj arity s).1.val e = s.val e) ∧
    ∀ o, bal (newObj arity s).1 o = bal s o := by
  have hnf : ∀ i, Slot.field s.fresh i ∉ s.hs := fun i h => Nat.lt_irrefl _ (hw.fld _ i h)
  have hdis : ∀ e ∈ s.hs, e ∉ (List.range (arity s.fresh)).map (Slot.field s.fresh) := by
    intro e he hm
    obtain ⟨i, -, rfl⟩ := List.mem_map.1 hm
    exact hnf i he
  refine ⟨⟨?_, ?_, ?_, ?_, ?_⟩, rfl, rfl, ?_, ?_⟩
  · refine List.nodup_append.2 ⟨?_, hw.nd, fun a ha b hb hab => hdis b hb (hab ▸ ha)⟩
    exact List.Pairwise.map _ (fun a b h e => h (by injection e)) List.nodup_range
  · intro p i h
    rcases List.mem_append.1 h with h | h
    · obtain ⟨j, -, h⟩ := List.mem_map.1 h
      cases h
      exact Nat.lt_succ_self _
    · exact Nat.lt_succ_of_lt (hw.fld p i h)
  · intro o ho
    rcases List.mem_cons.1 ho with rfl | ho
    · exact Nat.lt_succ_self _
    · exact Nat.lt_succ_of_lt (hw.lt o ho)
  · intro o ho
    by_cases hne : o = s.fresh
    · subst hne; simp [newObj] at ho
    · simp only [newObj, if_neg hne] at ho
      exact List.mem_cons_of_mem _ (hw.alive o ho)
  · intro o ho hx
    have hne : o ≠ s.fresh := fun e => hx (.inr e)
    rcases List.mem_cons.1 ho with ho | ho
    · exact (hne ho).elim
    · simp only [newObj, if_neg hne]
      exact hw.held o ho (fun h => hx (.inl h))
  · intro e he
    exact ⟨List.mem_append_right _ he, if_neg (hdis e he)⟩
  · intro o
    have : handlesOn (newObj arity s).1 o = handlesOn s o := by
      unfold handlesOn newObj
      simp only [List.filter_append, List.length_append]
      have h1 : ((List.range (arity s.fresh)).map (Slot.field (H := H) s.fresh)).filter
          (fun e => decide ((if e ∈ (List.range (arity s.fresh)).map (Slot.field s.fresh) then none else s.val e) = some o)) = [] := by
        refine List.filter_eq_nil_iff.2 (fun e he => ?_)
        simp only [if_pos he]
        simp
      have h2 : s.hs.filter (fun e => decide ((if e ∈ (List.range (arity s.fresh)).map (Slot.field s.fresh) then none else s.val e) = some o)) =
          s.hs.filter (fun e => decide (s.val e = some o)) := by
        refine List.filter_congr (fun e he => ?_)
        simp only [if_neg (hdis e he)]
      rw [h1, h2]; simp
    have h0 : s.cnt s.fresh = 0 := by
      have hn : ¬ s.fresh ∈ s.live := fun h => Nat.lt_irrefl _ (hw.lt _ h)
      exact Nat.eq_zero_of_not_pos (fun h => hn (hw.alive _ h))
    simp only [bal, this]
    by_cases hne : o = s.fresh
    · subst hne; simp [newObj, h0]
    · simp [newObj, hne]

theorem ctorRaw_wf {x : Obj → Prop} {s s' : State H} {k : H} {v : Option Obj} (hw : Wf x s) (h : ctorRaw s (.root k) v = .ok s') :
    Wf x s' ∧ Step (fun _ => 0) s s' := by
  obtain ⟨s1, h1, h2⟩ := bind_ok h
  obtain ⟨a1, a2, -, -, a3⟩ := construct_wf hw (root_ne _) h1
  obtain ⟨b1, b2, b3⟩ := addRefOpt_wf a1 h2
  exact ⟨b1, by omega, fun o => by rw [b3, a3]; omega⟩

theorem assignRaw_wf {x : Obj → Prop} {s s' : State H} {d : Slot H} {v : Option Obj} (hw : Wf x s) (h : assignRaw arity s d v = .ok s') :
    Wf x s' ∧ Step (fun _ => 0) s s' := by
  obtain ⟨old, h1, h⟩ := bind_ok h
  obtain ⟨rfl, hd⟩ := read_ok h1
  obtain ⟨s1, h2, h⟩ := bind_ok h
  obtain ⟨s2, h3, h⟩ := bind_ok h
  obtain ⟨a1, a2⟩ := releaseOpt_rel hw h2
  obtain ⟨b0, b1, b2, b3, b4, b5, b6⟩ := write_wf a1 h3
  obtain ⟨c1, c2, c3⟩ := addRefOpt_wf b1 h
  exact ⟨c1, by have := a2.fresh; omega, fun o => by rw [c3, b6, a2.bal, a2.val]; omega⟩

/-- Every statement that succeeds keeps the books. -/
theorem mexec_step {x : Obj → Prop} {s s' : State H} (hw : Wf x s) (op : MOp H) (h : mexec arity s op = .ok s') : Wf x s' ∧ Step (fun o => - taken s op o) s s' := by
  have zero : ∀ {op : MOp H}, (∀ o, taken s op o = 0) → Step (fun _ => 0) s s' → Step (fun o => - taken s op o) s s' :=
    fun h0 h => ⟨h.fresh, fun o => by rw [h.bal o, h0]; simp⟩
  cases op with
  | plain op =>
    have goal : Wf x s' ∧ Step (fun _ => 0) s s' → Wf x s' ∧ Step (fun o => - taken s (.plain op) o) s s' :=
      fun h => ⟨h.1, zero (fun _ => rfl) h.2⟩
    apply goal
    cases op with
    | ctorNull k =>
      obtain ⟨a1, a2, -, -, a3⟩ := construct_wf hw (root_ne _) h
      exact ⟨a1, by omega, fun o => by rw [a3]; simp [on]⟩
    | ctorNew k =>
      obtain ⟨n1, n2, n3, n4, n5⟩ := newObj_wf (arity := arity) hw
      simp only [mexec, exec, n3] at h
      obtain ⟨s1, h1, h2⟩ := bind_ok h
      obtain ⟨a1, a2, -, -, a3⟩ := construct_wf n1 (root_ne _) h1
      obtain ⟨b1, b2, -, b3⟩ := addRef_wf a1 (fun o h => h.symm) h2
      exact ⟨b1, by omega, fun o => by rw [b3, a3, n5 o]; omega⟩
    | ctorGet k e =>
      obtain ⟨v, h1, h⟩ := bind_ok h
      exact ctorRaw_wf hw h
    | ctorCopy k e =>
      obtain ⟨v, h1, h⟩ := bind_ok h
      exact ctorRaw_wf hw h
    | ctorMove k e =>
      obtain ⟨v, h1, h⟩ := bind_ok h
      obtain ⟨rfl, he⟩ := read_ok h1
      obtain ⟨s1, h2, h⟩ := bind_ok h
      have hne : e ≠ .root k := by
        rintro rfl
        unfold construct at h2
        rw [if_pos he] at h2; cases h2
      have hv : s1.val e = s.val e := by
        unfold construct at h2
        split at h2
        · cases h2
        · cases h2; exact if_neg hne
      obtain ⟨a1, a2, -, -, a3⟩ := construct_wf hw (root_ne _) h2
      obtain ⟨b0, b1, b2, b3, b4, b5, b6⟩ := write_wf a1 h
      exact ⟨b1, by omega, fun o => by rw [b6, a3, hv]; simp only [on]; simp⟩
    | assignNull d => exact assignRaw_wf hw h
    | assignNew d =>
      obtain ⟨n1, n2, n3, n4, n5⟩ := newObj_wf (arity := arity) hw
      simp only [mexec, exec, n3] at h
      obtain ⟨old, h1, h⟩ := bind_ok h
      obtain ⟨rfl, hd⟩ := read_ok h1
      obtain ⟨s1, h2, h⟩ := bind_ok h
      obtain ⟨s2, h3, h⟩ := bind_ok h
      obtain ⟨a1, a2⟩ := releaseOpt_rel n1 h2
      obtain ⟨b0, b1, b2, b3, b4, b5, b6⟩ := write_wf a1 h3
      obtain ⟨c1, c2, -, c3⟩ := addRef_wf b1 (fun o h => h.symm) h
      exact ⟨c1, by have := a2.fresh; omega, fun o => by rw [c3, b6, a2.bal, a2.val, n5 o]; omega⟩
    | assignGet d e =>
      obtain ⟨v, h1, h⟩ := bind_ok h
      exact assignRaw_wf hw h
    | assignCopy d e =>
      obtain ⟨old, h1, h⟩ := bind_ok h
      obtain ⟨rfl, hd⟩ := read_ok h1
      obtain ⟨s1, h2, h⟩ := bind_ok h
      obtain ⟨v, h4, h⟩ := bind_ok h
      obtain ⟨s2, h3, h⟩ := bind_ok h
      obtain ⟨a1, a2⟩ := releaseOpt_rel hw h2
      obtain ⟨b0, b1, b2, b3, b4, b5, b6⟩ := write_wf a1 h3
      obtain ⟨c1, c2, c3⟩ := addRefOpt_wf b1 h
      exact ⟨c1, by have := a2.fresh; omega, fun o => by rw [c3, b6, a2.bal, a2.val]; omega⟩
    | assignMove d e =>
      obtain ⟨old, h1, h⟩ := bind_ok h
      obtain ⟨rfl, hd⟩ := read_ok h1
      obtain ⟨s1, h2, h⟩ := bind_ok h
      obtain ⟨v, h4, h⟩ := bind_ok h
      obtain ⟨rfl, he⟩ := read_ok h4
      obtain ⟨s2, h3, h⟩ := bind_ok h
      obtain ⟨a1, a2⟩ := releaseOpt_rel hw h2
      obtain ⟨b0, b1, b2, b3, b4, b5, b6⟩ := write_wf a1 h3
      obtain ⟨c0, c1, c2, c3, c4, c5, c6⟩ := write_wf b1 h
      refine ⟨c1, by have := a2.fresh; omega, fun o => ?_⟩
      rw [c6, b6, a2.bal, b5]
      by_cases hed : e = d
      · subst hed; simp [on, a2.val]
      · simp only [if_neg hed, a2.val]; simp only [on]; simp; omega
    | destroy k =>
      obtain ⟨hd, t, ht, rfl⟩ := destroySlot_ok h
      have ht' : releaseOpt arity s (s.val (.root k)) = .ok t := by
        cases hv : s.val (.root k) with
        | none => rw [hv] at ht; exact ht
        | some p => rw [hv] at ht; exact ht
      obtain ⟨a1, a2⟩ := releaseOpt_rel hw ht'
      refine ⟨a1.filter _, by simp [a2.fresh], fun o => ?_⟩
      rw [a2.drop a1 ((a2.root k).2 hd)]; simp
  | newRef =>
    obtain ⟨n1, n2, n3, n4, n5⟩ := newObj_wf (arity := arity) hw
    simp only [mexec, newRef, n3] at h
    obtain ⟨b1, b2, -, b3⟩ := addRef_wf n1 (fun o h => h.symm) h
    refine ⟨b1, by omega, fun o => ?_⟩
    rw [b3, n5 o]; simp only [taken, on_some]; split <;> omega
  | addRef p =>
    obtain ⟨b1, b2, -, b3⟩ := addRef_wf hw (fun o h => .inr h) h
    refine ⟨b1, by omega, fun o => ?_⟩
    rw [b3]; simp only [taken, on_some]; split <;> omega
  | release p =>
    obtain ⟨a1, a2⟩ := release_rel _ x s s' p hw h
    refine ⟨a1, by simp [a2.fresh], fun o => ?_⟩
    rw [a2.bal]; simp only [taken, on_some]; split <;> omega
  | ctorPtr k p =>
    obtain ⟨h1, h2⟩ := ctorRaw_wf hw h
    exact ⟨h1, zero (fun _ => rfl) h2⟩
  | assignPtr d p =>
    obtain ⟨h1, h2⟩ := assignRaw_wf hw h
    exact ⟨h1, zero (fun _ => rfl) h2⟩
  | adopt k p =>
    obtain ⟨a1, a2, -, -, a3⟩ := construct_wf hw (root_ne _) h
    refine ⟨a1, by omega, fun o => ?_⟩
    rw [a3]; simp only [taken, on_some]; split <;> omega
  | assignAdopt d p =>
    obtain ⟨old, h1, h⟩ := bind_ok h
    obtain ⟨rfl, hd⟩ := read_ok h1
    obtain ⟨s1, h2, h⟩ := bind_ok h
    obtain ⟨a1, a2⟩ := releaseOpt_rel hw h2
    obtain ⟨b0, b1, b2, b3, b4, b5, b6⟩ := write_wf a1 h
    refine ⟨b1, by have := a2.fresh; omega, fun o => ?_⟩
    rw [b6, a2.bal, a2.val]; simp only [taken, on_some]; split <;> omega
  | take e =>
    obtain ⟨old, h1, h⟩ := bind_ok h
    obtain ⟨b0, b1, b2, b3, b4, b5, b6⟩ := write_wf hw h
    refine ⟨b1, by omega, fun o => ?_⟩
    rw [b6]; simp [taken, on]; omega

end Verif.RefPtr
