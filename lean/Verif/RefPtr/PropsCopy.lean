import Verif.RefPtr.Hide
import Verif.RefPtr.Props
/-!
# Property C104: copies of reference-counted objects
-/
namespace Verif.RefPtr
open Verif

set_option linter.unusedSectionVars false
set_option linter.unusedSimpArgs false

variable {H : Type} [DecidableEq H] {arity : Obj → Nat}

/-! ### Specification -/

/-- The client's obligations: as in C45; a copy is made of the object of a handle that is not null, and is of the same class. -/
def XLegal (arity : Obj → Nat) (s : State H) : XOp H → Prop
  | .plain op => Legal s op
  | .copyOf h e => .root h ∉ s.hs ∧ e ∈ s.hs ∧ ∃ src, s.val e = some src ∧ arity s.fresh = arity src

def XLegalRun (arity : Obj → Nat) (s : State H) : List (XOp H) → Prop
  | [] => True
  | op :: ops => XLegal arity s op ∧ ∀ s', xexec arity s op = .ok s' → XLegalRun arity s' ops

/-- C104, full statement: programs that copy objects keep counts, handles and live objects in agreement as in C45. -/
def CopiesCounted : Prop :=
  ∀ (arity : Obj → Nat) (ops : List (XOp Nat)), XLegalRun arity State.new ops →
    ∃ s, xrun arity State.new ops = .ok s ∧ Balanced arity s

/-- The count a copy starts with: what the counter of its source showed. -/
def born (s : State H) : XOp H → Obj → Nat
  | .plain _, _ => 0
  | .copyOf _ e, o => if o = s.fresh then (match s.val e with | some src => s.cnt src | none => 0) else 0

/-- The same for all copies of a history. -/
def bornAll (arity : Obj → Nat) (s : State H) : List (XOp H) → Obj → Nat
  | [], _ => 0
  | op :: ops, o => born s op o + (match xexec arity s op with | .ok s' => bornAll arity s' ops o | .error _ => 0)

/-! ### Hidden references -/

def hidden (g : State (GH H)) (o : Obj) : Nat := (g.hs.filter (fun e => (vis e).isNone && decide (g.val e = some o))).length

theorem handles_hide (g : State (GH H)) (o : Obj) : handlesOn g o = handlesOn (hide g) o + hidden g o := by
  unfold handlesOn hidden
  show _ = ((g.hs.filterMap vis).filter (fun e => decide (g.val (up e) = some o))).length + _
  induction g.hs with
  | nil => rfl
  | cons x l ih =>
    cases hv : vis x with
    | none =>
      rw [List.filterMap_cons, hv]
      simp only [List.filter_cons, hv, Option.isNone_none, Bool.true_and]
      split <;> (try simp only [List.length_cons]) <;> omega
    | some e =>
      have hx := vis_some.1 hv
      subst hx
      rw [List.filterMap_cons, vis_up]
      simp only [List.filter_cons, vis_up, Option.isNone_some, Bool.false_and, Bool.false_eq_true, if_false]
      split <;> (try simp only [List.length_cons]) <;> omega

theorem length_eq_of_mem {α : Type} {l l' : List α} (h : l.Nodup) (h' : l'.Nodup) (hm : ∀ x, x ∈ l ↔ x ∈ l') : l.length = l'.length :=
  ((List.perm_ext_iff_of_nodup h h').2 hm).length_eq

theorem hidden_congr {g g' : State (GH H)} (nd : g.hs.Nodup) (nd' : g'.hs.Nodup)
    (hm : ∀ a, Slot.root (Sum.inr a) ∈ g'.hs ↔ Slot.root (Sum.inr a) ∈ g.hs)
    (hv : ∀ a, Slot.root (Sum.inr a) ∈ g.hs → g'.val (.root (.inr a)) = g.val (.root (.inr a))) (o : Obj) : hidden g' o = hidden g o := by
  refine length_eq_of_mem (nd'.filter _) (nd.filter _) (fun x => ?_)
  simp only [List.mem_filter, Bool.and_eq_true, decide_eq_true_eq]
  cases x with
  | field p i => simp [vis]
  | root k => cases k with
    | inl k => simp [vis]
    | inr a =>
      constructor
      · rintro ⟨h1, h2, h3⟩; have := (hm a).1 h1; exact ⟨this, h2, by rw [← hv a this]; exact h3⟩
      · rintro ⟨h1, h2, h3⟩; exact ⟨(hm a).2 h1, h2, by rw [hv a h1]; exact h3⟩

theorem hidden_add {g g' : State (GH H)} (nd : g.hs.Nodup) (nd' : g'.hs.Nodup) {n : Nat} {p : Obj} (hn : Slot.root (Sum.inr n) ∉ g.hs)
    (hm : ∀ a, Slot.root (Sum.inr a) ∈ g'.hs ↔ a = n ∨ Slot.root (Sum.inr a) ∈ g.hs)
    (hv : ∀ a, Slot.root (Sum.inr a) ∈ g.hs → g'.val (.root (.inr a)) = g.val (.root (.inr a)))
    (hp : g'.val (.root (.inr n)) = some p) (o : Obj) : hidden g' o = hidden g o + if o = p then 1 else 0 := by
  by_cases ho : o = p
  · subst ho
    rw [if_pos rfl]
    have : hidden g o + 1 = (Slot.root (Sum.inr n) :: g.hs.filter (fun e => (vis e).isNone && decide (g.val e = some o))).length := rfl
    rw [this]
    refine length_eq_of_mem (nd'.filter _) (List.nodup_cons.2 ⟨fun h => hn (List.mem_filter.1 h).1, nd.filter _⟩) (fun x => ?_)
    simp only [List.mem_cons, List.mem_filter, Bool.and_eq_true, decide_eq_true_eq]
    cases x with
    | field p i => simp [vis]
    | root k => cases k with
      | inl k => simp [vis]
      | inr a =>
        constructor
        · rintro ⟨h1, h2, h3⟩
          rcases (hm a).1 h1 with rfl | h
          · exact .inl rfl
          · exact .inr ⟨h, h2, by rw [← hv a h]; exact h3⟩
        · rintro (h | ⟨h1, h2, h3⟩)
          · injection h with h; injection h with h; subst h
            exact ⟨(hm a).2 (.inl rfl), rfl, hp⟩
          · exact ⟨(hm a).2 (.inr h1), h2, by rw [hv a h1]; exact h3⟩
  · rw [if_neg ho, Nat.add_zero]
    refine length_eq_of_mem (nd'.filter _) (nd.filter _) (fun x => ?_)
    simp only [List.mem_filter, Bool.and_eq_true, decide_eq_true_eq]
    cases x with
    | field p i => simp [vis]
    | root k => cases k with
      | inl k => simp [vis]
      | inr a =>
        constructor
        · rintro ⟨h1, h2, h3⟩
          rcases (hm a).1 h1 with rfl | h
          · rw [hp] at h3; injection h3 with h3; exact (ho h3.symm).elim
          · exact ⟨h, h2, by rw [← hv a h]; exact h3⟩
        · rintro ⟨h1, h2, h3⟩
          exact ⟨(hm a).2 (.inr h1), h2, by rw [hv a h1]; exact h3⟩

/-- The state is what is visible of a state in which counts and handles agree; the hidden handles are `sur`. -/
def Ghosted (arity : Obj → Nat) (sur : Obj → Nat) (s : State H) : Prop :=
  ∃ (g : State (GH H)) (n : Nat), hide g = s ∧ Inv arity [] [] [] g ∧ (∀ a, Slot.root (Sum.inr a) ∈ g.hs → a < n) ∧ ∀ o, hidden g o = sur o

theorem ghosted_new (arity : Obj → Nat) : Ghosted arity (fun _ => 0) (State.new : State H) :=
  ⟨State.new, 0, rfl, inv_new, by simp [State.new], fun _ => rfl⟩

theorem ghosted_plain {sur : Obj → Nat} {s : State H} (hg : Ghosted arity sur s) (op : Op H) (hl : Legal s op) :
    ∃ s', exec arity s op = .ok s' ∧ Ghosted arity sur s' ∧ (∀ x ∈ s'.hs, s'.val x = valAfter s op x) ∧
      ∀ k, .root k ∈ s'.hs ↔ varAfter s op k := by
  obtain ⟨g, n, rfl, hi, hn, hs⟩ := hg
  obtain ⟨g', h1, hi', hv, hr⟩ := exec_spec hi (upOp op) (legal_hide op hl)
  refine ⟨hide g', by rw [exec_hide, h1]; rfl, ⟨g', n, rfl, hi', ?_, fun o => ?_⟩, ?_, ?_⟩
  · intro a ha
    apply hn
    have := (hr (.inr a)).1 ha
    cases op <;> simpa [upOp, varAfter] using this
  · rw [← hs o]
    have hm : ∀ a, Slot.root (Sum.inr a) ∈ g'.hs ↔ Slot.root (Sum.inr a) ∈ g.hs := by
      intro a
      rw [hr (.inr a)]
      cases op <;> simp [upOp, varAfter]
    refine hidden_congr hi.nd hi'.nd hm (fun a ha => ?_) o
    rw [hv _ ((hm a).2 ha)]
    have hne : ∀ e : Slot H, Slot.root (Sum.inr a) ≠ up e := by
      intro e h; cases e <;> simp [up] at h
    cases op <;> simp [upOp, valAfter, hne, Slot.ownedBy]
  · intro x hx
    show g'.val (up x) = _
    rw [hv _ (mem_hide.1 hx)]
    have ho : (up x).ownedBy g.fresh = x.ownedBy g.fresh := by cases x <;> rfl
    have hroot : ∀ k : H, (up x = Slot.root (Sum.inl k)) ↔ x = .root k := by
      intro k; exact up_inj (d := x) (e := .root k)
    cases op <;> simp only [upOp, valAfter, hide, up_inj, ho, hroot]
    all_goals rfl
  · intro k
    rw [mem_hide]
    show Slot.root (Sum.inl k) ∈ g'.hs ↔ _
    rw [hr]
    have hk : ∀ j : H, (Slot.root j ∈ (hide g).hs ↔ Slot.root (Sum.inl j) ∈ g.hs) := fun j => mem_hide (e := .root j)
    cases op <;> simp [upOp, varAfter, hk]

/-- Adding one hidden handle to a new object. -/
theorem ghost_new {g : State (GH H)} {n : Nat} (hi : Inv arity [] [] [] g) (hn : ∀ a, Slot.root (Sum.inr a) ∈ g.hs → a < n) :
    ∃ g', Inv arity [] [] [] g' ∧ hide g' = (newCounted arity (hide g) 1).1 ∧ (∀ a, Slot.root (Sum.inr a) ∈ g'.hs → a < n + 1) ∧
      Slot.root (Sum.inr n) ∈ g'.hs ∧ g'.val (.root (.inr n)) = some g.fresh ∧ g.fresh ∈ g'.live ∧
      ∀ o, hidden g' o = hidden g o + if o = g.fresh then 1 else 0 := by
  have hnn : Slot.root (Sum.inr n) ∉ g.hs := fun h => Nat.lt_irrefl _ (hn n h)
  obtain ⟨g', h1, hi', hv, hr⟩ := exec_spec hi (.ctorNew (.inr n)) hnn
  have hmem : Slot.root (Sum.inr n) ∈ g'.hs := (hr _).2 (.inl rfl)
  have hval : g'.val (.root (.inr n)) = some g.fresh := by rw [hv _ hmem]; simp [valAfter]
  have hhide : hide g' = (newCounted arity (hide g) 1).1 := by
    have hnf : Slot.root (Sum.inr n) ∉ (List.range (arity g.fresh)).map (Slot.field (H := GH H) g.fresh) := by simp
    simp only [exec, newObj, ctorRaw, construct, List.mem_append, hnf, hnn, or_self, if_false, bind, Except.bind, addRefOpt, addRef,
      List.mem_cons, true_or, not_true_eq_false, if_true] at h1
    injection h1 with h1
    rw [← h1, newCounted, newObj_hide, newObj]
    simp only [hide, List.filterMap_cons, vis]
    congr 1
    funext e
    cases e <;> simp [up]
  refine ⟨g', hi', hhide, fun a ha => ?_, hmem, hval, hi'.tgt _ hmem (by simp) _ hval, ?_⟩
  · rcases (hr _).1 ha with h | h
    · injection h with h; omega
    · have := hn a h; omega
  · refine hidden_add hi.nd hi'.nd hnn (fun a => ?_) (fun a ha => ?_) hval
    · rw [hr (.inr a)]; simp [varAfter]
    · rw [hv _ ((hr _).2 (.inr ha))]
      have hne : a ≠ n := by rintro rfl; exact hnn ha
      simp [valAfter, hne, Slot.ownedBy]

/-- One more hidden handle. -/
theorem ghost_more {g : State (GH H)} {n m : Nat} {o : Obj} (hi : Inv arity [] [] [] g) (hn : ∀ a, Slot.root (Sum.inr a) ∈ g.hs → a < n)
    (hm : Slot.root (Sum.inr m) ∈ g.hs) (hv : g.val (.root (.inr m)) = some o) :
    ∃ g', Inv arity [] [] [] g' ∧ hide g' = { hide g with cnt := fun p => if p = o then g.cnt o + 1 else g.cnt p } ∧
      (∀ a, Slot.root (Sum.inr a) ∈ g'.hs → a < n + 1) ∧
      Slot.root (Sum.inr m) ∈ g'.hs ∧ g'.val (.root (.inr m)) = some o ∧ g'.live = g.live ∧
      ∀ o', hidden g' o' = hidden g o' + if o' = o then 1 else 0 := by
  have hnn : Slot.root (Sum.inr n) ∉ g.hs := fun h => Nat.lt_irrefl _ (hn n h)
  have hlive := hi.tgt _ hm (by simp) _ hv
  obtain ⟨g', h1, hi', hv', hr⟩ := exec_spec hi (.ctorCopy (.inr n) (.root (.inr m))) ⟨hnn, hm⟩
  have hmem : Slot.root (Sum.inr n) ∈ g'.hs := (hr _).2 (.inl rfl)
  have hval : g'.val (.root (.inr n)) = some o := by rw [hv' _ hmem]; simp [valAfter, hv]
  have hm' : Slot.root (Sum.inr m) ∈ g'.hs := (hr _).2 (.inr hm)
  have hmn : m ≠ n := by rintro rfl; exact hnn hm
  simp only [exec, ctorCopy, RefPtr.read, hm, not_true_eq_false, if_false, bind, Except.bind, construct, hnn, hv, addRefOpt, addRef, hlive] at h1
  injection h1 with h1
  refine ⟨g', hi', ?_, fun a ha => ?_, hm', ?_, by rw [← h1], ?_⟩
  · rw [← h1]
    simp only [hide, List.filterMap_cons, vis]
    congr 1
    funext e
    cases e <;> simp [up]
  · rcases (hr _).1 ha with h | h
    · injection h with h; omega
    · have := hn a h; omega
  · rw [hv' _ hm']; simp [valAfter, hmn, hv]
  · refine hidden_add hi.nd hi'.nd hnn (fun a => ?_) (fun a ha => ?_) hval
    · rw [hr (.inr a)]; simp [varAfter]
    · rw [hv' _ ((hr _).2 (.inr ha))]
      have hne : a ≠ n := by rintro rfl; exact hnn ha
      simp [valAfter, hne]

/-- `k + 1` hidden handles on a new object: it starts with that count. -/
theorem ghost_counted {g : State (GH H)} {n : Nat} (hi : Inv arity [] [] [] g) (hn : ∀ a, Slot.root (Sum.inr a) ∈ g.hs → a < n) : ∀ k : Nat,
    ∃ g', Inv arity [] [] [] g' ∧ hide g' = (newCounted arity (hide g) (k + 1)).1 ∧ (∀ a, Slot.root (Sum.inr a) ∈ g'.hs → a < n + k + 1) ∧
      Slot.root (Sum.inr n) ∈ g'.hs ∧ g'.val (.root (.inr n)) = some g.fresh ∧ g.fresh ∈ g'.live ∧
      ∀ o, hidden g' o = hidden g o + if o = g.fresh then k + 1 else 0 := by
  intro k
  induction k with
  | zero => exact ghost_new hi hn
  | succ k ih =>
    obtain ⟨g1, hi1, h1, h2, h3, h4, h5, h6⟩ := ih
    obtain ⟨g2, hi2, e1, e2, e3, e4, e5, e6⟩ := ghost_more hi1 h2 h3 h4
    refine ⟨g2, hi2, ?_, e2, e3, e4, e5 ▸ h5, fun o => ?_⟩
    · have hc : g1.cnt = (hide g1).cnt := rfl
      rw [e1, hc, h1]
      simp only [newCounted, newObj]
      congr 1
      funext p
      have : (hide g).fresh = g.fresh := rfl
      by_cases hp : p = g.fresh <;> simp [hp, this]
    · rw [e6, h6]
      by_cases ho : o = g.fresh <;> simp [ho] <;> omega

/-- The members of the copy. -/
theorem copyMembers_spec {src o : Obj} (hne : src ≠ o) {n : Nat} : ∀ (i : Nat) (g : State (GH H)), i ≤ n → Inv arity [] [] [] g → src ∈ g.live →
    arity src = n → o ∈ g.live → arity o = n → (∀ j, n - i ≤ j → j < n → g.val (.field o j) = none) →
    ∃ g', copyMembers src o n i (hide g) = .ok (hide g') ∧ Inv arity [] [] [] g' ∧ g'.live = g.live ∧ g'.hs = g.hs ∧ g'.fresh = g.fresh ∧
      (∀ x, (∀ j, n - i ≤ j → j < n → x ≠ .field o j) → g'.val x = g.val x) ∧
      (∀ j, n - i ≤ j → j < n → g'.val (.field o j) = g.val (.field src j)) := by
  intro i
  induction i with
  | zero => intro g _ hi _ _ _ _ _; exact ⟨g, rfl, hi, rfl, rfl, rfl, fun _ _ => rfl, fun j h1 h2 => by omega⟩
  | succ i ih =>
    intro g hin hi hs has ho hao hnull
    have hj : n - (i + 1) < n := by omega
    generalize hjd : n - (i + 1) = j at *
    have hd : Slot.field o j ∈ g.hs := (hi.own o j ho).2 (by omega)
    have he : Slot.field src j ∈ g.hs := (hi.own src j hs).2 (by omega)
    have hdv : g.val (.field o j) = none := hnull j (Nat.le_refl _) hj
    obtain ⟨g1, h1, hi1, hv1, -⟩ := exec_spec hi (.assignGet (.field o j) (.field src j)) ⟨hd, he, .inl (.inl hdv)⟩
    -- the explicit form of the step
    have hstep : ∃ c, g1 = { g with val := fun x => if x = .field o j then g.val (.field src j) else g.val x, cnt := c } ∧
        addRefOpt { hide g with val := fun x => if x = .field o j then g.val (.field src j) else g.val (up x) } (g.val (.field src j)) = .ok (hide g1) := by
      simp only [exec, assignRaw, RefPtr.read, hd, he, not_true_eq_false, if_false, bind, Except.bind, hdv, releaseOpt, write] at h1
      have hsame : hide { g with val := fun x => if x = .field o j then g.val (.field src j) else g.val x } =
          { hide g with val := fun x => if x = .field o j then g.val (.field src j) else g.val (up x) } := by
        simp only [hide]
        congr 1
        funext x
        have : (up x = Slot.field o j) ↔ x = .field o j := up_inj (d := x) (e := .field o j)
        by_cases hx : x = .field o j
        · rw [if_pos hx, if_pos (this.2 hx)]
        · rw [if_neg hx, if_neg (fun h => hx (this.1 h))]
      refine ⟨g1.cnt, ?_, ?_⟩
      · cases hsv : g.val (.field src j) with
        | none => rw [hsv] at h1; simp only [addRefOpt] at h1; injection h1 with h1; rw [← h1]
        | some q =>
          rw [hsv] at h1
          have hq := hi.tgt _ he (by simp) _ hsv
          simp only [addRefOpt, addRef, hq, not_true_eq_false, if_false] at h1
          injection h1 with h1; rw [← h1]
      · rw [← hsame, addRefOpt_hide, h1]; rfl
    obtain ⟨c, hg1, hadd⟩ := hstep
    have hl1 : g1.live = g.live := by rw [hg1]
    have hh1 : g1.hs = g.hs := by rw [hg1]
    have hf1 : g1.fresh = g.fresh := by rw [hg1]
    have hval1 : ∀ x, g1.val x = if x = .field o j then g.val (.field src j) else g.val x := by intro x; rw [hg1]
    have hji : n - i = j + 1 := by omega
    obtain ⟨g2, e1, e2, e3, e4, e5, e6, e7⟩ := ih g1 (by omega) hi1 (hl1 ▸ hs) has (hl1 ▸ ho) hao (fun k hk1 hk2 => by
      rw [hval1, if_neg (by intro h; injection h with _ h; omega)]
      exact hnull k (by omega) hk2)
    refine ⟨g2, ?_, e2, e3.trans hl1, e4.trans hh1, e5.trans hf1, fun x hx => ?_, fun k hk1 hk2 => ?_⟩
    · rw [copyMembers, hjd]
      have hd' : Slot.field o j ∈ (hide g).hs := mem_hide.2 hd
      have he' : Slot.field src j ∈ (hide g).hs := mem_hide.2 he
      have hr : RefPtr.read (hide g) (.field src j) = .ok (g.val (.field src j)) := by
        rw [RefPtr.read, if_neg (fun h => h he')]; rfl
      have hw : write (hide g) (.field o j) (g.val (.field src j)) =
          .ok { hide g with val := fun x => if x = .field o j then g.val (.field src j) else g.val (up x) } := by
        rw [write, if_neg (fun h => h hd')]; rfl
      simp only [hr, hw, hadd, bind, Except.bind, e1]
    · rw [e6 x (fun k hk1 hk2 => hx k (by omega) hk2), hval1, if_neg (hx j (by omega) (by omega))]
    · by_cases hkj : k = j
      · subst hkj
        rw [e6 _ (fun k' hk1' hk2' h => by injection h with _ h; omega), hval1, if_pos rfl]
      · rw [e7 k (by omega) hk2, hval1, if_neg (by intro h; injection h with h; exact hne h)]

/-- What a copy does, from any state a program reaches. -/
theorem ghosted_copy {sur : Obj → Nat} {s : State H} (hg : Ghosted arity sur s) (h : H) (e : Slot H) (hl : XLegal arity s (.copyOf h e)) :
    ∃ s', ctorCopyOf arity s h e = .ok s' ∧ Ghosted arity (fun o => sur o + born s (.copyOf h e) o) s' ∧
      (∀ k, .root k ∈ s'.hs ↔ k = h ∨ .root k ∈ s.hs) ∧ s'.val (.root h) = some s.fresh ∧
      (∀ x ∈ s.hs, s'.val x = s.val x) ∧
      (∀ src, s.val e = some src → ∀ i < arity src, s'.val (.field s.fresh i) = s.val (.field src i)) := by
  obtain ⟨g, n, rfl, hi, hn, hs⟩ := hg
  obtain ⟨hh, he, src, hsrc, har⟩ := hl
  have he' := mem_hide.1 he
  have hsrc' : g.val (up e) = some src := hsrc
  have hlive : src ∈ g.live := hi.tgt _ he' (by simp) _ hsrc'
  have hpos := hi.pos src hlive (by simp)
  obtain ⟨k, hk⟩ : ∃ k, g.cnt src = k + 1 := ⟨g.cnt src - 1, by omega⟩
  obtain ⟨g1, hi1, h1, h2, h3, h4, h5, h6⟩ := ghost_counted hi hn k
  have hlt := hi.lt src hlive
  have hf : (hide g).fresh = g.fresh := rfl
  have hlive1 : src ∈ g1.live := by
    have : g1.live = (hide g1).live := rfl
    rw [this, h1]
    simp [newCounted, newObj, hide, hlive]
  have hvals : ∀ x, g1.val (up x) = (newCounted arity (hide g) (k + 1)).1.val x := by
    intro x
    have : g1.val (up x) = (hide g1).val x := rfl
    rw [this, h1]
  have hnew : ∀ x : Slot H, (newCounted arity (hide g) (k + 1)).1.val x =
      if x ∈ (List.range (arity g.fresh)).map (Slot.field g.fresh) then none else g.val (up x) := by
    intro x; rfl
  have hfield : ∀ i, g1.val (.field g.fresh i) = if i < arity g.fresh then none else g.val (.field g.fresh i) := by
    intro i
    have := hvals (.field g.fresh i)
    rw [show up (Slot.field (H := H) g.fresh i) = .field g.fresh i from rfl] at this
    rw [this, hnew]
    by_cases hi : i < arity g.fresh
    · rw [if_pos (by simpa using hi), if_pos hi]
    · rw [if_neg (by simpa using hi), if_neg hi]; rfl
  have har' : arity g.fresh = arity src := har
  obtain ⟨g2, e1, hi2, e3, e4, e5, e6, e7⟩ := copyMembers_spec (arity := arity) (src := src) (o := g.fresh) (Nat.ne_of_lt hlt) (n := arity g.fresh) (arity g.fresh) g1
    (Nat.le_refl _) hi1 hlive1 har'.symm h5 rfl (fun j _ hj => by rw [hfield, if_pos hj])
  have hm2 : Slot.root (Sum.inr n) ∈ g2.hs := e4 ▸ h3
  have hv2 : g2.val (.root (.inr n)) = some g.fresh := by rw [e6 _ (by simp), h4]
  have hh1 : Slot.root (Sum.inl h) ∉ g2.hs := by
    intro hm
    rw [e4] at hm
    have : Slot.root h ∈ (hide g1).hs := mem_hide.2 hm
    rw [h1] at this
    simp only [newCounted, newObj, List.mem_append] at this
    rcases this with h | h
    · simp at h
    · exact hh h
  obtain ⟨g3, f1, hi3, f3, f4⟩ := exec_spec hi2 (.ctorCopy (.inl h) (.root (.inr n))) ⟨hh1, hm2⟩
  have hf3 : ctorRaw (hide g2) (.root h) (some g.fresh) = .ok (hide g3) := by
    rw [ctorRaw_hide]
    show map (ctorRaw g2 (.root (.inl h)) (some g.fresh)) = _
    have : exec arity g2 (.ctorCopy (.inl h) (.root (.inr n))) = ctorRaw g2 (.root (.inl h)) (some g.fresh) := by
      simp only [exec, ctorCopy, RefPtr.read, hm2, not_true_eq_false, if_false, bind, Except.bind, hv2, ctorRaw]
    rw [← this, f1]; rfl
  have hghost2 : ∀ a, Slot.root (Sum.inr a) ∈ g2.hs → a < n + k + 1 := fun a ha => h2 a (e4 ▸ ha)
  have hin : ∀ x : Slot H, x ∈ (hide g).hs → up x ∈ g3.hs ∧ g3.val (up x) = g.val (up x) := by
    intro x hx
    have hx1 : x ∈ (hide g1).hs := by
      rw [h1]; simp only [newCounted, newObj, List.mem_append]; exact .inr hx
    have hx2 : up x ∈ g2.hs := e4 ▸ mem_hide.1 hx1
    have hnf : ∀ j, up x ≠ .field g.fresh j := by
      intro j hj
      have := mem_hide.1 hx
      rw [hj] at this
      rcases hi.own2 _ _ this with h | h
      · exact Nat.lt_irrefl _ (hi.lt _ h)
      · cases h
    have hg1v : g1.val (up x) = g.val (up x) := by
      rw [hvals, hnew, if_neg]
      intro hm
      simp only [List.mem_map] at hm
      obtain ⟨j, -, hj⟩ := hm
      exact hnf j (by rw [← hj]; rfl)
    have hg2v : g2.val (up x) = g.val (up x) := by rw [e6 _ (fun j _ _ => hnf j), hg1v]
    have hx3 : up x ∈ g3.hs := by
      cases x with
      | root j => exact (f4 _).2 (.inr hx2)
      | field p i =>
        have hl2 : p ∈ g2.live := by
          rcases hi2.own2 p i hx2 with h | h
          · exact h
          · cases h
        have : exec arity g2 (.ctorCopy (.inl h) (.root (.inr n))) = .ok g3 := f1
        have hfr : g.fresh ∈ g2.live := by rw [e3]; exact h5
        simp only [exec, ctorCopy, RefPtr.read, hm2, not_true_eq_false, if_false, bind, Except.bind, hv2, construct, hh1, addRefOpt, addRef, hfr] at this
        injection this with this
        rw [← this]
        exact List.mem_cons_of_mem _ hx2
    refine ⟨hx3, ?_⟩
    have hne : up x ≠ Slot.root (Sum.inl h) := by
      intro hu
      exact hh ((up_inj (d := x) (e := .root h)).1 hu ▸ hx)
    rw [f3 _ hx3]
    simp only [valAfter, hne, if_false]
    exact hg2v
  have hh3 : Slot.root (Sum.inl h) ∈ g3.hs := (f4 _).2 (.inl rfl)
  refine ⟨hide g3, ?_, ⟨g3, n + k + 1, rfl, hi3, ?_, fun o => ?_⟩, ?_, ?_, ?_, ?_⟩
  · have hr : RefPtr.read (hide g) e = .ok (some src) := by
      rw [RefPtr.read, if_neg (fun h => h he), hsrc]
    have hcopy : copyObj arity (hide g) src = .ok (hide g2, g.fresh) := by
      have hl' : ¬ src ∉ (hide g).live := fun h => h hlive
      rw [copyObj, if_neg hl']
      have hc : (hide g).cnt src = k + 1 := hk
      have hn2 : (newCounted arity (hide g) (k + 1)).2 = g.fresh := rfl
      have hpair : newCounted arity (hide g) ((hide g).cnt src) = (hide g1, g.fresh) := by rw [hc, h1, ← hn2]
      simp only [hpair, e1, bind, Except.bind]
    simp only [ctorCopyOf, hr, hcopy, bind, Except.bind, hf3]
  · intro a ha
    rcases (f4 _).1 ha with h | h
    · cases h
    · exact hghost2 a h
  · have hm3 : ∀ a, Slot.root (Sum.inr a) ∈ g3.hs ↔ Slot.root (Sum.inr a) ∈ g2.hs := by
      intro a; rw [f4 (.inr a)]; simp [varAfter]
    rw [hidden_congr hi2.nd hi3.nd hm3 (fun a ha => by rw [f3 _ ((hm3 a).2 ha)]; simp [valAfter]),
      hidden_congr hi1.nd hi2.nd (fun a => by rw [e4]) (fun a _ => e6 _ (by simp)), h6, hs]
    simp only [born, hsrc]
    rw [hf]
    show _ = sur o + if o = g.fresh then g.cnt src else 0
    rw [hk]
  · intro j
    rw [mem_hide]
    show Slot.root (Sum.inl j) ∈ g3.hs ↔ _
    rw [f4]
    simp only [varAfter, Sum.inl.injEq]
    have : Slot.root (Sum.inl j) ∈ g2.hs ↔ Slot.root j ∈ (hide g).hs := by
      rw [e4]
      rw [show Slot.root (Sum.inl j) = up (Slot.root j) from rfl, ← mem_hide, h1]
      simp [newCounted, newObj]
    rw [this]
  · show g3.val (.root (.inl h)) = _
    rw [f3 _ hh3]; simp [valAfter, hv2, hf]
  · intro x hx; exact (hin x hx).2
  · intro src' hs' i hi'
    have hs'' : g.val (up e) = some src' := hs'
    rw [hsrc'] at hs''
    injection hs'' with hs''
    subst hs''
    show g3.val (.field g.fresh i) = g.val (.field src i)
    have hm1 : Slot.field g.fresh i ∈ g2.hs := (hi2.own _ _ (e3 ▸ h5)).2 (by omega)
    have hm : Slot.field g.fresh i ∈ g3.hs := by
      have : exec arity g2 (.ctorCopy (.inl h) (.root (.inr n))) = .ok g3 := f1
      have hfr : g.fresh ∈ g2.live := by rw [e3]; exact h5
      simp only [exec, ctorCopy, RefPtr.read, hm2, not_true_eq_false, if_false, bind, Except.bind, hv2, construct, hh1, addRefOpt, addRef, hfr] at this
      injection this with this
      rw [← this]
      exact List.mem_cons_of_mem _ hm1
    rw [f3 _ hm]
    simp only [valAfter, reduceCtorEq, if_false]
    rw [e7 i (by omega) (by omega)]
    have := hvals (.field src i)
    rw [show up (Slot.field (H := H) src i) = .field src i from rfl] at this
    rw [this, hnew, if_neg]
    · rfl
    · simp only [List.mem_map, Slot.field.injEq, not_exists, not_and]
      intro j _ hj; exact absurd hj (Nat.ne_of_gt hlt)

theorem ghosted_run : ∀ (ops : List (XOp H)) (sur : Obj → Nat) (s : State H), Ghosted arity sur s → XLegalRun arity s ops →
    ∃ s', xrun arity s ops = .ok s' ∧ Ghosted arity (fun o => sur o + bornAll arity s ops o) s' := by
  intro ops
  induction ops with
  | nil => intro sur s hg _; exact ⟨s, rfl, hg⟩
  | cons op ops ih =>
    intro sur s hg hl
    have key : ∃ s1, xexec arity s op = .ok s1 ∧ Ghosted arity (fun o => sur o + born s op o) s1 := by
      cases op with
      | plain op =>
        obtain ⟨s1, h1, h2, -⟩ := ghosted_plain hg op hl.1
        exact ⟨s1, h1, h2⟩
      | copyOf h e =>
        obtain ⟨s1, h1, h2, -⟩ := ghosted_copy hg h e hl.1
        exact ⟨s1, h1, h2⟩
    obtain ⟨s1, h1, h2⟩ := key
    obtain ⟨s2, h3, h4⟩ := ih _ s1 h2 (hl.2 s1 h1)
    refine ⟨s2, by simp only [xrun, h1, bind, Except.bind, h3], ?_⟩
    have : (fun o => sur o + bornAll arity s (op :: ops) o) = fun o => sur o + born s op o + bornAll arity s1 ops o := by
      funext o; simp only [bornAll, h1]; omega
    rw [this]; exact h4

/-! ### The property -/

/-- `RefPtr<T> a(new T); RefPtr<T> b(new T(*a));` -/
def twoAlike : List (XOp Nat) := [.plain (.ctorNew 0), .copyOf 1 (.root 0)]

/-- C104 is false: the copy starts with the count of its source instead of zero. -/
theorem C104_copies_refuted : ¬ CopiesCounted := by
  intro h
  have hl : XLegalRun (fun _ => 0) State.new twoAlike := by
    refine ⟨by simp [XLegal, Legal, State.new], fun s h1 => ?_⟩
    cases h1
    exact ⟨⟨by simp [State.new, newObj], by simp, 0, rfl, rfl⟩, fun _ _ => trivial⟩
  obtain ⟨s, h1, h2⟩ := h _ _ hl
  have hc : (xrun (fun _ => 0) State.new twoAlike).toOption.map (fun s => (s.live, s.cnt 1, handlesOn s 1)) = some ([1, 0], 2, 1) := by decide +kernel
  rw [h1] at hc
  simp only [Except.toOption, Option.map_some, Option.some.injEq, Prod.mk.injEq] at hc
  have := h2.counted 1 (by rw [hc.1]; simp)
  omega

/-- C104, what happens: in every legal history with copies nothing faults, no object is destroyed twice and no handle refers to a
destroyed object; an object's count is the number of its handles plus, for a copy, the count its source had when it was copied.
So objects that are not copies are destroyed with their last handle, and copies never.
Missing: that copies are counted like other objects, which is false. -/
theorem C104_copies_partial (arity : Obj → Nat) (ops : List (XOp H)) (hl : XLegalRun arity State.new ops) :
    ∃ s, xrun arity State.new ops = .ok s ∧
      (∀ o ∈ s.live, s.cnt o = handlesOn s o + bornAll arity State.new ops o) ∧
      (∀ o, o ∈ s.live ↔ (∃ e ∈ s.hs, s.val e = some o) ∨ 0 < bornAll arity State.new ops o) ∧
      (∀ o i, .field o i ∈ s.hs ↔ o ∈ s.live ∧ i < arity o) ∧ s.freed.Nodup ∧ ∀ o, o ∈ s.freed ↔ o < s.fresh ∧ o ∉ s.live := by
  obtain ⟨s, h1, g, n, rfl, hi, hn, hs⟩ := ghosted_run ops _ _ (ghosted_new arity) hl
  have hb := hi.balanced
  have hs' : ∀ o, hidden g o = bornAll arity State.new ops o := fun o => by rw [hs]; simp
  refine ⟨hide g, h1, fun o ho => ?_, fun o => ?_, fun o i => ?_, hb.once, hb.freedIff⟩
  · rw [← hs', ← handles_hide]; exact hb.counted o ho
  · rw [← hs']
    constructor
    · intro ho
      obtain ⟨e, h2, h3⟩ := (hb.held o).1 ho
      cases hv : vis e with
      | some x =>
        have := vis_some.1 hv
        subst this
        exact .inl ⟨x, mem_hide.2 h2, h3⟩
      | none =>
        refine .inr (List.length_pos_iff_exists_mem.2 ⟨e, List.mem_filter.2 ⟨h2, ?_⟩⟩)
        simp [hv, h3]
    · rintro (⟨e, h2, h3⟩ | h)
      · exact (hb.held o).2 ⟨up e, mem_hide.1 h2, h3⟩
      · obtain ⟨e, he⟩ := List.length_pos_iff_exists_mem.1 h
        obtain ⟨h2, h3⟩ := List.mem_filter.1 he
        simp only [Bool.and_eq_true, decide_eq_true_eq] at h3
        exact (hb.held o).2 ⟨e, h2, h3.2⟩
  · rw [mem_hide]
    exact hb.members o i

theorem bornAll_append : ∀ (pre post : List (XOp H)) (s s1 : State H) (o : Obj), xrun arity s pre = .ok s1 →
    bornAll arity s (pre ++ post) o = bornAll arity s pre o + bornAll arity s1 post o := by
  intro pre
  induction pre with
  | nil => intro post s s1 o h; cases h; simp [bornAll]
  | cons op pre ih =>
    intro post s s1 o h
    cases hx : xexec arity s op with
    | error f => simp only [xrun, hx, bind, Except.bind] at h; cases h
    | ok s2 =>
      simp only [xrun, hx, bind, Except.bind] at h
      simp only [List.cons_append, bornAll, hx, ih post s2 s1 o h]
      exact (Nat.add_assoc _ _ _).symm

theorem xrun_append : ∀ (pre post : List (XOp H)) (s s1 : State H), xrun arity s pre = .ok s1 →
    xrun arity s (pre ++ post) = xrun arity s1 post := by
  intro pre
  induction pre with
  | nil => intro post s s1 h; cases h; rfl
  | cons op pre ih =>
    intro post s s1 h
    cases hx : xexec arity s op with
    | error f => simp only [xrun, hx, bind, Except.bind] at h; cases h
    | ok s2 =>
      simp only [xrun, hx, bind, Except.bind] at h
      simp only [List.cons_append, xrun, hx, bind, Except.bind, ih post s2 s1 h]

theorem xlegal_append : ∀ (pre post : List (XOp H)) (s : State H), XLegalRun arity s (pre ++ post) →
    XLegalRun arity s pre ∧ ∀ s1, xrun arity s pre = .ok s1 → XLegalRun arity s1 post := by
  intro pre
  induction pre with
  | nil => intro post s h; exact ⟨trivial, fun s1 h1 => by cases h1; exact h⟩
  | cons op pre ih =>
    intro post s h
    refine ⟨⟨h.1, fun s' hs' => (ih post s' (h.2 s' hs')).1⟩, fun s1 h1 => ?_⟩
    cases hx : xexec arity s op with
    | error f => simp only [xrun, hx, bind, Except.bind] at h1; cases h1
    | ok s2 =>
      simp only [xrun, hx, bind, Except.bind] at h1
      exact (ih post s2 (h.2 s2 hx)).2 s1 h1

/-- C104, the consequence: whatever a program does afterwards, a copy is never destroyed - also after its last handle is gone. -/
theorem C104_copy_leaks (arity : Obj → Nat) (pre post : List (XOp H)) (h : H) (e : Slot H)
    (hl : XLegalRun arity State.new (pre ++ .copyOf h e :: post)) :
    ∃ s1 s2, xrun arity State.new pre = .ok s1 ∧ xrun arity State.new (pre ++ .copyOf h e :: post) = .ok s2 ∧
      s1.fresh ∈ s2.live ∧ s1.fresh ∉ s2.freed := by
  obtain ⟨hl1, hl2⟩ := xlegal_append pre _ _ hl
  obtain ⟨s1, h1, g, n, hgs, hi, -⟩ := ghosted_run pre _ _ (ghosted_new arity) hl1
  obtain ⟨s2, h2, hc, hlive, -, -, hfr⟩ := C104_copies_partial arity _ hl
  have hm : s1.fresh ∈ s2.live := by
    rw [hlive]
    right
    rw [bornAll_append pre _ _ s1 _ h1, bornAll, born, if_pos rfl]
    obtain ⟨hh, he, src, hsrc, -⟩ := (hl2 s1 h1).1
    rw [hsrc]
    subst hgs
    have hsl : src ∈ g.live := hi.tgt _ (mem_hide.1 he) (by simp) _ hsrc
    have : 0 < (hide g).cnt src := hi.pos src hsl (by simp)
    simp only []
    omega
  exact ⟨s1, s2, h1, h2, hm, fun hf => ((hfr _).1 hf).2 hm⟩

/-- C104, the effect of a copy on the handles: the new variable holds the new object, whose members refer to what the
members of the source refer to, and no other handle changes. -/
theorem C104_copy_effect (arity : Obj → Nat) (ops : List (XOp H)) (hl : XLegalRun arity State.new ops) (s : State H)
    (hr : xrun arity State.new ops = .ok s) (h : H) (e : Slot H) (hop : XLegal arity s (.copyOf h e)) :
    ∃ s', xexec arity s (.copyOf h e) = .ok s' ∧ (∀ k, .root k ∈ s'.hs ↔ k = h ∨ .root k ∈ s.hs) ∧ s'.val (.root h) = some s.fresh ∧
      (∀ x ∈ s.hs, s'.val x = s.val x) ∧ ∀ src, s.val e = some src → ∀ i < arity src, s'.val (.field s.fresh i) = s.val (.field src i) := by
  obtain ⟨s1, h1, hg⟩ := ghosted_run ops _ _ (ghosted_new arity) hl
  rw [h1] at hr
  cases hr
  obtain ⟨s', h2, -, h3⟩ := ghosted_copy hg h e hop
  exact ⟨s', h2, h3⟩

/-- C104, full statement for assignment of objects: in every state a legal history produces, `*d = *e` leaves counts and handles in
agreement. -/
def AssignCounted : Prop :=
  ∀ (ops : List (Op Nat)) (s : State Nat), LegalRun (fun _ => 0) State.new ops → run (fun _ => 0) State.new ops = .ok s →
    ∀ d ∈ s.hs, ∀ e ∈ s.hs, s.val d ≠ none → s.val e ≠ none → ∃ s', assignObj s d e = .ok s' ∧ Balanced (fun _ => 0) s'

/-- Two handles on one object, one on another. -/
def three : List (Op Nat) := [.ctorNew 0, .ctorCopy 1 (.root 0), .ctorNew 2]

theorem three_legal : LegalRun (fun _ => 0) State.new three := by
  refine ⟨by simp [Legal, State.new], fun s h1 => ?_⟩
  cases h1
  refine ⟨by simp [Legal, State.new, newObj], fun s h1 => ?_⟩
  cases h1
  exact ⟨by simp [Legal, State.new, newObj], fun _ _ => trivial⟩

/-- C104 is false for assignment: the count is overwritten. Here an object with two handles ends up with count one, and destroying the
two handles is a use after free. -/
theorem C104_assign_refuted : ¬ AssignCounted ∧
    ((do let s ← run (fun _ => 0) State.new three
         let s ← assignObj s (.root 0) (.root 2)
         run (fun _ => 0) s [.destroy 0, .destroy 1]).toOption.isSome = false) := by
  constructor
  · intro h
    obtain ⟨s, h1, -⟩ := C45_counts_partial (fun _ => 0) three three_legal
    have hc : (run (fun _ => 0) State.new three).toOption.map (fun s => (decide (Slot.root 0 ∈ s.hs ∧ Slot.root 2 ∈ s.hs), s.val (.root 0), s.val (.root 2))) =
          some (true, some 0, some 1) := by decide +kernel
    have ha : (run (fun _ => 0) State.new three).toOption.map (fun s =>
        (assignObj s (.root 0) (.root 2)).toOption.map (fun s => (s.live, s.cnt 0, handlesOn s 0))) =
          some (some ([1, 0], 1, 2)) := by decide +kernel
    rw [h1] at hc ha
    simp only [Except.toOption, Option.map_some, Option.some.injEq, Prod.mk.injEq, decide_eq_true_eq] at hc
    simp only [Except.toOption, Option.map_some, Option.some.injEq] at ha
    obtain ⟨⟨hm0, hm2⟩, hv0, hv2⟩ := hc
    obtain ⟨s', h2, h3⟩ := h three s three_legal h1 _ hm0 _ hm2 (by rw [hv0]; simp) (by rw [hv2]; simp)
    rw [h2] at ha
    simp only [Option.map_some, Option.some.injEq, Prod.mk.injEq] at ha
    have := h3.counted 0 (by rw [ha.1]; simp)
    omega
  · decide +kernel

/-- C104, what holds for assignment: it never faults on live objects, changes no handle, and keeps the counts right exactly if the two
objects are held by the same number of handles (in particular for self-assignment). -/
theorem C104_assign_partial (ops : List (Op H)) (hl : LegalRun (fun _ => 0) State.new ops) (s : State H)
    (hr : run (fun _ => 0) State.new ops = .ok s) (d e : Slot H) (hd : d ∈ s.hs) (he : e ∈ s.hs) (p q : Obj) (hp : s.val d = some p) (hq : s.val e = some q) :
    ∃ s', assignObj s d e = .ok s' ∧ s'.hs = s.hs ∧ s'.val = s.val ∧ s'.live = s.live ∧
      (Balanced (fun _ => 0) s' ↔ handlesOn s p = handlesOn s q) := by
  obtain ⟨s1, h1, hb⟩ := C45_counts_partial (fun _ => 0) ops hl
  rw [h1] at hr
  cases hr
  have hpl : p ∈ s.live := (hb.held p).2 ⟨d, hd, hp⟩
  have hql : q ∈ s.live := (hb.held q).2 ⟨e, he, hq⟩
  refine ⟨{ s with cnt := fun x => if x = p then s.cnt q else s.cnt x }, ?_, rfl, rfl, rfl, ?_⟩
  · simp only [assignObj, RefPtr.read, hd, he, not_true_eq_false, if_false, bind, Except.bind, hp, hq, hpl, hql, or_self]
  · constructor
    · intro h
      have := h.counted p hpl
      simp only [if_true] at this
      rw [hb.counted q hql] at this
      exact this.symm
    · intro h
      refine ⟨fun o ho => ?_, hb.held, hb.members, hb.once, hb.freedIff⟩
      show (if o = p then s.cnt q else s.cnt o) = handlesOn s o
      by_cases hop : o = p
      · rw [if_pos hop, hop, h, hb.counted q hql]
      · rw [if_neg hop, hb.counted o ho]

/-! ### Non-vacuity: a node with a member handle is copied; all variables are destroyed. The original is destroyed, the copy and what it
refers to are not. -/

def copyDemo : List (XOp Nat) :=
  [.plain (.ctorNew 0), .plain (.ctorNew 1), .plain (.assignCopy (.field 0 0) (.root 1)), .copyOf 2 (.root 0),
   .plain (.destroy 0), .plain (.destroy 1), .plain (.destroy 2)]

example : XLegalRun (fun _ => 1) State.new copyDemo := by
  refine ⟨by simp [XLegal, Legal, State.new], fun s h1 => ?_⟩
  cases h1
  refine ⟨by simp [XLegal, Legal, State.new, newObj], fun s h1 => ?_⟩
  cases h1
  refine ⟨by simp [XLegal, Legal, State.new, newObj, List.range_succ, Shared], fun s h1 => ?_⟩
  cases h1
  refine ⟨⟨by simp [State.new, newObj], by simp, 0, rfl, rfl⟩, fun s h1 => ?_⟩
  cases h1
  refine ⟨by simp [XLegal, Legal, State.new, newObj, List.range_succ], fun s h1 => ?_⟩
  cases h1
  refine ⟨by simp [XLegal, Legal, State.new, newObj, List.range_succ], fun s h1 => ?_⟩
  cases h1
  exact ⟨by simp [XLegal, Legal, State.new, newObj, List.range_succ], fun _ _ => trivial⟩

example : (xrun (fun _ => 1) State.new copyDemo).toOption.map (fun s => (s.live, s.freed, s.cnt 2, s.cnt 1, s.hs.length)) =
    some ([2, 1], [0], 1, 1, 2) := by decide +kernel

end Verif.RefPtr
