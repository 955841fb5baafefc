import Verif.RefPtr.ManualLemmas
/-!
# References held by hand are hidden handles
-/
namespace Verif.RefPtr
open Verif

set_option linter.unusedSectionVars false
set_option linter.unusedSimpArgs false

variable {H : Type} [DecidableEq H] {arity : Obj → Nat}

/-- `s` is what is visible of a state in which counts and handles agree, and in which `due` of them are hidden. -/
structure Held (arity : Obj → Nat) (g : State (GH H)) (n : Nat) (due : Obj → Int) (s : State H) : Prop where
  eq : hide g = s
  inv : Inv arity [] [] [] g
  bound : ∀ a, Slot.root (Sum.inr a) ∈ g.hs → a < n
  due : ∀ o, (hidden g o : Int) = due o

theorem held_new : Held arity (State.new : State (GH H)) 0 (fun _ => 0) (State.new : State H) :=
  ⟨rfl, inv_new, by simp [State.new], fun _ => rfl⟩

theorem hidden_pos {g : State (GH H)} {o : Obj} : 0 < hidden g o ↔ ∃ a, Slot.root (Sum.inr a) ∈ g.hs ∧ g.val (.root (.inr a)) = some o := by
  rw [hidden, List.length_pos_iff_exists_mem]
  constructor
  · rintro ⟨x, hx⟩
    simp only [List.mem_filter, Bool.and_eq_true, decide_eq_true_eq] at hx
    obtain ⟨h1, h2, h3⟩ := hx
    cases x with
    | field p i => simp [vis] at h2
    | root k => cases k with
      | inl k => simp [vis] at h2
      | inr a => exact ⟨a, h1, h3⟩
  · rintro ⟨a, h1, h2⟩
    exact ⟨.root (.inr a), by simp [List.mem_filter, h1, h2, vis]⟩

theorem inr_ne_up (a : Nat) (e : Slot H) : Slot.root (Sum.inr a) ≠ up e := by cases e <;> simp [up]

/-- Hidden handles change at one place only. -/
theorem hidden_at {g g' : State (GH H)} (nd : g.hs.Nodup) (nd' : g'.hs.Nodup) (a : Nat)
    (hm : ∀ b, b ≠ a → (Slot.root (Sum.inr b) ∈ g'.hs ↔ Slot.root (Sum.inr b) ∈ g.hs))
    (hv : ∀ b, b ≠ a → Slot.root (Sum.inr b) ∈ g.hs → g'.val (.root (.inr b)) = g.val (.root (.inr b))) (o : Obj) :
    (hidden g' o : Int) + (if Slot.root (Sum.inr a) ∈ g.hs then on (g.val (.root (.inr a))) o else 0) =
      hidden g o + (if Slot.root (Sum.inr a) ∈ g'.hs then on (g'.val (.root (.inr a))) o else 0) := by
  have split : ∀ f : State (GH H), f.hs.Nodup → (hidden f o : Int) =
      ((f.hs.filter (fun e => ((vis e).isNone && decide (f.val e = some o)) && decide (e ≠ .root (.inr a)))).length : Int) +
      (if Slot.root (Sum.inr a) ∈ f.hs then on (f.val (.root (.inr a))) o else 0) := by
    intro f hf
    unfold hidden
    by_cases h : Slot.root (Sum.inr a) ∈ f.hs
    · rw [if_pos h]
      unfold on
      by_cases hv : f.val (.root (.inr a)) = some o
      · rw [if_pos hv, filter_split hf h (fun e => (vis e).isNone && decide (f.val e = some o))
          (fun e => ((vis e).isNone && decide (f.val e = some o)) && decide (e ≠ .root (.inr a))) (by simp [vis, hv]) (by simp) (fun x _ hx => by simp [hx])]
        simp
      · rw [if_neg hv]
        have : f.hs.filter (fun e => (vis e).isNone && decide (f.val e = some o)) =
            f.hs.filter (fun e => ((vis e).isNone && decide (f.val e = some o)) && decide (e ≠ .root (.inr a))) := by
          refine List.filter_congr (fun x _ => ?_)
          by_cases hx : x = .root (.inr a)
          · subst hx; simp [hv]
          · simp [hx]
        rw [this]; simp
    · rw [if_neg h]
      have : f.hs.filter (fun e => (vis e).isNone && decide (f.val e = some o)) =
          f.hs.filter (fun e => ((vis e).isNone && decide (f.val e = some o)) && decide (e ≠ .root (.inr a))) := by
        refine List.filter_congr (fun x hx => ?_)
        have : x ≠ .root (.inr a) := by rintro rfl; exact h hx
        simp [this]
      rw [this]; simp
  have rest : (g'.hs.filter (fun e => ((vis e).isNone && decide (g'.val e = some o)) && decide (e ≠ .root (.inr a)))).length =
      (g.hs.filter (fun e => ((vis e).isNone && decide (g.val e = some o)) && decide (e ≠ .root (.inr a)))).length := by
    refine length_eq_of_mem (nd'.filter _) (nd.filter _) (fun x => ?_)
    simp only [List.mem_filter, Bool.and_eq_true, decide_eq_true_eq]
    cases x with
    | field p i => simp [vis]
    | root k => cases k with
      | inl k => simp [vis]
      | inr b =>
        constructor
        · rintro ⟨h1, ⟨h2, h3⟩, h4⟩
          have hb : b ≠ a := fun e => h4 (by rw [e])
          have h5 := (hm b hb).1 h1
          exact ⟨h5, ⟨h2, by rw [← hv b hb h5]; exact h3⟩, h4⟩
        · rintro ⟨h1, ⟨h2, h3⟩, h4⟩
          have hb : b ≠ a := fun e => h4 (by rw [e])
          exact ⟨(hm b hb).2 h1, ⟨h2, by rw [hv b hb h1]; exact h3⟩, h4⟩
  have h1 := split g nd
  have h2 := split g' nd'
  omega

/-! ### What falls, falls -/

theorem dies_iff {g : State (GH H)} {n : Nat} {due : Obj → Int} {s : State H} (hg : Held arity g n due s) (d : Slot H) (o : Obj) :
    Dies g (up d) o ↔ Falls s due (some d) o := by
  obtain ⟨rfl, hi, -, hdue⟩ := hg
  constructor
  · intro h
    induction h with
    | @mk o h1 h2 h3 ih =>
      obtain ⟨e, he, hve⟩ := h1
      refine .mk (hi.tgt e he (by simp) o hve) ?_ ?_ ?_
      · rw [← hdue]
        have : ¬ 0 < hidden g o := by
          intro h
          obtain ⟨a, h4, h5⟩ := hidden_pos.1 h
          exact inr_ne_up a d (h2 _ h4 h5)
        omega
      · intro k hk hv
        have := h2 (.inl k) (mem_hide.1 hk) hv
        exact congrArg some (up_inj.1 this)
      · intro p i hp hv hne
        exact ih p i (mem_hide.1 hp) hv (fun h => hne (congrArg some (up_inj (d := .field p i).1 h)))
  · intro h
    induction h with
    | @mk o h1 h2 h3 h4 ih =>
      have hpos := hi.pos o h1 (by simp)
      rw [hi.cnt o h1] at hpos
      obtain ⟨e, he, -, hve⟩ := refs_pos.1 hpos
      refine .mk ⟨e, he, hve⟩ ?_ ?_
      · intro k hk hv
        cases k with
        | inl k =>
          have := h3 k (mem_hide.2 hk) hv
          injection this with this
          exact this ▸ rfl
        | inr a =>
          have := hidden_pos.2 ⟨a, hk, hv⟩
          have := hdue o
          omega
      · intro p i hp hv hne
        exact ih p i (mem_hide.2 hp) hv (fun h => hne (by injection h with h; exact h ▸ rfl))

theorem dies_hidden {g : State (GH H)} {n : Nat} {due : Obj → Int} {s : State H} (hg : Held arity g n due s) {a : Nat} {p : Obj}
    (ha : Slot.root (Sum.inr a) ∈ g.hs) (hv : g.val (.root (.inr a)) = some p) (o : Obj) :
    Dies g (.root (.inr a)) o ↔ Falls s (fun q => if q = p then due p - 1 else due q) none o := by
  obtain ⟨rfl, hi, -, hdue⟩ := hg
  -- the hidden handles other than this one
  have count : ∀ o, (∀ b, Slot.root (Sum.inr b) ∈ g.hs → g.val (.root (.inr b)) = some o → b = a) ↔
      (if o = p then due p - 1 else due o) = 0 := by
    intro o
    have hx := hidden_at (g := g) (g' := { g with hs := g.hs.filter (fun e => decide (e ≠ .root (.inr a))) }) hi.nd (hi.nd.filter _) a
      (fun b hb => by simp [List.mem_filter, hb]) (fun _ _ _ => rfl) o
    rw [if_pos ha, hv, if_neg (by simp [List.mem_filter]), on_some, hdue o] at hx
    have hz : (hidden { g with hs := g.hs.filter (fun e => decide (e ≠ .root (.inr a))) } o : Int) = (if o = p then due p - 1 else due o) := by
      by_cases ho : o = p
      · rw [if_pos ho] at hx ⊢; subst ho; omega
      · rw [if_neg ho] at hx ⊢; omega
    rw [← hz]
    constructor
    · intro h
      have : ¬ 0 < hidden { g with hs := g.hs.filter (fun e => decide (e ≠ .root (.inr a))) } o := by
        intro h'
        obtain ⟨b, h4, h5⟩ := hidden_pos.1 h'
        obtain ⟨h4, h6⟩ := List.mem_filter.1 h4
        have := h b h4 h5
        subst this
        simp at h6
      omega
    · intro h b hb hbv
      refine Classical.byContradiction (fun hne => ?_)
      have : 0 < hidden { g with hs := g.hs.filter (fun e => decide (e ≠ .root (.inr a))) } o :=
        hidden_pos.2 ⟨b, by simp [List.mem_filter, hb, hne], hbv⟩
      omega
  constructor
  · intro h
    induction h with
    | @mk o h1 h2 h3 ih =>
      obtain ⟨e, he, hve⟩ := h1
      refine .mk (hi.tgt e he (by simp) o hve) ?_ ?_ ?_
      · refine (count o).1 (fun b hb hbv => ?_)
        have := h2 _ hb hbv
        injection this with this
        injection this
      · intro k hk hv'
        have := h2 (.inl k) (mem_hide.1 hk) hv'
        cases this
      · intro q i hq hv' _
        exact ih q i (mem_hide.1 hq) hv' (fun h => (nomatch h))
  · intro h
    induction h with
    | @mk o h1 h2 h3 h4 ih =>
      have hpos := hi.pos o h1 (by simp)
      rw [hi.cnt o h1] at hpos
      obtain ⟨e, he, -, hve⟩ := refs_pos.1 hpos
      refine .mk ⟨e, he, hve⟩ ?_ ?_
      · intro k hk hv'
        cases k with
        | inl k =>
          have := h3 k (mem_hide.2 hk) hv'
          cases this
        | inr b => rw [(count o).2 h2 b hk hv']
      · intro q i hq hv' _
        exact ih q i (mem_hide.2 hq) hv' (fun h => (nomatch h))

theorem survives_iff_stands {g : State (GH H)} {n : Nat} {due : Obj → Int} {s : State H} (hg : Held arity g n due s) (d e : Slot H) :
    Survives g (up d) (up e) ↔ Stands s due d e := by
  cases e with
  | root k => exact Iff.rfl
  | field p i => exact not_congr (dies_iff hg d p)

/-! ### Every statement is an operation on handles, some of them hidden -/

/-- What is to be shown of each statement. -/
def Good (arity : Obj → Nat) (due : Obj → Int) (s : State H) (op : MOp H) : Prop :=
  (MSound s due op → ∃ s', mexec arity s op = .ok s') ∧
  ∀ s', mexec arity s op = .ok s' → MSound s due op ∧ (∃ g' n', Held arity g' n' (fun o => due o + taken s op o) s') ∧
    (∀ x ∈ s'.hs, s'.val x = mvalAfter s op x) ∧ (∀ k, .root k ∈ s'.hs ↔ mvarAfter s op k) ∧
    ∀ o, o ∈ s'.live ↔ (o ∈ s.live ∨ MCreates s op o) ∧ ¬ MDestroys s due op o

theorem good_of {g : State (GH H)} {n : Nat} {due : Obj → Int} {s : State H} (hg : Held arity g n due s) (op : MOp H) (op' : Op (GH H)) (a : Nat)
    (han : a ≤ n) (hp : Plain g op') (he : mexec arity s op = map (exec arity g op')) (hs : Sound g op' ↔ MSound s due op)
    (hvar : ∀ b, b ≠ a → (varAfter g op' (.inr b) ↔ Slot.root (.inr b) ∈ g.hs))
    (hval : ∀ b, b ≠ a → valAfter g op' (.root (.inr b)) = g.val (.root (.inr b)))
    (hta : ∀ o (c : Bool), (c = true ↔ varAfter g op' (.inr a)) → taken s op o = (if c then on (valAfter g op' (.root (.inr a))) o else 0) -
      (if Slot.root (.inr a) ∈ g.hs then on (g.val (.root (.inr a))) o else 0))
    (hmv : ∀ x, valAfter g op' (up x) = mvalAfter s op x) (hmr : ∀ k, varAfter g op' (.inl k) ↔ mvarAfter s op k)
    (hcr : ∀ o, Creates g op' o ↔ MCreates s op o) (hde : ∀ o, Destroys g op' o ↔ MDestroys s due op o) : Good arity due s op := by
  obtain ⟨rfl, hi, hb, hdue⟩ := hg
  obtain ⟨h1, h2⟩ := exec_exact hi op' hp
  refine ⟨fun h => ?_, fun s' h => ?_⟩
  · obtain ⟨g', hx⟩ := h1 (hs.2 h)
    exact ⟨hide g', by rw [he, hx]; rfl⟩
  · rw [he] at h
    cases hx : exec arity g op' with
    | error f => rw [hx] at h; cases h
    | ok g' =>
      rw [hx] at h
      cases h
      obtain ⟨h3, h4, h5, h6⟩ := h2 g' hx
      refine ⟨hs.1 h3, ⟨g', n + 1, rfl, h4, fun b hbm => ?_, fun o => ?_⟩, fun x hx => ?_, fun k => ?_, fun o => ?_⟩
      · by_cases hba : b = a
        · omega
        · have := hb b ((hvar b hba).1 ((h6 _).1 hbm)); omega
      · have h7 := hidden_at hi.nd h4.nd a (fun b hba => by rw [h6, hvar b hba]) (fun b hba hbm => by
          rw [h5 _ ((h6 _).2 ((hvar b hba).2 hbm)), hval b hba]) o
        have h8 := hta o (decide (Slot.root (.inr a) ∈ g'.hs)) (by rw [decide_eq_true_eq]; exact h6 _)
        have h9 : (if Slot.root (.inr a) ∈ g'.hs then on (g'.val (.root (.inr a))) o else 0) =
            (if decide (Slot.root (.inr a) ∈ g'.hs) = true then on (valAfter g op' (.root (.inr a))) o else 0) := by
          by_cases hm : Slot.root (.inr a) ∈ g'.hs
          · rw [if_pos hm, if_pos (by simpa using hm), h5 _ hm]
          · rw [if_neg hm, if_neg (by simpa using hm)]
        have h10 := hdue o
        rw [h9] at h7
        omega
      · have := h5 _ (mem_hide.1 hx)
        rw [← hmv x]; exact this
      · rw [mem_hide]; exact (h6 _).trans (hmr k)
      · have := exec_live hi op' hp hx o
        rw [← hcr, ← hde]; exact this

theorem plain_good {g : State (GH H)} {n : Nat} {due : Obj → Int} {s : State H} (hg : Held arity g n due s) (op : Op H) (hp : MPlain s due (.plain op)) :
    Good arity due s (.plain op) := by
  have hg' := hg
  obtain ⟨rfl, hi, hb, hdue⟩ := hg
  have hn : Slot.root (Sum.inr n) ∉ g.hs := fun h => Nat.lt_irrefl _ (hb n h)
  have hroot : ∀ {k : H}, .root k ∉ (hide g).hs → .root (.inl k) ∉ g.hs := fun h hm => h (mem_hide.2 hm)
  have hvarR : ∀ b, varAfter g (upOp op) (.inr b) ↔ Slot.root (.inr b) ∈ g.hs := by
    intro b; cases op <;> simp [upOp, varAfter]
  refine good_of hg' (.plain op) (upOp op) n (Nat.le_refl _) ?_ (exec_hide g op) ?_ (fun b _ => hvarR b) (fun b _ => ?_) (fun o c hc => ?_) (fun x => ?_) (fun k => ?_) (fun o => ?_) (fun o => ?_)
  · cases op with
    | ctorNull k => exact hroot hp
    | ctorNew k => exact hroot hp
    | ctorGet k e => exact ⟨hroot hp.1, mem_hide.1 hp.2⟩
    | ctorCopy k e => exact ⟨hroot hp.1, mem_hide.1 hp.2⟩
    | ctorMove k e => exact ⟨hroot hp.1, mem_hide.1 hp.2⟩
    | assignNull d => exact mem_hide.1 hp
    | assignNew d => exact mem_hide.1 hp
    | assignGet d e => exact ⟨mem_hide.1 hp.1, mem_hide.1 hp.2⟩
    | assignCopy d e => exact ⟨mem_hide.1 hp.1, mem_hide.1 hp.2⟩
    | assignMove d e => exact ⟨mem_hide.1 hp.1, mem_hide.1 hp.2⟩
    | destroy k => exact mem_hide.1 hp
  · have hsv := fun d e : Slot H => survives_iff_stands hg' d e
    have hdi := fun (d : Slot H) (o : Obj) => dies_iff hg' d o
    cases op <;> simp only [upOp, Sound, MSound, hsv, hdi]
    all_goals rfl
  · have hne := inr_ne_up (H := H) b
    cases op <;> simp [upOp, valAfter, hne, Slot.ownedBy]
  · have : ¬ c = true := fun h => hn ((hvarR n).1 (hc.1 h))
    rw [if_neg this, if_neg hn]; rfl
  · have ho : (up x).ownedBy g.fresh = x.ownedBy g.fresh := by cases x <;> rfl
    have hrt : ∀ k : H, (up x = Slot.root (Sum.inl k)) ↔ x = .root k := by
      intro k; exact up_inj (d := x) (e := .root k)
    cases op <;> simp only [upOp, mvalAfter, valAfter, hide, up_inj, ho, hrt]
    all_goals rfl
  · have hk : ∀ j : H, (Slot.root j ∈ (hide g).hs ↔ Slot.root (Sum.inl j) ∈ g.hs) := fun j => mem_hide (e := .root j)
    cases op <;> simp [upOp, mvarAfter, varAfter, hk]
  · cases op <;> exact Iff.rfl
  · cases op with
    | destroy k => exact dies_iff hg' (.root k) o
    | assignNull d => exact dies_iff hg' d o
    | assignNew d => exact dies_iff hg' d o
    | assignGet d e => exact dies_iff hg' d o
    | assignCopy d e => exact dies_iff hg' d o
    | assignMove d e => exact dies_iff hg' d o
    | _ => exact Iff.rfl

/-- An object that lives has a handle, perhaps a hidden one. -/
theorem holder {g : State (GH H)} (hi : Inv arity [] [] [] g) {p : Obj} (hp : p ∈ g.live) : ∃ x ∈ g.hs, g.val x = some p := by
  have hpos := hi.pos p hp (by simp)
  rw [hi.cnt p hp] at hpos
  obtain ⟨e, he, -, hve⟩ := refs_pos.1 hpos
  exact ⟨e, he, hve⟩

theorem up_ne_inr (b : Nat) (e : Slot H) : up e ≠ Slot.root (Sum.inr b) := fun h => inr_ne_up b e h.symm

theorem hide_ghost (g : State (GH H)) (n : Nat) (v : Option Obj) :
    hide { g with hs := .root (.inr n) :: g.hs, val := fun e => if e = .root (.inr n) then v else g.val e } = hide g := by
  simp only [hide, List.filterMap_cons, vis, up_ne_inr, if_false]

theorem hide_ghost_val (g : State (GH H)) (n : Nat) (v : Option Obj) :
    hide { g with val := fun e => if e = .root (.inr n) then v else g.val e } = hide g := by
  simp only [hide, up_ne_inr, if_false]

theorem hide_ghost_gone (g : State (GH H)) (n : Nat) :
    hide { g with hs := g.hs.filter (fun e => decide (e ≠ .root (.inr n))) } = hide g := by
  have : ∀ l : List (Slot (GH H)), (l.filter (fun e => decide (e ≠ .root (.inr n)))).filterMap vis = l.filterMap vis := by
    intro l
    induction l with
    | nil => rfl
    | cons x l ih =>
      by_cases hx : x = .root (.inr n)
      · subst hx; rw [List.filter_cons_of_neg (by simp), List.filterMap_cons, ih]; rfl
      · rw [List.filter_cons_of_pos (by simpa using hx), List.filterMap_cons, List.filterMap_cons, ih]
  simp only [hide, this]

theorem mexec_good {g : State (GH H)} {n : Nat} {due : Obj → Int} {s : State H} (hg : Held arity g n due s) (op : MOp H) (hp : MPlain s due op) :
    Good arity due s op := by
  have hg' := hg
  obtain ⟨rfl, hi, hb, hdue⟩ := hg
  have hn : Slot.root (Sum.inr n) ∉ g.hs := fun h => Nat.lt_irrefl _ (hb n h)
  have hroot : ∀ {k : H}, .root k ∉ (hide g).hs → .root (.inl k) ∉ g.hs := fun h hm => h (mem_hide.2 hm)
  have howed : ∀ p, 0 < due p → ∃ a, Slot.root (Sum.inr a) ∈ g.hs ∧ g.val (.root (.inr a)) = some p := by
    intro p h
    refine hidden_pos.1 ?_
    have := hdue p
    omega
  have hdead : ∀ (op : MOp H) (f : Fault), mexec arity (hide g) op = .error f → ¬ MSound (hide g) due op → Good arity due (hide g) op :=
    fun op f h1 h2 => ⟨fun h => (h2 h).elim, fun s' h => by rw [h1] at h; cases h⟩
  have hk : ∀ j : H, (Slot.root j ∈ (hide g).hs ↔ Slot.root (Sum.inl j) ∈ g.hs) := fun j => mem_hide (e := .root j)
  have hrt : ∀ (x : Slot H) (k : H), (up x = Slot.root (Sum.inl k)) ↔ x = .root k := by
    intro x k; exact up_inj (d := x) (e := .root k)
  cases op with
  | plain op => exact plain_good hg' op hp
  | newRef =>
    refine good_of hg' .newRef (.ctorNew (.inr n)) n (Nat.le_refl _) hn ?_ Iff.rfl (fun b hb => by simp [varAfter, hb]) (fun b hb => by simp [valAfter, hb, Slot.ownedBy])
      (fun o c hc => ?_) (fun x => ?_) (fun k => ?_) (fun o => Iff.rfl) (fun o => Iff.rfl)
    · simp only [mexec, newRef, newObj_hide, addRef_hide, exec, ctorRaw]
      have hnn : Slot.root (Sum.inr n) ∉ (newObj arity g).1.hs := by
        intro h
        rcases List.mem_append.1 h with h | h
        · simp at h
        · exact hn h
      simp only [construct, if_neg hnn, bind, Except.bind, addRefOpt]
      rw [← addRef_hide, ← addRef_hide, hide_ghost]
    · have : c = true := hc.2 (.inl rfl)
      rw [if_pos this, if_neg hn]
      simp only [valAfter, if_true, on_some, taken]
      show (if o = g.fresh then (1 : Int) else 0) = _
      omega
    · have ho : (up x).ownedBy g.fresh = x.ownedBy g.fresh := by cases x <;> rfl
      simp only [valAfter, mvalAfter, up_ne_inr, if_false, ho]
      rfl
    · simp [varAfter, mvarAfter, hk]
  | addRef p =>
    by_cases hl : p ∈ g.live
    · obtain ⟨x, hx, hv⟩ := holder hi hl
      have hxn : x ≠ .root (.inr n) := by rintro rfl; exact hn hx
      refine good_of hg' (.addRef p) (.ctorCopy (.inr n) x) n (Nat.le_refl _) ⟨hn, hx⟩ ?_ ⟨fun _ => hl, fun _ => trivial⟩ (fun b hb => by simp [varAfter, hb]) (fun b hb => by simp [valAfter, hb])
        (fun o c hc => ?_) (fun x => ?_) (fun k => ?_) (fun o => Iff.rfl) (fun o => Iff.rfl)
      · simp only [mexec, addRef_hide, exec, ctorCopy, RefPtr.read, hx, not_true_eq_false, if_false, bind, Except.bind, construct, if_neg hn, hv, addRefOpt]
        rw [← addRef_hide, ← addRef_hide, hide_ghost]
      · have : c = true := hc.2 (.inl rfl)
        rw [if_pos this, if_neg hn]
        simp only [valAfter, if_true, hv, on_some, taken]
        omega
      · simp only [valAfter, mvalAfter, up_ne_inr, if_false]
        rfl
      · simp [varAfter, mvarAfter, hk]
    · exact hdead _ .useAfterFree (by simp [mexec, addRef, hide, hl]) hl
  | release p =>
    obtain ⟨a, ha, hv⟩ := howed p hp
    refine good_of hg' (.release p) (.destroy (.inr a)) a (Nat.le_of_lt (hb a ha)) ha ?_ Iff.rfl (fun b hb => by simp [varAfter, hb]) (fun b hb => rfl)
      (fun o c hc => ?_) (fun x => rfl) (fun k => ?_) (fun o => Iff.rfl) (fun o => ?_)
    · simp only [mexec, exec, destroySlot, RefPtr.read, ha, not_true_eq_false, if_false, bind, Except.bind, hv]
      show releaseObj arity (hide g) p = _
      rw [show releaseObj arity (hide g) p = map (releaseObj arity g p) from release_hide _ g p]
      cases hr : releaseObj arity g p with
      | error f => rfl
      | ok g' => exact congrArg Except.ok (hide_ghost_gone g' a).symm
    · have : ¬ c = true := fun h => (hc.1 h).1 rfl
      rw [if_neg this, if_pos ha, hv, on_some]
      simp only [taken]
      split <;> rfl
    · simp [varAfter, mvarAfter, hk]
    · exact dies_hidden hg' ha hv o
  | ctorPtr k p =>
    by_cases hl : p ∈ g.live
    · obtain ⟨x, hx, hv⟩ := holder hi hl
      refine good_of hg' (.ctorPtr k p) (.ctorGet (.inl k) x) n (Nat.le_refl _) ⟨hroot hp, hx⟩ ?_ ⟨fun _ => hl, fun _ => trivial⟩ (fun b hb => by simp [varAfter]) (fun b hb => by simp [valAfter])
        (fun o c hc => ?_) (fun x => ?_) (fun k => ?_) (fun o => Iff.rfl) (fun o => Iff.rfl)
      · simp only [mexec, exec, RefPtr.read, hx, not_true_eq_false, if_false, bind, Except.bind, hv]
        exact ctorRaw_hide g (.root k) (some p)
      · have : ¬ c = true := by rw [hc]; simpa [varAfter] using hn
        rw [if_neg this, if_neg hn]; rfl
      · simp only [valAfter, mvalAfter, hrt, hv]
        rfl
      · simp [varAfter, mvarAfter, hk]
    · refine hdead _ .useAfterFree ?_ hl
      have hp' : Slot.root k ∉ (hide g).hs := hp
      simp [mexec, ctorRaw, construct, hp', addRefOpt, addRef, bind, Except.bind]
      simp [hide, hl]
  | assignPtr d p =>
    by_cases hl : p ∈ g.live
    · obtain ⟨x, hx, hv⟩ := holder hi hl
      refine good_of hg' (.assignPtr d p) (.assignGet (up d) x) n (Nat.le_refl _) ⟨mem_hide.1 hp, hx⟩ ?_ ?_ (fun b hb => by simp [varAfter]) (fun b hb => by simp [valAfter, inr_ne_up])
        (fun o c hc => ?_) (fun x => ?_) (fun k => ?_) (fun o => Iff.rfl) (fun o => dies_iff hg' d o)
      · simp only [mexec, exec, RefPtr.read, hx, not_true_eq_false, if_false, bind, Except.bind, hv]
        exact assignRaw_hide g d (some p)
      · simp only [Sound, MSound, survives_iff_stands hg', dies_iff hg', hv]
        constructor
        · intro ⟨h1, h2⟩; exact ⟨hl, h1, h2 p rfl⟩
        · rintro ⟨-, h1, h2⟩; exact ⟨h1, fun o ho => by injection ho with ho; exact ho ▸ h2⟩
      · have : ¬ c = true := by rw [hc]; simpa [varAfter] using hn
        rw [if_neg this, if_neg hn]; rfl
      · simp only [valAfter, mvalAfter, up_inj, hv]
        rfl
      · simp [varAfter, mvarAfter, hk]
    · refine ⟨fun h => (hl h.1).elim, fun s' h => ?_⟩
      exfalso
      obtain ⟨old, h3, h⟩ := bind_ok h
      obtain ⟨rfl, -⟩ := read_ok h3
      obtain ⟨s2, h4, h⟩ := bind_ok h
      obtain ⟨s3, h5, h9⟩ := bind_ok h
      rw [releaseOpt_hide] at h4
      cases h6 : releaseOpt arity g ((hide g).val d) with
      | error f => rw [h6] at h4; cases h4
      | ok g2 =>
        rw [h6] at h4
        cases h4
        have h7 := drop_live hi (by intro o ho; cases ho) (mem_hide.1 hp) h6 p
        have h8 : p ∉ s3.live := by
          rw [write_live h5]; exact fun h => hl (h7.1 h).1
        simp [addRefOpt, addRef, h8] at h9
  | adopt k p =>
    obtain ⟨a, ha, hv⟩ := howed p hp.2
    refine good_of hg' (.adopt k p) (.ctorMove (.inl k) (.root (.inr a))) a (Nat.le_of_lt (hb a ha)) ⟨hroot hp.1, ha⟩ ?_ Iff.rfl (fun b hb => by simp [varAfter]) (fun b hb => by simp [valAfter, hb])
      (fun o c hc => ?_) (fun x => ?_) (fun k => ?_) (fun o => Iff.rfl) (fun o => Iff.rfl)
    · simp only [mexec, exec, ctorMove, RefPtr.read, ha, not_true_eq_false, if_false, bind, Except.bind, hv]
      rw [construct_hide]
      have e0 : up (Slot.root k) = .root (.inl k) := rfl
      rw [e0]
      simp only [construct, if_neg (hroot hp.1), write, List.mem_cons, ha, or_true, not_true_eq_false, if_false, map]
      exact congrArg Except.ok (hide_ghost_val _ a none).symm
    · have : c = true := hc.2 (.inr ha)
      rw [if_pos this, if_pos ha, hv]
      simp only [valAfter, if_true, taken, on_some]
      simp only [on]
      simp
      split <;> rfl
    · simp only [valAfter, mvalAfter, up_ne_inr, if_false, hrt, hv]
      rfl
    · simp [varAfter, mvarAfter, hk]
  | assignAdopt d p =>
    obtain ⟨a, ha, hv⟩ := howed p hp.2
    refine good_of hg' (.assignAdopt d p) (.assignMove (up d) (.root (.inr a))) a (Nat.le_of_lt (hb a ha)) ⟨mem_hide.1 hp.1, ha⟩ ?_ ?_ (fun b hb => by simp [varAfter]) (fun b hb => by simp [valAfter, hb, inr_ne_up])
      (fun o c hc => ?_) (fun x => ?_) (fun k => ?_) (fun o => Iff.rfl) (fun o => dies_iff hg' d o)
    · simp only [mexec, exec, assignAdopt, assignMove, read_hide]
      cases hr : RefPtr.read g (up d) with
      | error f => rfl
      | ok old =>
        simp only [bind, Except.bind, releaseOpt_hide]
        cases h2 : releaseOpt arity g old with
        | error f => rfl
        | ok g2 =>
          obtain ⟨h3, hd⟩ := read_ok hr
          subst h3
          obtain ⟨-, -, hx, -, -⟩ := drop_ok hi (by intro o ho; cases ho) hd h2
          have ha2 : Slot.root (Sum.inr a) ∈ g2.hs := (hx.hs _).2 ⟨ha, fun o i h => (nomatch h)⟩
          have hv2 : g2.val (.root (.inr a)) = some p := by rw [hx.val]; exact hv
          simp only [map, RefPtr.read, ha2, not_true_eq_false, if_false, hv2, write_hide]
          cases h4 : write g2 (up d) (some p) with
          | error f => rfl
          | ok g3 =>
            have h5 : Slot.root (Sum.inr a) ∈ g3.hs := by
              unfold write at h4
              split at h4
              · cases h4
              · cases h4; exact ha2
            simp only [map, write, h5, not_true_eq_false, if_false]
            exact congrArg Except.ok (hide_ghost_val _ a none).symm
    · exact ⟨fun h => (survives_iff_stands hg' d d).1 h.1, fun h => ⟨(survives_iff_stands hg' d d).2 h, trivial⟩⟩
    · have : c = true := hc.2 ha
      rw [if_pos this, if_pos ha, hv]
      simp only [valAfter, if_true, taken, on_some]
      simp only [on]
      simp
      split <;> rfl
    · simp only [valAfter, mvalAfter, up_ne_inr, if_false, up_inj, hv]
      rfl
    · simp [varAfter, mvarAfter, hk]
  | take e =>
    refine good_of hg' (.take e) (.ctorMove (.inr n) (up e)) n (Nat.le_refl _) ⟨hn, mem_hide.1 hp⟩ ?_ Iff.rfl (fun b hb => by simp [varAfter, hb]) (fun b hb => by simp [valAfter, hb, inr_ne_up])
      (fun o c hc => ?_) (fun x => ?_) (fun k => ?_) (fun o => Iff.rfl) (fun o => Iff.rfl)
    · simp only [mexec, exec, takeRef, ctorMove, read_hide]
      have hp' := mem_hide.1 hp
      simp only [RefPtr.read, hp', not_true_eq_false, if_false, bind, Except.bind, construct, if_neg hn]
      rw [write_hide, ← write_hide, ← write_hide, hide_ghost]
    · have : c = true := hc.2 (.inl rfl)
      rw [if_pos this, if_neg hn]
      simp only [valAfter, inr_ne_up, if_false, if_true, taken]
      show (if g.val (up e) = some o then (1 : Int) else 0) = _
      simp only [on]; omega
    · simp only [valAfter, mvalAfter, up_ne_inr, if_false, up_inj]
      rfl
    · simp [varAfter, mvarAfter, hk]

end Verif.RefPtr
