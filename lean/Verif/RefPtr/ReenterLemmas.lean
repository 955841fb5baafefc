import Verif.RefPtr.SpecReenter
import Verif.RefPtr.Lemmas
/-!
# Invariant of the machine with destructors that run code
-/
namespace Verif.RefPtr.Reenter
open Verif Verif.RefPtr

set_option linter.unusedSectionVars false
set_option linter.unusedSimpArgs false

variable {H : Type} [DecidableEq H] {arity : Obj → Nat} {virt : Obj → Bool}

/-- As `RefPtr.Inv`, with the member handles that are left of the objects under destruction. -/
structure Inv2 (arity : Obj → Nat) (ex : List (Slot H)) (has : Obj → Nat → Prop) (dy born : List Obj) (s : State H) : Prop where
  nd : s.hs.Nodup
  lnd : s.live.Nodup
  tgt : ∀ e ∈ s.hs, e ∉ ex → ∀ o, s.val e = some o → o ∈ s.live
  cnt : ∀ o ∈ s.live, s.cnt o = refs ex s o
  pos : ∀ o ∈ s.live, o ∉ born → 0 < s.cnt o
  own : ∀ o i, o ∈ s.live → (.field o i ∈ s.hs ↔ i < arity o)
  own2 : ∀ o i, o ∉ s.live → (.field o i ∈ s.hs ↔ has o i)
  dyd : ∀ o ∈ dy, o ∈ s.freed
  dnd : dy.Nodup
  fnd : s.freed.Nodup
  fiff : ∀ o, o ∈ s.freed ↔ o < s.fresh ∧ o ∉ s.live
  lt : ∀ o ∈ s.live, o < s.fresh
  hdy : ∀ o i, has o i → o ∈ dy
  sub : ∀ e ∈ ex, e ∈ s.hs
  exn : ex.Nodup

variable {ex : List (Slot H)} {has : Obj → Nat → Prop} {dy born : List Obj} {s : State H}

theorem Inv2.dead (hi : Inv2 arity ex has dy born s) {o : Obj} (h : o ∈ dy) : o ∉ s.live :=
  ((hi.fiff o).1 (hi.dyd o h)).2

/-- References moved between handles. -/
theorem Inv2.transfer {ex2 : List (Slot H)} {t : State H} (hi : Inv2 arity ex has dy born s)
    (hl : t.live = s.live) (hc : t.cnt = s.cnt) (hf : t.fresh = s.fresh) (hfr : t.freed = s.freed)
    (nd : t.hs.Nodup) (hfield : ∀ o i, .field o i ∈ t.hs ↔ .field o i ∈ s.hs)
    (hrefs : ∀ o, refs ex2 t o = refs ex s o) (hsub : ∀ e ∈ ex2, e ∈ t.hs) (hexn : ex2.Nodup) :
    Inv2 arity ex2 has dy born t := by
  refine ⟨nd, hl ▸ hi.lnd, ?_, ?_, ?_, ?_, ?_, ?_, hi.dnd, hfr ▸ hi.fnd, ?_, ?_, hi.hdy, hsub, hexn⟩
  · intro e he hne o hv
    rw [hl]
    have : 0 < refs ex s o := by rw [← hrefs]; exact refs_pos.2 ⟨e, he, hne, hv⟩
    obtain ⟨e', h1, h2, h3⟩ := refs_pos.1 this
    exact hi.tgt e' h1 h2 o h3
  · intro o ho; rw [hrefs, hc]; exact hi.cnt o (hl ▸ ho)
  · intro o ho hb; rw [hc]; exact hi.pos o (hl ▸ ho) hb
  · intro o i ho; rw [hfield]; exact hi.own o i (hl ▸ ho)
  · intro o i h; rw [hl] at h; rw [hfield]; exact hi.own2 o i h
  · intro o ho; rw [hfr]; exact hi.dyd o ho
  · intro o; rw [hfr, hf, hl]; exact hi.fiff o
  · intro o ho; rw [hf]; exact hi.lt o (hl ▸ ho)

theorem inv2_null (hi : Inv2 arity ex has dy born s) {d : Slot H} (hd : d ∈ s.hs) (hex : d ∉ ex)
    (hv : s.val d = none) : Inv2 arity (d :: ex) has dy born s :=
  hi.transfer rfl rfl rfl rfl hi.nd (fun _ _ => Iff.rfl) (fun o => refs_cons_other (by rw [hv]; simp))
    (fun e he => (List.mem_cons.1 he).elim (fun h => h ▸ hd) (hi.sub e)) (List.nodup_cons.2 ⟨hex, hi.exn⟩)

/-- Giving up the reference of `d` without destroying. -/
theorem inv2_dec {d : Slot H} {o : Obj}
    (hi : Inv2 arity ex has dy born s) (hd : d ∈ s.hs) (hex : d ∉ ex) (hv : s.val d = some o)
    (hpos : s.cnt o - 1 ≠ 0) :
    Inv2 arity (d :: ex) has dy born { s with cnt := fun p => if p = o then s.cnt o - 1 else s.cnt p } := by
  have ho := hi.tgt d hd hex o hv
  refine ⟨hi.nd, hi.lnd, fun e he hne => hi.tgt e he (fun h => hne (List.mem_cons_of_mem _ h)), ?_, ?_, hi.own, hi.own2,
    hi.dyd, hi.dnd, hi.fnd, hi.fiff, hi.lt, hi.hdy,
    (fun e he => (List.mem_cons.1 he).elim (fun h => h ▸ hd) (hi.sub e)), (List.nodup_cons.2 ⟨hex, hi.exn⟩)⟩
  · intro p hp
    dsimp only at hp ⊢
    change _ = refs (d :: ex) s p
    split
    · rename_i h; subst h
      have := refs_cons hi.nd hd hex hv
      have := hi.cnt p hp
      omega
    · rename_i h
      rw [refs_cons_other (by rw [hv]; simp; exact fun e => h e.symm)]
      exact hi.cnt p hp
  · intro p hp hb
    dsimp only at hp ⊢
    split
    · omega
    · exact hi.pos p hp hb

/-- Giving up the last reference. -/
theorem inv2_die {d : Slot H} {o : Obj}
    (hi : Inv2 arity ex has dy born s) (hd : d ∈ s.hs) (hex : d ∉ ex) (hv : s.val d = some o)
    (hz : s.cnt o - 1 = 0) :
    Inv2 arity (d :: ex) (fun p i => (p = o ∧ i < arity o) ∨ has p i) (o :: dy) born
      { s with cnt := fun p => if p = o then s.cnt o - 1 else s.cnt p, live := s.live.filter (fun p => decide (p ≠ o)),
               freed := o :: s.freed } := by
  have ho := hi.tgt d hd hex o hv
  have hc := hi.cnt o ho
  have hr := refs_cons hi.nd hd hex hv
  have hr0 : refs (d :: ex) s o = 0 := by omega
  have hnone : ∀ e ∈ s.hs, e ∉ d :: ex → s.val e ≠ some o := by
    intro e he hne hve
    have : 0 < refs (d :: ex) s o := refs_pos.2 ⟨e, he, hne, hve⟩
    omega
  have hl2 : ∀ p, p ∈ s.live.filter (fun p => decide (p ≠ o)) ↔ p ∈ s.live ∧ p ≠ o := by intro p; simp [List.mem_filter]
  have hof : o ∉ s.freed := fun h => ((hi.fiff o).1 h).2 ho
  have hody : o ∉ dy := fun h => hof (hi.dyd o h)
  refine ⟨hi.nd, hi.lnd.filter _, ?_, ?_, ?_, ?_, ?_, ?_, List.nodup_cons.2 ⟨hody, hi.dnd⟩, List.nodup_cons.2 ⟨hof, hi.fnd⟩, ?_, ?_, ?_,
    (fun e he => (List.mem_cons.1 he).elim (fun h => h ▸ hd) (hi.sub e)), (List.nodup_cons.2 ⟨hex, hi.exn⟩)⟩
  · intro e he hne p hp
    refine (hl2 p).2 ⟨hi.tgt e he (fun h => hne (List.mem_cons_of_mem _ h)) p hp, ?_⟩
    rintro rfl
    exact hnone e he hne hp
  · intro p hp
    obtain ⟨hp1, hp2⟩ := (hl2 p).1 hp
    show (if p = o then _ else s.cnt p) = refs (d :: ex) s p
    rw [if_neg hp2, refs_cons_other (by rw [hv]; simp; exact fun e => hp2 e.symm)]
    exact hi.cnt p hp1
  · intro p hp hb
    obtain ⟨hp1, hp2⟩ := (hl2 p).1 hp
    show 0 < (if p = o then _ else s.cnt p)
    rw [if_neg hp2]
    exact hi.pos p hp1 hb
  · intro p i hp; exact hi.own p i ((hl2 p).1 hp).1
  · intro p i hp
    dsimp only at hp ⊢
    rw [hl2] at hp
    by_cases hpo : p = o
    · subst hpo
      rw [hi.own p i ho]
      exact ⟨fun h => .inl ⟨rfl, h⟩, fun h => h.elim (fun h => h.2) (fun h => (hody (hi.hdy _ _ h)).elim)⟩
    · rw [hi.own2 p i (fun h => hp ⟨h, hpo⟩)]
      exact ⟨.inr, fun h => h.elim (fun h => (hpo h.1).elim) id⟩
  · intro p hp
    rcases List.mem_cons.1 hp with h | h
    · simp [h]
    · exact List.mem_cons_of_mem _ (hi.dyd p h)
  · intro p
    show p ∈ o :: s.freed ↔ p < s.fresh ∧ _
    rw [hl2, List.mem_cons, hi.fiff]
    constructor
    · rintro (rfl | ⟨h1, h2⟩)
      · exact ⟨hi.lt _ ho, fun h => h.2 rfl⟩
      · exact ⟨h1, fun h => h2 h.1⟩
    · rintro ⟨h1, h2⟩
      by_cases hpo : p = o
      · exact .inl hpo
      · exact .inr ⟨h1, fun h => h2 ⟨h, hpo⟩⟩
  · intro p hp; exact hi.lt p ((hl2 p).1 hp).1
  · rintro p i (⟨rfl, -⟩ | h)
    · simp
    · exact List.mem_cons_of_mem _ (hi.hdy p i h)

/-- Binding a handle (without reference) to a live object. -/
theorem inv2_bind {d : Slot H} {born2 : List Obj} (hi : Inv2 arity (d :: ex) has dy born s)
    (v : Option Obj) (hv : ∀ o, v = some o → o ∈ s.live) (hb : ∀ o ∈ born, v = some o ∨ o ∈ born2) :
    Inv2 arity ex has dy born2 { s with val := (fun x => if x = d then v else s.val x), cnt := fun q => if v = some q then s.cnt q + 1 else s.cnt q } := by
  have hd : d ∈ s.hs := hi.sub d (by simp)
  obtain ⟨hex, hexn⟩ := List.nodup_cons.1 hi.exn
  let t : State H := { s with val := (fun x => if x = d then v else s.val x), cnt := fun q => if v = some q then s.cnt q + 1 else s.cnt q }
  have hrefs : ∀ o, v ≠ some o → refs ex t o = refs (d :: ex) s o := by
    intro o ho
    simp only [refs, t]
    congr 1
    refine List.filter_congr (fun x _ => ?_)
    by_cases hx : x = d <;> simp [hx, ho]
  have hrefs1 : ∀ o, v = some o → refs ex t o = refs (d :: ex) s o + 1 := by
    intro o ho
    refine filter_split hi.nd hd _ _ (by simp [t, ho, hex]) (by simp) (fun x _ hx => by simp [t, hx])
  refine ⟨hi.nd, hi.lnd, ?_, ?_, ?_, hi.own, hi.own2, hi.dyd, hi.dnd, hi.fnd, hi.fiff, hi.lt, hi.hdy,
    fun e he => hi.sub e (List.mem_cons_of_mem _ he), hexn⟩
  · intro e he hne o ho
    by_cases hed : e = d
    · subst hed
      simp only [if_true] at ho
      exact hv o ho
    · simp only [if_neg hed] at ho
      exact hi.tgt e he (by simp [hed, hne]) o ho
  · intro o ho
    show (if v = some o then s.cnt o + 1 else s.cnt o) = refs ex t o
    by_cases hop : v = some o
    · rw [if_pos hop, hrefs1 o hop, hi.cnt o ho]
    · rw [if_neg hop, hrefs o hop, hi.cnt o ho]
  · intro o ho hob
    show 0 < (if v = some o then s.cnt o + 1 else s.cnt o)
    split
    · omega
    · rename_i hop
      exact hi.pos o ho (fun h => (hb o h).elim hop hob)

/-- Constructing a variable: it starts without a reference. -/
theorem inv2_construct (hi : Inv2 arity ex has dy born s) {h : H} (hh : .root h ∉ s.hs) (v : Option Obj) :
    Inv2 arity (.root h :: ex) has dy born { s with hs := .root h :: s.hs, val := fun e => if e = .root h then v else s.val e } := by
  refine hi.transfer rfl rfl rfl rfl (List.nodup_cons.2 ⟨hh, hi.nd⟩) (by simp) (fun o => ?_) ?_
    (List.nodup_cons.2 ⟨fun h' => hh (hi.sub _ h'), hi.exn⟩)
  · simp only [refs]
    rw [List.filter_cons_of_neg (by simp)]
    congr 1
    refine List.filter_congr (fun x hx => ?_)
    have : x ≠ .root h := fun e => hh (e ▸ hx)
    simp [this]
  · intro e he
    exact (List.mem_cons.1 he).elim (fun h => by simp [h]) (fun h => List.mem_cons_of_mem _ (hi.sub e h))

/-- Moving the reference of `e` into the unreferenced handle `d`. -/
theorem inv2_move {d e : Slot H} (hi : Inv2 arity (d :: ex) has dy born s) (he : e ∈ s.hs) (hee : e ∉ ex) :
    Inv2 arity ex has dy born { s with val := fun x => if x = e then none else if x = d then s.val e else s.val x } := by
  have hd : d ∈ s.hs := hi.sub d (by simp)
  obtain ⟨hex, hexn⟩ := List.nodup_cons.1 hi.exn
  refine hi.transfer rfl rfl rfl rfl hi.nd (fun _ _ => Iff.rfl) (fun o => ?_)
    (fun e he => hi.sub e (List.mem_cons_of_mem _ he)) hexn
  by_cases hde : e = d
  · subst hde
    simp only [refs]
    congr 1
    refine List.filter_congr (fun x _ => ?_)
    by_cases hx : x = e <;> simp [hx]
  · by_cases hv : s.val e = some o
    · have h1 := filter_split hi.nd he (fun x => decide (x ∉ d :: ex ∧ s.val x = some o))
        (fun x => decide (x ∉ e :: d :: ex ∧ s.val x = some o)) (by simp [hde, hv, hee]) (by simp) (fun x _ hx => by simp [hx])
      have h2 := filter_split hi.nd hd
        (fun x => decide (x ∉ ex ∧ (if x = e then none else if x = d then s.val e else s.val x) = some o))
        (fun x => decide (x ∉ e :: d :: ex ∧ s.val x = some o)) (by simp [Ne.symm hde, hv, hex]) (by simp) (fun x _ hx => by
          by_cases hxe : x = e <;> simp [hx, hxe])
      simp only [refs]
      rw [h1, h2]
    · simp only [refs]
      congr 1
      refine List.filter_congr (fun x _ => ?_)
      by_cases hx : x = e
      · simp [hx, hv]
      · by_cases hxd : x = d <;> simp [hx, hxd, hv, hde, Ne.symm hde]

theorem refs_gone {d : Slot H} (o : Obj) :
    refs ex { s with hs := s.hs.filter (fun e => decide (e ≠ d)) } o = refs (d :: ex) s o := by
  simp only [refs, List.filter_filter]
  congr 1
  refine List.filter_congr (fun x _ => ?_)
  by_cases hx : x = d <;> simp [hx]

/-- The end of a variable's lifetime. -/
theorem inv2_gone_root {h : H} (hi : Inv2 arity (.root h :: ex) has dy born s) :
    Inv2 arity ex has dy born { s with hs := s.hs.filter (fun e => decide (e ≠ .root h)) } := by
  obtain ⟨hex, hexn⟩ := List.nodup_cons.1 hi.exn
  refine hi.transfer rfl rfl rfl rfl (hi.nd.filter _) (fun o i => by simp [List.mem_filter]) (fun o => refs_gone o)
    (fun e he => ?_) hexn
  simp only [List.mem_filter, decide_eq_true_eq]
  exact ⟨hi.sub e (List.mem_cons_of_mem _ he), fun h => hex (h ▸ he)⟩

/-- The end of a member's lifetime. -/
theorem inv2_gone_field {p : Obj} {n : Nat} {has2 : Obj → Nat → Prop} (hi : Inv2 arity (.field p n :: ex) has dy born s)
    (hp : p ∈ dy) (hh : ∀ o i, has2 o i ↔ has o i ∧ ¬ (o = p ∧ i = n)) :
    Inv2 arity ex has2 dy born { s with hs := s.hs.filter (fun e => decide (e ≠ .field p n)) } := by
  obtain ⟨hex, hexn⟩ := List.nodup_cons.1 hi.exn
  have hpl := hi.dead hp
  have hm : ∀ e, e ∈ s.hs.filter (fun e => decide (e ≠ .field p n)) ↔ e ∈ s.hs ∧ e ≠ .field p n := by
    intro e; simp [List.mem_filter]
  refine ⟨hi.nd.filter _, hi.lnd, ?_, ?_, hi.pos, ?_, ?_, hi.dyd, hi.dnd, hi.fnd, hi.fiff, hi.lt,
    fun o i h => hi.hdy o i ((hh o i).1 h).1, ?_, hexn⟩
  · intro e he hne o ho
    obtain ⟨h1, h2⟩ := (hm e).1 he
    exact hi.tgt e h1 (by simp [h2, hne]) o ho
  · intro o ho; rw [refs_gone]; exact hi.cnt o ho
  · intro o i ho
    dsimp only at ho ⊢
    rw [hm, ← hi.own o i ho]
    exact ⟨fun h => h.1, fun h => ⟨h, fun e => by injection e with e _; exact hpl (e ▸ ho)⟩⟩
  · intro o i ho
    dsimp only at ho ⊢
    rw [hm, hi.own2 o i ho, hh]
    simp [not_and]
  · intro e he
    exact (hm e).2 ⟨hi.sub e (List.mem_cons_of_mem _ he), fun h => hex (h ▸ he)⟩

/-- The last member is gone. -/
theorem inv2_pop {p : Obj} {has2 : Obj → Nat → Prop} (hi : Inv2 arity ex has (p :: dy) born s)
    (hh : ∀ o i, has o i ↔ has2 o i) (hdy : ∀ o i, has2 o i → o ∈ dy) : Inv2 arity ex has2 dy born s :=
  ⟨hi.nd, hi.lnd, hi.tgt, hi.cnt, hi.pos, hi.own, fun o i h => (hi.own2 o i h).trans (hh o i),
    fun o ho => hi.dyd o (List.mem_cons_of_mem _ ho), (List.nodup_cons.1 hi.dnd).2, hi.fnd, hi.fiff, hi.lt, hdy, hi.sub, hi.exn⟩

theorem inv2_has {has2 : Obj → Nat → Prop} (hi : Inv2 arity ex has dy born s) (hh : ∀ o i, has o i ↔ has2 o i) :
    Inv2 arity ex has2 dy born s := by
  have : has = has2 := by funext o i; exact propext (hh o i)
  exact this ▸ hi

theorem inv2_born {born2 : List Obj} (hi : Inv2 arity ex has dy born s) (hh : ∀ o ∈ born, o ∈ born2) :
    Inv2 arity ex has dy born2 s :=
  { hi with pos := fun o ho hb => hi.pos o ho (fun h => hb (hh o h)) }

theorem inv2_new (hi : Inv2 arity ex has dy born s) :
    Inv2 arity ex has dy (s.fresh :: born) (newObj arity s).1 ∧
    (∀ e, e ∈ (newObj arity s).1.hs ↔ e ∈ s.hs ∨ ∃ i < arity s.fresh, e = .field s.fresh i) ∧
    (∀ e ∈ s.hs, (newObj arity s).1.val e = s.val e) := by
  have hnl : s.fresh ∉ s.live := fun h => Nat.lt_irrefl _ (hi.lt _ h)
  have hndy : s.fresh ∉ dy := fun h => Nat.lt_irrefl _ ((hi.fiff _).1 (hi.dyd _ h)).1
  have hnf : ∀ i, .field s.fresh i ∉ s.hs := by
    intro i h
    exact hndy (hi.hdy _ _ ((hi.own2 _ _ hnl).1 h))
  have hfs : ∀ e : Slot H, e ∈ (List.range (arity s.fresh)).map (Slot.field s.fresh) ↔ ∃ i < arity s.fresh, e = .field s.fresh i := by
    intro e; simp only [List.mem_map, List.mem_range]
    exact ⟨fun ⟨i, h1, h2⟩ => ⟨i, h1, h2.symm⟩, fun ⟨i, h1, h2⟩ => ⟨i, h1, h2.symm⟩⟩
  have hmem : ∀ e, e ∈ (newObj arity s).1.hs ↔ e ∈ s.hs ∨ ∃ i < arity s.fresh, e = .field s.fresh i := by
    intro e; simp only [newObj, List.mem_append, hfs]; exact or_comm
  have hval : ∀ e ∈ s.hs, (newObj arity s).1.val e = s.val e := by
    intro e he
    simp only [newObj]
    rw [if_neg]
    intro h
    obtain ⟨i, -, rfl⟩ := (hfs e).1 h
    exact hnf i he
  have hval0 : ∀ i, i < arity s.fresh → (newObj arity s).1.val (.field s.fresh i) = none := by
    intro i h
    simp only [newObj]
    rw [if_pos ((hfs _).2 ⟨i, h, rfl⟩)]
  have hrefs : ∀ o, refs ex (newObj arity s).1 o = refs ex s o := by
    intro o
    have h1 : ((newObj arity s).1.hs.filter (fun e => decide (e ∉ ex ∧ (newObj arity s).1.val e = some o))) =
        s.hs.filter (fun e => decide (e ∉ ex ∧ s.val e = some o)) := by
      show (((List.range (arity s.fresh)).map (Slot.field s.fresh)) ++ s.hs).filter _ = _
      rw [List.filter_append, List.filter_eq_nil_iff.2, List.nil_append]
      · exact List.filter_congr (fun x hx => by rw [hval x hx])
      · intro e he
        obtain ⟨i, hi', rfl⟩ := (hfs e).1 he
        rw [hval0 i hi']; simp
    simp only [refs, h1]
  refine ⟨⟨?_, ?_, ?_, ?_, ?_, ?_, ?_, hi.dyd, hi.dnd, hi.fnd, ?_, ?_, hi.hdy, fun e he => (hmem e).2 (.inl (hi.sub e he)), hi.exn⟩, hmem, hval⟩
  · simp only [newObj]
    rw [List.nodup_append]
    refine ⟨List.Pairwise.map _ (fun a b hab e => hab (by injection e)) List.nodup_range, hi.nd, ?_⟩
    intro a ha b hb hab
    subst hab
    obtain ⟨i, -, rfl⟩ := (hfs a).1 ha
    exact hnf i hb
  · exact List.nodup_cons.2 ⟨hnl, hi.lnd⟩
  · intro e he hne o ho
    rcases (hmem e).1 he with h | ⟨i, hi', rfl⟩
    · rw [hval e h] at ho
      exact List.mem_cons_of_mem _ (hi.tgt e h hne o ho)
    · rw [hval0 i hi'] at ho; cases ho
  · intro o ho
    rw [hrefs]
    simp only [newObj]
    rcases List.mem_cons.1 ho with h | h
    · rw [if_pos h]
      by_cases hp : 0 < refs ex s o
      · obtain ⟨e, h1, h2, h3⟩ := refs_pos.1 hp
        exact (hnl (h ▸ hi.tgt e h1 h2 o h3)).elim
      · omega
    · have : o ≠ s.fresh := fun e => hnl (e ▸ h)
      rw [if_neg this]; exact hi.cnt o h
  · intro o ho hb
    rcases List.mem_cons.1 ho with h | h
    · exact (hb (by simp [h])).elim
    · have : o ≠ s.fresh := fun e => hnl (e ▸ h)
      simp only [newObj]
      rw [if_neg this]; exact hi.pos o h (fun h' => hb (List.mem_cons_of_mem _ h'))
  · intro o i ho
    rw [hmem]
    rcases List.mem_cons.1 ho with h | h
    · subst h
      exact ⟨fun h => h.elim (fun h => (hnf i h).elim) (fun ⟨j, h1, h2⟩ => by injection h2 with _ h2; omega),
        fun h => .inr ⟨i, h, rfl⟩⟩
    · rw [← hi.own o i h]
      refine ⟨fun h' => h'.elim id (fun ⟨j, h1, h2⟩ => ?_), .inl⟩
      injection h2 with h2 _
      exact (hnl (h2 ▸ h)).elim
  · intro o i ho
    have ho1 : o ≠ s.fresh := fun h => ho (by simp [newObj, h])
    have ho2 : o ∉ s.live := fun h => ho (List.mem_cons_of_mem _ h)
    rw [hmem, hi.own2 o i ho2]
    refine ⟨fun h => h.elim id (fun ⟨j, h1, h2⟩ => ?_), .inl⟩
    injection h2 with h2 _; exact (ho1 h2).elim
  · intro o
    show o ∈ s.freed ↔ o < s.fresh + 1 ∧ o ∉ s.fresh :: s.live
    rw [hi.fiff]
    simp only [List.mem_cons, not_or]
    constructor
    · rintro ⟨h1, h2⟩; exact ⟨Nat.lt_succ_of_lt h1, Nat.ne_of_lt h1, h2⟩
    · rintro ⟨h1, h2, h3⟩; exact ⟨Nat.lt_of_le_of_ne (Nat.le_of_lt_succ h1) h2, h3⟩
  · intro o ho
    show o < s.fresh + 1
    rcases List.mem_cons.1 ho with h | h
    · exact h ▸ Nat.lt_succ_self _
    · exact Nat.lt_succ_of_lt (hi.lt o h)

/-! ### The stack -/

/-- The member handles that are left of the objects under destruction. -/
def hasF (arity : Obj → Nat) : List (Frame H) → Obj → Nat → Prop
  | [], _, _ => False
  | .body p :: k, o, i => (o = p ∧ i < arity p) ∨ hasF arity k o i
  | .members p n :: k, o, i => (o = p ∧ i < n) ∨ hasF arity k o i
  | .gone d :: k, o, i => d = .field o i ∨ hasF arity k o i
  | _ :: k, o, i => hasF arity k o i

/-- The objects whose pointers are about to be stored. -/
def bornF : List (Frame H) → List Obj
  | [] => []
  | .store _ (some o) :: k => o :: bornF k
  | _ :: k => bornF k

/-- A member handle is destroyed by its object; the source of an assignment was not in flight when it started. -/
def WF : List (Frame H) → Prop
  | [] => True
  | .gone (.field o n) :: k => (∃ k', k = .members o n :: k') ∧ WF k
  | .move _ e :: k => e ∉ inflight k ∧ WF k
  | .copy _ e :: k => e ∉ inflight k ∧ WF k
  | _ :: k => WF k

def J (arity : Obj → Nat) (m : Machine H) : Prop :=
  Inv2 arity (inflight m.stack) (hasF arity m.stack) (dying m.stack) (bornF m.stack) m.s ∧ WF m.stack

theorem J.mk {s : State H} {k : List (Frame H)} (h1 : Inv2 arity (inflight k) (hasF arity k) (dying k) (bornF k) s) (h2 : WF k) :
    J arity ⟨s, k⟩ := ⟨h1, h2⟩

theorem bornF_mem {o : Obj} : ∀ {k : List (Frame H)}, o ∈ bornF k → ∃ d, .store d (some o) ∈ k
  | f :: k, h => by
    cases f with
    | store d v =>
      cases v with
      | none => obtain ⟨d, h⟩ := bornF_mem (k := k) h; exact ⟨d, List.mem_cons_of_mem _ h⟩
      | some p =>
        rcases List.mem_cons.1 h with h | h
        · subst h; exact ⟨d, by simp⟩
        · obtain ⟨d, h⟩ := bornF_mem (k := k) h; exact ⟨d, List.mem_cons_of_mem _ h⟩
    | body => obtain ⟨d, h⟩ := bornF_mem (k := k) h; exact ⟨d, List.mem_cons_of_mem _ h⟩
    | members => obtain ⟨d, h⟩ := bornF_mem (k := k) h; exact ⟨d, List.mem_cons_of_mem _ h⟩
    | copy => obtain ⟨d, h⟩ := bornF_mem (k := k) h; exact ⟨d, List.mem_cons_of_mem _ h⟩
    | move => obtain ⟨d, h⟩ := bornF_mem (k := k) h; exact ⟨d, List.mem_cons_of_mem _ h⟩
    | gone => obtain ⟨d, h⟩ := bornF_mem (k := k) h; exact ⟨d, List.mem_cons_of_mem _ h⟩

theorem J.consistent {m : Machine H} (h : J arity m) : Consistent m := by
  obtain ⟨hi, -⟩ := h
  refine ⟨hi.cnt, hi.tgt, ?_, hi.fnd, hi.fiff, hi.dyd, hi.dnd⟩
  intro o ho
  by_cases hb : o ∈ bornF m.stack
  · exact .inr (bornF_mem hb)
  · have := hi.pos o ho hb
    rw [hi.cnt o ho] at this
    exact .inl (refs_pos.1 this)

theorem J.balanced {m : Machine H} (h : J arity m) (hs : m.stack = []) : Balanced arity m.s := by
  obtain ⟨hi, -⟩ := h
  rw [hs] at hi
  refine ⟨fun o ho => ?_, ?_, ?_, hi.fnd, hi.fiff⟩
  · rw [hi.cnt o ho]; simp [refs, handlesOn, inflight]
  · intro o
    constructor
    · intro ho
      have h := hi.pos o ho (by simp [bornF])
      rw [hi.cnt o ho] at h
      obtain ⟨e, h1, -, h3⟩ := refs_pos.1 h
      exact ⟨e, h1, h3⟩
    · rintro ⟨e, h1, h3⟩
      exact hi.tgt e h1 (by simp [inflight]) o h3
  · intro o i
    constructor
    · intro h
      by_cases ho : o ∈ m.s.live
      · exact ⟨ho, (hi.own o i ho).1 h⟩
      · exact ((hi.own2 o i ho).1 h).elim
    · rintro ⟨h1, h2⟩; exact (hi.own o i h1).2 h2

theorem j_new : J arity (Machine.new : Machine H) := by
  refine ⟨⟨.nil, .nil, ?_, ?_, ?_, ?_, ?_, ?_, .nil, .nil, ?_, ?_, ?_, ?_, .nil⟩, trivial⟩ <;>
    simp [Machine.new, State.new, hasF, dying, inflight]

/-- The start of an operation that gives up the reference of `d`, before its frame `f` has been pushed. -/
theorem drop_spec {m : Machine H} {d : Slot H} {f : Frame H}
    (hi : Inv2 arity (inflight m.stack) (hasF arity (f :: m.stack)) (dying m.stack) (bornF (f :: m.stack)) m.s)
    (hd : d ∈ m.s.hs) (hex : d ∉ inflight m.stack) (hf1 : inflight (f :: m.stack) = d :: inflight m.stack)
    (hf3 : dying (f :: m.stack) = dying m.stack) (hwf : WF (f :: m.stack)) :
    ∃ m', drop m d f = .ok m' ∧ J arity m' := by
  unfold drop
  simp only [read, hd, not_true_eq_false, if_false, bind, Except.bind]
  cases hv : m.s.val d with
  | none =>
    refine ⟨_, rfl, ?_, hwf⟩
    show Inv2 arity (inflight (f :: m.stack)) _ (dying (f :: m.stack)) _ m.s
    rw [hf1, hf3]
    exact inv2_null hi hd hex hv
  | some o =>
    have ho := hi.tgt d hd hex o hv
    have hc := hi.cnt o ho
    have hr := refs_cons hi.nd hd hex hv
    have hc0 : m.s.cnt o ≠ 0 := by omega
    by_cases hz : m.s.cnt o - 1 = 0
    · have h2 := inv2_die hi hd hex hv hz
      refine ⟨{ s := { m.s with cnt := fun p => if p = o then 0 else m.s.cnt p, live := m.s.live.filter (fun p => decide (p ≠ o)), freed := o :: m.s.freed }, stack := .body o :: f :: m.stack }, ?_, ?_, hwf⟩
      · simp only [releaseOpt, release, ho, not_true_eq_false, false_and, if_false, hc0, if_true, hz]
      show Inv2 arity (inflight (f :: m.stack)) _ (o :: dying (f :: m.stack)) (bornF (f :: m.stack)) _
      rw [hf1, hf3]
      simp only [hz] at h2
      exact h2
    · have h2 := inv2_dec hi hd hex hv hz
      refine ⟨{ s := { m.s with cnt := fun p => if p = o then m.s.cnt o - 1 else m.s.cnt p }, stack := f :: m.stack }, ?_, ?_, hwf⟩
      · simp only [releaseOpt, release, ho, not_true_eq_false, false_and, if_false, hc0, if_true, hz]
      show Inv2 arity (inflight (f :: m.stack)) _ (dying (f :: m.stack)) (bornF (f :: m.stack)) _
      rw [hf1, hf3]
      exact h2

theorem addRefOpt_spec {m : Machine H} {v : Option Obj} (hv : ∀ o, v = some o → o ∈ m.s.live ∧ o ∉ dying m.stack) :
    addRefOpt virt m v = .ok { m with s := { m.s with cnt := fun q => if v = some q then m.s.cnt q + 1 else m.s.cnt q } } := by
  cases v with
  | none => simp [addRefOpt]
  | some o =>
    obtain ⟨h1, h2⟩ := hv o rfl
    simp only [addRefOpt, addRef, h1, h2, not_true_eq_false, false_and, and_false, if_false]
    congr 3
    funext q
    by_cases hq : q = o
    · subst hq; simp
    · simp [hq, Ne.symm hq]

theorem bindTo_spec {m : Machine H} {d : Slot H} {v : Option Obj} {born2 : List Obj}
    (hi : Inv2 arity (d :: inflight m.stack) (hasF arity m.stack) (dying m.stack) born2 m.s) (hwf : WF m.stack)
    (hv : ∀ o, v = some o → o ∈ m.s.live) (hb : ∀ o ∈ born2, v = some o ∨ o ∈ bornF m.stack) :
    ∃ m', bindTo virt m d v = .ok m' ∧ J arity m' := by
  have hd := hi.sub d (by simp)
  refine ⟨_, ?_, J.mk (inv2_bind (born2 := bornF m.stack) hi v hv hb) hwf⟩
  simp only [bindTo, write, hd, not_true_eq_false, if_false, bind, Except.bind]
  exact addRefOpt_spec (m := ⟨{ m.s with val := fun e => if e = d then v else m.s.val e }, m.stack⟩)
    (fun o ho => ⟨hv o ho, fun h => hi.dead h (hv o ho)⟩)

theorem ctorRaw_spec {m : Machine H} {h : H} {v : Option Obj} {born2 : List Obj}
    (hi : Inv2 arity (inflight m.stack) (hasF arity m.stack) (dying m.stack) born2 m.s) (hwf : WF m.stack)
    (hh : .root h ∉ m.s.hs)
    (hv : ∀ o, v = some o → o ∈ m.s.live) (hb : ∀ o ∈ born2, v = some o ∨ o ∈ bornF m.stack) :
    ∃ m', ctorRaw virt m (.root h) v = .ok m' ∧ J arity m' := by
  have h1 := inv2_bind (born2 := bornF m.stack) (inv2_construct hi hh v) v hv hb
  refine ⟨_, ?_, J.mk h1 hwf⟩
  simp only [ctorRaw, construct, hh, if_false, bind, Except.bind]
  rw [addRefOpt_spec (m := ⟨{ m.s with hs := .root h :: m.s.hs, val := fun e => if e = .root h then v else m.s.val e }, m.stack⟩)
    (fun o ho => ⟨hv o ho, fun h => hi.dead h (hv o ho)⟩)]
  dsimp only
  congr 3
  funext x
  split <;> rfl

theorem begin_spec {m : Machine H} (hj : J arity m) {op : Op H} (he : Exists m.s op)
    (hf : ∀ e ∈ uses op, e ∉ inflight m.stack) : ∃ m', begin arity virt m op = .ok m' ∧ J arity m' := by
  obtain ⟨hi, hwf⟩ := hj
  obtain ⟨hc, hu⟩ := he
  cases op with
  | ctorNull h =>
    have hh : .root h ∉ m.s.hs := hc h (by simp [creates])
    obtain ⟨m', h1, h2⟩ := ctorRaw_spec (virt := virt) hi hwf hh (v := none) (by simp) (fun o ho => .inr ho)
    refine ⟨m', ?_, h2⟩
    simp only [ctorRaw, construct, hh, if_false, bind, Except.bind, addRefOpt] at h1
    simp only [begin, construct, hh, if_false, bind, Except.bind]
    exact h1
  | ctorNew h =>
    have hh : .root h ∉ m.s.hs := hc h (by simp [creates])
    obtain ⟨hi1, hmem, hval⟩ := inv2_new hi
    have hh1 : .root h ∉ (newObj arity m.s).1.hs := by
      rw [hmem]; rintro (h | ⟨i, -, h⟩)
      · exact hh h
      · cases h
    refine ctorRaw_spec (m := { m with s := (newObj arity m.s).1 }) hi1 hwf hh1 ?_ ?_
    · intro o ho; injection ho with ho; subst ho; simp [newObj]
    · intro o ho
      rcases List.mem_cons.1 ho with h | h
      · subst h; exact .inl rfl
      · exact .inr h
  | ctorGet h e =>
    have hh : .root h ∉ m.s.hs := hc h (by simp [creates])
    have hes : e ∈ m.s.hs := hu e (by simp [uses])
    have hef := hf e (by simp [uses])
    obtain ⟨m', h1, h2⟩ := ctorRaw_spec (virt := virt) hi hwf hh (v := m.s.val e) (hi.tgt e hes hef) (fun o ho => .inr ho)
    refine ⟨m', ?_, h2⟩
    simp only [begin, read, hes, not_true_eq_false, if_false, bind, Except.bind]
    exact h1
  | ctorCopy h e =>
    have hh : .root h ∉ m.s.hs := hc h (by simp [creates])
    have hes : e ∈ m.s.hs := hu e (by simp [uses])
    have hef := hf e (by simp [uses])
    obtain ⟨m', h1, h2⟩ := ctorRaw_spec (virt := virt) hi hwf hh (v := m.s.val e) (hi.tgt e hes hef) (fun o ho => .inr ho)
    refine ⟨m', ?_, h2⟩
    simp only [begin, read, hes, not_true_eq_false, if_false, bind, Except.bind]
    exact h1
  | ctorMove h e =>
    have hh : .root h ∉ m.s.hs := hc h (by simp [creates])
    have hes : e ∈ m.s.hs := hu e (by simp [uses])
    have hef := hf e (by simp [uses])
    have hne : e ≠ .root h := fun x => hh (x ▸ hes)
    have h1 := inv2_construct hi hh (m.s.val e)
    have h2 := inv2_move (e := e) h1 (by simp [hes]) hef
    refine ⟨_, ?_, J.mk h2 hwf⟩
    simp only [begin, RefPtr.ctorMove, read, hes, construct, hh, write, List.mem_cons, hne, or_true, not_true_eq_false, if_false, bind, Except.bind]
    congr 3
    funext x
    split
    · rfl
    · split <;> rfl
  | assignNull d => exact drop_spec hi (hu d (by simp [uses])) (hf d (by simp [uses])) rfl rfl hwf
  | assignNew d =>
    have hd : d ∈ m.s.hs := hu d (by simp [uses])
    obtain ⟨hi1, hmem, hval⟩ := inv2_new hi
    exact drop_spec (m := { m with s := (newObj arity m.s).1 }) hi1 ((hmem d).2 (.inl hd)) (hf d (by simp [uses])) rfl rfl hwf
  | assignGet d e =>
    have hes : e ∈ m.s.hs := hu e (by simp [uses])
    simp only [begin, read, hes, not_true_eq_false, if_false, bind, Except.bind]
    refine drop_spec (inv2_born hi ?_) (hu d (by simp [uses])) (hf d (by simp [uses])) rfl rfl hwf
    intro o ho
    cases m.s.val e with
    | none => exact ho
    | some p => exact List.mem_cons_of_mem _ ho
  | assignCopy d e => exact drop_spec hi (hu d (by simp [uses])) (hf d (by simp [uses])) rfl rfl ⟨hf e (by simp [uses]), hwf⟩
  | assignMove d e => exact drop_spec hi (hu d (by simp [uses])) (hf d (by simp [uses])) rfl rfl ⟨hf e (by simp [uses]), hwf⟩
  | destroy h =>
    refine drop_spec (inv2_has hi (fun o i => ?_)) (hu (.root h) (by simp [uses])) (hf (.root h) (by simp [uses])) rfl rfl hwf
    simp [hasF]

theorem wf_tail {f : Frame H} {k : List (Frame H)} (h : WF (f :: k)) : WF k := by
  cases f with
  | gone d =>
    cases d with
    | root => exact h
    | field => exact h.2
  | copy => exact h.2
  | move => exact h.2
  | _ => exact h

theorem hasF_dying : ∀ {k : List (Frame H)}, WF k → ∀ {o i}, hasF arity k o i → o ∈ dying k
  | f :: k, hw, o, i, h => by
    have ih := hasF_dying (wf_tail hw) (o := o) (i := i)
    cases f with
    | body p => exact h.elim (fun h => by simp [dying, h.1]) (fun h => List.mem_cons_of_mem _ (ih h))
    | members p n => exact h.elim (fun h => by simp [dying, h.1]) (fun h => List.mem_cons_of_mem _ (ih h))
    | gone d =>
      rcases h with h | h
      · subst h
        obtain ⟨⟨k', rfl⟩, -⟩ := hw
        simp [dying]
      · exact ih h
    | store => exact ih h
    | copy => exact ih h
    | move => exact ih h

theorem resume_spec {m : Machine H} {f : Frame H} {k : List (Frame H)} (hs : m.stack = f :: k) (hj : J arity m) (hk : Kept m)
    (hnb : ∀ o, f ≠ .body o) : ∃ m', resume virt { m with stack := k } f = .ok m' ∧ J arity m' := by
  obtain ⟨hi, hwf⟩ := hj
  rw [hs] at hi hwf
  unfold Kept at hk
  rw [hs] at hk
  have hwk := wf_tail hwf
  cases f with
  | body o => exact (hnb o rfl).elim
  | members o n =>
    cases n with
    | zero =>
      refine ⟨_, rfl, ?_, hwk⟩
      exact inv2_pop hi (fun p i => by simp [hasF]) (fun p i h => hasF_dying hwk h)
    | succ n =>
      have hnl := hi.dead (o := o) (by simp [dying])
      have hd : .field o n ∈ m.s.hs := (hi.own2 o n hnl).2 (.inl ⟨rfl, by omega⟩)
      refine drop_spec (m := { m with stack := .members o n :: k }) (inv2_has hi (fun p i => ?_)) hd hk rfl rfl ⟨⟨k, rfl⟩, hwk⟩
      simp only [hasF, Slot.field.injEq]
      constructor
      · rintro (⟨h1, h2⟩ | h)
        · by_cases hin : i = n
          · exact .inl ⟨h1.symm, hin.symm⟩
          · exact .inr (.inl ⟨h1, by omega⟩)
        · exact .inr (.inr h)
      · rintro (⟨h1, h2⟩ | ⟨h1, h2⟩ | h)
        · exact .inl ⟨h1.symm, by omega⟩
        · exact .inl ⟨h1, by omega⟩
        · exact .inr h
  | store d v =>
    refine bindTo_spec (m := { m with stack := k }) hi hwk hk ?_
    intro o ho
    cases v with
    | none => exact .inr ho
    | some p =>
      rcases List.mem_cons.1 ho with h | h
      · exact .inl (by rw [h])
      · exact .inr h
  | copy d e =>
    obtain ⟨he, hed⟩ := hk
    obtain ⟨hef, -⟩ := hwf
    obtain ⟨m', h1, h2⟩ := bindTo_spec (virt := virt) (m := { m with stack := k }) (d := d) (v := m.s.val e) hi hwk (fun o ho => by
      by_cases hde : e = d
      · exact hed hde o ho
      · exact hi.tgt e he (by simp [inflight, hde, hef]) o ho) (fun o ho => .inr ho)
    refine ⟨m', ?_, h2⟩
    simp only [resume, read, he, not_true_eq_false, if_false, bind, Except.bind]
    exact h1
  | move d e =>
    obtain ⟨hef, -⟩ := hwf
    have hd : d ∈ m.s.hs := hi.sub d (by simp [inflight])
    have he : e ∈ m.s.hs := hk
    refine ⟨{ s := _, stack := k }, ?_, inv2_move (d := d) (e := e) hi he hef, hwk⟩
    simp only [resume, read, write, he, hd, not_true_eq_false, if_false, bind, Except.bind]
  | gone d =>
    cases d with
    | root h =>
      exact ⟨_, rfl, inv2_has (inv2_gone_root hi) (fun o i => by simp [hasF]), hwk⟩
    | field p n =>
      obtain ⟨⟨k', rfl⟩, -⟩ := hwf
      refine ⟨_, rfl, ?_, hwk⟩
      refine inv2_gone_field (p := p) (n := n) hi (by simp [dying]) (fun o i => ?_)
      have hnd := (List.nodup_cons.1 (show (p :: dying k').Nodup from hi.dnd)).1
      simp only [hasF, Slot.field.injEq]
      constructor
      · rintro (⟨h1, h2⟩ | h)
        · exact ⟨.inr (.inl ⟨h1, h2⟩), fun h => by omega⟩
        · refine ⟨.inr (.inr h), fun h' => hnd (h'.1 ▸ hasF_dying (wf_tail hwk) h)⟩
      · rintro ⟨h1 | h1 | h1, h2⟩
        · exact (h2 ⟨h1.1.symm, h1.2.symm⟩).elim
        · exact .inl h1
        · exact .inr h1

theorem step_spec {m : Machine H} (hj : J arity m) {a : Act H} (ho : Obey true m a) :
    ∃ m', step arity virt m a = .ok m' ∧ J arity m' := by
  obtain ⟨s, st⟩ := m
  cases a with
  | op op =>
    cases st with
    | nil =>
      obtain ⟨h1, h2⟩ := ho rfl
      exact begin_spec hj h1 (h2 rfl)
    | cons f k =>
      cases f with
      | body o =>
        obtain ⟨h1, h2⟩ := ho rfl
        exact begin_spec hj h1 (h2 rfl)
      | _ => exact ⟨_, rfl, hj⟩
  | self h =>
    cases st with
    | nil => exact ⟨_, rfl, hj⟩
    | cons f k =>
      cases f with
      | body o =>
        obtain ⟨h1, h2⟩ := ho rfl
        cases h2 rfl
      | _ => exact ⟨_, rfl, hj⟩
  | ret =>
    cases st with
    | nil => exact ⟨_, rfl, hj⟩
    | cons f k =>
      cases f with
      | body o => exact ⟨_, rfl, hj⟩
      | _ => exact ⟨_, rfl, hj⟩
  | go =>
    cases st with
    | nil => exact ⟨_, rfl, hj⟩
    | cons f k =>
      cases f with
      | body o => exact ⟨_, rfl, hj⟩
      | members o n => exact resume_spec (virt := virt) rfl hj ho (by simp)
      | store d v => exact resume_spec (virt := virt) rfl hj ho (by simp)
      | copy d e => exact resume_spec (virt := virt) rfl hj ho (by simp)
      | move d e => exact resume_spec (virt := virt) rfl hj ho (by simp)
      | gone d => exact resume_spec (virt := virt) rfl hj ho (by simp)

theorem run_spec : ∀ (as : List (Act H)) (m : Machine H), J arity m → ObeyRun arity virt true m as →
    ∃ m', run arity virt m as = .ok m' ∧ J arity m'
  | [], m, hj, _ => ⟨m, rfl, hj⟩
  | a :: as, m, hj, ho => by
    obtain ⟨m1, h1, hj1⟩ := step_spec (virt := virt) hj ho.1
    obtain ⟨m2, h2, hj2⟩ := run_spec as m1 hj1 (ho.2 m1 h1)
    exact ⟨m2, by simp only [run, h1, h2, bind, Except.bind], hj2⟩

end Verif.RefPtr.Reenter
