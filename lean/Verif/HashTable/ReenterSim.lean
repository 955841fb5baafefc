import Verif.HashTable.ReenterLemmas
/-! Every polite action of the machine refines the specification. -/
set_option linter.unusedSectionVars false
namespace Verif.HashTable
open Verif

variable {L P K : Type} [DecidableEq K] {c : Config} {canon : L → K} {keyOf : P → K}
  {h : K → BitVec 32} {pol : Policy L P}

/-- What every action preserves of the counters. -/
structure Book (t t' : Table P) (isAdd : Bool) : Prop where
  load : t'.nelements + t'.ndeleted ≤ t.nelements + t.ndeleted + (if isAdd = true then 1 else 0)
  min : t'.minCapacity = t.minCapacity
  cap : isAdd = false → t'.capacity = t.capacity

theorem Book.refl (t : Table P) (b : Bool) : Book t t b := ⟨Nat.le_add_right _ _, rfl, fun _ => rfl⟩

/-- The action succeeds as specified. -/
def GoodStep (c : Config) (pol : Policy L P) (canon : L → K) (keyOf : P → K) (h : K → BitVec 32) (m : Mach P) (a : AState K P)
    (act : Act L P) : Prop :=
  ∃ m' o a', step c pol m act = .ok (m', o) ∧ RStep canon a act o a' ∧ Rel c keyOf h m' a' ∧ Book m.t m'.t act.isAdd ∧
    (o.isFailure = true → c.aborts = false ∧ (act.memOk = false ∨ ∃ s, Inv c keyOf h m.t s ∧ NearLimit c m.t))

theorem busy_false_nil (t : Table P) : Mach.busy ⟨t, []⟩ = fun _ => false := by
  funext i; rfl

theorem not_busy {t : Table P} {st : List Frame} {i : Nat} (hb : Mach.busy ⟨t, st⟩ i = false) :
    ∀ f ∈ st, f.slot ≠ i := by
  intro f hf he
  unfold Mach.busy at hb
  rw [List.any_eq_false] at hb
  exact hb f hf (by simp [he])

/-- `removeIfExists` up to the destructor call. -/
theorem remove_good {t : Table P} {s : List (Slot P)} {st : List Frame} {ps : List (Pend K)} {b : Option Nat} {m : K → Option P}
    (htbl : t.table = some s) (hwf : ∀ (i : Nat) (e : Slot P), s[i]? = some e → e.Wf)
    (hr : Repr' keyOf s m) (hrem : Rems keyOf s b st ps) (l : L)
    (hpol : ∀ f ∈ st, ∀ p, deref t f.slot = .ok p → keyOf p ≠ canon l)
    {i : Nat} {e : Slot P} (hf : find pol t l = .ok i) (he : s[i]? = some e) :
    (e.isLive = false → startRemove pol ⟨t, st⟩ l = .ok (⟨t, st⟩, .done)) ∧
    (e.isLive = true → (∃ p, e.obj = some p ∧ keyOf p = canon l) →
      startRemove pol ⟨t, st⟩ l = .ok (⟨t, .removing i :: st⟩, .done) ∧
      RStep canon ⟨m, ps, false⟩ (.removeIfExists l) (.done : Out P) ⟨m, .removing (canon l) :: ps, false⟩ ∧
      Rems keyOf s b (.removing i :: st) (.removing (canon l) :: ps)) := by
  constructor
  · intro hlv
    simp only [startRemove, bind, Except.bind, hf, Table.found, load_ok htbl he, hlv, Bool.false_eq_true, if_false]
  · rintro hlv ⟨p, hp, hk⟩
    have hpay : ∀ {j : Nat} {e' : Slot P} {q : P}, s[j]? = some e' → e'.obj = some q → deref t j = .ok q := by
      intro j e' q hj hq
      have hlv' : e'.isLive = true := by rw [hwf j e' hj, hq]; rfl
      obtain ⟨q', hq', hpay⟩ := (hwf j e' hj).payload hlv'
      rw [hq] at hq'; cases hq'
      simp only [deref, bind, Except.bind, load_ok htbl hj, hpay]
    have hnb : Mach.busy ⟨t, st⟩ i = false := by
      cases hb : Mach.busy ⟨t, st⟩ i with
      | false => rfl
      | true =>
        exfalso
        unfold Mach.busy at hb
        rw [List.any_eq_true] at hb
        obtain ⟨f, hfm, hfi⟩ := hb
        simp only [beq_iff_eq] at hfi
        exact hpol f hfm p (by rw [hfi]; exact hpay he hp) hk
    refine ⟨?_, ?_, ?_⟩
    · simp only [startRemove, bind, Except.bind, hf, Table.found, load_ok htbl he, hlv, if_true, hnb, Bool.false_eq_true, if_false]
    · apply RStep.removeStart
      · rw [(hr _ p).2 ⟨⟨i, e, he, hp⟩, hk⟩]; simp
      · intro hmem
        obtain ⟨f, hfm, e', q, he', hq, hkq⟩ := hrem.keys _ hmem
        exact hpol f hfm q (hpay he' hq) hkq
    · exact .cons ⟨e, p, he, hp, hk⟩ (not_busy hnb) hrem

theorem elements_step {m : K → Option P} {s : List (Slot P)} (hwf : ∀ (i : Nat) (e : Slot P), s[i]? = some e → e.Wf)
    (hu : Uniq keyOf s) (hr : Repr' keyOf s m) :
    ∃ ks : List K, ks.Nodup ∧ (∀ k, k ∈ ks ↔ m k ≠ none) ∧ ks.length = nLive s := by
  have hlen : (contents s).length = nLive s :=
    contents_length (fun e he => by
      obtain ⟨i, hi'⟩ := List.mem_iff_getElem?.1 he
      exact hwf i e hi')
  refine ⟨(contents s).map keyOf, ?_, ?_, by rw [List.length_map, hlen]⟩
  · unfold contents
    rw [List.Nodup, List.pairwise_map, List.pairwise_filterMap, List.pairwise_iff_getElem]
    intro i j hi hj hij p hp q hq hk
    have := hu i j _ _ p q (List.getElem?_eq_getElem hi) (List.getElem?_eq_getElem hj) hp hq hk
    omega
  · intro k
    rw [List.mem_map]
    constructor
    · rintro ⟨p, hp, rfl⟩
      rw [(hr _ p).2 ⟨mem_contents.1 hp, rfl⟩]; simp
    · intro hne
      cases hm : m k with
      | none => exact absurd hm hne
      | some p =>
        have := (hr k p).1 hm
        exact ⟨p, mem_contents.2 this.1, this.2⟩

/-- the abstract map is empty when nothing is stored -/
theorem repr_empty {s : List (Slot P)} {m : K → Option P} (hr : Repr' keyOf s m) (hn : ∀ q, ¬ Holds s q) : ∀ k, m k = none :=
  fun _ => repr_none hr (fun p hp => absurd hp (hn p))

theorem repr_iff {s s' : List (Slot P)} {m : K → Option P} (hr : Repr' keyOf s m) (hh : ∀ q, Holds s' q ↔ Holds s q) :
    Repr' keyOf s' m := fun k q => by rw [hh]; exact hr k q

/-- What follows when `clear` goes on from entry `i`. -/
theorem clear_next {t : Table P} {s : List (Slot P)} {i : Nat} {m : K → Option P} (hw : WInv c keyOf t s i) (hr : Repr' keyOf s m)
    (hle : i ≤ s.length) :
    ∃ r a', clearScan (fun _ => false) i (t.capacity - i) t = .ok r ∧ Next .clearing false m a' ∧
      Rel c keyOf h (enter .clearing [] r).1 a' ∧ (enter .clearing [] r).2 = .done ∧ Book t (enter .clearing [] r).1.t false := by
  have hcap := hw.cap
  obtain ⟨t', s', hm, hcp, hh, hnd, hcase⟩ := clearScan_spec (h := h) (t.capacity - i) i t s (by omega) hw
  rcases hcase with ⟨j, k, hrun, hw', hat⟩ | ⟨hrun, hi', hno⟩
  · refine ⟨_, ⟨m, [.clearing k], false⟩, hrun, .more k ?_, ?_, rfl, ⟨?_, hm, fun _ => hcp⟩⟩
    · exact hat.present (repr_iff hr hh)
    · exact .clearing hw' (repr_iff hr hh) (.base j k rfl hat)
    · show t'.nelements + t'.ndeleted ≤ _; simp only [Bool.false_eq_true, if_false]; omega
  · refine ⟨_, ⟨m, [], false⟩, hrun, .done ?_, ?_, rfl, ⟨?_, hm, fun _ => hcp⟩⟩
    · exact repr_empty (repr_iff hr hh) hno
    · exact .live hi' (repr_iff hr hh) (.nil rfl)
    · show t'.nelements + t'.ndeleted ≤ _; simp only [Bool.false_eq_true, if_false]; omega

/-- What follows when `~HashTable` goes on from entry `i`. -/
theorem destroy_next {t : Table P} {s : List (Slot P)} {i : Nat} {m : K → Option P} (hd : DInv keyOf t s i) (hr : Repr' keyOf s m)
    (hle : i ≤ s.length) :
    ∃ r a', destroyScan (fun _ => false) i (t.capacity - i) t = .ok r ∧ Next .destroying true m a' ∧
      Rel c keyOf h (enter .destroying [] r).1 a' ∧ (enter .destroying [] r).2 = .done ∧
      Book t (enter .destroying [] r).1.t false := by
  have hcap := hd.cap
  rcases destroyScan_spec (t.capacity - i) i t s (by omega) hd with ⟨j, k, hrun, hd', hat⟩ |
    ⟨t', hrun, hg, _, _, hn, hdl, hmn, hcp, hno⟩
  · exact ⟨_, ⟨m, [.destroying k], false⟩, hrun, .more k (hat.present hr), .destroying hd' hr hat, rfl, Book.refl t false⟩
  · refine ⟨_, ⟨m, [], true⟩, hrun, .done (repr_empty hr hno), .gone hg (repr_empty hr hno), rfl, ⟨?_, hmn, fun _ => hcp⟩⟩
    show t'.nelements + t'.ndeleted ≤ _; simp only [Bool.false_eq_true, if_false]; omega

theorem ret_good {m : Mach P} {a : AState K P} (hrel : Rel c keyOf h m a) : GoodStep c pol canon keyOf h m a .ret := by
  unfold GoodStep
  simp only [step]
  cases hrel with
  | @live t s st mm ps hi hr hrem =>
    cases hrem with
    | nil _ => exact ⟨_, _, _, rfl, .retIdle mm false, .live hi hr (.nil rfl), Book.refl _ _, by simp [Out.isFailure]⟩
    | base i k hb => cases hb
    | @cons i k st ps hat hne hrem =>
      obtain ⟨e, p, he, hp, hk⟩ := hat
      obtain ⟨t', hrun, hi', hnd, hcp, hmn, hh⟩ := removeEntry_spec hi he hp
      simp only [endDtor, bind, Except.bind, hrun]
      refine ⟨_, _, _, rfl, .retRemoving mm k ps, .live hi' ?_ (hrem.set hne), ⟨by show t'.nelements + t'.ndeleted ≤ _; omega, hmn, fun _ => hcp⟩, by simp [Out.isFailure]⟩
      rw [← hk]
      exact kill_repr hr hh
  | @clearing t s st mm ps i0 hw hr hrem =>
    cases hrem with
    | nil hb => cases hb
    | base i k hb hat =>
      cases hb
      obtain ⟨e, p, he, hp, hk⟩ := hat
      obtain ⟨h1, h2, hw', hh⟩ := setFree_weak hw he hp
      have hilt := lt_of_get he
      obtain ⟨r, a', hscan, hnext, hrel', hout, hbook⟩ := clear_next (h := h) hw' (kill_repr hr hh)
        (by rw [List.length_set]; omega)
      simp only [endDtor, bind, Except.bind, load_ok hw.tbl he, h1, h2, busy_false_nil]
      simp only at hscan
      rw [hscan]
      refine ⟨(enter .clearing [] r).1, .done, a', ?_, .retClearing mm k a' (by rw [← hk]; exact hnext), hrel', ⟨hbook.load, hbook.min, hbook.cap⟩,
        by simp [Out.isFailure]⟩
      show Except.ok (enter .clearing [] r) = _
      rw [← hout]
    | @cons i k st ps hat hne hrem =>
      obtain ⟨e, p, he, hp, hk⟩ := hat
      obtain ⟨t', hrun, hw', hnd, hmn, hcp, hh⟩ := removeEntry_weak hw he hp
      simp only [endDtor, bind, Except.bind, hrun]
      refine ⟨_, _, _, rfl, .retRemoving mm k ps, .clearing hw' ?_ (hrem.set hne), ⟨by show t'.nelements + t'.ndeleted ≤ _; omega, hmn, fun _ => hcp⟩, by simp [Out.isFailure]⟩
      rw [← hk]
      exact kill_repr hr hh
  | @destroying t s mm i k hd hr hat =>
    obtain ⟨e, p, he, hp, hk⟩ := hat
    obtain ⟨h1, h2, hd', hh⟩ := destruct_weak hd he hp
    have hilt := lt_of_get he
    obtain ⟨r, a', hscan, hnext, hrel', hout, hbook⟩ := destroy_next (c := c) (h := h) hd' (kill_repr hr hh)
      (by rw [List.length_set]; omega)
    simp only [endDtor, bind, Except.bind, load_ok hd.tbl he, h1, h2, busy_false_nil]
    simp only at hscan
    rw [hscan]
    refine ⟨(enter .destroying [] r).1, .done, a', ?_, .retDestroying mm k a' (by rw [← hk]; exact hnext), hrel', ⟨hbook.load, hbook.min, hbook.cap⟩,
      by simp [Out.isFailure]⟩
    show Except.ok (enter .destroying [] r) = _
    rw [← hout]
  | @gone t mm hg hm => exact ⟨_, _, _, rfl, .retIdle mm true, .gone hg hm, Book.refl _ _, by simp [Out.isFailure]⟩

/-- One polite action. -/
theorem step_spec (hl : Lawful pol canon keyOf h) {m : Mach P} {a : AState K P} (hrel : Rel c keyOf h m a) (act : Act L P)
    (hpol : Polite .all c pol canon keyOf m act) :
    GoodStep c pol canon keyOf h m a act ∨
    (∃ f, step c pol m act = .error f ∧ act.isAdd = true ∧ Resize c m.t act.memOk f ∧ ∃ s, Inv c keyOf h m.t s) := by
  by_cases hret : act = .ret
  · subst hret; exact .inl (ret_good hrel)
  obtain ⟨hwho, hwhat⟩ := hpol
  obtain ⟨htab, hnd⟩ := hwho.resolve_left hret
  replace hnd := hnd rfl
  cases hrel with
  | @destroying t s mm i k hd hr hat => cases hnd
  | @gone t mm hg hm => exact absurd hg.tbl htab
  | @live t s st mm ps hi hr hrem =>
    cases act with
    | ret => exact absurd rfl hret
    | find l =>
      left
      refine ⟨_, _, _, by simp only [step, bind, Except.bind, find_answer hl hi hr l], .find mm ps l hrem.noClearing,
        .live hi hr hrem, Book.refl _ _, by simp [Out.isFailure]⟩
    | elements =>
      left
      obtain ⟨ks, hks, hmem, hlen⟩ := elements_step hi.sinv.wf hi.sinv.uniq hr
      refine ⟨_, _, _, rfl, .elements mm ps ks _ hks hmem ?_ ?_, .live hi hr hrem, Book.refl _ _, by simp [Out.isFailure]⟩
      · show _ ≤ t.nelements; rw [hi.n, hlen]; exact Nat.le_refl _
      · intro _; show t.nelements = _; rw [hi.n, hlen]
    | add l p memOk =>
      obtain ⟨hkp, _, hcap⟩ := hwhat
      replace hcap := hcap rfl
      rcases exec_step (c := c) hl hi hr (.add l p memOk) hkp with ⟨t1, s1, o, m1, he, hi1, hr1, hst, hmn, hocc, hfail⟩ | ⟨f, he, hre⟩
      · left
        have hrem1 : ¬ (t1.mallocs ≠ t.mallocs ∧ st ≠ []) ∧ Rems keyOf s1 none st ps := by
          rcases hcap with hnil | hcap
          · simp only at hnil
            subst hnil
            cases hrem
            exact ⟨by simp, .nil rfl⟩
          · obtain ⟨hm, htb⟩ := add_same hl hi hkp he (hcap t1 o he)
            refine ⟨by simp [hm], ?_⟩
            rcases htb with htb | ⟨i, e, a, hie, hlv, htb⟩
            · rw [hi1.tbl] at htb; cases htb; exact hrem
            · rw [hi1.tbl] at htb; cases htb
              apply hrem.set
              intro f hf hfi
              obtain ⟨k, _, e', q, he', hq, _⟩ := hrem.at f hf
              rw [hfi, hie] at he'; cases he'
              have := (hi.sinv.wf i e hie).none hlv
              rw [this] at hq; cases hq
        refine ⟨⟨t1, st⟩, o, ⟨m1, ps, false⟩, ?_, ?_, .live hi1 hr1 hrem1.2, ⟨hocc, hmn, fun hc => by cases hc⟩, ?_⟩
        · simp only [step, bind, Except.bind, he, if_neg hrem1.1]
        · cases hst with
          | addNew _ _ _ hm => exact .addNew mm ps l p memOk hm hrem.noClearing
          | addPresent _ _ _ q hm => exact .addPresent mm ps l p memOk q hm hrem.noClearing
          | addFailed _ _ _ hm => exact .addFailed mm ps l p memOk hm hrem.noClearing
        · intro ho
          obtain ⟨_, ha, hc⟩ := hfail ho
          refine ⟨ha, ?_⟩
          rcases hc with hc | hc
          · exact .inl hc
          · exact .inr ⟨s, hi, hc⟩
      · right
        exact ⟨f, by simp only [step, bind, Except.bind, he], rfl, hre, s, hi⟩
    | removeIfExists l =>
      left
      obtain ⟨i, e, hf, he, hcase⟩ := find_spec hl hi.sinv hi.tbl hi.cap hi.free l
      obtain ⟨hA, hB⟩ := remove_good hi.tbl hi.sinv.wf hr hrem l (hwhat rfl) hf he
      rcases hcase with ⟨hlv, hp⟩ | ⟨hfr, habs⟩
      · obtain ⟨h1, h2, h3⟩ := hB hlv hp
        exact ⟨_, _, _, h1, h2, .live hi hr h3, Book.refl _ _, by simp [Out.isFailure]⟩
      · exact ⟨_, _, _, hA (free_not_live hfr), .removeAbsent mm ps l (repr_none hr habs), .live hi hr hrem, Book.refl _ _,
          by simp [Out.isFailure]⟩
    | clear =>
      left
      have hst : st = [] := hwhat rfl
      subst hst
      cases hrem
      obtain ⟨r, a', hscan, hnext, hrel', hout, hbook⟩ := clear_next (h := h) hi.toW hr (Nat.zero_le _)
      rw [Nat.sub_zero] at hscan
      refine ⟨(enter .clearing [] r).1, .done, a', ?_, .clear mm a' hnext, hrel', hbook, by simp [Out.isFailure]⟩
      simp only [step, bind, Except.bind, busy_false_nil, hscan]
      show Except.ok (enter .clearing [] r) = _
      rw [← hout]
    | destroy =>
      left
      have hst : st = [] := hwhat rfl
      subst hst
      cases hrem
      obtain ⟨r, a', hscan, hnext, hrel', hout, hbook⟩ := destroy_next (c := c) (h := h) hi.toD hr (Nat.zero_le _)
      rw [Nat.sub_zero] at hscan
      refine ⟨(enter .destroying [] r).1, .done, a', ?_, .destroy mm a' hnext, hrel', hbook, by simp [Out.isFailure]⟩
      simp only [step, bind, Except.bind, busy_false_nil, hscan]
      show Except.ok (enter .destroying [] r) = _
      rw [← hout]
  | @clearing t s st mm ps i0 hw hr hrem =>
    left
    have hst : st ≠ [] := by intro hc; rw [hc] at hrem; cases hrem with | nil hb => cases hb
    cases act with
    | ret => exact absurd rfl hret
    | find l =>
      obtain ⟨i, e, hf, he, hcase⟩ := find_weak hl hw l
      unfold GoodStep
      simp only [step, exec, bind, Except.bind, hf, Table.found, load_ok hw.tbl he]
      rcases hcase with ⟨hlv, p, hp, hk⟩ | hfr
      · obtain ⟨p', hp', hpay⟩ := (hw.wf _ _ he).payload hlv
        rw [hp] at hp'; cases hp'
        simp only [hlv, if_true, deref, bind, Except.bind, load_ok hw.tbl he, hpay]
        refine ⟨_, _, _, rfl, ?_, .clearing hw hr hrem, Book.refl _ _, by simp [Out.isFailure]⟩
        have hm : mm (canon l) = some p := (hr _ _).2 ⟨⟨i, e, he, hp⟩, hk⟩
        rw [← hm]
        exact .findClearing mm ps l hrem.clearing
      · simp only [free_not_live hfr, Bool.false_eq_true, if_false]
        exact ⟨_, _, _, rfl, .findMissed mm ps l hrem.clearing, .clearing hw hr hrem, Book.refl _ _, by simp [Out.isFailure]⟩
    | elements =>
      obtain ⟨ks, hks, hmem, hlen⟩ := elements_step hw.wf hw.uniq hr
      refine ⟨_, _, _, rfl, .elements mm ps ks _ hks hmem ?_ ?_, .clearing hw hr hrem, Book.refl _ _, by simp [Out.isFailure]⟩
      · show _ ≤ t.nelements; rw [hlen]; exact hw.nle
      · intro hc; rw [hrem.clearing] at hc; cases hc
    | add l p memOk =>
      obtain ⟨_, hall, _⟩ := hwhat
      have := List.all_eq_true.1 (hall rfl) _ hrem.clearingFrame
      cases this
    | removeIfExists l =>
      obtain ⟨i, e, hf, he, hcase⟩ := find_weak hl hw l
      obtain ⟨hA, hB⟩ := remove_good hw.tbl hw.wf hr hrem l (hwhat rfl) hf he
      rcases hcase with ⟨hlv, hp⟩ | hfr
      · obtain ⟨h1, h2, h3⟩ := hB hlv hp
        exact ⟨_, _, _, h1, h2, .clearing hw hr h3, Book.refl _ _, by simp [Out.isFailure]⟩
      · exact ⟨_, _, _, hA (free_not_live hfr), .removeMissed mm ps l hrem.clearing, .clearing hw hr hrem, Book.refl _ _,
          by simp [Out.isFailure]⟩
    | clear => exact absurd (hwhat rfl) hst
    | destroy => exact absurd (hwhat rfl) hst

end Verif.HashTable
