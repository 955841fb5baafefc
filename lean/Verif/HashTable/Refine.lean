import Verif.HashTable.Ops2
import Verif.HashTable.Spec
/-! Every client operation refines the finite-map specification. -/
namespace Verif.HashTable
open Verif

variable {L P K : Type} [DecidableEq K] {c : Config} {canon : L → K} {keyOf : P → K}
  {h : K → BitVec 32} {pol : Policy L P}

/-- `m` is the map the slot array represents. -/
def Repr' (keyOf : P → K) (s : List (Slot P)) (m : K → Option P) : Prop :=
  ∀ k p, m k = some p ↔ Holds s p ∧ keyOf p = k

omit [DecidableEq K] in
theorem repr_none {s : List (Slot P)} {m : K → Option P} (hr : Repr' keyOf s m) {k : K}
    (habs : ∀ p, Holds s p → keyOf p ≠ k) : m k = none := by
  cases hm : m k with
  | none => rfl
  | some p => have := (hr k p).1 hm; exact absurd this.2 (habs p this.1)

/-- A failure answer: `add` or `checkDensity` returned false. -/
def Out.isFailure : Out P → Bool
  | .failed => true
  | .density false => true
  | _ => false

theorem exec_step (hl : Lawful pol canon keyOf h) {t : Table P} {s : List (Slot P)}
    (hi : Inv c keyOf h t s) {m : K → Option P} (hr : Repr' keyOf s m) (op : Op L P)
    (hop : op.Ok canon keyOf) :
    (∃ t' s' out m', exec c pol t op = .ok (t', out) ∧ Inv c keyOf h t' s' ∧ Repr' keyOf s' m' ∧
      Step canon keyOf m op out m' ∧ t'.minCapacity = t.minCapacity ∧
      t'.nelements + t'.ndeleted ≤ t.nelements + t.ndeleted + (if op.isAdd = true then 1 else 0) ∧
      (out.isFailure = true → t' = t ∧ c.aborts = false ∧ (op.memOk = false ∨ NearLimit c t))) ∨
    (∃ f, exec c pol t op = .error f ∧ Resize c t op.memOk f) := by
  cases op with
  | find l =>
    left
    obtain ⟨i, e, hf, he, hcase⟩ := find_spec hl hi.sinv hi.tbl hi.cap hi.free l
    simp only [exec, bind, Except.bind, hf, Table.found, load_ok hi.tbl he]
    rcases hcase with ⟨hlv, p, hp, hk⟩ | ⟨hfr, habs⟩
    · obtain ⟨p', hp', hpay⟩ := (hi.sinv.wf _ _ he).payload hlv
      rw [hp] at hp'; cases hp'
      simp only [hlv, if_true, deref, bind, Except.bind, load_ok hi.tbl he, hpay]
      refine ⟨t, s, _, m, rfl, hi, hr, ?_, rfl, by omega, by simp [Out.isFailure]⟩
      have hm : m (canon l) = some p := (hr _ _).2 ⟨⟨i, e, he, hp⟩, hk⟩
      rw [← hm]; exact Step.find m l
    · simp only [free_not_live hfr, Bool.false_eq_true, if_false]
      refine ⟨t, s, _, m, rfl, hi, hr, ?_, rfl, by omega, by simp [Out.isFailure]⟩
      rw [← repr_none hr habs]; exact Step.find m l
  | add l p memOk =>
    have hkp : keyOf p = canon l := hop
    obtain ⟨i, e, hf, he, hcase⟩ := findForAdd_spec hl hi.sinv hi.tbl hi.cap hi.free l
    simp only [exec, bind, Except.bind, hf, Table.found, load_ok hi.tbl he]
    rcases hcase with ⟨hlv, q, hq, hk⟩ | ⟨hdead, habs, hpath⟩
    · left
      obtain ⟨q', hq', hpay⟩ := (hi.sinv.wf _ _ he).payload hlv
      rw [hq] at hq'; cases hq'
      simp only [hlv, if_true, deref, bind, Except.bind, load_ok hi.tbl he, hpay]
      refine ⟨t, s, _, m, rfl, hi, hr, ?_, rfl, by omega, by simp [Out.isFailure]⟩
      exact Step.addPresent m l p memOk q ((hr _ _).2 ⟨⟨i, e, he, hq⟩, hk⟩)
    · simp only [hdead, Bool.false_eq_true, if_false]
      have hcomp : computeHash pol l = mix (h (keyOf p)) := by rw [hash_of_lookup hl, hkp]
      rw [hcomp] at hpath ⊢
      rcases add_spec hi p memOk he hdead (fun q hq => by rw [hkp]; exact habs q hq) hpath with
        ⟨t', s', i', hrun, hi', hn', hd', hm', hget, hh'⟩ | ⟨hrun, ha, hcond⟩ | ⟨f, hrun, hcond⟩
      · left
        have hwf := hi'.sinv.wf _ _ hget
        have hpay : (⟨mix (h (keyOf p)), some p⟩ : Slot P).payload = .ok p := by
          obtain ⟨p', hp', hpay⟩ := hwf.payload (by rw [isLive_iff]; exact mix_live _)
          simp only [Option.some.injEq] at hp'; subst hp'; exact hpay
        simp only [hrun, if_true, deref, bind, Except.bind, load_ok hi'.tbl hget, hpay]
        refine ⟨t', s', _, upd m (canon l) (some p), rfl, hi', ?_, ?_, hm', ?_, by simp [Out.isFailure]⟩
        · intro k q
          rw [hh']
          unfold upd
          split
          · rename_i hkk
            subst hkk
            constructor
            · intro hq; cases hq; exact ⟨.inl rfl, hkp⟩
            · rintro ⟨rfl | hq, hk⟩
              · rfl
              · exact absurd hk (habs q hq)
          · rename_i hkk
            rw [hr]
            constructor
            · rintro ⟨hq, hk⟩; exact ⟨.inr hq, hk⟩
            · rintro ⟨rfl | hq, hk⟩
              · exact absurd (hk.symm.trans hkp) hkk
              · exact ⟨hq, hk⟩
        · exact Step.addNew m l p memOk (repr_none hr habs)
        · simp only [Op.isAdd, if_true]; omega
      · left
        simp only [hrun, Bool.false_eq_true, if_false]
        refine ⟨t, s, _, m, rfl, hi, hr, ?_, rfl, by omega, fun _ => ⟨rfl, ha, hcond⟩⟩
        exact Step.addFailed m l p memOk (repr_none hr habs)
      · right
        simp only [hrun]
        exact ⟨f, rfl, hcond⟩
  | assign l p =>
    left
    have hkp : keyOf p = canon l := hop
    obtain ⟨i, e, hf, he, hcase⟩ := find_spec hl hi.sinv hi.tbl hi.cap hi.free l
    simp only [exec, bind, Except.bind, hf, Table.found, load_ok hi.tbl he]
    rcases hcase with ⟨hlv, q, hq, hk⟩ | ⟨hfr, habs⟩
    · obtain ⟨q', hq', hpay⟩ := (hi.sinv.wf _ _ he).payload hlv
      rw [hq] at hq'; cases hq'
      simp only [hlv, if_true, deref, assign, bind, Except.bind, load_ok hi.tbl he, hpay]
      rw [store_ok hi.tbl (lt_of_get he)]
      obtain ⟨hs', hh', hn', hr'⟩ := hi.sinv.assign he hq (p' := p) (by rw [hkp, hk])
      refine ⟨_, _, _, upd m (canon l) (some p), rfl, ⟨rfl, ?_, hs', ?_, ?_, hi.load, hi.max, hi.minPow,
        hi.min16, hi.minCap, hi.life, hi.mem⟩, ?_, ?_, rfl, by dsimp only; omega, by simp [Out.isFailure]⟩
      · rw [List.length_set]; exact hi.cap
      · rw [hn']; exact hi.n
      · rw [hr']; exact hi.d
      · intro k q'
        rw [hh']
        unfold upd
        split
        · rename_i hkk
          subst hkk
          constructor
          · intro hq; cases hq; exact ⟨.inl rfl, hkp⟩
          · rintro ⟨rfl | ⟨_, hne⟩, hk'⟩
            · rfl
            · exact absurd (hk'.trans hk.symm) hne
        · rename_i hkk
          rw [hr]
          constructor
          · rintro ⟨hq', hk'⟩; exact ⟨.inr ⟨hq', fun hc => hkk (by rw [← hk', hc, hk])⟩, hk'⟩
          · rintro ⟨rfl | ⟨hq', _⟩, hk'⟩
            · exact absurd (hk'.symm.trans hkp) hkk
            · exact ⟨hq', hk'⟩
      · exact Step.assignPresent m l p q ((hr _ _).2 ⟨⟨i, e, he, hq⟩, hk⟩)
    · simp only [free_not_live hfr, Bool.false_eq_true, if_false]
      refine ⟨t, s, _, m, rfl, hi, hr, ?_, rfl, by omega, by simp [Out.isFailure]⟩
      exact Step.assignAbsent m l p (repr_none hr habs)
  | removeIfExists l =>
    left
    obtain ⟨i, e, hf, he, hcase⟩ := find_spec hl hi.sinv hi.tbl hi.cap hi.free l
    simp only [exec, removeIfExists, remove, bind, Except.bind, hf, Table.found, load_ok hi.tbl he]
    rcases hcase with ⟨hlv, q, hq, hk⟩ | ⟨hfr, habs⟩
    · obtain ⟨t', hrun, hi', hnd, hcp, hmn, hh'⟩ := removeEntry_spec hi he hq
      simp only [hlv, if_true, hrun]
      refine ⟨_, _, _, upd m (canon l) none, rfl, hi', ?_, Step.remove m l, hmn, by omega,
        by simp [Out.isFailure]⟩
      intro k q'
      rw [hh']
      unfold upd
      split
      · rename_i hkk
        subst hkk
        constructor
        · intro hc; cases hc
        · rintro ⟨⟨_, hne⟩, hk'⟩; exact absurd (hk'.trans hk.symm) hne
      · rename_i hkk
        rw [hr]
        constructor
        · rintro ⟨hq', hk'⟩; exact ⟨⟨hq', fun hc => hkk (by rw [← hk', hc, hk])⟩, hk'⟩
        · rintro ⟨⟨hq', _⟩, hk'⟩; exact ⟨hq', hk'⟩
    · simp only [free_not_live hfr, Bool.false_eq_true, if_false]
      refine ⟨t, s, _, upd m (canon l) none, rfl, hi, ?_, Step.remove m l, rfl, by omega, by simp [Out.isFailure]⟩
      intro k q'
      unfold upd
      split
      · rename_i hkk
        subst hkk
        constructor
        · intro hc; cases hc
        · rintro ⟨hq', hk'⟩; exact absurd hk' (habs q' hq')
      · exact hr k q'
  | clear =>
    left
    obtain ⟨t', hrun, hi', hn', hd', hcp, hmn, hh'⟩ := clear_spec hi
    simp only [exec, bind, Except.bind, hrun]
    refine ⟨_, _, _, fun _ => none, rfl, hi', ?_, Step.clear m, hmn, by omega, by simp [Out.isFailure]⟩
    intro k q
    constructor
    · intro hc; cases hc
    · rintro ⟨hq, _⟩; exact absurd hq (hh' q)
  | checkDensity memOk =>
    rcases checkDensity_spec hi memOk with ⟨t1, s1, hrun, hi1, hn1, hm1, hload1, hsame, hdz, hdle, hh1⟩ |
        ⟨hrun, ha, hcond⟩ | ⟨f, hrun, hcond⟩
    · left
      simp only [exec, bind, Except.bind, hrun]
      refine ⟨_, _, _, m, rfl, hi1, ?_, Step.checkDensity m memOk true, hm1, by omega, by simp [Out.isFailure]⟩
      intro k q; rw [hh1]; exact hr k q
    · left
      simp only [exec, bind, Except.bind, hrun]
      exact ⟨_, _, _, m, rfl, hi, hr, Step.checkDensity m memOk false, rfl, by omega, fun _ => ⟨rfl, ha, hcond⟩⟩
    · right
      simp only [exec, bind, Except.bind, hrun]
      exact ⟨f, rfl, hcond⟩
  | sweep pick =>
    left
    obtain ⟨t', s', hrun, hi', hnd, hcp, hmn, hh'⟩ := sweep_spec pick hi
    simp only [exec, bind, Except.bind, hrun]
    refine ⟨_, _, _, fun k => (m k).filter (fun p => !pick p), rfl, hi', ?_, ?_, hmn, by omega,
      by simp [Out.isFailure]⟩
    · intro k q
      rw [hh', Option.filter_eq_some_iff, hr]
      simp only [Bool.not_eq_true']
      constructor
      · rintro ⟨⟨a, b⟩, c⟩; exact ⟨⟨a, by simp [c]⟩, b⟩
      · rintro ⟨⟨a, b⟩, c⟩; exact ⟨⟨a, c⟩, by simpa using b⟩
    · refine Step.sweep m pick _ ?_ (contents_nodup hi.sinv)
      intro p
      rw [mem_contents, hr]
      exact ⟨fun hp => ⟨hp, rfl⟩, fun hp => hp.1⟩
  | elements =>
    left
    refine ⟨t, s, _, m, rfl, hi, hr, ?_, rfl, by omega, by simp [Out.isFailure]⟩
    have hlen : (contents s).length = nLive s :=
      contents_length (fun e he => by
        obtain ⟨i, hi'⟩ := List.mem_iff_getElem?.1 he
        exact hi.sinv.wf i e hi')
    have := Step.elements (canon := canon) (keyOf := keyOf) m ((contents s).map keyOf)
      (contents_nodup hi.sinv) (by
        intro k
        rw [List.mem_map]
        constructor
        · rintro ⟨p, hp, rfl⟩
          rw [(hr _ p).2 ⟨mem_contents.1 hp, rfl⟩]; simp
        · intro hne
          cases hm : m k with
          | none => exact absurd hm hne
          | some p =>
            have := (hr k p).1 hm
            exact ⟨p, mem_contents.2 this.1, this.2⟩)
    rw [List.length_map, hlen, ← hi.n] at this
    exact this
  | move =>
    left
    refine ⟨t, s, _, m, ?_, hi, hr, Step.move m, rfl, by omega, ?_⟩
    · simp only [exec, moveFrom, destroy, destroyLoop, bind, Except.bind]
    · simp [Out.isFailure]

/-! ### Histories -/

theorem run_steps (hl : Lawful pol canon keyOf h) : ∀ (ops : List (Op L P)) (t : Table P)
    (s : List (Slot P)) (m : K → Option P), Inv c keyOf h t s → Repr' keyOf s m →
    (∀ op ∈ ops, op.Ok canon keyOf) →
    ∀ t' outs, run c pol t ops = .ok (t', outs) →
    ∃ s' m', Inv c keyOf h t' s' ∧ Repr' keyOf s' m' ∧ Steps canon keyOf m ops outs m' ∧
      t'.minCapacity = t.minCapacity := by
  intro ops
  induction ops with
  | nil =>
    intro t s m hi hr _ t' outs hrun
    simp only [run, Except.ok.injEq, Prod.mk.injEq] at hrun
    obtain ⟨rfl, rfl⟩ := hrun
    exact ⟨s, m, hi, hr, Steps.nil m, rfl⟩
  | cons op ops ih =>
    intro t s m hi hr hok t' outs hrun
    simp only [run, bind, Except.bind] at hrun
    rcases exec_step (c := c) hl hi hr op (hok op List.mem_cons_self) with
      ⟨t1, s1, o, m1, he, hi1, hr1, hst, hmn, _, _⟩ | ⟨f, he, _⟩
    · rw [he] at hrun
      simp only at hrun
      cases hrest : run c pol t1 ops with
      | error f => rw [hrest] at hrun; simp at hrun
      | ok v =>
        obtain ⟨t2, os⟩ := v
        rw [hrest] at hrun
        simp only [Except.ok.injEq, Prod.mk.injEq] at hrun
        obtain ⟨rfl, rfl⟩ := hrun
        obtain ⟨s2, m2, hi2, hr2, hsts, hmn2⟩ := ih t1 s1 m1 hi1 hr1
          (fun op hop => hok op (List.mem_cons_of_mem _ hop)) t2 os hrest
        exact ⟨s2, m2, hi2, hr2, Steps.cons hst hsts, hmn2.trans hmn⟩
    · rw [he] at hrun; simp at hrun

omit [DecidableEq K] in
theorem nearLimit_big {t : Table P} {s : List (Slot P)} (hi : Inv c keyOf h t s) (hn : NearLimit c t) :
    3 * c.kMaxCapacity < 8 * (t.nelements + t.ndeleted) := by
  obtain ⟨k, hk31, hk⟩ := hi.sinv.pow
  have h16 := hi.cap_ge
  have hcapk : t.capacity = 2 ^ k := hi.cap.trans hk
  have hk4 : 3 < k := by
    apply pow2_le; rw [← hcapk]; omega
  have : t.capacity = 4 * 2 ^ (k - 2) := by
    rw [hcapk]
    have : k = (k - 2) + 2 := by omega
    rw [this, Nat.pow_add]
    simp only [Nat.add_sub_cancel]
    omega
  obtain ⟨h1, h2⟩ := hn
  omega

/-- Any fault of a history is the documented abort of the allocation policy or the capacity assertion. -/
theorem run_fault (hl : Lawful pol canon keyOf h) : ∀ (ops : List (Op L P)) (t : Table P)
    (s : List (Slot P)) (m : K → Option P), Inv c keyOf h t s → Repr' keyOf s m →
    (∀ op ∈ ops, op.Ok canon keyOf) →
    ∀ f, run c pol t ops = .error f →
      ((f = .abort ∧ c.aborts = true ∧ ((∃ op ∈ ops, op.memOk = false) ∨
          3 * c.kMaxCapacity < 8 * (t.nelements + t.ndeleted + ops.countP Op.isAdd))) ∨
       (f = .assertFail ∧
          3 * c.kMaxCapacity < 8 * (t.nelements + t.ndeleted + ops.countP Op.isAdd))) := by
  intro ops
  induction ops with
  | nil => intro t s m hi hr _ f hrun; simp [run] at hrun
  | cons op ops ih =>
    intro t s m hi hr hok f hrun
    simp only [run, bind, Except.bind] at hrun
    rw [List.countP_cons]
    rcases exec_step (c := c) hl hi hr op (hok op List.mem_cons_self) with
      ⟨t1, s1, o, m1, he, hi1, hr1, hst, hmn, hocc, _⟩ | ⟨f', he, hre⟩
    · rw [he] at hrun
      simp only at hrun
      cases hrest : run c pol t1 ops with
      | ok v => rw [hrest] at hrun; simp at hrun
      | error f' =>
        rw [hrest] at hrun
        simp only [Except.error.injEq] at hrun
        subst hrun
        rcases ih t1 s1 m1 hi1 hr1 (fun op hop => hok op (List.mem_cons_of_mem _ hop)) f' hrest with
          ⟨h1, h2, h3⟩ | ⟨h1, h2⟩
        · left
          refine ⟨h1, h2, ?_⟩
          rcases h3 with ⟨op', hop', hm⟩ | h3
          · exact .inl ⟨op', List.mem_cons_of_mem _ hop', hm⟩
          · right; omega
        · right; exact ⟨h1, by omega⟩
    · rw [he] at hrun
      simp only [Except.error.injEq] at hrun
      subst hrun
      cases hre with
      | abort ha hcond =>
        left
        refine ⟨rfl, ha, ?_⟩
        rcases hcond with hm | hn
        · exact .inl ⟨op, List.mem_cons_self, hm⟩
        · right; have := nearLimit_big hi hn; omega
      | assert hn =>
        right; refine ⟨rfl, ?_⟩; have := nearLimit_big hi hn; omega

/-- With memory available and below the size limit no `add` or `checkDensity` fails. -/
theorem run_no_failure (hl : Lawful pol canon keyOf h) : ∀ (ops : List (Op L P)) (t : Table P)
    (s : List (Slot P)) (m : K → Option P), Inv c keyOf h t s → Repr' keyOf s m →
    (∀ op ∈ ops, op.Ok canon keyOf) → (∀ op ∈ ops, op.memOk = true) →
    8 * (t.nelements + t.ndeleted + ops.countP Op.isAdd) ≤ 3 * c.kMaxCapacity →
    ∃ t' outs, run c pol t ops = .ok (t', outs) ∧ ∀ o ∈ outs, o.isFailure = false := by
  intro ops
  induction ops with
  | nil => intro t s m hi hr _ _ _; exact ⟨t, [], rfl, by simp⟩
  | cons op ops ih =>
    intro t s m hi hr hok hmem hsmall
    simp only [run, bind, Except.bind]
    rw [List.countP_cons] at hsmall
    have hnl : ¬ NearLimit c t := by
      intro hn; have := nearLimit_big hi hn; omega
    rcases exec_step (c := c) hl hi hr op (hok op List.mem_cons_self) with
      ⟨t1, s1, o, m1, he, hi1, hr1, hst, hmn, hocc, hfail⟩ | ⟨f', he, hre⟩
    · rw [he]
      obtain ⟨t2, os, hrun, hos⟩ := ih t1 s1 m1 hi1 hr1 (fun op hop => hok op (List.mem_cons_of_mem _ hop))
        (fun op hop => hmem op (List.mem_cons_of_mem _ hop)) (by omega)
      refine ⟨t2, o :: os, by simp [hrun], ?_⟩
      intro o' ho'
      rcases List.mem_cons.1 ho' with rfl | ho'
      · rw [Bool.eq_false_iff]
        intro hc
        rcases (hfail hc).2.2 with hm | hn
        · rw [hmem op List.mem_cons_self] at hm; cases hm
        · exact hnl hn
      · exact hos o' ho'
    · cases hre with
      | abort ha hcond =>
        rcases hcond with hm | hn
        · rw [hmem op List.mem_cons_self] at hm; cases hm
        · exact absurd hn hnl
      | assert hn => exact absurd hn hnl

omit [DecidableEq K] in
/-- `exec .find` reads the represented map and changes nothing. -/
theorem find_answer (hl : Lawful pol canon keyOf h) {t : Table P} {s : List (Slot P)}
    (hi : Inv c keyOf h t s) {m : K → Option P} (hr : Repr' keyOf s m) (l : L) :
    exec c pol t (.find l) = .ok (t, .found (m (canon l))) := by
  obtain ⟨i, e, hf, he, hcase⟩ := find_spec hl hi.sinv hi.tbl hi.cap hi.free l
  simp only [exec, bind, Except.bind, hf, Table.found, load_ok hi.tbl he]
  rcases hcase with ⟨hlv, p, hp, hk⟩ | ⟨hfr, habs⟩
  · obtain ⟨p', hp', hpay⟩ := (hi.sinv.wf _ _ he).payload hlv
    rw [hp] at hp'; cases hp'
    have hm : m (canon l) = some p := (hr _ _).2 ⟨⟨i, e, he, hp⟩, hk⟩
    simp only [hlv, if_true, deref, bind, Except.bind, load_ok hi.tbl he, hpay, hm]
  · simp only [free_not_live hfr, Bool.false_eq_true, if_false, repr_none hr habs]

/-- Two answers that agree up to the order in which a walk visits the entries. -/
inductive OutEq : Out P → Out P → Prop
  | refl o : OutEq o o
  | visited {ps qs : List P} : ps.Perm qs → OutEq (.visited ps) (.visited qs)

/-- Two histories of answers of the same length, pairwise the same up to walk order. -/
inductive OutsEq : List (Out P) → List (Out P) → Prop
  | nil : OutsEq [] []
  | cons {o o' : Out P} {os os' : List (Out P)} :
      OutEq o o' → OutsEq os os' → OutsEq (o :: os) (o' :: os')

theorem step_det {m m1 m2 : K → Option P} {op : Op L P} {o1 o2 : Out P}
    (h1 : Step canon keyOf m op o1 m1) (h2 : Step canon keyOf m op o2 m2)
    (f1 : o1.isFailure = false) (f2 : o2.isFailure = false) : OutEq o1 o2 ∧ m1 = m2 := by
  cases h1 with
  | find l => cases h2; exact ⟨.refl _, rfl⟩
  | addNew l p b hm =>
    cases h2 with
    | addNew => exact ⟨.refl _, rfl⟩
    | addPresent _ _ _ q hq => rw [hm] at hq; cases hq
    | addFailed => simp [Out.isFailure] at f2
  | addPresent l p b q hm =>
    cases h2 with
    | addNew _ _ _ hq => rw [hm] at hq; cases hq
    | addPresent _ _ _ q' hq => rw [hm] at hq; cases hq; exact ⟨.refl _, rfl⟩
    | addFailed => simp [Out.isFailure] at f2
  | addFailed => simp [Out.isFailure] at f1
  | assignPresent l p q hm =>
    cases h2 with
    | assignPresent _ _ q' hq => rw [hm] at hq; cases hq; exact ⟨.refl _, rfl⟩
    | assignAbsent _ _ hq => rw [hm] at hq; cases hq
  | assignAbsent l p hm =>
    cases h2 with
    | assignPresent _ _ q' hq => rw [hm] at hq; cases hq
    | assignAbsent => exact ⟨.refl _, rfl⟩
  | remove l => cases h2; exact ⟨.refl _, rfl⟩
  | clear => cases h2; exact ⟨.refl _, rfl⟩
  | checkDensity b ok =>
    cases h2 with
    | checkDensity _ ok' =>
      cases ok
      · simp [Out.isFailure] at f1
      · cases ok'
        · simp [Out.isFailure] at f2
        · exact ⟨.refl _, rfl⟩
  | sweep pick vs hv hn =>
    cases h2 with
    | sweep _ ws hw hn' =>
      refine ⟨.visited ?_, rfl⟩
      rw [List.perm_ext_iff_of_nodup]
      · intro p; rw [hv, hw]
      · exact List.Pairwise.of_map keyOf (fun a b hab e => hab (by rw [e])) hn
      · exact List.Pairwise.of_map keyOf (fun a b hab e => hab (by rw [e])) hn'
  | elements ks hn hk =>
    cases h2 with
    | elements ks' hn' hk' =>
      have : ks.Perm ks' := by
        rw [List.perm_ext_iff_of_nodup hn hn']; intro k; rw [hk, hk']
      rw [this.length_eq]
      exact ⟨.refl _, rfl⟩
  | move => cases h2; exact ⟨.refl _, rfl⟩

end Verif.HashTable
