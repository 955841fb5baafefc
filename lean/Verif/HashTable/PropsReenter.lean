import Verif.HashTable.ReenterSim
import Verif.HashTable.Props
/-!
# Property C124: payload destructors that use the table

`runR c pol ⟨t0, []⟩ acts`: a history of the program and of the payload destructors it runs (Reenter.lean); `PoliteRun` says
what they may do, `RSteps` what they then observe (SpecReenter.lean).
-/
set_option linter.unusedSectionVars false
namespace Verif.HashTable
open Verif

variable {L P K : Type} [DecidableEq K] {c : Config} {canon : L → K} {keyOf : P → K}
  {h : K → BitVec 32} {pol : Policy L P}

/-- No payload, nothing running. -/
def emptyA : AState K P := ⟨fun _ => none, [], false⟩

theorem started_rel {cap : Nat} {t0 : Table P} (hst : Started c cap t0) : Rel c keyOf h ⟨t0, []⟩ (emptyA : AState K P) := by
  obtain ⟨s, hi, hr, _⟩ := started_inv (keyOf := keyOf) (h := h) hst
  exact .live hi hr (.nil rfl)

/-- Histories. -/
theorem runR_spec (hl : Lawful pol canon keyOf h) : ∀ (acts : List (Act L P)) (m : Mach P) (a : AState K P),
    Rel c keyOf h m a → PoliteRun .all c pol canon keyOf m acts →
    (∃ m' outs a', runR c pol m acts = .ok (m', outs) ∧ RSteps canon a acts outs a' ∧ Rel c keyOf h m' a' ∧
      m'.t.minCapacity = m.t.minCapacity ∧
      ((∃ o ∈ outs, o.isFailure = true) → c.aborts = false ∧ ((∃ act ∈ acts, act.memOk = false) ∨
        3 * c.kMaxCapacity < 8 * (m.t.nelements + m.t.ndeleted + acts.countP Act.isAdd)))) ∨
    (∃ f, runR c pol m acts = .error f ∧
      ((f = .abort ∧ c.aborts = true ∧ ((∃ act ∈ acts, act.memOk = false) ∨
          3 * c.kMaxCapacity < 8 * (m.t.nelements + m.t.ndeleted + acts.countP Act.isAdd))) ∨
       (f = .assertFail ∧ 3 * c.kMaxCapacity < 8 * (m.t.nelements + m.t.ndeleted + acts.countP Act.isAdd)))) := by
  intro acts
  induction acts with
  | nil => intro m a hrel _; exact .inl ⟨m, [], a, rfl, .nil a, hrel, rfl, by simp⟩
  | cons act acts ih =>
    intro m a hrel hpol
    rw [List.countP_cons]
    rcases step_spec hl hrel act hpol.1 with ⟨m1, o, a1, hstep, hr1, hrel1, hbook, hfail⟩ | ⟨f, hstep, hadd, hre, s, hi⟩
    · have hload := hbook.load
      rcases ih m1 a1 hrel1 (hpol.2 m1 o hstep) with ⟨m2, os, a2, hrun, hr2, hrel2, hmn, hf2⟩ | ⟨f, hrun, hf⟩
      · left
        refine ⟨m2, o :: os, a2, by simp only [runR, bind, Except.bind, hstep, hrun], .cons hr1 hr2, hrel2, hmn.trans hbook.min, ?_⟩
        rintro ⟨o', ho', hfo⟩
        rcases List.mem_cons.1 ho' with rfl | ho'
        · obtain ⟨ha, hc⟩ := hfail hfo
          refine ⟨ha, ?_⟩
          rcases hc with hc | ⟨s, hi, hc⟩
          · exact .inl ⟨act, List.mem_cons_self, hc⟩
          · right; have := nearLimit_big hi hc; omega
        · obtain ⟨ha, hc⟩ := hf2 ⟨o', ho', hfo⟩
          refine ⟨ha, ?_⟩
          rcases hc with ⟨act', hact', hc⟩ | hc
          · exact .inl ⟨act', List.mem_cons_of_mem _ hact', hc⟩
          · right; omega
      · right
        refine ⟨f, by simp only [runR, bind, Except.bind, hstep, hrun], ?_⟩
        rcases hf with ⟨h1, h2, h3⟩ | ⟨h1, h2⟩
        · left
          refine ⟨h1, h2, ?_⟩
          rcases h3 with ⟨act', hact', hc⟩ | hc
          · exact .inl ⟨act', List.mem_cons_of_mem _ hact', hc⟩
          · right; omega
        · right; exact ⟨h1, by omega⟩
    · right
      refine ⟨f, by simp only [runR, bind, Except.bind, hstep], ?_⟩
      cases hre with
      | abort ha hcond =>
        left
        refine ⟨rfl, ha, ?_⟩
        rcases hcond with hm | hn
        · exact .inl ⟨act, List.mem_cons_self, hm⟩
        · right; have := nearLimit_big hi hn; omega
      | assert hn => right; refine ⟨rfl, ?_⟩; have := nearLimit_big hi hn; omega

theorem nObj_contents (s : List (Slot P)) : (contents s).length = nObj s := by
  induction s with
  | nil => rfl
  | cons e s ih =>
    unfold contents nObj at *
    rw [List.filterMap_cons, List.countP_cons]
    cases e.obj <;> simp [ih]

/-- The payloads that are alive are those in the map. -/
theorem rel_life {m : Mach P} {a : AState K P} (hrel : Rel c keyOf h m a) :
    ∃ ks : List K, ks.Nodup ∧ (∀ k, k ∈ ks ↔ a.m k ≠ none) ∧ m.t.ctors = m.t.dtors + ks.length := by
  cases hrel with
  | live hi hr _ =>
    obtain ⟨ks, h1, h2, h3⟩ := elements_step hi.sinv.wf hi.sinv.uniq hr
    exact ⟨ks, h1, h2, by rw [h3, ← hi.n]; exact hi.life⟩
  | clearing hw hr _ =>
    obtain ⟨ks, h1, h2, h3⟩ := elements_step hw.wf hw.uniq hr
    exact ⟨ks, h1, h2, by rw [h3]; exact hw.life⟩
  | @destroying t s mm i k hd hr _ =>
    refine ⟨(contents s).map keyOf, ?_, ?_, by rw [List.length_map, nObj_contents]; exact hd.life⟩
    · unfold contents
      rw [List.Nodup, List.pairwise_map, List.pairwise_filterMap, List.pairwise_iff_getElem]
      intro i j hi hj hij p hp q hq hk
      have := hd.uniq i j _ _ p q (List.getElem?_eq_getElem hi) (List.getElem?_eq_getElem hj) hp hq hk
      omega
    · intro k
      rw [List.mem_map]
      constructor
      · rintro ⟨p, hp, rfl⟩
        show mm (keyOf p) ≠ none
        rw [(hr _ p).2 ⟨mem_contents.1 hp, rfl⟩]; simp
      · intro hne
        cases hm : mm k with
        | none => exact absurd hm hne
        | some p =>
          have := (hr k p).1 hm
          exact ⟨p, mem_contents.2 this.1, this.2⟩
  | @gone t mm hg hm => exact ⟨[], List.nodup_nil, fun k => by simp [hm k], hg.life⟩

/-! ### C124 -/

/-- C124 (missing: what `C124_*_refuted` show to fail): in every history in which the destructors keep to the rules, every answer is one the specification allows, a removal taking effect when its destructor ends; and at each point,
also inside a destructor, the payloads alive are exactly those in the map, so each is destroyed exactly once. -/
theorem C124_destructors_partial (hl : Lawful pol canon keyOf h) {cap : Nat} {t0 : Table P} (hst : Started c cap t0)
    {acts : List (Act L P)} (hpol : PoliteRun .all c pol canon keyOf ⟨t0, []⟩ acts) {m : Mach P} {outs : List (Out P)}
    (hrun : runR c pol ⟨t0, []⟩ acts = .ok (m, outs)) :
    ∃ a : AState K P, RSteps canon emptyA acts outs a ∧ m.stack.length = a.pend.length ∧
      (∃ ks : List K, ks.Nodup ∧ (∀ k, k ∈ ks ↔ a.m k ≠ none) ∧ m.t.ctors = m.t.dtors + ks.length) ∧
      (a.pend = [] → a.gone = false → ∀ l, exec c pol m.t (.find l) = .ok (m.t, .found (a.m (canon l)))) ∧
      (a.gone = true → m.t.ctors = m.t.dtors ∧ m.t.mallocs = m.t.frees) := by
  rcases runR_spec hl acts _ _ (started_rel (keyOf := keyOf) (h := h) hst) hpol with
    ⟨m', outs', a, hrun', hr, hrel, _, _⟩ | ⟨f, hrun', _⟩
  · rw [hrun'] at hrun
    simp only [Except.ok.injEq, Prod.mk.injEq] at hrun
    obtain ⟨rfl, rfl⟩ := hrun
    refine ⟨a, hr, ?_, rel_life hrel, ?_, ?_⟩
    · have hlen : ∀ {s : List (Slot P)} {b st ps}, Rems keyOf s b st ps → st.length = ps.length := by
        intro s b st ps hrem
        induction hrem with
        | nil _ => rfl
        | base _ _ _ _ => rfl
        | cons _ _ _ ih => simp [ih]
      cases hrel with
      | live _ _ hrem => exact hlen hrem
      | clearing _ _ hrem => exact hlen hrem
      | destroying _ _ _ => rfl
      | gone _ _ => rfl
    · intro hp hg l
      cases hrel with
      | live hi hr' _ => exact find_answer hl hi hr' l
      | clearing _ _ hrem => have := hrem.clearing; simp only at hp; rw [hp] at this; cases this
      | destroying _ _ _ => cases hp
      | gone _ _ => cases hg
    · intro hg
      cases hrel with
      | live _ _ _ => cases hg
      | clearing _ _ _ => cases hg
      | destroying _ _ _ => cases hg
      | gone hg' _ => exact ⟨hg'.life, hg'.mem⟩
  · rw [hrun'] at hrun; cases hrun

/-- C124 (missing: as above): such a history, with at most 3/8 of the maximum capacity adds, never faults, given memory or a
policy that does not abort; with memory no add fails. -/
theorem C124_no_fault_partial (hl : Lawful pol canon keyOf h) {cap : Nat} {t0 : Table P} (hst : Started c cap t0)
    {acts : List (Act L P)} (hpol : PoliteRun .all c pol canon keyOf ⟨t0, []⟩ acts)
    (hsmall : 8 * acts.countP Act.isAdd ≤ 3 * c.kMaxCapacity) (hmem : c.aborts = false ∨ ∀ a ∈ acts, a.memOk = true) :
    ∃ m outs, runR c pol ⟨t0, []⟩ acts = .ok (m, outs) ∧
      ((∀ a ∈ acts, a.memOk = true) → ∀ o ∈ outs, o.isFailure = false) := by
  obtain ⟨s, hi, hr, h1, h2, _⟩ := started_inv (keyOf := keyOf) (h := h) hst
  rcases runR_spec hl acts _ _ (started_rel (keyOf := keyOf) (h := h) hst) hpol with
    ⟨m', outs', a, hrun', hr, hrel, _, hf⟩ | ⟨f, hrun', hf⟩
  · refine ⟨m', outs', hrun', fun hall o ho => ?_⟩
    rw [Bool.eq_false_iff]
    intro hfo
    rcases (hf ⟨o, ho, hfo⟩).2 with ⟨act, hact, hm⟩ | hbig
    · rw [hall act hact] at hm; cases hm
    · simp only at hbig; omega
  · exfalso
    simp only at hf
    rcases hf with ⟨_, ha, hx⟩ | ⟨_, hx⟩
    · rcases hmem with hmem | hmem
      · rw [hmem] at ha; cases ha
      · rcases hx with ⟨act, hact, hm⟩ | hx
        · rw [hmem act hact] at hm; cases hm
        · omega
    · omega

/-! #### A table that is large enough -/

/-- The rules without the one about resizing. -/
def Rules.sized : Rules := { Rules.all with noResize := false }

/-- Below 3/4 of the initial capacity no add resizes. -/
theorem add_fixed {t t' : Table P} {s : List (Slot P)} (hi : Inv c keyOf h t s) {l : L} {p : P}
    (hcm : t.capacity = t.minCapacity)
    (hroom : t.nelements + t.ndeleted ≤ t.capacity / 2 + t.capacity / 4) {memOk : Bool} {o : Out P}
    (hrun : exec c pol t (.add l p memOk) = .ok (t', o)) : t'.capacity = t.capacity := by
  have hden : checkDensity c t memOk = .ok (true, t) := by
    have h16 := hi.min16
    unfold checkDensity
    split
    · unfold shrink; rw [if_pos (by omega)]
    · rw [if_neg]
      unfold overloaded
      rw [hi.add32_eq]
      simp only [decide_eq_true_eq]; omega
  have hstore : ∀ {t t' : Table P} {i e}, t.store i e = .ok t' → t'.capacity = t.capacity := by
    intro t t' i e hst
    unfold Table.store at hst
    split at hst
    · cases hst
    · split at hst
      · cases hst; rfl
      · cases hst
  have htail : ∀ {t t' : Table P} {i i' b}, internalAddTail t i = .ok (b, t', i') → t'.capacity = t.capacity := by
    intro t t' i i' b ht
    simp only [internalAddTail, bind, Except.bind] at ht
    split at ht
    · cases ht
    · split at ht
      · cases ht
      · rename_i h2
        simp only [Except.ok.injEq, Prod.mk.injEq] at ht
        obtain ⟨_, rfl, _⟩ := ht
        have := hstore h2
        exact this
  have hint : ∀ {i i' : Insert} {b t'}, internalAdd c t i memOk = .ok (b, t', i') → t'.capacity = t.capacity := by
    intro i i' b t' ht
    simp only [internalAdd, bind, Except.bind, hden] at ht
    split at ht
    · cases ht
    · split at ht
      · cases ht
      · split at ht
        · have := htail ht
          exact this
        · split at ht
          · split at ht
            · cases ht
            · simp only [Except.ok.injEq, Prod.mk.injEq] at ht; rw [← ht.2.1]
          · simp only [ne_eq, not_true_eq_false, if_false, if_true] at ht
            exact htail ht
  have hadd : ∀ {i i' : Insert} {b t'}, add c t i p memOk = .ok (b, t', i') → t'.capacity = t.capacity := by
    intro i i' b t' ht
    rw [add_eq_bind] at ht
    cases hx : internalAdd c t i memOk with
    | error f => rw [hx] at ht; cases ht
    | ok v =>
      obtain ⟨b1, t1, i1⟩ := v
      rw [hx] at ht
      have hc1 := hint hx
      simp only [bind, Except.bind, addFinish] at ht
      split at ht
      · split at ht
        · cases ht
        · split at ht
          · cases ht
          · split at ht
            · cases ht
            · rename_i h3
              simp only [Except.ok.injEq, Prod.mk.injEq] at ht
              obtain ⟨_, rfl, _⟩ := ht
              exact (hstore h3).trans hc1
      · simp only [Except.ok.injEq, Prod.mk.injEq] at ht
        rw [← ht.2.1]; exact hc1
  simp only [exec, bind, Except.bind] at hrun
  split at hrun
  · cases hrun
  · split at hrun
    · cases hrun
    · split at hrun
      · split at hrun
        · cases hrun
        · simp only [Except.ok.injEq, Prod.mk.injEq] at hrun; rw [← hrun.1]
      · split at hrun
        · cases hrun
        · rename_i h3
          split at hrun
          · split at hrun
            · cases hrun
            · simp only [Except.ok.injEq, Prod.mk.injEq] at hrun
              rw [← hrun.1]; exact hadd h3
          · simp only [Except.ok.injEq, Prod.mk.injEq] at hrun
            rw [← hrun.1]; exact hadd h3

theorem sized_polite (hl : Lawful pol canon keyOf h) : ∀ (acts : List (Act L P)) (m : Mach P) (a : AState K P),
    Rel c keyOf h m a → m.t.capacity = m.t.minCapacity →
    m.t.nelements + m.t.ndeleted + acts.countP Act.isAdd ≤ m.t.capacity / 2 + m.t.capacity / 4 →
    PoliteRun .sized c pol canon keyOf m acts → PoliteRun .all c pol canon keyOf m acts := by
  intro acts
  induction acts with
  | nil => intro m a _ _ _ _; trivial
  | cons act acts ih =>
    intro m a hrel hcm hroom hp
    rw [List.countP_cons] at hroom
    have hfix : act.isAdd = true → ∀ l p b t o, act = .add l p b → m.t.table ≠ none →
        m.stack.all Frame.notClearing = true →
        m.stack.all Frame.notDestroying = true →
        exec c pol m.t (.add l p b) = .ok (t, o) → t.capacity = m.t.capacity := by
      intro hadd l p b t o hact htab hcl hds hex
      cases hrel with
      | @live t1 s st mm ps hi hr hrem => exact add_fixed hi hcm (by simp only at hroom ⊢; omega) hex
      | @clearing t1 s st mm ps i hw hr hrem =>
        have := List.all_eq_true.1 hcl _ hrem.clearingFrame
        cases this
      | destroying _ _ _ => cases hds
      | gone hg _ => exact absurd hg.tbl htab
    have hpol : Polite .all c pol canon keyOf m act := by
      obtain ⟨hp1, hp2⟩ := hp.1
      refine ⟨hp1, ?_⟩
      cases act with
      | add l p b =>
        obtain ⟨hk, hall, _⟩ := hp2
        obtain ⟨htab, hd⟩ := hp1.resolve_left (by intro hc; cases hc)
        exact ⟨hk, hall, fun _ => .inr (fun t o hex => hfix rfl l p b t o rfl htab (hall rfl) (hd rfl) hex)⟩
      | find l => trivial
      | elements => trivial
      | removeIfExists l => exact hp2
      | clear => exact hp2
      | destroy => exact hp2
      | ret => trivial
    refine ⟨hpol, fun m' o hstep => ?_⟩
    rcases step_spec hl hrel act hpol with ⟨m1, o1, a1, hstep1, hr1, hrel1, hbook, hfail⟩ | ⟨f, hstep1, _⟩
    · rw [hstep] at hstep1
      simp only [Except.ok.injEq, Prod.mk.injEq] at hstep1
      obtain ⟨rfl, rfl⟩ := hstep1
      have hcap : m'.t.capacity = m.t.capacity := by
        cases hadd : act.isAdd with
        | false => exact hbook.cap hadd
        | true =>
          cases act with
          | add l p b =>
            obtain ⟨hp1, hk, hall, _⟩ := hp.1
            replace hall := hall rfl
            obtain ⟨htab, hd⟩ := hp1.resolve_left (by intro hc; cases hc)
            simp only [step, bind, Except.bind] at hstep
            split at hstep
            · cases hstep
            · rename_i v hex
              obtain ⟨t1, o1⟩ := v
              simp only at hstep
              split at hstep
              · cases hstep
              · simp only [Except.ok.injEq, Prod.mk.injEq] at hstep
                obtain ⟨rfl, _⟩ := hstep
                exact hfix rfl l p b t1 o1 rfl htab hall (hd rfl) hex
          | find l => cases hadd
          | elements => cases hadd
          | removeIfExists l => cases hadd
          | clear => cases hadd
          | destroy => cases hadd
          | ret => cases hadd
      have hload := hbook.load
      refine ih m' a1 hrel1 ?_ ?_ (hp.2 m' o hstep)
      · rw [hcap, hbook.min]; exact hcm
      · rw [hcap]; omega
    · rw [hstep] at hstep1; cases hstep1

/-- C124 (missing: as above): if the whole history has at most 3/4 as many adds as the capacity given to `init`, destructors
called by a removal may also add freely: nothing faults and every answer is as specified. -/
theorem C124_presized_partial (hl : Lawful pol canon keyOf h) {cap : Nat} {t0 : Table P} (hst : Started c cap t0)
    {acts : List (Act L P)} (hpol : PoliteRun .sized c pol canon keyOf ⟨t0, []⟩ acts)
    (hroom : 4 * acts.countP Act.isAdd ≤ 3 * Nat.max 16 cap)
    (hsmall : 8 * acts.countP Act.isAdd ≤ 3 * c.kMaxCapacity) (hmem : c.aborts = false ∨ ∀ a ∈ acts, a.memOk = true) :
    ∃ m outs, ∃ a : AState K P, runR c pol ⟨t0, []⟩ acts = .ok (m, outs) ∧ RSteps canon emptyA acts outs a ∧
      m.stack.length = a.pend.length := by
  obtain ⟨s, hi, hr, h1, h2, h3, h4⟩ := started_inv (keyOf := keyOf) (h := h) hst
  have hpol' : PoliteRun .all c pol canon keyOf ⟨t0, []⟩ acts := by
    refine sized_polite hl acts _ _ (started_rel (keyOf := keyOf) (h := h) hst) (by simp only; rw [h3, h4]) ?_ hpol
    simp only
    obtain ⟨k, _, hk⟩ := hi.sinv.pow
    have h16 := hi.cap_ge
    have hck : t0.capacity = 2 ^ k := hi.cap.trans hk
    have hk4 : 3 < k := by apply pow2_le; rw [← hck]; omega
    have : t0.capacity = 4 * 2 ^ (k - 2) := by
      rw [hck]
      have : k = (k - 2) + 2 := by omega
      rw [this, Nat.pow_add]
      simp only [Nat.add_sub_cancel]
      omega
    omega
  obtain ⟨m, outs, hrun, _⟩ := C124_no_fault_partial hl hst hpol' hsmall hmem
  obtain ⟨a, hra, hlen, _⟩ := C124_destructors_partial hl hst hpol' hrun
  exact ⟨m, outs, a, hrun, hra, hlen⟩

/-! #### Destructors that do nothing: the atomic model -/

/-- C124: with a destructor that does nothing, a removal is the `removeIfExists` of the atomic model. -/
theorem C124_quiet_remove {t t' : Table P} {l : L} (hrun : removeIfExists pol t l = .ok t') :
    runR c pol ⟨t, []⟩ [.removeIfExists l, .ret] = .ok (⟨t', []⟩, [.done, .done]) := by
  simp only [removeIfExists, remove, bind, Except.bind] at hrun
  cases hf : find pol t l with
  | error f => rw [hf] at hrun; cases hrun
  | ok r =>
    rw [hf] at hrun
    simp only at hrun
    cases hfo : t.found r with
    | error f => rw [hfo] at hrun; cases hrun
    | ok b =>
      rw [hfo] at hrun
      simp only at hrun
      cases b with
      | false =>
        simp only [Bool.false_eq_true, if_false, Except.ok.injEq] at hrun
        subst hrun
        simp only [runR, step, startRemove, endDtor, bind, Except.bind, hf, hfo, Bool.false_eq_true, if_false]
      | true =>
        simp only [if_true] at hrun
        simp only [runR, step, startRemove, endDtor, bind, Except.bind, hf, hfo, if_true, busy_false_nil, Bool.false_eq_true,
          if_false, hrun]

theorem store_cap {t t' : Table P} {i : Nat} {e : Slot P} (hst : t.store i e = .ok t') : t'.capacity = t.capacity := by
  unfold Table.store at hst
  split at hst
  · cases hst
  · split at hst
    · cases hst; rfl
    · cases hst

theorem idle_rets (t : Table P) (n : Nat) :
    runR c pol ⟨t, []⟩ (List.replicate n .ret) = .ok (⟨t, []⟩, List.replicate n .done) := by
  induction n with
  | zero => rfl
  | succ n ih => simp only [List.replicate_succ, runR, step, endDtor, bind, Except.bind, ih]

theorem quiet_clear_loop : ∀ rem i (t t1 : Table P), clearLoop i rem t = .ok t1 → i + rem = t.capacity → ∀ n, rem ≤ n →
    ∃ r, clearScan (fun _ => false) i rem t = .ok r ∧ (enter .clearing [] r).2 = .done ∧
      runR c pol (enter .clearing [] r).1 (List.replicate n .ret) =
        .ok (⟨{ t1 with ndeleted := 0, nelements := 0 }, []⟩, List.replicate n .done) := by
  intro rem
  induction rem with
  | zero =>
    intro i t t1 hrun _ n _
    simp only [clearLoop, Except.ok.injEq] at hrun
    subst hrun
    exact ⟨_, rfl, rfl, idle_rets _ n⟩
  | succ rem ih =>
    intro i t t1 hrun hcap n hn
    simp only [clearLoop, bind, Except.bind] at hrun
    cases hld : t.load i with
    | error f => rw [hld] at hrun; cases hrun
    | ok e =>
      rw [hld] at hrun
      simp only at hrun
      cases hsf : e.setFree with
      | error f => rw [hsf] at hrun; cases hrun
      | ok v =>
        obtain ⟨e', k⟩ := v
        rw [hsf] at hrun
        simp only at hrun
        cases hst : t.store i e' with
        | error f => rw [hst] at hrun; cases hrun
        | ok t' =>
          rw [hst] at hrun
          simp only at hrun
          have hc' := store_cap hst
          cases hlv : e.isLive with
          | true =>
            refine ⟨(t, some i), ?_, rfl, ?_⟩
            · simp only [clearScan, bind, Except.bind, hld, hlv, if_true, Bool.false_eq_true, if_false]
            · obtain ⟨n', rfl⟩ : ∃ n', n = n' + 1 := ⟨n - 1, by omega⟩
              obtain ⟨r, hscan, hout, hrest⟩ := ih (i + 1) { t' with dtors := t'.dtors + k } t1 hrun (by simp only; omega) n' (by omega)
              have hrem : t'.capacity - (i + 1) = rem := by omega
              rw [List.replicate_succ, List.replicate_succ]
              simp only [enter, runR, step, endDtor, bind, Except.bind, hld, hsf, hst, busy_false_nil, hrem, hscan]
              have hrest' : runR c pol (enter .clearing [] r).1 (List.replicate n' .ret) = _ := hrest
              have hout' : (enter .clearing [] r).2 = .done := hout
              rcases r with ⟨t2, _ | j⟩
              · simp only [enter] at hrest' ⊢
                rw [hrest']
              · simp only [enter] at hrest' ⊢
                rw [hrest']
          | false =>
            have hk : k = 0 := by
              simp only [Slot.setFree, Slot.destruct, hlv, Bool.false_eq_true, if_false, bind, Except.bind, Except.ok.injEq,
                Prod.mk.injEq] at hsf
              exact hsf.2.symm
            subst hk
            obtain ⟨r, hscan, hout, hrest⟩ := ih (i + 1) t' t1 hrun (by omega) n (by omega)
            refine ⟨r, ?_, hout, hrest⟩
            simp only [clearScan, bind, Except.bind, hld, hlv, Bool.false_eq_true, if_false, hsf, hst, hscan]

/-- C124: with destructors that do nothing, `clear` is the `clear` of the atomic model. -/
theorem C124_quiet_clear {t t' : Table P} (hrun : clear t = .ok t') :
    runR c pol ⟨t, []⟩ (.clear :: List.replicate t.capacity .ret) =
      .ok (⟨t', []⟩, .done :: List.replicate t.capacity .done) := by
  simp only [clear, bind, Except.bind] at hrun
  cases hx : clearLoop 0 t.capacity t with
  | error f => rw [hx] at hrun; cases hrun
  | ok t1 =>
    rw [hx] at hrun
    simp only [Except.ok.injEq] at hrun
    subst hrun
    obtain ⟨r, hscan, hout, hrest⟩ := quiet_clear_loop (c := c) (pol := pol) t.capacity 0 t t1 hx (by omega) t.capacity
      (Nat.le_refl _)
    simp only [runR, step, bind, Except.bind, busy_false_nil, hscan]
    rcases r with ⟨t2, _ | j⟩
    · simp only [enter] at hrest ⊢
      rw [hrest]
    · simp only [enter] at hrest ⊢
      rw [hrest]

theorem quiet_destroy_loop : ∀ rem i (t t1 t2 : Table P), destroyLoop i rem t = .ok t1 →
    (match t1.table with | none => t1 | some _ => { t1 with table := none, frees := t1.frees + 1 }) = t2 →
    i + rem = t.capacity → ∀ n, rem ≤ n →
    ∃ r, destroyScan (fun _ => false) i rem t = .ok r ∧ (enter .destroying [] r).2 = .done ∧
      runR c pol (enter .destroying [] r).1 (List.replicate n .ret) = .ok (⟨t2, []⟩, List.replicate n .done) := by
  intro rem
  induction rem with
  | zero =>
    intro i t t1 t2 hrun h2 _ n _
    simp only [destroyLoop, Except.ok.injEq] at hrun
    subst hrun
    subst h2
    simp only [destroyScan]
    cases t.table with
    | none => exact ⟨_, rfl, rfl, idle_rets _ n⟩
    | some s => exact ⟨_, rfl, rfl, idle_rets _ n⟩
  | succ rem ih =>
    intro i t t1 t2 hrun h2 hcap n hn
    simp only [destroyLoop, bind, Except.bind] at hrun
    cases hld : t.load i with
    | error f => rw [hld] at hrun; cases hrun
    | ok e =>
      rw [hld] at hrun
      simp only at hrun
      cases hsf : e.destruct with
      | error f => rw [hsf] at hrun; cases hrun
      | ok v =>
        obtain ⟨e', k⟩ := v
        rw [hsf] at hrun
        simp only at hrun
        cases hst : t.store i e' with
        | error f => rw [hst] at hrun; cases hrun
        | ok t' =>
          rw [hst] at hrun
          simp only at hrun
          have hc' := store_cap hst
          cases hlv : e.isLive with
          | true =>
            refine ⟨(t, some i), ?_, rfl, ?_⟩
            · simp only [destroyScan, bind, Except.bind, hld, hlv, if_true, Bool.false_eq_true, if_false]
            · obtain ⟨n', rfl⟩ : ∃ n', n = n' + 1 := ⟨n - 1, by omega⟩
              obtain ⟨r, hscan, hout, hrest⟩ := ih (i + 1) { t' with dtors := t'.dtors + k } t1 t2 hrun h2 (by simp only; omega)
                n' (by omega)
              have hrem : t'.capacity - (i + 1) = rem := by omega
              rw [List.replicate_succ, List.replicate_succ]
              simp only [enter, runR, step, endDtor, bind, Except.bind, hld, hsf, hst, busy_false_nil, hrem, hscan]
              rcases r with ⟨t3, _ | j⟩
              · simp only [enter] at hrest ⊢
                rw [hrest]
              · simp only [enter] at hrest ⊢
                rw [hrest]
          | false =>
            have hk : k = 0 ∧ t' = t := by
              simp only [Slot.destruct, hlv, Bool.false_eq_true, if_false, Except.ok.injEq, Prod.mk.injEq] at hsf
              refine ⟨hsf.2.symm, ?_⟩
              obtain ⟨rfl, _⟩ := hsf
              unfold Table.store at hst
              unfold Table.load at hld
              split at hst
              · cases hst
              · rename_i s hs
                rw [hs] at hld
                simp only at hld
                split at hst
                · rename_i hlt
                  rw [List.getElem?_eq_getElem hlt] at hld
                  simp only [Except.ok.injEq] at hld
                  simp only [Except.ok.injEq] at hst
                  subst hst
                  rw [← hld, List.set_getElem_self, ← hs]
                · cases hst
            obtain ⟨rfl, rfl⟩ := hk
            obtain ⟨r, hscan, hout, hrest⟩ := ih (i + 1) t' t1 t2 hrun h2 (by omega) n (by omega)
            refine ⟨r, ?_, hout, hrest⟩
            simp only [destroyScan, bind, Except.bind, hld, hlv, Bool.false_eq_true, if_false, hscan]

/-- C124: with destructors that do nothing, `~HashTable` is the `destroy` of the atomic model. -/
theorem C124_quiet_destroy {t t' : Table P} (hrun : destroy t = .ok t') :
    runR c pol ⟨t, []⟩ (.destroy :: List.replicate t.capacity .ret) =
      .ok (⟨t', []⟩, .done :: List.replicate t.capacity .done) := by
  simp only [destroy, bind, Except.bind] at hrun
  cases hx : destroyLoop 0 t.capacity t with
  | error f => rw [hx] at hrun; cases hrun
  | ok t1 =>
    rw [hx] at hrun
    have h2 : (match t1.table with | none => t1 | some _ => { t1 with table := none, frees := t1.frees + 1 }) = t' := by
      simp only at hrun
      cases htt : t1.table with
      | none => rw [htt] at hrun; simp only [Except.ok.injEq] at hrun; exact hrun
      | some s => rw [htt] at hrun; simp only [Except.ok.injEq] at hrun; exact hrun
    obtain ⟨r, hscan, hout, hrest⟩ := quiet_destroy_loop (c := c) (pol := pol) t.capacity 0 t t1 t' hx h2 (by omega) t.capacity
      (Nat.le_refl _)
    simp only [runR, step, bind, Except.bind, busy_false_nil, hscan]
    rcases r with ⟨t2, _ | j⟩
    · simp only [enter] at hrest ⊢
      rw [hrest]
    · simp only [enter] at hrest ⊢
      rw [hrest]

/-! #### Every rule is needed -/

abbrev W := BitVec 32

/-- A started table of 16 entries and an entry size of 8. -/
def cfg8 : Config := ⟨8, true⟩
def t16 : Table W :=
  { capacity := 16, nelements := 0, ndeleted := 0, table := some (List.replicate 16 Slot.fresh), minCapacity := 16, ctors := 0,
    dtors := 0, mallocs := 1, frees := 0 }

theorem t16_started : Started cfg8 16 t16 := ⟨true, rfl⟩

/-- `Polite` for the identity policy, computed. -/
def politeB (R : Rules) (c : Config) (m : Mach W) (a : Act W W) : Bool :=
  ((match a with | .ret => true | _ => false) || (m.t.table.isSome &&
    (!R.notInDtor || m.stack.all Frame.notDestroying))) &&
  match a with
  | .add l p memOk => p == l &&
      (!R.noAddInClear || m.stack.all Frame.notClearing) &&
      (!R.noResize || m.stack.isEmpty || (match exec c idPolicy m.t (.add l p memOk) with
        | .ok (t, _) => t.capacity == m.t.capacity
        | .error _ => true))
  | .removeIfExists l => !R.ownKey || m.stack.all (fun f => match deref m.t f.slot with | .ok p => p != l | .error _ => true)
  | .clear => !R.noNesting || m.stack.isEmpty
  | .destroy => !R.noNesting || m.stack.isEmpty
  | _ => true

theorem politeB_sound {R : Rules} {c : Config} {m : Mach W} {a : Act W W} (hb : politeB R c m a = true) :
    Polite R c idPolicy id id m a := by
  unfold politeB at hb
  rw [Bool.and_eq_true, Bool.or_eq_true] at hb
  obtain ⟨h1, h2⟩ := hb
  refine ⟨?_, ?_⟩
  · rcases h1 with h1 | h1
    · left; cases a <;> first | rfl | simp at h1
    · right
      rw [Bool.and_eq_true] at h1
      obtain ⟨h1, h1'⟩ := h1
      refine ⟨fun hc => (by rw [hc] at h1; cases h1), fun hr => ?_⟩
      rw [hr] at h1'
      exact h1'
  · cases a with
    | add l p memOk =>
      simp only [Bool.and_eq_true] at h2
      obtain ⟨⟨hk, hc⟩, hz⟩ := h2
      refine ⟨by simpa using hk, fun hr => by rw [hr] at hc; exact hc, fun hr => ?_⟩
      rw [hr] at hz
      simp only [Bool.not_true, Bool.false_or, Bool.or_eq_true] at hz
      rcases hz with hz | hz
      · left; simpa using hz
      · right
        intro t o hex
        rw [hex] at hz
        simpa using hz
    | removeIfExists l =>
      intro hr f hf p hd
      simp only [hr, Bool.not_true, Bool.false_or, List.all_eq_true] at h2
      have := h2 f hf
      rw [hd] at this
      simpa using this
    | clear => intro hr; simpa [hr] using h2
    | destroy => intro hr; simpa [hr] using h2
    | find l => trivial
    | elements => trivial
    | ret => trivial

def politeRunB (R : Rules) (c : Config) (m : Mach W) : List (Act W W) → Bool
  | [] => true
  | a :: as => politeB R c m a && (match step c idPolicy m a with | .ok (m', _) => politeRunB R c m' as | .error _ => true)

theorem politeRunB_sound {R : Rules} {c : Config} : ∀ (acts : List (Act W W)) (m : Mach W), politeRunB R c m acts = true →
    PoliteRun R c idPolicy id id m acts := by
  intro acts
  induction acts with
  | nil => intro m _; trivial
  | cons a as ih =>
    intro m hb
    unfold politeRunB at hb
    rw [Bool.and_eq_true] at hb
    refine ⟨politeB_sound hb.1, fun m' o hs => ?_⟩
    rw [hs] at hb
    exact ih m' hb.2

/-- Under rules `R`, no history faults. -/
def NoFault (R : Rules) : Prop :=
  ∀ (c : Config) (cap : Nat) (t0 : Table W) (acts : List (Act W W)), Started c cap t0 →
    PoliteRun R c idPolicy id id ⟨t0, []⟩ acts → 8 * acts.countP Act.isAdd ≤ 3 * c.kMaxCapacity →
    (∀ a ∈ acts, a.memOk = true) → ∃ m outs, runR c idPolicy ⟨t0, []⟩ acts = .ok (m, outs)

def faultOf : Exec (Mach W × List (Out W)) → Option Fault
  | .error f => some f
  | .ok _ => none

theorem not_noFault {R : Rules} (acts : List (Act W W)) (f : Fault) (hp : politeRunB R cfg8 ⟨t16, []⟩ acts = true)
    (hs : 8 * acts.countP Act.isAdd ≤ 3 * cfg8.kMaxCapacity) (hm : acts.all Act.memOk = true)
    (hf : faultOf (runR cfg8 idPolicy ⟨t16, []⟩ acts) = some f) : ¬ NoFault R := by
  intro hc
  obtain ⟨m, outs, hrun⟩ := hc cfg8 16 t16 acts t16_started (politeRunB_sound acts _ hp) hs (List.all_eq_true.1 hm)
  rw [hrun] at hf
  cases hf

/-- all rules together suffice -/
theorem C124_rules_suffice_partial : NoFault .all := by
  intro c cap t0 acts hst hp hs hm
  obtain ⟨m, outs, hrun, _⟩ := C124_no_fault_partial idPolicy_lawful hst hp hs (.inr hm)
  exact ⟨m, outs, hrun⟩

/-- C124 is false of the code without the first rule: a destructor that removes its own key (as an object that unregisters
itself does) is called a second time, because the entry still looks live (amtl/am-hashtable.h:69-72). -/
theorem C124_own_key_refuted : ¬ NoFault { Rules.all with ownKey := false } :=
  not_noFault [.add 1 1 true, .removeIfExists 1, .removeIfExists 1] .doubleFree (by decide +kernel) (by decide +kernel)
    (by decide +kernel) (by decide +kernel)

/-- Adds the keys `0..n-1`. -/
def addActs (n : Nat) : List (Act W W) := (List.range n).map (fun i => .add (BitVec.ofNat 32 i) (BitVec.ofNat 32 i) true)

/-- C124 is false of the code without the second rule: when an add made by a destructor resizes the table, the payload being
destroyed is moved and destroyed again (amtl/am-hashtable.h:269-276). -/
theorem C124_resize_refuted : ¬ NoFault { Rules.all with noResize := false } :=
  not_noFault (addActs 13 ++ [.removeIfExists 0, .add 100 100 true]) .doubleFree (by decide +kernel) (by decide +kernel)
    (by decide +kernel) (by decide +kernel)

/-- C124 is false of the code without the fourth rule: a `clear` called by the destructor of a removed payload destroys that
payload again. -/
theorem C124_nested_clear_refuted : ¬ NoFault { Rules.all with noNesting := false } :=
  not_noFault [.add 1 1 true, .removeIfExists 1, .clear] .doubleFree (by decide +kernel) (by decide +kernel)
    (by decide +kernel) (by decide +kernel)

/-- C124 is false of the code without the fifth rule: `~HashTable` leaves the destroyed entries looking live
(amtl/am-hashtable.h:404-405), so a lookup made by a later payload's destructor reads a destroyed payload. -/
theorem C124_lookup_in_dtor_refuted : ¬ NoFault { Rules.all with notInDtor := false } :=
  not_noFault [.add 1 1 true, .add 17 17 true, .destroy, .ret, .find 1] .uninitialised (by decide +kernel) (by decide +kernel)
    (by decide +kernel) (by decide +kernel)

/-- Under rules `R`, a key that can be found is counted. -/
def Counts (R : Rules) : Prop :=
  ∀ (c : Config) (cap : Nat) (t0 : Table W) (acts : List (Act W W)) (m : Mach W) (outs : List (Out W)), Started c cap t0 →
    PoliteRun R c idPolicy id id ⟨t0, []⟩ acts → runR c idPolicy ⟨t0, []⟩ acts = .ok (m, outs) → m.stack = [] →
    ∀ l p, exec c idPolicy m.t (.find l) = .ok (m.t, .found (some p)) → 0 < elements m.t

def okOf : Exec (Mach W × List (Out W)) → Option (Mach W)
  | .error _ => none
  | .ok (m, _) => some m

def foundOf : Exec (Table W × Out W) → Option W
  | .ok (_, .found r) => r
  | _ => none

/-- C124 is false of the code without the third rule: what a destructor adds during a `clear` may stay in the table, while
`elements()` is reset to 0 (amtl/am-hashtable.h:482-483). -/
theorem C124_add_in_clear_refuted : ¬ Counts { Rules.all with noAddInClear := false } := by
  intro hc
  have hex : ∃ m outs, runR cfg8 idPolicy ⟨t16, []⟩ [.add 1 1 true, .clear, .add 0 0 true, .ret] = .ok (m, outs) := by
    cases hr : runR cfg8 idPolicy ⟨t16, []⟩ [.add 1 1 true, .clear, .add 0 0 true, .ret] with
    | ok v => exact ⟨v.1, v.2, rfl⟩
    | error f =>
      have : faultOf (runR cfg8 idPolicy ⟨t16, []⟩ [.add 1 1 true, .clear, .add 0 0 true, .ret]) = none := by decide +kernel
      rw [hr] at this; cases this
  obtain ⟨m, outs, hr⟩ := hex
  have hm : okOf (runR cfg8 idPolicy ⟨t16, []⟩ [.add 1 1 true, .clear, .add 0 0 true, .ret]) = some m := by rw [hr]; rfl
  have h1 : (okOf (runR cfg8 idPolicy ⟨t16, []⟩ [.add 1 1 true, .clear, .add 0 0 true, .ret])).map
      (fun m => (m.stack, elements m.t, foundOf (exec cfg8 idPolicy m.t (.find 0)))) = some ([], 0, some 0) := by decide +kernel
  rw [hm] at h1
  simp only [Option.map_some, Option.some.injEq, Prod.mk.injEq] at h1
  obtain ⟨hstk, hel, hfd⟩ := h1
  have hfind : exec cfg8 idPolicy m.t (.find 0) = .ok (m.t, .found (some 0)) := by
    have hcases : ∀ t, exec cfg8 idPolicy m.t (.find 0) = .ok (t, .found (some 0)) → t = m.t := by
      intro t ht
      simp only [exec, bind, Except.bind] at ht
      split at ht
      · cases ht
      · split at ht
        · cases ht
        · split at ht
          · split at ht
            · cases ht
            · simp only [Except.ok.injEq, Prod.mk.injEq] at ht; exact ht.1.symm
          · simp only [Except.ok.injEq, Prod.mk.injEq] at ht; exact ht.1.symm
    cases hx : exec cfg8 idPolicy m.t (.find 0) with
    | error f => rw [hx] at hfd; cases hfd
    | ok v =>
      obtain ⟨t, o⟩ := v
      rw [hx] at hfd
      cases o with
      | found r => simp only [foundOf] at hfd; subst hfd; rw [hcases t hx]
      | _ => cases hfd
  have := hc cfg8 16 t16 _ m outs t16_started (politeRunB_sound _ _ (by decide +kernel)) hr hstk 0 0 hfind
  omega

/-- The result of a polite history in the middle of a `clear`: a key that is still there and whose destructor has not begun
may not be found. -/
def ClearKeepsFinding : Prop :=
  ∀ (c : Config) (cap : Nat) (t0 : Table W) (acts : List (Act W W)) (m : Mach W) (outs : List (Out W)) (a : AState W W),
    Started c cap t0 → PoliteRun .all c idPolicy id id ⟨t0, []⟩ acts → runR c idPolicy ⟨t0, []⟩ acts = .ok (m, outs) →
    RSteps id emptyA acts outs a → ∀ l, a.m l ≠ none → exec c idPolicy m.t (.find l) = .ok (m.t, .found (a.m l))

def outsOf : Exec (Mach W × List (Out W)) → Option (List (Out W))
  | .error _ => none
  | .ok (_, os) => some os

/-- C124 is false of the code for lookups during a `clear`: the entries already cleared are marked free, which cuts the probe
chains of colliding keys that are still there. -/
theorem C124_find_during_clear_refuted : ¬ ClearKeepsFinding := by
  intro hc
  let acts : List (Act W W) := [.add 1 1 true, .add 17 17 true, .add 33 33 true, .clear, .ret]
  have hex : ∃ m outs, runR cfg8 idPolicy ⟨t16, []⟩ acts = .ok (m, outs) := by
    cases hr : runR cfg8 idPolicy ⟨t16, []⟩ acts with
    | ok v => exact ⟨v.1, v.2, rfl⟩
    | error f =>
      have : faultOf (runR cfg8 idPolicy ⟨t16, []⟩ acts) = none := by decide +kernel
      rw [hr] at this; cases this
  obtain ⟨m, outs, hr⟩ := hex
  have hpol : PoliteRun .all cfg8 idPolicy id id ⟨t16, []⟩ acts := politeRunB_sound _ _ (by decide +kernel)
  have houts : outs = [.added 1, .added 17, .added 33, .done, .done] := by
    have h1 : (match runR cfg8 idPolicy ⟨t16, []⟩ acts with
      | .ok (_, [.added a, .added b, .added d, .done, .done]) => some (a, b, d)
      | _ => none) = some (1, 17, 33) := by decide +kernel
    rw [hr] at h1
    split at h1
    · rename_i hh
      simp only [Except.ok.injEq, Prod.mk.injEq] at hh
      simp only [Option.some.injEq, Prod.mk.injEq] at h1
      rw [hh.2, h1.1, h1.2.1, h1.2.2]
    · cases h1
  subst houts
  let m3 : W → Option W := upd (upd (upd (fun _ => none) 1 (some 1)) 17 (some 17)) 33 (some 33)
  have hsteps : RSteps id (emptyA : AState W W) acts [.added 1, .added 17, .added 33, .done, .done]
      ⟨upd m3 1 none, [.clearing 17], false⟩ := by
    refine .cons (.addNew _ _ _ _ _ rfl rfl) (.cons (.addNew _ _ _ _ _ (by decide +kernel) rfl)
      (.cons (.addNew _ _ _ _ _ (by decide +kernel) rfl)
      (.cons (.clear _ _ (.more 1 (by decide +kernel))) (.cons (.retClearing _ _ _ (.more 17 (by decide +kernel))) (.nil _)))))
  have := hc cfg8 16 t16 acts m _ _ t16_started hpol hr hsteps 33 (by decide +kernel)
  have hm : okOf (runR cfg8 idPolicy ⟨t16, []⟩ acts) = some m := by rw [hr]; rfl
  have h1 : (okOf (runR cfg8 idPolicy ⟨t16, []⟩ acts)).map (fun m => foundOf (exec cfg8 idPolicy m.t (.find 33))) = some none := by
    decide +kernel
  rw [hm] at h1
  simp only [Option.map_some, Option.some.injEq] at h1
  rw [this] at h1
  have h2 : upd m3 1 none 33 = some 33 := by decide +kernel
  simp only [foundOf, h2] at h1
  cases h1

/-! #### The hypotheses can be met -/

/-- Destructors that look up their own key, remove another key (whose destructor removes a third one and adds), and add. -/
def busyActs : List (Act W W) :=
  [.add 1 1 true, .add 17 17 true, .add 33 33 true, .add 4 4 true,
   .removeIfExists 1, .find 1, .removeIfExists 17, .removeIfExists 33, .add 50 50 true, .ret, .find 33, .ret, .elements, .ret,
   .find 1, .elements, .clear, .removeIfExists 4, .ret, .find 50, .ret, .elements, .destroy]

example : PoliteRun .all cfg8 idPolicy id id ⟨t16, []⟩ busyActs := politeRunB_sound _ _ (by decide +kernel)

example : (outsOf (runR cfg8 idPolicy ⟨t16, []⟩ busyActs)).map (fun os => os.map (fun o => match o with
    | .found r => r.map BitVec.toNat
    | .count n => some n
    | _ => none)) =
    some [none, none, none, none, none, some 1, none, none, none, none, none, none, some 3, none, none, some 2, none, none,
      none, some 50, none, some 0, none] := by decide +kernel

example : ∃ m outs, ∃ a : AState W W, runR cfg8 idPolicy ⟨t16, []⟩ busyActs = .ok (m, outs) ∧ RSteps id emptyA busyActs outs a ∧
    m.stack.length = a.pend.length :=
  C124_presized_partial idPolicy_lawful t16_started (politeRunB_sound _ _ (by decide +kernel)) (by decide +kernel)
    (by decide +kernel) (.inr (by decide +kernel))

end Verif.HashTable
