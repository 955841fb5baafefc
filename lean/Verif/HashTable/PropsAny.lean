import Verif.HashTable.Any
import Verif.HashTable.Props
/-!
# C135: a table whose hash policy gives any answers at all
-/
namespace Verif.HashTable
open Verif

variable {L P S : Type} {c : Config} {pol : PolicyC L P S}

theorem started_any {cap : Nat} {t0 : Table P} (hst : Started c cap t0) :
    ∃ s, BInv c t0 s ∧ contents s = [] ∧ t0.nelements = 0 ∧ t0.ndeleted = 0 := by
  obtain ⟨s, hi, hr, h1, h2, _⟩ := started_inv (keyOf := fun _ : P => ()) (h := fun _ => 0#32) hst
  refine ⟨s, ⟨hi.tbl, hi.cap, hi.sinv.pow, hi.sinv.wf, hi.n, hi.d, hi.load, hi.max, hi.min16, hi.minCap, hi.life, hi.mem⟩, ?_, h1, h2⟩
  rw [List.eq_nil_iff_forall_not_mem]
  intro p hp
  have := (hr () p).2 ⟨mem_contents.1 hp, rfl⟩
  cases this

theorem runC_any : ∀ (ops : List (Op L P)) (t : Table P) (s : List (Slot P)) (σ : S) (b : List P), BInv c t s → (contents s).Perm b →
    ∀ t' outs σ', runC c pol t σ ops = .ok (t', outs, σ') →
    ∃ s' b', BInv c t' s' ∧ (contents s').Perm b' ∧ BagSteps (Said pol) b ops outs b' := by
  intro ops
  induction ops with
  | nil =>
    intro t s σ b hi hb t' outs σ' hrun
    simp only [runC, Except.ok.injEq, Prod.mk.injEq] at hrun
    obtain ⟨rfl, rfl, rfl⟩ := hrun
    exact ⟨s, b, hi, hb, .nil⟩
  | cons op ops ih =>
    intro t s σ b hi hb t' outs σ' hrun
    simp only [runC, bind, Except.bind] at hrun
    rcases execC_any (pol := pol) hi σ op with ⟨t1, s1, o, σ1, he, hi1, hst, _, _⟩ | ⟨f, he, _⟩
    · rw [he] at hrun
      simp only at hrun
      cases hrest : runC c pol t1 σ1 ops with
      | error f => rw [hrest] at hrun; simp at hrun
      | ok v =>
        obtain ⟨t2, os, σ2⟩ := v
        rw [hrest] at hrun
        simp only [Except.ok.injEq, Prod.mk.injEq] at hrun
        obtain ⟨rfl, rfl, rfl⟩ := hrun
        obtain ⟨b1, hb1, hstep⟩ := hst b hb
        obtain ⟨s2, b2, hi2, hb2, hsts⟩ := ih t1 s1 σ1 b1 hi1 hb1 t2 os σ2 hrest
        exact ⟨s2, b2, hi2, hb2, .cons hstep hsts⟩
    · rw [he] at hrun; simp at hrun

/-- C135: whatever the policy answers, the table is a bag of the payloads stored: every history's answers are those the bag allows; `elements()` is the number of payloads stored, a
walk visits them all, each once; every payload constructed and not stored any more has been destroyed, and the destructor destroys the rest and frees the array. -/
theorem C135_any_policy_is_a_bag {cap : Nat} {t0 : Table P} (hst : Started c cap t0) {ops : List (Op L P)} {σ σ' : S} {t : Table P} {outs : List (Out P)}
    (hrun : runC c pol t0 σ ops = .ok (t, outs, σ')) :
    ∃ b, BagSteps (Said pol) [] ops outs b ∧ elements t = b.length ∧
      (∃ t' vs, sweep (fun _ => false) t = .ok (t', vs) ∧ vs.Perm b) ∧
      t.ctors = t.dtors + b.length ∧ t.mallocs = t.frees + 1 ∧
      ∃ t', destroy t = .ok t' ∧ t'.dtors = t.ctors ∧ t'.ctors = t.ctors ∧ t'.frees = t.mallocs ∧ t'.mallocs = t.mallocs := by
  obtain ⟨s, hi, hc, _, _⟩ := started_any hst
  obtain ⟨s', b, hi', hb, hs⟩ := runC_any (pol := pol) ops t0 s σ [] hi (by rw [hc]) t outs σ' hrun
  have hlen : t.nelements = b.length := by rw [← hi'.len, hb.length_eq]
  obtain ⟨t1, s1, hsw, _⟩ := sweep_any (fun _ => false) hi'
  obtain ⟨t2, hd, h1, h2, h3, h4⟩ := destroy_any hi'
  exact ⟨b, hs, hlen, ⟨t1, _, hsw, hb⟩, by rw [hi'.life, hlen], hi'.mem, t2, hd, by omega, h3, by omega, h4⟩

theorem nearLimit_any {t : Table P} {s : List (Slot P)} (hi : BInv c t s) (hn : NearLimit c t) :
    3 * c.kMaxCapacity < 8 * (t.nelements + t.ndeleted) := by
  obtain ⟨k, hk31, hk⟩ := hi.pow
  have h16 := hi.cap_ge
  have hcapk : t.capacity = 2 ^ k := hi.cap.trans hk
  have hk4 : 3 < k := by
    apply pow2_le; rw [← hcapk]; omega
  have : t.capacity = 4 * 2 ^ (k - 2) := by
    rw [hcapk]
    have : k = (k - 2) + 2 := by omega
    rw [this, Nat.pow_add]
    simp only [Nat.add_sub_cancel]
    omega
  obtain ⟨h1, h2⟩ := hn
  omega

theorem runC_fault : ∀ (ops : List (Op L P)) (t : Table P) (s : List (Slot P)) (σ : S), BInv c t s →
    ∀ f, runC c pol t σ ops = .error f →
      PolicyFails pol f ∨
      (f = .abort ∧ c.aborts = true ∧ ((∃ op ∈ ops, op.memOk = false) ∨ 3 * c.kMaxCapacity < 8 * (t.nelements + t.ndeleted + ops.countP Op.isAdd))) ∨
      (f = .assertFail ∧ 3 * c.kMaxCapacity < 8 * (t.nelements + t.ndeleted + ops.countP Op.isAdd)) := by
  intro ops
  induction ops with
  | nil => intro t s σ hi f hrun; simp [runC] at hrun
  | cons op ops ih =>
    intro t s σ hi f hrun
    simp only [runC, bind, Except.bind] at hrun
    rw [List.countP_cons]
    rcases execC_any (pol := pol) hi σ op with ⟨t1, s1, o, σ1, he, hi1, _, hocc, _⟩ | ⟨f', he, hre⟩
    · rw [he] at hrun
      simp only at hrun
      cases hrest : runC c pol t1 σ1 ops with
      | ok v => rw [hrest] at hrun; simp at hrun
      | error f' =>
        rw [hrest] at hrun
        simp only [Except.error.injEq] at hrun
        subst hrun
        rcases ih t1 s1 σ1 hi1 f' hrest with h0 | ⟨h1, h2, h3⟩ | ⟨h1, h2⟩
        · exact .inl h0
        · right; left
          refine ⟨h1, h2, ?_⟩
          rcases h3 with ⟨op', hop', hm⟩ | h3
          · exact .inl ⟨op', List.mem_cons_of_mem _ hop', hm⟩
          · right; omega
        · right; right; exact ⟨h1, by omega⟩
    · rw [he] at hrun
      simp only [Except.error.injEq] at hrun
      subst hrun
      rcases hre with h0 | hre
      · exact .inl h0
      · right
        cases hre with
        | abort ha hcond =>
          left
          refine ⟨rfl, ha, ?_⟩
          rcases hcond with hm | hn
          · exact .inl ⟨op, List.mem_cons_self, hm⟩
          · right; have := nearLimit_any hi hn; omega
        | assert hn =>
          right; refine ⟨rfl, ?_⟩; have := nearLimit_any hi hn; omega

/-- C135: if a history goes wrong, then because the policy's own code did, because the allocator aborted for want of memory, or because the table came near its size limit. In
particular no answer makes a probe loop run for ever, leave the array, use a null pointer, read or destroy a payload that does not exist or construct one over another. -/
theorem C135_any_policy_no_fault {cap : Nat} {t0 : Table P} (hst : Started c cap t0) {ops : List (Op L P)} {σ : S} {f : Fault}
    (hrun : runC c pol t0 σ ops = .error f) :
    PolicyFails pol f ∨
    (f = .abort ∧ c.aborts = true ∧ ((∃ op ∈ ops, op.memOk = false) ∨ 3 * c.kMaxCapacity < 8 * ops.countP Op.isAdd)) ∨
    (f = .assertFail ∧ 3 * c.kMaxCapacity < 8 * ops.countP Op.isAdd) := by
  obtain ⟨s, hi, _, h1, h2⟩ := started_any hst
  have := runC_fault ops t0 s σ hi f hrun
  rw [h1, h2] at this
  simpa using this

/-- C135: with a policy that does not fail itself, with memory, and with at most 3/8 of the maximum capacity adds, every history runs to its end and no `add` fails. -/
theorem C135_any_policy_runs (hh : ∀ l s, ∃ v, pol.hash l s = .ok v) (hm : ∀ l p s, ∃ v, pol.isMatch l p s = .ok v)
    {cap : Nat} {t0 : Table P} (hst : Started c cap t0) (ops : List (Op L P)) (σ : S)
    (hmem : ∀ op ∈ ops, op.memOk = true) (hsmall : 8 * ops.countP Op.isAdd ≤ 3 * c.kMaxCapacity) :
    ∃ t outs σ', runC c pol t0 σ ops = .ok (t, outs, σ') ∧ ∀ o ∈ outs, o.isFailure = false := by
  have hnf : ∀ f, ¬ PolicyFails pol f := by
    rintro f (⟨l, s, he⟩ | ⟨l, p, s, he⟩)
    · obtain ⟨v, hv⟩ := hh l s; rw [hv] at he; cases he
    · obtain ⟨v, hv⟩ := hm l p s; rw [hv] at he; cases he
  have key : ∀ (ops : List (Op L P)) (t : Table P) (s : List (Slot P)) (σ : S), BInv c t s → (∀ op ∈ ops, op.memOk = true) →
      8 * (t.nelements + t.ndeleted + ops.countP Op.isAdd) ≤ 3 * c.kMaxCapacity →
      ∃ t' outs σ', runC c pol t σ ops = .ok (t', outs, σ') ∧ ∀ o ∈ outs, o.isFailure = false := by
    intro ops
    induction ops with
    | nil => intro t s σ hi _ _; exact ⟨t, [], σ, rfl, by simp⟩
    | cons op ops ih =>
      intro t s σ hi hmem hsmall
      simp only [runC, bind, Except.bind]
      rw [List.countP_cons] at hsmall
      have hnl : ¬ NearLimit c t := by
        intro hn; have := nearLimit_any hi hn; omega
      rcases execC_any (pol := pol) hi σ op with ⟨t1, s1, o, σ1, he, hi1, _, hocc, hfail⟩ | ⟨f', he, hre⟩
      · rw [he]
        obtain ⟨t2, os, σ2, hrun, hos⟩ := ih t1 s1 σ1 hi1 (fun op hop => hmem op (List.mem_cons_of_mem _ hop)) (by omega)
        refine ⟨t2, o :: os, σ2, by simp [hrun], ?_⟩
        intro o' ho'
        rcases List.mem_cons.1 ho' with rfl | ho'
        · rw [Bool.eq_false_iff]
          intro hc
          rcases (hfail hc).2 with hm | hn
          · rw [hmem op List.mem_cons_self] at hm; cases hm
          · exact hnl hn
        · exact hos o' ho'
      · rcases hre with h0 | hre
        · exact absurd h0 (hnf f')
        · cases hre with
          | abort ha hcond =>
            rcases hcond with hm | hn
            · rw [hmem op List.mem_cons_self] at hm; cases hm
            · exact absurd hn hnl
          | assert hn => exact absurd hn hnl
  obtain ⟨s, hi, _, h1, h2⟩ := started_any hst
  exact key ops t0 s σ hi hmem (by omega)

/-! ### Questions -/

/-- The payloads on the probe path of `H`, from its `j`-th entry on. -/
def pathFrom (s : List (Slot P)) (H : BitVec 32) (j n : Nat) : List P :=
  (List.range' j n).filterMap (fun x => s[pos s.length H x]?.bind (·.obj))

theorem contents_range : ∀ s : List (Slot P), contents s = (List.range s.length).filterMap (fun x => s[x]?.bind (·.obj))
  | [] => rfl
  | e :: s => by
    have ih := contents_range s
    rw [List.length_cons, List.range_succ_eq_map, List.filterMap_cons, List.filterMap_map]
    have : ((fun x => (e :: s)[x]?.bind (·.obj)) ∘ Nat.succ) = (fun x => s[x]?.bind (·.obj)) := by
      funext x; simp
    rw [this, ← ih]
    simp only [contents, List.filterMap_cons, List.getElem?_cons_zero, Option.bind_some]

theorem pathFrom_all (s : List (Slot P)) (H : BitVec 32) : (pathFrom s H 0 s.length).Perm (contents s) := by
  have hc : contents s = (List.range s.length).filterMap (fun x => s[x]?.bind (·.obj)) := by
    exact contents_range s
  have hp : ((List.range s.length).map (pos s.length H)).Perm (List.range s.length) := by
    rw [List.perm_ext_iff_of_nodup]
    · intro a
      rw [List.mem_map, List.mem_range]
      constructor
      · rintro ⟨j, hj, rfl⟩
        rw [List.mem_range] at hj
        exact pos_lt (by omega) H j
      · intro ha
        obtain ⟨j, hj, he⟩ := pos_surj H ha
        exact ⟨j, List.mem_range.2 hj, he⟩
    · rw [List.Nodup, List.pairwise_map]
      refine List.Pairwise.imp_of_mem ?_ List.nodup_range
      intro a b ha hb hne he
      exact hne (pos_inj H (List.mem_range.1 ha) (List.mem_range.1 hb) he)
    · exact List.nodup_range
  have := hp.filterMap (fun x => s[x]?.bind (·.obj))
  rw [← hc, List.filterMap_map] at this
  unfold pathFrom
  rw [← List.range_eq_range']
  exact this

theorem pathFrom_cons (s : List (Slot P)) (H : BitVec 32) (j n : Nat) {e : Slot P} (he : s[pos s.length H j]? = some e) :
    pathFrom s H j (n + 1) = e.obj.toList ++ pathFrom s H (j + 1) n := by
  unfold pathFrom
  rw [List.range'_succ, List.filterMap_cons, he]
  simp only [Option.bind_some]
  cases e.obj <;> rfl

section loops
variable {t : Table P} {s : List (Slot P)} {k : Nat}

theorem lookupLoopC_asks (ht : t.table = some s) (hcap : t.capacity = s.length) (hk : s.length = 2 ^ k) (hk31 : k ≤ 31)
    (hwf : ∀ (i : Nat) (e : Slot P), s[i]? = some e → e.Wf) (l : L) (H0 H : BitVec 32) :
    ∀ fuel j σ calls i σ' calls', j + fuel = s.length →
      lookupLoopC (traced pol) t l H0 (H + BitVec.ofNat 32 j) (σ, calls) fuel = .ok (i, σ', calls') →
      ∃ ps rest : List P, calls' = calls ++ ps.map (Call.isMatch l) ∧ (ps ++ rest).Perm (pathFrom s H j fuel) := by
  intro fuel
  induction fuel with
  | zero => intro j σ calls i σ' calls' _ h; cases h
  | succ fuel ih =>
    intro j σ calls i σ' calls' hj hrun
    have hlt : pos s.length H j < s.length := pos_lt (by omega) H j
    have hget := List.getElem?_eq_getElem hlt
    generalize s[pos s.length H j] = e at hget
    unfold lookupLoopC at hrun
    rw [hcap, probe_step hk hk31] at hrun
    simp only [bind, Except.bind, load_ok ht hget] at hrun
    rw [cur_succ] at hrun
    rw [pathFrom_cons s H j fuel hget]
    have skip : ∀ {ps rest : List P} {q : List P}, (ps ++ rest).Perm q → (ps ++ (e.obj.toList ++ rest)).Perm (e.obj.toList ++ q) := by
      intro ps rest q h
      rw [← List.append_assoc]
      refine (List.perm_append_comm.append_right _).trans ?_
      rw [List.append_assoc]
      exact h.append_left _
    split at hrun
    · simp only [Except.ok.injEq, Prod.mk.injEq] at hrun
      exact ⟨[], _, by simp [hrun], List.Perm.refl _⟩
    · split at hrun
      · rename_i hl
        have hlv : e.isLive = true := by simp only [Bool.and_eq_true] at hl; exact hl.1
        obtain ⟨p, hp, hpay⟩ := (hwf _ _ hget).payload hlv
        simp only [hpay, traced] at hrun
        cases hm : pol.isMatch l p σ with
        | error f => rw [hm] at hrun; cases hrun
        | ok v =>
          obtain ⟨b, σ1⟩ := v
          rw [hm] at hrun
          simp only at hrun
          rw [hp]
          split at hrun
          · simp only [Except.ok.injEq, Prod.mk.injEq] at hrun
            exact ⟨[p], pathFrom s H (j + 1) fuel, by simp [← hrun.2.2], List.Perm.refl _⟩
          · obtain ⟨ps, rest, hc, hp'⟩ := ih (j + 1) σ1 _ i σ' calls' (by omega) hrun
            exact ⟨p :: ps, rest, by simp [hc], by simpa using hp'⟩
      · obtain ⟨ps, rest, hc, hp'⟩ := ih (j + 1) σ _ i σ' calls' (by omega) hrun
        exact ⟨ps, _, hc, skip hp'⟩

theorem lookupForAddLoopC_asks (ht : t.table = some s) (hcap : t.capacity = s.length) (hk : s.length = 2 ^ k) (hk31 : k ≤ 31)
    (hwf : ∀ (i : Nat) (e : Slot P), s[i]? = some e → e.Wf) (l : L) (H0 H : BitVec 32) :
    ∀ fuel j fr σ calls i fr' σ' calls', j + fuel = s.length →
      lookupForAddLoopC (traced pol) t l H0 (H + BitVec.ofNat 32 j) fr (σ, calls) fuel = .ok (i, fr', σ', calls') →
      ∃ ps rest : List P, calls' = calls ++ ps.map (Call.isMatch l) ∧ (ps ++ rest).Perm (pathFrom s H j fuel) := by
  intro fuel
  induction fuel with
  | zero => intro j fr σ calls i fr' σ' calls' _ h; cases h
  | succ fuel ih =>
    intro j fr σ calls i fr' σ' calls' hj hrun
    have hlt : pos s.length H j < s.length := pos_lt (by omega) H j
    have hget := List.getElem?_eq_getElem hlt
    generalize s[pos s.length H j] = e at hget
    unfold lookupForAddLoopC at hrun
    rw [hcap, probe_step hk hk31] at hrun
    simp only [bind, Except.bind, load_ok ht hget] at hrun
    rw [cur_succ] at hrun
    rw [pathFrom_cons s H j fuel hget]
    have skip : ∀ {ps rest : List P} {q : List P}, (ps ++ rest).Perm q → (ps ++ (e.obj.toList ++ rest)).Perm (e.obj.toList ++ q) := by
      intro ps rest q h
      rw [← List.append_assoc]
      refine (List.perm_append_comm.append_right _).trans ?_
      rw [List.append_assoc]
      exact h.append_left _
    split at hrun
    · simp only [Except.ok.injEq, Prod.mk.injEq] at hrun
      exact ⟨[], _, by simp [hrun], List.Perm.refl _⟩
    · rename_i hf
      split at hrun
      · obtain ⟨ps, rest, hc, hp'⟩ := ih (j + 1) _ σ _ i fr' σ' calls' (by omega) hrun
        exact ⟨ps, _, hc, skip hp'⟩
      · rename_i hr
        have hlv : e.isLive = true := by
          rcases slot_cases e with h | h | h
          · exact absurd h hf
          · exact absurd h hr
          · exact h
        split at hrun
        · obtain ⟨p, hp, hpay⟩ := (hwf _ _ hget).payload hlv
          simp only [hpay, traced] at hrun
          cases hm : pol.isMatch l p σ with
          | error f => rw [hm] at hrun; cases hrun
          | ok v =>
            obtain ⟨b, σ1⟩ := v
            rw [hm] at hrun
            simp only at hrun
            rw [hp]
            split at hrun
            · simp only [Except.ok.injEq, Prod.mk.injEq] at hrun
              exact ⟨[p], pathFrom s H (j + 1) fuel, by simp [← hrun.2.2.2], List.Perm.refl _⟩
            · obtain ⟨ps, rest, hc, hp'⟩ := ih (j + 1) _ σ1 _ i fr' σ' calls' (by omega) hrun
              exact ⟨p :: ps, rest, by simp [hc], by simpa using hp'⟩
        · obtain ⟨ps, rest, hc, hp'⟩ := ih (j + 1) _ σ _ i fr' σ' calls' (by omega) hrun
          exact ⟨ps, _, hc, skip hp'⟩

theorem computeHashC_traced {l : L} {σ σ' : S} {H : BitVec 32} {calls calls' : List (Call L P)}
    (h : computeHashC (traced pol) l (σ, calls) = .ok (H, σ', calls')) : calls' = calls ++ [.hash l] := by
  unfold computeHashC at h
  simp only [traced, bind, Except.bind] at h
  cases hh : pol.hash l σ with
  | error f => rw [hh] at h; cases h
  | ok v =>
    rw [hh] at h
    simp only [Except.ok.injEq, Prod.mk.injEq] at h
    exact h.2.2.symm

theorem findC_asks (hi : BInv c t s) {b : List P} (hb : (contents s).Perm b) {l : L} {σ σ' : S} {calls : List (Call L P)} {i : Nat}
    (h : findC (traced pol) t l (σ, []) = .ok (i, σ', calls)) : BagAskedFor b l calls := by
  obtain ⟨k, hk31, hk⟩ := hi.pow
  unfold findC at h
  cases hh : computeHashC (traced pol) l (σ, []) with
  | error f => rw [hh] at h; cases h
  | ok v =>
    obtain ⟨H, σ1, c1⟩ := v
    have hc1 := computeHashC_traced hh
    rw [hh] at h
    simp only [bind, Except.bind] at h
    rw [probulatorCheck_ok (hi.cap.trans hk) hk31, hi.cap] at h
    have := lookupLoopC_asks (pol := pol) hi.tbl hi.cap hk hk31 hi.wf l H H s.length 0 σ1 c1 i σ' calls (by omega)
    simp only [BitVec.add_zero] at this
    obtain ⟨ps, rest, hc, hp⟩ := this h
    exact ⟨ps, rest, by rw [hc, hc1]; rfl, hp.trans ((pathFrom_all s H).trans hb)⟩

theorem findForAddC_asks (hi : BInv c t s) {b : List P} (hb : (contents s).Perm b) {l : L} {σ σ' : S} {calls : List (Call L P)} {i : Insert}
    (h : findForAddC (traced pol) t l (σ, []) = .ok (i, σ', calls)) : BagAskedFor b l calls := by
  obtain ⟨k, hk31, hk⟩ := hi.pow
  unfold findForAddC at h
  cases hh : computeHashC (traced pol) l (σ, []) with
  | error f => rw [hh] at h; cases h
  | ok v =>
    obtain ⟨H, σ1, c1⟩ := v
    have hc1 := computeHashC_traced hh
    rw [hh] at h
    simp only [bind, Except.bind] at h
    rw [probulatorCheck_ok (hi.cap.trans hk) hk31, hi.cap] at h
    simp only at h
    cases hl : lookupForAddLoopC (traced pol) t l H H none (σ1, c1) s.length with
    | error f => rw [hl] at h; cases h
    | ok v =>
      obtain ⟨i', fr, σ2, c2⟩ := v
      rw [hl] at h
      simp only at h
      have := lookupForAddLoopC_asks (pol := pol) hi.tbl hi.cap hk hk31 hi.wf l H H s.length 0 none σ1 c1 i' fr σ2 c2 (by omega)
      simp only [BitVec.add_zero] at this
      obtain ⟨ps, rest, hc, hp⟩ := this hl
      have hcalls : calls = c2 := by
        split at h
        · cases h
        · split at h
          · simp only [Except.ok.injEq, Prod.mk.injEq] at h; exact h.2.2.symm
          · simp only [Except.ok.injEq, Prod.mk.injEq] at h; exact h.2.2.symm
      rw [hcalls]
      exact ⟨ps, rest, by rw [hc, hc1]; rfl, hp.trans ((pathFrom_all s H).trans hb)⟩

end loops

/-- C135: whatever the policy answers, an operation asks for at most one hash and asks `matches` about stored payloads only, about each at most once; operations that look no key up
ask nothing. `pol'` is the policy during the operation, which need not be the one of the history. -/
theorem C135_any_policy_questions {cap : Nat} {t0 : Table P} (hst : Started c cap t0) {ops : List (Op L P)} {σ σ' : S} {t : Table P} {outs : List (Out P)}
    (hrun : runC c pol t0 σ ops = .ok (t, outs, σ')) :
    ∃ b, BagSteps (Said pol) [] ops outs b ∧
      ∀ (S' : Type) (pol' : PolicyC L P S') (op : Op L P) (τ τ' : S') (t' : Table P) (o : Out P) (calls : List (Call L P)),
        execC c (traced pol') t (τ, []) op = .ok (t', o, τ', calls) → BagAsked b op calls := by
  obtain ⟨s, hi, hc, _, _⟩ := started_any hst
  obtain ⟨s', b, hi', hb, hs⟩ := runC_any (pol := pol) ops t0 s σ [] hi (by rw [hc]) t outs σ' hrun
  refine ⟨b, hs, ?_⟩
  intro S' pol' op τ τ' t' o calls h
  cases op with
  | find l =>
    simp only [execC, bind, Except.bind] at h
    cases hf : findC (traced pol') t l (τ, []) with
    | error f => rw [hf] at h; cases h
    | ok v =>
      obtain ⟨i, τ1, c1⟩ := v
      have hask := findC_asks hi' hb hf
      rw [hf] at h
      simp only at h
      repeat' (first | (cases h; done) | split at h)
      all_goals (simp only [Except.ok.injEq, Prod.mk.injEq] at h; obtain ⟨_, _, _, rfl⟩ := h; exact hask)
  | add l p m =>
    simp only [execC, bind, Except.bind] at h
    cases hf : findForAddC (traced pol') t l (τ, []) with
    | error f => rw [hf] at h; cases h
    | ok v =>
      obtain ⟨i, τ1, c1⟩ := v
      have hask := findForAddC_asks hi' hb hf
      rw [hf] at h
      simp only at h
      repeat' (first | (cases h; done) | split at h)
      all_goals (simp only [Except.ok.injEq, Prod.mk.injEq] at h; obtain ⟨_, _, _, rfl⟩ := h; exact hask)
  | assign l p =>
    simp only [execC, bind, Except.bind] at h
    cases hf : findC (traced pol') t l (τ, []) with
    | error f => rw [hf] at h; cases h
    | ok v =>
      obtain ⟨i, τ1, c1⟩ := v
      have hask := findC_asks hi' hb hf
      rw [hf] at h
      simp only at h
      repeat' (first | (cases h; done) | split at h)
      all_goals (simp only [Except.ok.injEq, Prod.mk.injEq] at h; obtain ⟨_, _, _, rfl⟩ := h; exact hask)
  | removeIfExists l =>
    simp only [execC, bind, Except.bind] at h
    cases hr : removeIfExistsC (traced pol') t l (τ, []) with
    | error f => rw [hr] at h; cases h
    | ok v =>
      obtain ⟨t1, τ1, c1⟩ := v
      rw [hr] at h
      simp only [Except.ok.injEq, Prod.mk.injEq] at h
      obtain ⟨_, _, _, rfl⟩ := h
      simp only [removeIfExistsC, bind, Except.bind] at hr
      cases hf : findC (traced pol') t l (τ, []) with
      | error f => rw [hf] at hr; cases hr
      | ok v =>
        obtain ⟨i, τ2, c2⟩ := v
        have hask := findC_asks hi' hb hf
        rw [hf] at hr
        simp only at hr
        repeat' (first | (cases hr; done) | split at hr)
        all_goals (simp only [Except.ok.injEq, Prod.mk.injEq] at hr; obtain ⟨_, _, rfl⟩ := hr; exact hask)
  | clear =>
    simp only [execC, bind, Except.bind] at h
    split at h
    · cases h
    · simp only [Except.ok.injEq, Prod.mk.injEq] at h; exact h.2.2.2.symm
  | checkDensity m =>
    simp only [execC, bind, Except.bind] at h
    split at h
    · cases h
    · simp only [Except.ok.injEq, Prod.mk.injEq] at h; exact h.2.2.2.symm
  | sweep pick =>
    simp only [execC, bind, Except.bind] at h
    split at h
    · cases h
    · simp only [Except.ok.injEq, Prod.mk.injEq] at h; exact h.2.2.2.symm
  | elements =>
    simp only [execC, Except.ok.injEq, Prod.mk.injEq] at h; exact h.2.2.2.symm
  | move =>
    simp only [execC, moveFrom, destroy, destroyLoop, bind, Except.bind, Except.ok.injEq, Prod.mk.injEq] at h; exact h.2.2.2.symm

/-! ### Non-vacuity -/

/-- A policy that is wrong in every way: the hash of a key is the number of calls so far modulo five, and every seventh question is answered with yes. -/
def wildPolicy : PolicyC Nat Nat Nat where
  hash _ s := .ok (BitVec.ofNat 32 (s % 5), s + 1)
  isMatch _ _ s := .ok (s % 7 == 0, s + 1)

/-- It meets the hypotheses of `C135_any_policy_runs`. -/
example : (∀ l s, ∃ v, wildPolicy.hash l s = .ok v) ∧ (∀ l p s, ∃ v, wildPolicy.isMatch l p s = .ok v) :=
  ⟨fun _ _ => ⟨_, rfl⟩, fun _ _ _ => ⟨_, rfl⟩⟩

/-- A history for it. -/
def wildOps : List (Op Nat Nat) :=
  (List.range 30).map (fun i => .add 7 i true) ++ [.find 7, .removeIfExists 7, .removeIfExists 7, .sweep (· % 2 == 0), .elements]

/-- Thirty adds of one key, lookups, removals of it and a walk: the table keeps many payloads for the key; all operations end; nothing is lost or destroyed twice. -/
example : (match init ⟨16, true⟩ (Table.new : Table Nat) 0 true with
    | .ok (_, t0) => (match runC ⟨16, true⟩ wildPolicy t0 0 wildOps with
      | .ok (t, outs, _) => some (t.nelements, t.ctors - t.dtors, outs.countP (fun (x : Out Nat) => match x with | .added _ => true | _ => false), outs.countP (fun (x : Out Nat) => match x with | .present _ => true | _ => false))
      | .error _ => none)
    | .error _ => none) = some (14, 14, 20, 10) := by decide +kernel

end Verif.HashTable
