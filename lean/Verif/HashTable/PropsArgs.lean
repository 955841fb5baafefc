import Verif.HashTable.Props
import Verif.HashTable.Args
/-!
# C112-C114: the arguments of `add`
-/
namespace Verif.HashTable
open Verif

set_option linter.unusedSectionVars false

variable {L P K : Type} [DecidableEq K] {c : Config} {canon : L → K} {keyOf : P → K}
  {h : K → BitVec 32} {pol : Policy L P}

/-! ### C112: `add(i)`, then set -/

theorem internalAddTail_inv {t t' : Table P} {i i' : Insert} {b : Bool} (hr : internalAddTail t i = .ok (b, t', i')) :
    ∃ s e, t.table = some s ∧ s[i.entry]? = some e ∧ b = true ∧ i' = i ∧
      t' = { t with nelements := inc32 t.nelements, table := some (s.set i.entry (e.setHash i.hash)) } := by
  unfold internalAddTail at hr
  simp only [bind, Except.bind, Table.load] at hr
  cases ht : t.table with
  | none => rw [ht] at hr; simp at hr
  | some s =>
    rw [ht] at hr
    simp only at hr
    cases he : s[i.entry]? with
    | none => rw [he] at hr; simp at hr
    | some e =>
      rw [he] at hr
      simp only [Table.store, lt_of_get he, if_true, Except.ok.injEq, Prod.mk.injEq] at hr
      refine ⟨s, e, rfl, he, hr.1.symm, hr.2.2.symm, ?_⟩
      rw [← hr.2.1]

theorem insertUnique_hash {t : Table P} {H : BitVec 32} {i : Insert} (hr : insertUnique t H = .ok i) : i.hash = H := by
  unfold insertUnique at hr
  simp only [bind, Except.bind] at hr
  split at hr
  · cases hr
  · split at hr
    · cases hr
    · cases hr; rfl

/-- A successful `internalAdd` is its tail, run on the table as it was, or after a resize. -/
theorem internalAdd_inv {t t' : Table P} {i i' : Insert} {memOk : Bool} (hr : internalAdd c t i memOk = .ok (true, t', i')) :
    ∃ t2 i2, internalAddTail t2 i2 = .ok (true, t', i') ∧ i2.hash = i.hash ∧
      (∃ s e, t.table = some s ∧ s[i.entry]? = some e ∧ e.isLive = false) ∧
      ((t2 = { t with ndeleted := dec32 t.ndeleted } ∧ i2 = i) ∨
       (checkDensity c t memOk = .ok (true, t2) ∧ (t2.capacity = t.capacity → i2 = i))) := by
  unfold internalAdd at hr
  simp only [bind, Except.bind, Table.load] at hr
  cases ht : t.table with
  | none => rw [ht] at hr; simp at hr
  | some s =>
    rw [ht] at hr
    simp only at hr
    cases he : s[i.entry]? with
    | none => rw [he] at hr; simp at hr
    | some e =>
      rw [he] at hr
      simp only at hr
      split at hr
      · cases hr
      · rename_i hlive
        have hse : ∃ s' e', some s = some s' ∧ s'[i.entry]? = some e' ∧ e'.isLive = false := ⟨s, e, rfl, he, by simpa using hlive⟩
        split at hr
        · exact ⟨_, _, hr, rfl, hse, .inl ⟨rfl, rfl⟩⟩
        · split at hr
          · split at hr
            · cases hr
            · cases hr
          · cases hc : checkDensity c t memOk with
            | error f => rw [hc] at hr; simp at hr
            | ok v =>
              obtain ⟨ok, t2⟩ := v
              rw [hc] at hr
              simp only at hr
              cases ok with
              | false => simp at hr
              | true =>
                simp only [if_true] at hr
                by_cases hcap : t2.capacity = t.capacity
                · simp only [hcap, ne_eq, not_true_eq_false, if_false] at hr
                  exact ⟨t2, i, hr, rfl, hse, .inr ⟨rfl, fun _ => rfl⟩⟩
                · simp only [ne_eq, hcap, not_false_eq_true, if_true] at hr
                  cases hu : insertUnique t2 i.hash with
                  | error f => rw [hu] at hr; simp at hr
                  | ok i2 =>
                    rw [hu] at hr
                    exact ⟨t2, i2, hr, insertUnique_hash hu, hse, .inr ⟨rfl, fun h => absurd h hcap⟩⟩

/-- Setting the payload after `add(i)` is `add(i, p)`. -/
theorem addThenSet_eq (c : Config) (t : Table P) (i : Insert) (d p : P) (memOk : Bool) (hh : i.hash ≠ 0#32 ∧ i.hash ≠ 1#32) :
    addThenSet c t i d p memOk = add c t i p memOk := by
  unfold addThenSet
  rw [add_eq_bind, add_eq_bind]
  cases hr : internalAdd c t i memOk with
  | error f => rfl
  | ok v =>
    obtain ⟨ok, t1, i1⟩ := v
    cases ok with
    | false => rfl
    | true =>
      obtain ⟨t2, i2, ht2, hhash, -, -⟩ := internalAdd_inv hr
      obtain ⟨s, e, -, hget, -, rfl, rfl⟩ := internalAddTail_inv ht2
      have hlt := lt_of_get hget
      have hlt' : i1.entry < (s.set i1.entry (e.setHash i1.hash)).length := by rw [List.length_set]; exact hlt
      simp only [bind, Except.bind, addFinish, if_true, Table.load, get_set_self hlt]
      cases ho : e.obj with
      | some q => simp only [Slot.construct, Slot.setHash, ho]
      | none =>
        have hlive : (⟨i1.hash, some d⟩ : Slot P).isLive = true := by rw [isLive_iff]; rw [← hhash] at hh; exact hh
        simp only [Slot.construct, Slot.setHash, ho, Table.store]
        rw [if_pos (by rw [List.length_set]; exact hlt), if_pos (by rw [List.length_set]; exact hlt)]
        simp only [if_true, assign, bind, Except.bind, Table.load, List.set_set, get_set_self hlt, Slot.payload, hlive, Table.store]
        rw [if_pos (by rw [List.length_set]; exact hlt)]

/-- The client's operations, where an `add` flagged `true` is made as `add(i)` with the payload set afterwards. -/
def execVia (c : Config) (pol : Policy L P) (d : P) (t : Table P) : Bool × Op L P → Exec (Table P × Out P)
  | (true, .add l p memOk) => do
    let i ← findForAdd pol t l
    let f ← t.found i.entry
    if f then do
      let q ← deref t i.entry
      .ok (t, .present q)
    else do
      let (ok, t, i) ← addThenSet c t i d p memOk
      if ok then do
        let q ← deref t i.entry
        .ok (t, .added q)
      else .ok (t, .failed)
  | (_, op) => exec c pol t op

/-- A history of such operations. -/
def runVia (c : Config) (pol : Policy L P) (d : P) (t : Table P) : List (Bool × Op L P) → Exec (Table P × List (Out P))
  | [] => .ok (t, [])
  | op :: ops => do
    let (t, o) ← execVia c pol d t op
    let (t, os) ← runVia c pol d t ops
    .ok (t, o :: os)

theorem findForAdd_hash {pol : Policy L P} {t : Table P} {l : L} {i : Insert} (hr : findForAdd pol t l = .ok i) :
    i.hash = computeHash pol l := by
  unfold findForAdd at hr
  simp only [bind, Except.bind] at hr
  split at hr
  · cases hr
  · split at hr
    · cases hr
    · split at hr
      · cases hr
      · split at hr <;> (cases hr; rfl)

theorem execVia_eq (c : Config) (pol : Policy L P) (d : P) (t : Table P) (op : Bool × Op L P) :
    execVia c pol d t op = exec c pol t op.2 := by
  obtain ⟨b, op⟩ := op
  cases b with
  | false => rfl
  | true =>
    cases op with
    | add l p memOk =>
      simp only [execVia, exec]
      cases hf : findForAdd pol t l with
      | error f => rfl
      | ok i =>
        have := findForAdd_hash hf
        simp only [bind, Except.bind]
        rw [addThenSet_eq c t i d p memOk (by rw [this, computeHash_eq]; exact mix_live _)]
    | _ => rfl

/-- C112: in every history, whatever the default-constructed payload is, adding with `add(i)` and setting the payload through the `Insert` gives
the same answers, faults and final table as `add(i, p)`; so everything proved of histories with `add(i, p)` (C01-C12) holds of them. -/
theorem C112_add_then_set (c : Config) (pol : Policy L P) (d : P) (t : Table P) (ops : List (Bool × Op L P)) :
    runVia c pol d t ops = run c pol t (ops.map Prod.snd) := by
  induction ops generalizing t with
  | nil => rfl
  | cons op ops ih =>
    simp only [runVia, List.map_cons, run, execVia_eq, bind, Except.bind]
    cases exec c pol t op.2 with
    | error f => rfl
    | ok v => simp only [ih]

/-- C112, spelt out: such histories behave as the finite map. -/
theorem C112_finite_map (hl : Lawful pol canon keyOf h) {cap : Nat} {t0 : Table P} (d : P)
    (hst : Started c cap t0) {ops : List (Bool × Op L P)} (hok : ∀ op ∈ ops, op.2.Ok canon keyOf) {t : Table P}
    {outs : List (Out P)} (hrun : runVia c pol d t0 ops = .ok (t, outs)) :
    ∃ m, Steps canon keyOf (fun _ => none) (ops.map Prod.snd) outs m ∧
      ∀ l, execVia c pol d t (false, .find l) = .ok (t, .found (m (canon l))) := by
  rw [C112_add_then_set] at hrun
  refine C01_finite_map hl hst (fun op hop => ?_) hrun
  obtain ⟨x, hx, rfl⟩ := List.mem_map.1 hop
  exact hok x hx

/-- Non-vacuity: half of the adds of `exOps` made that way. -/
example : (match runVia ⟨16, true⟩ collidePolicy (0, 0) exTable (exOps.zipIdx.map fun (o, n) => (n % 2 == 0, o)) with
    | .ok (t, outs) => some (t.capacity, outs.length)
    | .error _ => none) = some (32, 33) := by decide +kernel

/-! ### C113: arguments that are references into the table -/

theorem store_frame {t t' : Table P} {i : Nat} {e : Slot P} (hr : t.store i e = .ok t') : t'.mallocs = t.mallocs ∧ t'.capacity = t.capacity := by
  unfold Table.store at hr
  split at hr
  · cases hr
  · split at hr
    · cases hr; exact ⟨rfl, rfl⟩
    · cases hr

theorem rehashLoop_mallocs (old : List (Slot P)) : ∀ (rem i : Nat) (t t' : Table P), rehashLoop old i rem t = .ok t' → t'.mallocs = t.mallocs := by
  intro rem
  induction rem with
  | zero => intro i t t' hr; cases hr; rfl
  | succ rem ih =>
    intro i t t' hr
    unfold rehashLoop at hr
    split at hr
    · cases hr
    · rename_i e he
      split at hr
      · simp only [bind, Except.bind] at hr
        split at hr
        · cases hr
        · split at hr
          · cases hr
          · split at hr
            · cases hr
            · rename_i h1
              split at hr
              · cases hr
              · split at hr
                · cases hr
                · split at hr
                  · cases hr
                  · split at hr
                    · cases hr
                    · rename_i h2
                      split at hr
                      · cases hr
                      · have := ih _ _ _ hr
                        rw [this]
                        exact ((store_frame h2).1.trans (store_frame h1).1)
      · simp only [bind, Except.bind] at hr
        split at hr
        · cases hr
        · rw [ih _ _ _ hr]

theorem changeCapacity_mallocs {t t' : Table P} {n : Nat} {memOk : Bool} (hr : changeCapacity c t n memOk = .ok (true, t')) :
    t'.mallocs = t.mallocs + 1 := by
  unfold changeCapacity at hr
  simp only [bind, Except.bind] at hr
  split at hr
  · split at hr
    · cases hr
    · split at hr
      · cases hr
      · split at hr
        · split at hr
          · cases hr; rfl
          · cases hr
        · split at hr
          · cases hr
          · rename_i h1
            cases hr
            exact rehashLoop_mallocs _ _ _ _ _ h1
  · cases hr

theorem checkDensity_mallocs {t t' : Table P} {memOk : Bool} (hr : checkDensity c t memOk = .ok (true, t')) :
    t' = t ∨ t'.mallocs = t.mallocs + 1 := by
  unfold checkDensity at hr
  split at hr
  · unfold shrink at hr
    split at hr
    · cases hr; exact .inl rfl
    · exact .inr (changeCapacity_mallocs hr)
  · split at hr
    · unfold grow at hr
      split at hr
      · simp only [bind, Except.bind] at hr
        split at hr <;> cases hr
      · exact .inr (changeCapacity_mallocs hr)
    · cases hr; exact .inl rfl

theorem addFinish_fault {p : P} {v : Bool × Table P × Insert} {g : Fault} (hr : addFinish p v = .error g) : g ≠ .abort ∧ g ≠ .assertFail := by
  obtain ⟨b, t, i⟩ := v
  cases b with
  | false => cases hr
  | true =>
    simp only [addFinish, if_true, bind, Except.bind, Table.load] at hr
    cases ht : t.table with
    | none => simp only [ht] at hr; cases hr; exact ⟨by simp, by simp⟩
    | some s =>
      simp only [ht] at hr
      cases he : s[i.entry]? with
      | none => simp only [he] at hr; cases hr; exact ⟨by simp, by simp⟩
      | some e =>
        simp only [he, Slot.construct] at hr
        cases ho : e.obj with
        | some q => simp only [ho] at hr; cases hr; exact ⟨by simp, by simp⟩
        | none => simp only [ho, Table.store, ht, lt_of_get he, if_true] at hr; cases hr

/-- `add` with a reference to entry `j`, in terms of `add` by value: the same, unless the capacity changes. -/
theorem addRef_eq {t : Table P} {s : List (Slot P)} (hi : Inv c keyOf h t s) {i j : Nat} {e ej : Slot P} (f : P → P) (q : P) (memOk : Bool)
    (he : s[i]? = some e) (hlive : e.isLive = false) (habs : ∀ q', Holds s q' → keyOf q' ≠ keyOf (f q))
    (hpath : ∃ m, m < s.length ∧ pos s.length (mix (h (keyOf (f q)))) m = i ∧
      ∀ j, j < m → ∀ e', s[pos s.length (mix (h (keyOf (f q)))) j]? = some e' → e'.isFree = false)
    (hj : s[j]? = some ej) (hjl : ej.isLive = true) (hjo : ej.obj = some q) :
    addRef c t ⟨i, mix (h (keyOf (f q)))⟩ j f memOk =
      match add c t ⟨i, mix (h (keyOf (f q)))⟩ (f q) memOk with
      | .ok (true, t', i') => if t'.capacity = t.capacity then .ok (true, t', i') else .error .useAfterFree
      | r => r := by
  have hspec := add_spec hi (f q) memOk he hlive habs hpath
  have hij : i ≠ j := by rintro rfl; rw [he] at hj; cases hj; rw [hlive] at hjl; cases hjl
  rw [add_eq_bind] at hspec ⊢
  unfold addRef
  cases hr : internalAdd c t ⟨i, mix (h (keyOf (f q)))⟩ memOk with
  | error f => rfl
  | ok v =>
    obtain ⟨ok, t1, i1⟩ := v
    rw [hr] at hspec
    cases ok with
    | false => rfl
    | true =>
      -- by value, `add` succeeds
      have hgood : ∃ t', addFinish (f q) (true, t1, i1) = .ok (true, t', i1) ∧ t'.capacity = t1.capacity := by
        simp only [bind, Except.bind] at hspec
        cases hfin : addFinish (f q) (true, t1, i1) with
        | error g =>
          exfalso
          rw [hfin] at hspec
          rcases hspec with ⟨t', s', i', hx, _⟩ | ⟨hx, _⟩ | ⟨g', hx, hres⟩
          · cases hx
          · cases hx
          · cases hx
            obtain ⟨h1, h2⟩ := addFinish_fault hfin
            cases hres with
            | abort => exact h1 rfl
            | assert => exact h2 rfl
        | ok v =>
          unfold addFinish at hfin
          simp only [if_true, bind, Except.bind] at hfin
          split at hfin
          · cases hfin
          · split at hfin
            · cases hfin
            · split at hfin
              · cases hfin
              · rename_i hst
                cases hfin
                exact ⟨_, rfl, (store_frame hst).2⟩
      obtain ⟨t', hfin, hcap'⟩ := hgood
      obtain ⟨t2, i2, htail, hhash, -, hcase⟩ := internalAdd_inv hr
      obtain ⟨s2, e2, hs2, he2, -, rfl, rfl⟩ := internalAddTail_inv htail
      simp only [bind, Except.bind, if_true, hfin, hcap']
      -- what is left of the array
      by_cases hcap : t2.capacity = t.capacity
      · have htbl : t2.table = t.table ∧ t2.mallocs = t.mallocs ∧ i1 = ⟨i, mix (h (keyOf (f q)))⟩ := by
          rcases hcase with ⟨h2, hi2⟩ | ⟨hd, hi2⟩
          · rw [h2]; exact ⟨rfl, rfl, hi2⟩
          · rcases checkDensity_spec hi memOk with ⟨t1, s1, hrun, hi1, hn1, hm1, hload1, hsame, hdz, hdle, hh1⟩ |
              ⟨hrun, ha, hcond⟩ | ⟨f, hrun, hcond⟩
            · rw [hd] at hrun; cases hrun
              obtain ⟨h2, -⟩ := hsame hcap
              rw [h2]; exact ⟨rfl, rfl, hi2 hcap⟩
            · rw [hd] at hrun; cases hrun
            · rw [hd] at hrun; cases hrun
        obtain ⟨h3, h4, h5⟩ := htbl
        subst h5
        rw [hi.tbl, hs2] at h3
        cases h3
        simp only [h4, hcap, ne_eq, not_true_eq_false, if_false, if_true]
        have hget : (s.set i (e2.setHash (mix (h (keyOf (f q))))))[j]? = some ej := by rw [get_set_ne (Ne.symm hij)]; exact hj
        have hp : ej.payload = .ok q := by simp only [Slot.payload, hjl, if_true, hjo]
        simp only [deref, bind, Except.bind, Table.load, hget, hp]
        rw [← hfin]
        simp only [addFinish, if_true, bind, Except.bind, Table.load, hcap, h4]
      · have hmal : t2.mallocs ≠ t.mallocs := by
          rcases hcase with ⟨h2, -⟩ | ⟨hd, -⟩
          · rw [h2] at hcap; exact absurd rfl hcap
          · rcases checkDensity_mallocs hd with rfl | h3
            · exact absurd rfl hcap
            · omega
        simp only [ne_eq, hmal, not_false_eq_true, if_true, hcap, if_false]

/-- Client code: `r = find(src); if (r.found()) { i = findForAdd(l); if (!i.found()) add(i, f(*r)); }`, where `addWith` is `add` of a `HashTable` or
`HashSet`, or of a `HashMap`. The result of the first lookup is `none` if there is nothing to copy from. -/
def execRef (addWith : Config → Table P → Insert → Nat → (P → P) → Bool → Exec (Bool × Table P × Insert)) (c : Config) (pol : Policy L P)
    (t : Table P) (src l : L) (f : P → P) (memOk : Bool) : Exec (Table P × Out P) := do
  let r ← find pol t src
  let b ← t.found r
  if b then do
    let i ← findForAdd pol t l
    let b ← t.found i.entry
    if b then do
      let q ← deref t i.entry
      .ok (t, .present q)
    else do
      let (ok, t, i) ← addWith c t i r f memOk
      if ok then do
        let q ← deref t i.entry
        .ok (t, .added q)
      else .ok (t, .failed)
  else .ok (t, .found none)

/-- The full claim for `addWith`: adding what is constructed from a stored payload is adding a copy of it by value. -/
def RefArguments (addWith : Config → Table (BitVec 32 × Nat) → Insert → Nat → (BitVec 32 × Nat → BitVec 32 × Nat) → Bool →
    Exec (Bool × Table (BitVec 32 × Nat) × Insert)) : Prop :=
  ∀ (c : Config) (t0 : Table (BitVec 32 × Nat)) (cap : Nat), Started c cap t0 →
  ∀ (ops : List (Op (BitVec 32) (BitVec 32 × Nat))), (∀ op ∈ ops, op.Ok id Prod.fst) →
  ∀ t outs, run c collidePolicy t0 ops = .ok (t, outs) → ∀ (src l : BitVec 32) (f : BitVec 32 × Nat → BitVec 32 × Nat) (memOk : Bool) q,
    exec c collidePolicy t (.find src) = .ok (t, .found (some q)) → (f q).1 = l →
    execRef addWith c collidePolicy t src l f memOk = exec c collidePolicy t (.add l (f q) memOk)

/-- The setting of C113: a reached table in which `src` stands for `q`. -/
theorem ref_setting (hl : Lawful pol canon keyOf h) {t : Table P} {s : List (Slot P)} (hi : Inv c keyOf h t s) {src : L} {q : P}
    (hfind : exec c pol t (.find src) = .ok (t, .found (some q))) :
    ∃ j ej, find pol t src = .ok j ∧ s[j]? = some ej ∧ ej.isLive = true ∧ ej.obj = some q := by
  obtain ⟨j, ej, hf, hj, hcase⟩ := find_spec hl hi.sinv hi.tbl hi.cap hi.free src
  simp only [exec, bind, Except.bind, hf, Table.found, load_ok hi.tbl hj] at hfind
  rcases hcase with ⟨hlv, p, hp, hk⟩ | ⟨hfr, habs⟩
  · obtain ⟨p', hp', hpay⟩ := (hi.sinv.wf _ _ hj).payload hlv
    simp only [hlv, if_true, deref, bind, Except.bind, load_ok hi.tbl hj, hpay, Except.ok.injEq, Prod.mk.injEq, Out.found.injEq,
      Option.some.injEq, true_and] at hfind
    subst hfind
    exact ⟨j, ej, hf, hj, hlv, hp'⟩
  · simp [free_not_live hfr] at hfind

theorem execRef_table (hl : Lawful pol canon keyOf h) {t : Table P} {s : List (Slot P)} (hi : Inv c keyOf h t s) (src l : L) (f : P → P)
    (memOk : Bool) (q : P) (hfind : exec c pol t (.find src) = .ok (t, .found (some q))) (hk : keyOf (f q) = canon l) :
    execRef addRef c pol t src l f memOk =
      match exec c pol t (.add l (f q) memOk) with
      | .ok (t', .added p) => if t'.capacity = t.capacity then .ok (t', .added p) else .error .useAfterFree
      | r => r := by
  obtain ⟨j, ej, hf, hj, hjl, hjo⟩ := ref_setting hl hi hfind
  obtain ⟨i, e, hf2, he, hcase⟩ := findForAdd_spec hl hi.sinv hi.tbl hi.cap hi.free l
  simp only [execRef, exec, bind, Except.bind, hf, hf2, Table.found, load_ok hi.tbl hj, load_ok hi.tbl he, hjl, if_true]
  rcases hcase with ⟨hlv, p, hp, hk'⟩ | ⟨hdead, habs, hpath⟩
  · obtain ⟨p', hp', hpay⟩ := (hi.sinv.wf _ _ he).payload hlv
    simp only [hlv, if_true, deref, bind, Except.bind, load_ok hi.tbl he, hpay]
  · have hcomp : computeHash pol l = mix (h (keyOf (f q))) := by rw [hash_of_lookup hl, hk]
    rw [hcomp] at hpath ⊢
    simp only [hdead, Bool.false_eq_true, if_false]
    rw [addRef_eq hi f q memOk he hdead (fun q' hq' => by rw [hk]; exact habs q' hq') hpath hj hjl hjo]
    rcases add_spec hi (f q) memOk he hdead (fun q' hq' => by rw [hk]; exact habs q' hq') hpath with
        ⟨t', s', i', hrun, hi', hn', hd', hm', hget, hh'⟩ | ⟨hrun, ha, hcond⟩ | ⟨g, hrun, hcond⟩
    · have hwf := hi'.sinv.wf _ _ hget
      obtain ⟨p', hp', hpay⟩ := hwf.payload (by rw [isLive_iff]; exact mix_live _)
      simp only [hrun, if_true, deref, bind, Except.bind, load_ok hi'.tbl hget, hpay]
      by_cases hc : t'.capacity = t.capacity
      · simp only [hc, if_true, load_ok hi'.tbl hget, hpay]
      · simp only [hc, if_false]
    · simp only [hrun, Bool.false_eq_true, if_false]
    · simp only [hrun]

/-- C113, exactly, for `HashTable` and `HashSet`, in every reached table: adding what is constructed from a reference to a stored payload is
adding it by value, unless the table changes its capacity; then the reference is followed after the array it refers to was released. -/
theorem C113_table_partial (hl : Lawful pol canon keyOf h) {cap : Nat} {t0 : Table P} (hst : Started c cap t0) {ops : List (Op L P)}
    (hok : ∀ op ∈ ops, op.Ok canon keyOf) {t : Table P} {outs : List (Out P)} (hrun : run c pol t0 ops = .ok (t, outs)) (src l : L) (f : P → P)
    (memOk : Bool) (q : P) (hfind : exec c pol t (.find src) = .ok (t, .found (some q))) (hk : keyOf (f q) = canon l) :
    execRef addRef c pol t src l f memOk =
      match exec c pol t (.add l (f q) memOk) with
      | .ok (t', .added p) => if t'.capacity = t.capacity then .ok (t', .added p) else .error .useAfterFree
      | r => r := by
  obtain ⟨s, m, hi, hr, hs, _⟩ := reached hl hst hok hrun
  exact execRef_table hl hi src l f memOk q hfind hk

/-- C113 for `HashMap`, where the entry is made before the table is touched: always as by value. -/
theorem C113_map (hl : Lawful pol canon keyOf h) {cap : Nat} {t0 : Table P} (hst : Started c cap t0) {ops : List (Op L P)}
    (hok : ∀ op ∈ ops, op.Ok canon keyOf) {t : Table P} {outs : List (Out P)} (hrun : run c pol t0 ops = .ok (t, outs)) (src l : L) (f : P → P)
    (memOk : Bool) (q : P) (hfind : exec c pol t (.find src) = .ok (t, .found (some q))) :
    execRef mapAddRef c pol t src l f memOk = exec c pol t (.add l (f q) memOk) := by
  obtain ⟨s, m, hi, hr, hs, _⟩ := reached hl hst hok hrun
  obtain ⟨j, ej, hf, hj, hjl, hjo⟩ := ref_setting hl hi hfind
  have hp : ej.payload = .ok q := by simp only [Slot.payload, hjl, if_true, hjo]
  simp only [execRef, exec, bind, Except.bind, hf, Table.found, load_ok hi.tbl hj, hjl, if_true]
  simp only [mapAddRef, deref, bind, Except.bind, load_ok hi.tbl hj, hp]

/-- Thirteen colliding keys in sixteen slots: the next `add` grows the table. -/
def full : List (Op (BitVec 32) (BitVec 32 × Nat)) :=
  (List.range 13).map (fun i => .add (BitVec.ofNat 32 i) (BitVec.ofNat 32 i, 10 * i) true)

theorem full_ok : ∀ op ∈ full, op.Ok (id : BitVec 32 → BitVec 32) Prod.fst := by
  intro op hop
  obtain ⟨i, _, rfl⟩ := List.mem_map.1 hop
  rfl

/-- C113 is false for `HashTable` and `HashSet`. -/
theorem C113_table_refuted : ¬ RefArguments addRef := by
  intro hcl
  have hx : ∃ t outs, run ⟨16, true⟩ collidePolicy exTable full = .ok (t, outs) ∧
      exec ⟨16, true⟩ collidePolicy t (.find 3) = .ok (t, .found (some (3, 30))) ∧
      (∃ t', exec ⟨16, true⟩ collidePolicy t (.add 20 (20, 30) true) = .ok (t', .added (20, 30)) ∧ t'.capacity ≠ t.capacity) := by
    refine ⟨_, _, rfl, rfl, _, rfl, by decide +kernel⟩
  obtain ⟨t, outs, hrun, hfind, t', hadd, hcap⟩ := hx
  have h1 := hcl ⟨16, true⟩ exTable 3 ⟨true, rfl⟩ full full_ok t outs hrun 3 20 (fun q => (20, q.2)) true _ hfind rfl
  have h2 := C113_table_partial collidePolicy_lawful (t0 := exTable) (c := ⟨16, true⟩) (cap := 3) ⟨true, rfl⟩ full_ok hrun 3 20 (fun q => (20, q.2)) true _
    hfind rfl
  rw [h1, hadd] at h2
  simp only [hcap, if_false] at h2
  cases h2

/-! ### C114: a failed `add` leaves its arguments alone -/

/-- Client code: try to add `std::move(x)` for `l` again and again (`bs`: does the attempt find memory?) until it succeeds or `l` is present.
The last component is `x` at the end. -/
def retryMove (addWith : Config → Table P → Insert → P → Bool → Exec (Bool × Table P × Insert × P)) (c : Config) (pol : Policy L P) (l : L) :
    List Bool → Table P → P → Exec (Table P × Out P × P)
  | [], t, x => .ok (t, .failed, x)
  | b :: bs, t, x => do
    let i ← findForAdd pol t l
    let f ← t.found i.entry
    if f then do
      let q ← deref t i.entry
      .ok (t, .present q, x)
    else do
      let (ok, t, i, x) ← addWith c t i x b
      if ok then do
        let q ← deref t i.entry
        .ok (t, .added q, x)
      else retryMove addWith c pol l bs t x

/-- The same with a copy of `p` in every attempt. -/
def retryCopy (c : Config) (pol : Policy L P) (l : L) (p : P) : List Bool → Table P → Exec (Table P × Out P)
  | [], t => .ok (t, .failed)
  | b :: bs, t => do
    let (t, o) ← exec c pol t (.add l p b)
    match o with
    | .failed => retryCopy c pol l p bs t
    | o => .ok (t, o)

/-- The full claim: the answers and the table are the same as with copies, and `x` has been moved from if and only if it was added. -/
def MovesOnSuccess (addWith : (P → P) → Config → Table P → Insert → P → Bool → Exec (Bool × Table P × Insert × P)) (pol : Policy L P) : Prop :=
  ∀ (gone : P → P) (c : Config) (l : L) (bs : List Bool) (t : Table P) (x : P),
    retryMove (addWith gone) c pol l bs t x = (match retryCopy c pol l x bs t with
      | .error f => .error f
      | .ok (t', o) => .ok (t', o, match o with | .added _ => gone x | _ => x))

theorem addMove_eq (gone : P → P) (c : Config) (t : Table P) (i : Insert) (x : P) (b : Bool) :
    addMove gone c t i x b = (match add c t i x b with
      | .error f => .error f
      | .ok (ok, t', i') => .ok (ok, t', i', if ok then gone x else x)) := by
  unfold addMove add
  simp only [bind, Except.bind]
  cases internalAdd c t i b with
  | error f => rfl
  | ok v =>
    obtain ⟨ok, t1, i1⟩ := v
    cases ok with
    | false => rfl
    | true =>
      simp only [if_true]
      cases t1.load i1.entry with
      | error f => rfl
      | ok e =>
        simp only
        cases e.construct x with
        | error f => rfl
        | ok e =>
          simp only
          cases t1.store i1.entry e with
          | error f => rfl
          | ok t2 => rfl

/-- C114 for `HashTable` and `HashSet`: a payload that is moved into `add` is untouched when `add` returns false, so that it can be used again,
for any number of attempts; all answers are as with copies. -/
theorem C114_table (pol : Policy L P) : MovesOnSuccess addMove pol := by
  intro gone c l bs
  induction bs with
  | nil => intro t x; rfl
  | cons b bs ih =>
    intro t x
    simp only [retryMove, retryCopy, exec, bind, Except.bind]
    cases findForAdd pol t l with
    | error f => rfl
    | ok i =>
      simp only
      cases t.found i.entry with
      | error f => rfl
      | ok fb =>
        cases fb with
        | true =>
          simp only [if_true]
          cases deref t i.entry with
          | error f => rfl
          | ok q => rfl
        | false =>
          simp only [Bool.false_eq_true, if_false, addMove_eq]
          cases add c t i x b with
          | error f => rfl
          | ok v =>
            obtain ⟨ok, t1, i1⟩ := v
            cases ok with
            | false => simp only [Bool.false_eq_true, if_false]; exact ih t1 x
            | true =>
              simp only [if_true]
              cases deref t1 i1.entry with
              | error f => rfl
              | ok q => rfl

/-- C114 is false for `HashMap`: the key and value are moved into an entry first, and lost when `add` returns false. Here the second attempt
adds an empty pair in the place of the wanted one. -/
theorem C114_map_refuted : ¬ MovesOnSuccess mapAddMove collidePolicy := by
  intro hcl
  have hx : ∃ t outs, run ⟨16, false⟩ collidePolicy exTable full = .ok (t, outs) ∧
      (∃ t', retryCopy ⟨16, false⟩ collidePolicy 20 (20, 77) [false, true] t = .ok (t', .added (20, 77))) ∧
      ∃ t', retryMove (mapAddMove fun _ => (0, 0)) ⟨16, false⟩ collidePolicy 20 [false, true] t (20, 77) = .ok (t', .added (0, 0), (0, 0)) := by
    exact ⟨_, _, rfl, ⟨_, rfl⟩, ⟨_, rfl⟩⟩
  obtain ⟨t, outs, -, ⟨t1, h1⟩, t2, h2⟩ := hx
  have h3 := hcl (fun _ => (0, 0)) ⟨16, false⟩ 20 [false, true] t (20, 77)
  rw [h1, h2] at h3
  simp at h3

/-- C114, what holds for `HashMap`: with arguments whose moves leave the value as it is (numbers, pointers, or arguments passed as constants,
which are copied), and in general for the first attempt. -/
theorem C114_map_partial (c : Config) (pol : Policy L P) (l : L) (bs : List Bool) (t : Table P) (x : P) :
    retryMove (mapAddMove id) c pol l bs t x = (match retryCopy c pol l x bs t with
      | .error f => .error f
      | .ok (t', o) => .ok (t', o, x)) := by
  have hmap : ∀ (c : Config) (t : Table P) (i : Insert) (x : P) (b : Bool), mapAddMove id c t i x b = addMove id c t i x b := by
    intro c t i x b
    simp only [mapAddMove, addMove_eq, bind, Except.bind]
    cases add c t i x b with
    | error f => rfl
    | ok v =>
      obtain ⟨ok, t1, i1⟩ := v
      cases ok <;> rfl
  rw [show (mapAddMove id : Config → Table P → _) = addMove id from by funext c t i x b; exact hmap c t i x b]
  rw [C114_table pol id c l bs t x]
  cases retryCopy c pol l x bs t with
  | error f => rfl
  | ok v =>
    obtain ⟨t', o⟩ := v
    cases o <;> rfl

theorem C114_map_first_partial (gone : P → P) (c : Config) (pol : Policy L P) (l : L) (b : Bool) (t : Table P) (x : P) :
    (match retryMove (mapAddMove gone) c pol l [b] t x with
      | .error f => .error f
      | .ok (t', o, _) => .ok (t', o)) = retryCopy c pol l x [b] t := by
  simp only [retryMove, retryCopy, exec, bind, Except.bind]
  cases findForAdd pol t l with
  | error f => rfl
  | ok i =>
    simp only
    cases t.found i.entry with
    | error f => rfl
    | ok fb =>
      cases fb with
      | true =>
        simp only [if_true]
        cases deref t i.entry with
        | error f => rfl
        | ok q => rfl
      | false =>
        simp only [Bool.false_eq_true, if_false, mapAddMove, addMove_eq, bind, Except.bind]
        cases add c t i x b with
        | error f => rfl
        | ok v =>
          obtain ⟨ok, t1, i1⟩ := v
          cases ok with
          | false => rfl
          | true =>
            simp only [if_true]
            cases deref t1 i1.entry with
            | error f => rfl
            | ok q => rfl

end Verif.HashTable
