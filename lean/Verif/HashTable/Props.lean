import Verif.HashTable.Refine
/-!
# Properties C01-C12 of `HashTable` / `HashMap` / `HashSet`

`Started c cap t0`: `t0` is a table on which `init(cap)` succeeded.  Histories are lists of `Op`, the
specification is `Steps` (Spec.lean), a finite map from keys to payloads.
-/
namespace Verif.HashTable
open Verif

variable {L P K : Type} [DecidableEq K] {c : Config} {canon : L → K} {keyOf : P → K}
  {h : K → BitVec 32} {pol : Policy L P}

/-- `init(cap)` on a new table returned true and produced `t0`. -/
def Started (c : Config) (cap : Nat) (t0 : Table P) : Prop :=
  ∃ memOk, init c (Table.new : Table P) cap memOk = .ok (true, t0)

omit [DecidableEq K] in
theorem started_inv {cap : Nat} {t0 : Table P} (hst : Started c cap t0) :
    ∃ s, Inv c keyOf h t0 s ∧ Repr' keyOf s (fun _ => none) ∧ t0.nelements = 0 ∧ t0.ndeleted = 0 ∧
      t0.capacity = Nat.max 16 cap ∧ t0.minCapacity = Nat.max 16 cap := by
  obtain ⟨memOk, hst⟩ := hst
  obtain ⟨s, hi, hh, h1, h2, h3, h4⟩ := init_spec (keyOf := keyOf) (h := h) cap memOk hst
  refine ⟨s, hi, ?_, h1, h2, h3, h4⟩
  intro k p
  constructor
  · intro hc; cases hc
  · rintro ⟨hp, _⟩; exact absurd hp (hh p)

/-- The states reached from a started table by well-formed histories. -/
theorem reached (hl : Lawful pol canon keyOf h) {cap : Nat} {t0 : Table P} (hst : Started c cap t0)
    {ops : List (Op L P)} (hok : ∀ op ∈ ops, op.Ok canon keyOf) {t : Table P} {outs : List (Out P)}
    (hrun : run c pol t0 ops = .ok (t, outs)) :
    ∃ s m, Inv c keyOf h t s ∧ Repr' keyOf s m ∧ Steps canon keyOf (fun _ => none) ops outs m ∧
      t.minCapacity = Nat.max 16 cap := by
  obtain ⟨s, hi, hr, h1, h2, h3, h4⟩ := started_inv (keyOf := keyOf) (h := h) hst
  obtain ⟨s', m', hi', hr', hs', hm'⟩ := run_steps hl ops t0 s _ hi hr hok t outs hrun
  exact ⟨s', m', hi', hr', hs', hm'.trans h4⟩

/-! ### C01 -/

/-- C01: every history of a table behaves as the finite map: all its answers are those the specification
allows, starting from the empty map; and the final map is what every further `find` reports. -/
theorem C01_finite_map (hl : Lawful pol canon keyOf h) {cap : Nat} {t0 : Table P}
    (hst : Started c cap t0) {ops : List (Op L P)} (hok : ∀ op ∈ ops, op.Ok canon keyOf) {t : Table P}
    {outs : List (Out P)} (hrun : run c pol t0 ops = .ok (t, outs)) :
    ∃ m, Steps canon keyOf (fun _ => none) ops outs m ∧
      ∀ l, exec c pol t (.find l) = .ok (t, .found (m (canon l))) := by
  obtain ⟨s, m, hi, hr, hs, _⟩ := reached hl hst hok hrun
  exact ⟨m, hs, fun l => find_answer hl hi hr l⟩

/-! ### C02 -/

/-- C02: no history, of any length, makes a probe loop run for ever or touch memory outside the slot
array (or through a null pointer). -/
theorem C02_probing_terminates_in_bounds (hl : Lawful pol canon keyOf h) {cap : Nat} {t0 : Table P}
    (hst : Started c cap t0) {ops : List (Op L P)} (hok : ∀ op ∈ ops, op.Ok canon keyOf) {f : Fault}
    (hrun : run c pol t0 ops = .error f) :
    f ≠ .diverge ∧ f ≠ .outOfBounds ∧ f ≠ .nullDeref := by
  obtain ⟨s, hi, hr, h1, h2, h3, h4⟩ := started_inv (keyOf := keyOf) (h := h) hst
  rcases run_fault hl ops t0 s _ hi hr hok f hrun with ⟨rfl, _⟩ | ⟨rfl, _⟩ <;> decide

/-- C02: a history whose number of adds is at most 3/8 of the maximum capacity runs to its end without
any fault, given memory (or a policy that does not abort); with memory no add fails either. -/
theorem C02_no_fault (hl : Lawful pol canon keyOf h) {cap : Nat} {t0 : Table P}
    (hst : Started c cap t0) {ops : List (Op L P)} (hok : ∀ op ∈ ops, op.Ok canon keyOf)
    (hsmall : 8 * ops.countP Op.isAdd ≤ 3 * c.kMaxCapacity) :
    ((c.aborts = false ∨ ∀ op ∈ ops, op.memOk = true) → ∃ t outs, run c pol t0 ops = .ok (t, outs)) ∧
    ((∀ op ∈ ops, op.memOk = true) → ∃ t outs, run c pol t0 ops = .ok (t, outs) ∧
      ∀ o ∈ outs, o.isFailure = false) := by
  obtain ⟨s, hi, hr, h1, h2, h3, h4⟩ := started_inv (keyOf := keyOf) (h := h) hst
  constructor
  · intro hm
    cases hrun : run c pol t0 ops with
    | ok v => exact ⟨v.1, v.2, rfl⟩
    | error f =>
      rcases run_fault hl ops t0 s _ hi hr hok f hrun with ⟨_, ha, hx⟩ | ⟨_, hx⟩
      · rcases hm with hm | hm
        · rw [hm] at ha; cases ha
        · rcases hx with ⟨op, hop, hf⟩ | hx
          · rw [hm op hop] at hf; cases hf
          · omega
      · omega
  · intro hm
    exact run_no_failure hl ops t0 s _ hi hr hok hm (by omega)

/-! ### C03 -/

/-- C03: `elements()` is the number of distinct keys that `find` finds. -/
theorem C03_elements_counts_keys (hl : Lawful pol canon keyOf h) {cap : Nat} {t0 : Table P}
    (hst : Started c cap t0) {ops : List (Op L P)} (hok : ∀ op ∈ ops, op.Ok canon keyOf) {t : Table P}
    {outs : List (Out P)} (hrun : run c pol t0 ops = .ok (t, outs)) :
    ∃ ks : List K, ks.Nodup ∧ elements t = ks.length ∧
      (∀ l, (canon l ∈ ks ↔ ∃ p, exec c pol t (.find l) = .ok (t, .found (some p)))) ∧
      (∀ k ∈ ks, ∃ p, keyOf p = k ∧ ∃ m, Steps canon keyOf (fun _ => none) ops outs m ∧ m k = some p) := by
  obtain ⟨s, m, hi, hr, hs, _⟩ := reached hl hst hok hrun
  have hlen : (contents s).length = nLive s :=
    contents_length (fun e he => by
      obtain ⟨i, hi'⟩ := List.mem_iff_getElem?.1 he
      exact hi.sinv.wf i e hi')
  refine ⟨(contents s).map keyOf, contents_nodup hi.sinv, ?_, ?_, ?_⟩
  · rw [List.length_map, hlen, ← hi.n]; rfl
  · intro l
    rw [find_answer hl hi hr l, List.mem_map]
    constructor
    · rintro ⟨p, hp, hk⟩
      refine ⟨p, ?_⟩
      rw [(hr _ p).2 ⟨mem_contents.1 hp, hk⟩]
    · rintro ⟨p, hp⟩
      simp only [Except.ok.injEq, Prod.mk.injEq, Out.found.injEq, true_and] at hp
      have := (hr _ p).1 hp
      exact ⟨p, mem_contents.2 this.1, this.2⟩
  · intro k hk
    obtain ⟨p, hp, hk⟩ := List.mem_map.1 hk
    exact ⟨p, hk, m, hs, (hr _ p).2 ⟨mem_contents.1 hp, hk⟩⟩

/-! ### C04 -/

/-- C04: a walk visits each stored payload exactly once and nothing else, and stops; erasing the picked
ones on the way removes exactly those and does not disturb the walk. -/
theorem C04_walk (hl : Lawful pol canon keyOf h) {cap : Nat} {t0 : Table P}
    (hst : Started c cap t0) {ops : List (Op L P)} (hok : ∀ op ∈ ops, op.Ok canon keyOf) {t : Table P}
    {outs : List (Out P)} (hrun : run c pol t0 ops = .ok (t, outs)) (pick : P → Bool) :
    ∃ t' vs, sweep pick t = .ok (t', vs) ∧ vs.length = elements t ∧ (vs.map keyOf).Nodup ∧
      (∀ l p, exec c pol t (.find l) = .ok (t, .found (some p)) ↔ (p ∈ vs ∧ keyOf p = canon l)) ∧
      (∀ l p, exec c pol t' (.find l) = .ok (t', .found (some p)) ↔
        (p ∈ vs ∧ keyOf p = canon l ∧ pick p = false)) ∧
      elements t' = vs.countP (fun p => !pick p) := by
  obtain ⟨s, m, hi, hr, hs, _⟩ := reached hl hst hok hrun
  obtain ⟨t', s', hsw, hi', _, _, _, hh'⟩ := sweep_spec pick hi
  have hwf : ∀ {c : Config} {t : Table P} {s : List (Slot P)}, Inv c keyOf h t s → ∀ e ∈ s, e.Wf := by
    intro c t s hi e he
    obtain ⟨i, hi'⟩ := List.mem_iff_getElem?.1 he
    exact hi.sinv.wf i e hi'
  have hlen := contents_length (hwf hi)
  have hlen' := contents_length (hwf hi')
  have nd : ∀ {s : List (Slot P)}, SInv keyOf h s → (contents s).Nodup := fun hs =>
    List.Pairwise.of_map keyOf (fun a b hab e => hab (by rw [e])) (contents_nodup hs)
  have hr' : Repr' keyOf s' (fun k => (m k).filter (fun p => !pick p)) := by
    intro k q
    rw [hh', Option.filter_eq_some_iff, hr]
    constructor
    · rintro ⟨⟨a, b⟩, c⟩; exact ⟨⟨a, by simpa using c⟩, b⟩
    · rintro ⟨⟨a, b⟩, c⟩; exact ⟨⟨a, c⟩, by simpa using b⟩
  refine ⟨t', contents s, hsw, ?_, contents_nodup hi.sinv, ?_, ?_, ?_⟩
  · rw [hlen, ← hi.n]; rfl
  · intro l p
    rw [find_answer hl hi hr l, mem_contents]
    simp only [Except.ok.injEq, Prod.mk.injEq, Out.found.injEq, true_and]
    exact hr _ _
  · intro l p
    rw [find_answer hl hi' hr' l, mem_contents]
    simp only [Except.ok.injEq, Prod.mk.injEq, Out.found.injEq, true_and]
    rw [hr', hh']
    simp only [Bool.not_eq_true]
    constructor
    · rintro ⟨⟨a, b⟩, c⟩; exact ⟨a, c, b⟩
    · rintro ⟨a, c, b⟩; exact ⟨⟨a, b⟩, c⟩
  · show t'.nelements = _
    rw [hi'.n, ← hlen', List.countP_eq_length_filter]
    apply List.Perm.length_eq
    rw [List.perm_ext_iff_of_nodup (nd hi'.sinv) ((nd hi.sinv).filter _)]
    intro p
    rw [mem_contents, hh', List.mem_filter, mem_contents]
    simp

/-! ### C05 -/

/-- C05: an `add` that returns false leaves the whole table object as it was, and can only happen when
the policy returns from failures and memory ran out or the table is at its size limit. -/
theorem C05_failed_add_changes_nothing (hl : Lawful pol canon keyOf h) {cap : Nat} {t0 : Table P}
    (hst : Started c cap t0) {ops : List (Op L P)} (hok : ∀ op ∈ ops, op.Ok canon keyOf) {t : Table P}
    {outs : List (Out P)} (hrun : run c pol t0 ops = .ok (t, outs)) (l : L) (p : P) (memOk : Bool)
    (hp : keyOf p = canon l) {t' : Table P} (hadd : exec c pol t (.add l p memOk) = .ok (t', .failed)) :
    t' = t ∧ c.aborts = false ∧
      (memOk = false ∨ 3 * c.kMaxCapacity < 8 * (ops.countP Op.isAdd)) := by
  obtain ⟨s0, hi0, hr0, h1, h2, h3, h4⟩ := started_inv (keyOf := keyOf) (h := h) hst
  -- the same history followed by the add
  have key : ∀ (ops : List (Op L P)) (t0 : Table P) (s0 : List (Slot P)) (m0 : K → Option P),
      Inv c keyOf h t0 s0 → Repr' keyOf s0 m0 → (∀ op ∈ ops, op.Ok canon keyOf) →
      ∀ t outs, run c pol t0 ops = .ok (t, outs) →
      t.nelements + t.ndeleted ≤ t0.nelements + t0.ndeleted + ops.countP Op.isAdd := by
    intro ops
    induction ops with
    | nil =>
      intro t0 s0 m0 hi hr _ t outs hrun
      simp only [run, Except.ok.injEq, Prod.mk.injEq] at hrun
      obtain ⟨rfl, rfl⟩ := hrun
      omega
    | cons op ops ih =>
      intro t0 s0 m0 hi hr hok t outs hrun
      simp only [run, bind, Except.bind] at hrun
      rcases exec_step (c := c) hl hi hr op (hok op List.mem_cons_self) with
        ⟨t1, s1, o, m1, he, hi1, hr1, hst, hmn, hocc, _⟩ | ⟨f, he, _⟩
      · rw [he] at hrun
        simp only at hrun
        cases hrest : run c pol t1 ops with
        | error f => rw [hrest] at hrun; simp at hrun
        | ok v =>
          obtain ⟨t2, os⟩ := v
          rw [hrest] at hrun
          simp only [Except.ok.injEq, Prod.mk.injEq] at hrun
          obtain ⟨rfl, rfl⟩ := hrun
          have := ih t1 s1 m1 hi1 hr1 (fun op hop => hok op (List.mem_cons_of_mem _ hop)) t2 os hrest
          rw [List.countP_cons]
          omega
      · rw [he] at hrun; simp at hrun
  have hocc := key ops t0 s0 _ hi0 hr0 hok t outs hrun
  obtain ⟨s, m, hi, hr, hs, _⟩ := reached hl hst hok hrun
  rcases exec_step (c := c) hl hi hr (.add l p memOk) hp with
    ⟨t1, s1, o, m1, he, hi1, hr1, hst, hmn, _, hfail⟩ | ⟨f, he, _⟩
  · rw [hadd] at he
    simp only [Except.ok.injEq, Prod.mk.injEq] at he
    obtain ⟨rfl, rfl⟩ := he
    obtain ⟨h1', h2', h3'⟩ := hfail rfl
    refine ⟨h1', h2', ?_⟩
    rcases h3' with hm | hn
    · exact .inl hm
    · have := nearLimit_big hi hn
      right; omega
  · rw [hadd] at he; cases he

/-! ### C06 -/

/-- C06: payload lifetimes are balanced: the constructions so far exceed the destructions by exactly the
number of stored payloads, and destroying the table then destroys each remaining payload and frees
the array; no history constructs over a live payload, destroys or reads a dead one. -/
theorem C06_lifetimes_balanced (hl : Lawful pol canon keyOf h) {cap : Nat} {t0 : Table P}
    (hst : Started c cap t0) {ops : List (Op L P)} (hok : ∀ op ∈ ops, op.Ok canon keyOf) :
    (∀ t outs, run c pol t0 ops = .ok (t, outs) →
      t.ctors = t.dtors + elements t ∧ t.mallocs = t.frees + 1 ∧
      ∃ t', destroy t = .ok t' ∧ t'.ctors = t.ctors ∧ t'.dtors = t.ctors ∧ t'.frees = t.mallocs) ∧
    (∀ f, run c pol t0 ops = .error f →
      f ≠ .overwriteLive ∧ f ≠ .uninitialised ∧ f ≠ .doubleFree ∧ f ≠ .useAfterFree) := by
  constructor
  · intro t outs hrun
    obtain ⟨s, m, hi, hr, hs, _⟩ := reached hl hst hok hrun
    obtain ⟨t', hd, h1, h2, h3, h4⟩ := destroy_spec hi
    exact ⟨hi.life, hi.mem, t', hd, h3, by omega, by omega⟩
  · intro f hrun
    obtain ⟨s, hi, hr, h1, h2, h3, h4⟩ := started_inv (keyOf := keyOf) (h := h) hst
    rcases run_fault hl ops t0 s _ hi hr hok f hrun with ⟨rfl, _⟩ | ⟨rfl, _⟩ <;> decide

/-! ### C07 -/

/-- C07: capacity stays a power of two between `max(16, cap)` and the maximum, occupied and removed
entries stay within three quarters plus one, and `estimateMemoryUse()` is exact. -/
theorem C07_capacity_invariant (hl : Lawful pol canon keyOf h) {cap : Nat} {t0 : Table P}
    (hst : Started c cap t0) {ops : List (Op L P)} (hok : ∀ op ∈ ops, op.Ok canon keyOf) {t : Table P}
    {outs : List (Out P)} (hrun : run c pol t0 ops = .ok (t, outs)) :
    (∃ k, t.capacity = 2 ^ k) ∧ Nat.max 16 cap ≤ t.capacity ∧ t.capacity ≤ c.kMaxCapacity ∧
    4 * (t.nelements + t.ndeleted) ≤ 3 * t.capacity + 4 ∧ elements t < t.capacity ∧
    (∃ s, t.table = some s ∧ s.length = t.capacity) ∧
    estimateMemoryUse c t = c.entrySize * t.capacity ∧ c.entrySize * t.capacity < 2 ^ 31 := by
  obtain ⟨s, m, hi, hr, hs, hmin⟩ := reached hl hst hok hrun
  obtain ⟨k, hk31, hk⟩ := hi.sinv.pow
  have h1 := hi.load
  have h16 := hi.cap_ge
  have hsize : c.entrySize * t.capacity ≤ 2 ^ 31 - 1 := by
    have := hi.max
    unfold Config.kMaxCapacity at this
    calc c.entrySize * t.capacity ≤ c.entrySize * ((2 ^ 31 - 1) / c.entrySize) :=
          Nat.mul_le_mul_left _ this
      _ ≤ 2 ^ 31 - 1 := Nat.mul_div_le _ _
  refine ⟨⟨k, hi.cap.trans hk⟩, by rw [← hmin]; exact hi.minCap, hi.max, by omega, ?_, ⟨s, hi.tbl, hi.cap.symm⟩, ?_, ?_⟩
  · show t.nelements < _; omega
  · unfold estimateMemoryUse; exact Nat.mod_eq_of_lt (by omega)
  · omega

/-! ### C08 -/

/-- C08: move construction: the new table answers every lookup as the old one did, the old one is empty
(no elements, an empty walk), and both destructors together destroy every payload and free every
array exactly once. -/
theorem C08_move (hl : Lawful pol canon keyOf h) {cap : Nat} {t0 : Table P}
    (hst : Started c cap t0) {ops : List (Op L P)} (hok : ∀ op ∈ ops, op.Ok canon keyOf) {t : Table P}
    {outs : List (Out P)} (hrun : run c pol t0 ops = .ok (t, outs)) :
    (∀ l r, exec c pol t (.find l) = .ok (t, .found r) ↔
      exec c pol (moveFrom t).1 (.find l) = .ok ((moveFrom t).1, .found r)) ∧
    elements (moveFrom t).1 = elements t ∧
    elements (moveFrom t).2 = 0 ∧ (∀ pick, sweep pick (moveFrom t).2 = .ok ((moveFrom t).2, [])) ∧
    ∃ a b, destroy (moveFrom t).1 = .ok a ∧ destroy (moveFrom t).2 = .ok b ∧
      a.dtors + b.dtors = t.ctors ∧ a.frees + b.frees = t.mallocs := by
  obtain ⟨s, m, hi, hr, hs, hmin⟩ := reached hl hst hok hrun
  obtain ⟨t', hd, h1, h2, h3, h4⟩ := destroy_spec hi
  refine ⟨fun l r => Iff.rfl, rfl, rfl, fun pick => rfl, t', (moveFrom t).2, hd, rfl, ?_, ?_⟩
  · show t'.dtors + 0 = _; omega
  · show t'.frees + 0 = _; omega

/-! ### C09 -/

/-- C09 in full: whenever `init` returns false the table can be destroyed. -/
def FailedInitDestructible : Prop :=
  ∀ (c : Config) (cap : Nat) (memOk : Bool) (t : Table Nat),
    init c Table.new cap memOk = .ok (false, t) → ∃ t', destroy t = .ok t'

/-- C09 is false of the code: when `am_malloc` fails, `capacity_` is already set while `table_` is null,
and the destructor dereferences it. -/
theorem C09_failed_init_refuted : ¬ FailedInitDestructible := by
  intro hall
  obtain ⟨t', ht'⟩ := hall ⟨16, false⟩ 16 false
    { capacity := 16, nelements := 0, ndeleted := 0, table := none, minCapacity := 16, ctors := 0,
      dtors := 0, mallocs := 0, frees := 0 } rfl
  cases ht'

/-- C09, what does hold (missing: `init` failing for lack of memory, where the destructor dereferences
null, always): a table whose `init` was refused for being too large, and one whose `init`
succeeded, can be destroyed; and after an allocation failure destruction is a null dereference. -/
theorem C09_failed_init_partial (c : Config) (cap : Nat) (memOk : Bool) (b : Bool) (t : Table P)
    (hinit : init c Table.new cap memOk = .ok (b, t)) :
    (b = true → ∃ t', destroy t = .ok t' ∧ t'.frees = t'.mallocs) ∧
    (b = false → 16 ≤ cap → c.kMaxCapacity < cap → destroy t = .ok t ∧ t.mallocs = 0) ∧
    (b = false → (cap < 16 ∨ cap ≤ c.kMaxCapacity) → destroy t = .error .nullDeref) := by
  refine ⟨?_, ?_, ?_⟩
  · rintro rfl
    obtain ⟨s, hi, _⟩ := init_spec (keyOf := fun _ => ()) (h := fun _ => 0) cap memOk hinit
    obtain ⟨t', hd, h1, h2, h3, h4⟩ := destroy_spec hi
    exact ⟨t', hd, h2.symm⟩
  · rintro rfl h16 hbig
    unfold init at hinit
    simp only [kMinCapacity] at hinit
    rw [if_neg (by omega), if_pos hbig] at hinit
    unfold reportAllocationOverflow at hinit
    split at hinit
    · simp [bind, Except.bind] at hinit
    · simp only [bind, Except.bind, Except.ok.injEq, Prod.mk.injEq, true_and] at hinit
      subst hinit; exact ⟨rfl, rfl⟩
  · rintro rfl hcap
    have go : ∀ n, 16 ≤ n → (if Bits.isPowerOfTwo (BitVec.ofNat 64 n) = true then
        (createTable c n memOk).bind fun tbl =>
          match tbl with
          | none => (.ok (false, { (Table.new : Table P) with minCapacity := n, capacity := n, table := none }) : Exec (Bool × Table P))
          | some s => .ok (true, { (Table.new : Table P) with minCapacity := n, capacity := n, table := some s, mallocs := 0 + 1 })
      else .error .assertFail) = .ok (false, t) → destroy t = .error .nullDeref := by
      intro n hn hrun
      split at hrun
      · unfold createTable at hrun
        split at hrun
        · split at hrun
          · simp [Except.bind] at hrun
          · split at hrun
            · simp [Except.bind] at hrun
            · simp only [Except.bind, Except.ok.injEq, Prod.mk.injEq, true_and] at hrun
              subst hrun
              unfold destroy
              obtain ⟨k, rfl⟩ : ∃ k, n = k + 1 := ⟨n - 1, by omega⟩
              simp [destroyLoop, Table.load, bind, Except.bind]
        · simp [Except.bind] at hrun
      · cases hrun
    unfold init at hinit
    simp only [kMinCapacity] at hinit
    by_cases h1 : cap < 16
    · rw [if_pos h1] at hinit
      exact go 16 (Nat.le_refl _) hinit
    · rw [if_neg h1, if_neg (by omega)] at hinit
      exact go cap (by omega) hinit

/-! ### C10 -/

/-- The identity policy on 32-bit keys, used by the examples. -/
def idPolicy : Policy (BitVec 32) (BitVec 32) := { hash := id, isMatch := fun l p => l == p }

theorem idPolicy_lawful : Lawful idPolicy (canon := id) (keyOf := id) (h := id) :=
  ⟨fun _ => rfl, fun l p => by simp [idPolicy]⟩

/-- C10 in full: with a policy that returns from failures, growing beyond the limit is reported as a
failed add, never a crash. -/
def GrowthReportsOverflow : Prop :=
  ∀ (c : Config) (cap : Nat) (t0 : Table (BitVec 32)) (ops : List (Op (BitVec 32) (BitVec 32))),
    c.aborts = false → Started c cap t0 → (∀ op ∈ ops, op.Ok id id) →
    ∃ t outs, run c idPolicy t0 ops = .ok (t, outs)

/-- Adds the keys `0..n-1`. -/
def addKeys (n : Nat) : List (Op (BitVec 32) (BitVec 32)) :=
  (List.range n).map (fun i => .add (BitVec.ofNat 32 i) (BitVec.ofNat 32 i) true)

/-- C10 is false of the code: with 64 MB entries `kMaxCapacity` is 31, and the fourteenth add to a table
of capacity 16 fails the assertion in `changeCapacity` instead of reporting the overflow. -/
theorem C10_growth_refuted : ¬ GrowthReportsOverflow := by
  intro hall
  have hst : Started (P := BitVec 32) ⟨2 ^ 26, false⟩ 16
      { capacity := 16, nelements := 0, ndeleted := 0, table := some (List.replicate 16 Slot.fresh),
        minCapacity := 16, ctors := 0, dtors := 0, mallocs := 1, frees := 0 } := ⟨true, rfl⟩
  obtain ⟨t, outs, hrun⟩ := hall _ _ _ (addKeys 14) rfl hst (by
    intro op hop
    obtain ⟨i, _, rfl⟩ := List.mem_map.1 hop
    rfl)
  have : (match run ⟨2 ^ 26, false⟩ idPolicy
      { capacity := 16, nelements := 0, ndeleted := 0, table := some (List.replicate 16 Slot.fresh),
        minCapacity := 16, ctors := 0, dtors := 0, mallocs := 1, frees := 0 } (addKeys 14) with
    | .error f => some f
    | .ok _ => none) = some Fault.assertFail := by decide +kernel
  rw [hrun] at this
  cases this

/-- C10, what does hold (missing: the assertion failure when a doubling would pass the maximum): no
table ever has more than `kMaxCapacity` slots or asks for more than INT_MAX bytes, and with a
non-aborting policy the only fault of any history is that assertion, reached only when the adds
exceed 3/8 of the maximum capacity. -/
theorem C10_growth_partial (hl : Lawful pol canon keyOf h) {cap : Nat} {t0 : Table P}
    (hst : Started c cap t0) {ops : List (Op L P)} (hok : ∀ op ∈ ops, op.Ok canon keyOf)
    (hna : c.aborts = false) :
    (∀ t outs, run c pol t0 ops = .ok (t, outs) → t.capacity ≤ c.kMaxCapacity ∧
      c.entrySize * t.capacity < 2 ^ 31) ∧
    (∀ f, run c pol t0 ops = .error f → f = .assertFail ∧
      3 * c.kMaxCapacity < 8 * ops.countP Op.isAdd) := by
  constructor
  · intro t outs hrun
    have := C07_capacity_invariant hl hst hok hrun
    exact ⟨this.2.2.1, this.2.2.2.2.2.2.2⟩
  · intro f hrun
    obtain ⟨s, hi, hr, h1, h2, h3, h4⟩ := started_inv (keyOf := keyOf) (h := h) hst
    rcases run_fault hl ops t0 s _ hi hr hok f hrun with ⟨_, ha, _⟩ | ⟨hf, hx⟩
    · rw [hna] at ha; cases ha
    · exact ⟨hf, by omega⟩

/-! ### C11 -/

/-- Operations of a `HashSet` client. -/
inductive SetOp (K : Type) where
  | add (k : K)
  | has (k : K)
  | removeIfExists (k : K)
  | clear
  | elements

inductive SetOut where
  | done
  | answer (b : Bool)
  | count (n : Nat)
deriving DecidableEq

/-- The client code (memory is available). -/
def setExec (c : Config) (pol : Policy K K) (t : Table K) : SetOp K → Exec (Table K × SetOut)
  | .add k => do
    let t ← setAdd c pol t k true
    .ok (t, .done)
  | .has k => do
    let b ← has pol t k
    .ok (t, .answer b)
  | .removeIfExists k => do
    let t ← removeIfExists pol t k
    .ok (t, .done)
  | .clear => do
    let t ← clear t
    .ok (t, .done)
  | .elements => .ok (t, .count (elements t))

def setRun (c : Config) (pol : Policy K K) (t : Table K) : List (SetOp K) → Exec (Table K × List SetOut)
  | [] => .ok (t, [])
  | op :: ops => do
    let (t, o) ← setExec c pol t op
    let (t, os) ← setRun c pol t ops
    .ok (t, o :: os)

/-- Specification: the set as a list without repetitions. -/
def setSpec (S : List K) : SetOp K → List K × SetOut
  | .add k => (if k ∈ S then S else k :: S, .done)
  | .has k => (S, .answer (decide (k ∈ S)))
  | .removeIfExists k => (S.filter (fun x => decide (x ≠ k)), .done)
  | .clear => ([], .done)
  | .elements => (S, .count S.length)

def setSpecRun (S : List K) : List (SetOp K) → List SetOut
  | [] => []
  | op :: ops => (setSpec S op).2 :: setSpecRun (setSpec S op).1 ops

/-- the hash-table operation behind a set operation -/
def SetOp.toOp : SetOp K → Op K K
  | .add k => .add k k true
  | .has k => .find k
  | .removeIfExists k => .removeIfExists k
  | .clear => .clear
  | .elements => .elements

omit [DecidableEq K] in
theorem setAdd_of_exec {pol : Policy K K} {t t' : Table K} {k : K} {o : Out K}
    (he : exec c pol t (.add k k true) = .ok (t', o)) : setAdd c pol t k true = .ok t' := by
  simp only [exec, bind, Except.bind] at he
  simp only [setAdd, bind, Except.bind]
  cases h1 : findForAdd pol t k with
  | error f => rw [h1] at he; simp at he
  | ok i =>
    rw [h1] at he
    simp only at he ⊢
    cases h2 : t.found i.entry with
    | error f => rw [h2] at he; simp at he
    | ok b =>
      rw [h2] at he
      simp only at he ⊢
      cases b with
      | true =>
        simp only [if_true] at he ⊢
        split at he
        · cases he
        · simp only [Except.ok.injEq, Prod.mk.injEq] at he
          rw [he.1]
      | false =>
        simp only [Bool.false_eq_true, if_false] at he ⊢
        cases h3 : add c t i k true with
        | error f => rw [h3] at he; simp at he
        | ok v =>
          rw [h3] at he
          simp only at he ⊢
          split at he
          · split at he
            · cases he
            · simp only [Except.ok.injEq, Prod.mk.injEq] at he
              rw [he.1]
          · simp only [Except.ok.injEq, Prod.mk.injEq] at he
            rw [he.1]

/-- C11: every history of a `HashSet` (with memory, below the size limit) gives exactly the answers of
the set specification: `has` is membership, adding a present key changes nothing, `elements()` is the
cardinality. -/
theorem C11_set (pol : Policy K K) (h : K → BitVec 32) (hl : Lawful pol id id h) {cap : Nat} {t0 : Table K}
    (hst : Started c cap t0) (ops : List (SetOp K))
    (hsmall : 8 * ops.countP (fun op => op.toOp.isAdd) ≤ 3 * c.kMaxCapacity) :
    ∃ t, setRun c pol t0 ops = .ok (t, setSpecRun [] ops) := by
  obtain ⟨s0, hi0, hr0, h1, h2, h3, h4⟩ := started_inv (keyOf := id) (h := h) hst
  have key : ∀ (ops : List (SetOp K)) (t : Table K) (s : List (Slot K)) (m : K → Option K) (S : List K),
      Inv c id h t s → Repr' id s m → S.Nodup → (∀ k, k ∈ S ↔ m k ≠ none) →
      8 * (t.nelements + t.ndeleted + ops.countP (fun op => op.toOp.isAdd)) ≤ 3 * c.kMaxCapacity →
      ∃ t', setRun c pol t ops = .ok (t', setSpecRun S ops) := by
    intro ops
    induction ops with
    | nil => intro t s m S hi hr hnd hS hsm; exact ⟨t, rfl⟩
    | cons op ops ih =>
      intro t s m S hi hr hnd hS hsm
      rw [List.countP_cons] at hsm
      have hnl : ¬ NearLimit c t := by
        intro hn; have := nearLimit_big hi hn; omega
      have hmself : ∀ k p, m k = some p → p = k := fun k p hm => ((hr k p).1 hm).2
      have hok : op.toOp.Ok (id : K → K) (id : K → K) := by cases op <;> first | rfl | trivial
      have hmem : op.toOp.memOk = true := by cases op <;> rfl
      rcases exec_step (c := c) hl hi hr op.toOp hok with
        ⟨t1, s1, o, m1, he, hi1, hr1, hstp, hmn, hocc, hfail⟩ | ⟨f', he, hre⟩
      · have hnf : o.isFailure = false := by
          rw [Bool.eq_false_iff]
          intro hc
          rcases (hfail hc).2.2 with hm | hn
          · rw [hmem] at hm; cases hm
          · exact hnl hn
        have step : setExec c pol t op = .ok (t1, (setSpec S op).2) ∧ (setSpec S op).1.Nodup ∧
            ∀ k, k ∈ (setSpec S op).1 ↔ m1 k ≠ none := by
          cases op with
          | add k =>
            refine ⟨?_, ?_, ?_⟩
            · simp only [setExec, bind, Except.bind, setAdd_of_exec he]; rfl
            · simp only [setSpec]; split
              · exact hnd
              · rename_i hk; exact List.nodup_cons.2 ⟨hk, hnd⟩
            · intro k'
              simp only [setSpec]
              simp only [SetOp.toOp] at hstp
              cases hstp with
              | addNew _ _ _ hm =>
                have hkS : k ∉ S := fun hk => (hS k).1 hk hm
                rw [if_neg hkS, List.mem_cons, hS]
                unfold upd
                simp only [id]
                split
                · rename_i hk; simp [hk]
                · rename_i hk; simp [hk]
              | addPresent _ _ _ q hm =>
                have hkS : k ∈ S := (hS k).2 (by rw [show m k = some q from hm]; simp)
                rw [if_pos hkS]; exact hS k'
              | addFailed => simp [Out.isFailure] at hnf
          | has k =>
            simp only [SetOp.toOp] at hstp he
            cases hstp with
            | find l =>
              refine ⟨?_, hnd, hS⟩
              have hfind : exec c pol t (.find k) = .ok (t1, .found (m k)) := he
              have ht1 : t1 = t := by
                rw [find_answer hl hi hr k] at hfind
                simp only [Except.ok.injEq, Prod.mk.injEq] at hfind; exact hfind.1.symm
              subst ht1
              obtain ⟨i, e, hf, hget, hcase⟩ := find_spec hl hi.sinv hi.tbl hi.cap hi.free k
              simp only [setExec, has, bind, Except.bind, hf, Table.found, load_ok hi.tbl hget, setSpec]
              congr 3
              rcases hcase with ⟨hlv, p, hp, hk⟩ | ⟨hfr, habs⟩
              · rw [hlv]
                have : m k = some p := (hr k p).2 ⟨⟨i, e, hget, hp⟩, hk⟩
                symm; rw [decide_eq_true_eq, hS, this]; simp
              · rw [free_not_live hfr]
                have : m k = none := repr_none hr habs
                symm; rw [decide_eq_false_iff_not, hS, this]; simp
          | removeIfExists k =>
            refine ⟨?_, ?_, ?_⟩
            · simp only [SetOp.toOp, exec, bind, Except.bind] at he
              simp only [setExec, bind, Except.bind]
              split at he
              · cases he
              · rename_i v hv
                simp only [Except.ok.injEq, Prod.mk.injEq] at he
                rw [he.1]; rfl
            · exact hnd.filter _
            · intro k'
              simp only [SetOp.toOp] at hstp
              cases hstp
              simp only [setSpec, List.mem_filter, decide_eq_true_eq, hS, upd, id]
              split
              · rename_i hk; simp [hk]
              · rename_i hk; simp [hk]
          | clear =>
            refine ⟨?_, List.nodup_nil, ?_⟩
            · simp only [SetOp.toOp, exec, bind, Except.bind] at he
              simp only [setExec, bind, Except.bind]
              split at he
              · cases he
              · rename_i v hv
                simp only [Except.ok.injEq, Prod.mk.injEq] at he
                rw [he.1]; rfl
            · intro k'
              simp only [SetOp.toOp] at hstp
              cases hstp
              simp [setSpec]
          | elements =>
            simp only [SetOp.toOp, exec, Except.ok.injEq, Prod.mk.injEq] at he hstp
            obtain ⟨rfl, rfl⟩ := he
            generalize hct : elements t = n at hstp
            cases hstp with
            | elements ks hnd' hks =>
              refine ⟨?_, hnd, hS⟩
              have : ks.Perm S := by
                rw [List.perm_ext_iff_of_nodup hnd' hnd]; intro k; rw [hks, hS]
              simp only [setExec, setSpec, hct, this.length_eq]
        obtain ⟨hx, hnd', hS'⟩ := step
        have hadd : op.toOp.isAdd = (fun op : SetOp K => op.toOp.isAdd) op := rfl
        obtain ⟨t2, hrest⟩ := ih t1 s1 m1 _ hi1 hr1 hnd' hS' (by omega)
        refine ⟨t2, ?_⟩
        simp only [setRun, bind, Except.bind, hx, hrest]
        rfl
      · cases hre with
        | abort ha hcond =>
          rcases hcond with hm | hn
          · rw [hmem] at hm; cases hm
          · exact absurd hn hnl
        | assert hn => exact absurd hn hnl
  exact key ops t0 s0 _ [] hi0 hr0 List.nodup_nil (by simp) (by omega)

/-! ### C12 -/

/-- C12: two tables whose policies agree on what matches but hash differently (and which may differ in
initial capacity and configuration) give the same answers to the same history, as long as no add
failed - walks up to their order. -/
theorem C12_hash_independent {h1 h2 : K → BitVec 32} {pol1 pol2 : Policy L P}
    (hl1 : Lawful pol1 canon keyOf h1) (hl2 : Lawful pol2 canon keyOf h2) {c1 c2 : Config}
    {cap1 cap2 : Nat} {t1 t2 : Table P} (hst1 : Started c1 cap1 t1) (hst2 : Started c2 cap2 t2)
    {ops : List (Op L P)} (hok : ∀ op ∈ ops, op.Ok canon keyOf) {t1' t2' : Table P}
    {outs1 outs2 : List (Out P)} (hrun1 : run c1 pol1 t1 ops = .ok (t1', outs1))
    (hrun2 : run c2 pol2 t2 ops = .ok (t2', outs2))
    (hf1 : ∀ o ∈ outs1, o.isFailure = false) (hf2 : ∀ o ∈ outs2, o.isFailure = false) :
    OutsEq outs1 outs2 := by
  obtain ⟨_, m1, _, _, hs1, _⟩ := reached hl1 hst1 hok hrun1
  obtain ⟨_, m2, _, _, hs2, _⟩ := reached hl2 hst2 hok hrun2
  clear hrun1 hrun2 hok
  have key : ∀ (ops : List (Op L P)) (m ma mb : K → Option P) (o1 o2 : List (Out P)),
      Steps canon keyOf m ops o1 ma → Steps canon keyOf m ops o2 mb →
      (∀ o ∈ o1, o.isFailure = false) → (∀ o ∈ o2, o.isFailure = false) →
      OutsEq o1 o2 := by
    intro ops
    induction ops with
    | nil => intro m ma mb o1 o2 hs1 hs2 _ _; cases hs1; cases hs2; exact .nil
    | cons op ops ih =>
      intro m ma mb o1 o2 hs1 hs2 hf1 hf2
      cases hs1 with
      | cons ha hra =>
        cases hs2 with
        | cons hb hrb =>
          obtain ⟨hoe, hme⟩ := step_det ha hb (hf1 _ List.mem_cons_self) (hf2 _ List.mem_cons_self)
          subst hme
          exact .cons hoe (ih _ _ _ _ _ hra hrb (fun o ho => hf1 o (List.mem_cons_of_mem _ ho))
            (fun o ho => hf2 o (List.mem_cons_of_mem _ ho)))
  exact key ops _ _ _ _ _ hs1 hs2 hf1 hf2

/-! ### Non-vacuity -/

/-- A policy under which all keys collide. -/
def collidePolicy : Policy (BitVec 32) (BitVec 32 × Nat) :=
  { hash := fun _ => 7, isMatch := fun l p => l == p.1 }

theorem collidePolicy_lawful :
    Lawful collidePolicy (canon := id) (keyOf := Prod.fst) (h := fun _ => 7) :=
  ⟨fun _ => rfl, fun l p => by simp [collidePolicy]⟩

/-- A concrete started table. -/
def exTable {P : Type} : Table P :=
  { capacity := 16, nelements := 0, ndeleted := 0, table := some (List.replicate 16 Slot.fresh),
    minCapacity := 16, ctors := 0, dtors := 0, mallocs := 1, frees := 0 }

example : Started (P := BitVec 32 × Nat) ⟨16, true⟩ 3 exTable := ⟨true, rfl⟩

/-- a history with collisions, growth past 16 slots, removal, reuse and a walk that meets the hypotheses -/
def exOps : List (Op (BitVec 32) (BitVec 32 × Nat)) :=
  (List.range 20).map (fun i => .add (BitVec.ofNat 32 i) (BitVec.ofNat 32 i, 10 * i) true) ++
  [.removeIfExists 3, .removeIfExists 5, .find 3, .add 3 (3, 99) true, .find 3, .find 19, .elements,
   .sweep (fun p => p.2 % 20 == 0), .elements, .move, .find 19, .clear, .elements]

example : ∀ op ∈ exOps, op.Ok (id : BitVec 32 → BitVec 32) Prod.fst := by
  intro op hop
  simp only [exOps, List.mem_append] at hop
  rcases hop with hop | hop
  · obtain ⟨i, _, rfl⟩ := List.mem_map.1 hop; rfl
  · simp only [List.mem_cons, List.not_mem_nil, or_false] at hop
    rcases hop with rfl | rfl | rfl | rfl | rfl | rfl | rfl | rfl | rfl | rfl | rfl | rfl | rfl <;>
      first | rfl | trivial

example : (match run ⟨16, true⟩ collidePolicy exTable exOps with
    | .ok (t, outs) => some (t.capacity, outs.length)
    | .error _ => none) = some (32, 33) := by decide +kernel

end Verif.HashTable
