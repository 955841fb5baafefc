import Verif.Storage.Spec
/-!
# C97: client objects are constructed at suitable addresses inside the storage provided for them
-/
namespace Verif.Storage
open Verif

/-! ### Arithmetic -/

theorem dvd_roundUp (n a : Nat) : a ∣ roundUp n a := ⟨(n + (a - 1)) / a, Nat.mul_comm _ _⟩

theorem le_roundUp (n : Nat) {a : Nat} (ha : 0 < a) : n ≤ roundUp n a := by
  unfold roundUp
  have h1 := Nat.div_add_mod (n + (a - 1)) a
  have h2 := Nat.mod_lt (n + (a - 1)) ha
  rw [Nat.mul_comm] at h1
  omega

theorem roundUp_lt (n : Nat) {a : Nat} (ha : 0 < a) : roundUp n a < n + a := by
  unfold roundUp
  have h1 := Nat.div_mul_le_self (n + (a - 1)) a
  omega

theorem roundUp_of_dvd {n a : Nat} (ha : 0 < a) (h : a ∣ n) : roundUp n a = n := by
  obtain ⟨k, rfl⟩ := h
  have h1 := le_roundUp (a * k) ha
  have h2 := roundUp_lt (a * k) ha
  obtain ⟨j, hj⟩ := dvd_roundUp (a * k) a
  rw [hj] at h1 h2 ⊢
  have h3 : k ≤ j := Nat.le_of_mul_le_mul_left h1 ha
  have h4 : j < k + 1 := Nat.lt_of_mul_lt_mul_left (a := a) (by rw [Nat.mul_add, Nat.mul_one]; exact h2)
  have : j = k := by omega
  rw [this]

theorem roundUp_small {n a : Nat} (h0 : 0 < n) (h : n ≤ a) : roundUp n a = a := by
  have ha : 0 < a := by omega
  have h1 := le_roundUp n ha
  have h2 := roundUp_lt n ha
  obtain ⟨j, hj⟩ := dvd_roundUp n a
  rw [hj] at h1 h2 ⊢
  have : j = 1 := by
    have h3 : j < 2 := Nat.lt_of_mul_lt_mul_left (a := a) (by omega)
    have h4 : j ≠ 0 := by intro e; subst e; omega
    omega
  rw [this, Nat.mul_one]

/-- Powers of two. -/
def P2 (n : Nat) : Prop := ∃ k, n = 2 ^ k

theorem P2.pos {n : Nat} (h : P2 n) : 0 < n := by obtain ⟨k, rfl⟩ := h; exact Nat.two_pow_pos k

theorem P2.dvd {m n : Nat} (hm : P2 m) (hn : P2 n) (h : m ≤ n) : m ∣ n := by
  obtain ⟨i, rfl⟩ := hm
  obtain ⟨j, rfl⟩ := hn
  exact Nat.pow_dvd_pow 2 ((Nat.pow_le_pow_iff_right (by decide)).1 h)

theorem P2.max {m n : Nat} (hm : P2 m) (hn : P2 n) : P2 (max m n) := by
  rcases Nat.le_total m n with h | h
  · rwa [Nat.max_eq_right h]
  · rwa [Nat.max_eq_left h]

theorem P2.one : P2 1 := ⟨0, rfl⟩

/-! ### The property -/

/-- C97 in full: on every platform and for every type `t`, every `Maybe`, `Function`, hash table and array, wherever the platform may put it, constructs its `t` at an
address suitable for a `t`, with all bytes inside its own storage, and apart from its own members and its other `t`s. -/
def StorageCorrect : Prop :=
  ∀ (abi : Abi) (t : Ty), abi.Legal → t.Legal →
    (∀ this, Aligned (maybe abi t) this →
      Aligned t (maybeObject abi t this) ∧ Inside t (maybeObject abi t this) this (maybe abi t).size ∧ Apart this 1 (maybeObject abi t this) t.size) ∧
    (∀ this, Aligned (function abi) this → fitsInline abi t = true →
      Aligned (holder abi t) (inlineHolder abi this) ∧ Inside (holder abi t) (inlineHolder abi this) this (function abi).size ∧
      Apart this abi.ptr (inlineHolder abi this) (holder abi t).size ∧
      Aligned t (holderObject abi t (inlineHolder abi this)) ∧ Inside t (holderObject abi t (inlineHolder abi this)) (inlineHolder abi this) (holder abi t).size) ∧
    (∀ base capacity i, base % abi.malloc = 0 → i < capacity →
      Aligned t (tableObject t base i) ∧ Inside t (tableObject t base i) base (tableBytes t capacity)) ∧
    (∀ base size i, base % abi.malloc = 0 → i < size → Aligned t (arrayObject t base i) ∧ Inside t (arrayObject t base i) base (t.size * size))

/-- C97 does not hold: on LP64 a `Maybe` of a type with alignment 16, such as `long double`, puts it at a multiple of 8 only. -/
theorem C97_storage_refuted : ¬ StorageCorrect := by
  intro h
  have h1 := (h lp64 ⟨16, 16⟩ ⟨⟨3, rfl⟩, ⟨3, rfl⟩, ⟨3, rfl⟩, ⟨4, rfl⟩, by decide, by decide, by decide, by decide, by decide, by decide⟩
    ⟨⟨4, rfl⟩, ⟨1, rfl⟩, by decide⟩).1 0 rfl
  exact absurd h1.1 (by unfold Aligned; decide)

/-! ### Layouts -/

section
variable {abi : Abi} {t : Ty}

theorem sb_eq (h : abi.Legal) (ht : t.Legal) : storageBuffer abi t = ⟨roundUp (max t.size 8) abi.al64, abi.al64⟩ := by
  obtain ⟨-, h64, -⟩ := h
  have hp : 0 < abi.al64 := P2.pos h64
  have e : unionOf [⟨t.size, 1⟩, ⟨8, abi.al64⟩] = ⟨roundUp (max t.size 8) abi.al64, abi.al64⟩ := by
    simp only [unionOf, maxSize, maxAlign]
    rw [show max 1 (max abi.al64 1) = abi.al64 by omega, show max t.size (max 8 0) = max t.size 8 by omega]
  unfold storageBuffer
  rw [e]
  simp only [structOf, fieldsEnd, maxAlign]
  rw [show max abi.al64 1 = abi.al64 by omega, roundUp_of_dvd hp (Nat.dvd_zero _), Nat.zero_add, roundUp_of_dvd hp (dvd_roundUp _ _)]

theorem maybe_eq (h : abi.Legal) (ht : t.Legal) :
    maybe abi t = ⟨abi.al64 + roundUp (max t.size 8) abi.al64, abi.al64⟩ ∧ ∀ this, maybeObject abi t this = this + abi.al64 := by
  have h' := h
  obtain ⟨-, h64, -⟩ := h'
  have hp : 0 < abi.al64 := P2.pos h64
  have e1 : roundUp 1 abi.al64 = abi.al64 := roundUp_small (by decide) hp
  have e0 : roundUp 0 1 = 0 := by decide
  constructor
  · simp only [maybe, maybeMembers, sb_eq h ht, structOf, fieldsEnd, maxAlign, e0, e1, Nat.zero_add]
    rw [show max 1 (max abi.al64 1) = abi.al64 by omega, roundUp_of_dvd hp (Nat.dvd_add (Nat.dvd_refl _) (dvd_roundUp _ _))]
  · intro this
    simp only [maybeObject, maybeMembers, sb_eq h ht, offsets, e0, e1, Nat.zero_add, address]
    rfl

/-- C97 for `Maybe`, the part that always holds: the object lies inside the `Maybe` and not on its flag, and so do the objects of an array of them: their bytes are apart. -/
theorem C97_maybe_inside (h : abi.Legal) (ht : t.Legal) (this : Nat) :
    Inside t (maybeObject abi t this) this (maybe abi t).size ∧ Apart this 1 (maybeObject abi t this) t.size ∧
    ∀ i j, i < j → Apart (maybeObject abi t (this + i * (maybe abi t).size)) t.size (maybeObject abi t (this + j * (maybe abi t).size)) t.size := by
  obtain ⟨e1, e2⟩ := maybe_eq h ht
  have hp : 0 < abi.al64 := P2.pos h.2.1
  have hr := le_roundUp (max t.size 8) hp
  rw [e1]
  simp only [e2]
  refine ⟨⟨by omega, ?_⟩, Or.inl (by omega), fun i j hij => Or.inl ?_⟩
  · show this + abi.al64 + t.size ≤ this + (abi.al64 + roundUp (max t.size 8) abi.al64)
    omega
  · have h1 := Nat.mul_le_mul_right (abi.al64 + roundUp (max t.size 8) abi.al64) (show i + 1 ≤ j from hij)
    rw [Nat.add_mul, Nat.one_mul] at h1
    show this + i * (abi.al64 + roundUp (max t.size 8) abi.al64) + abi.al64 + t.size ≤ this + j * (abi.al64 + roundUp (max t.size 8) abi.al64) + abi.al64
    omega

/-- C97 for `Maybe`, for types no more aligned than `uint64_t`: the address suits the object. What is missing: more aligned types. -/
theorem C97_maybe_partial (h : abi.Legal) (ht : t.Legal) (ha : t.align ≤ abi.al64) (this : Nat) (hthis : Aligned (maybe abi t) this) :
    Aligned t (maybeObject abi t this) := by
  obtain ⟨e1, e2⟩ := maybe_eq h ht
  rw [e1] at hthis
  have h1 : abi.al64 ∣ this := Nat.dvd_of_mod_eq_zero hthis
  have h2 : t.align ∣ abi.al64 := P2.dvd ht.1 h.2.1 ha
  rw [Aligned, e2]
  exact Nat.mod_eq_zero_of_dvd (Nat.dvd_add (Nat.dvd_trans h2 h1) h2)

/-- ... and those types do go wrong, each of them: there is an address where a `Maybe` may be, so that its object is misaligned. -/
theorem C97_maybe_overaligned_refuted (h : abi.Legal) (ht : t.Legal) (ha : abi.al64 < t.align) :
    ∃ this, 0 < this ∧ Aligned (maybe abi t) this ∧ ¬ Aligned t (maybeObject abi t this) := by
  obtain ⟨e1, e2⟩ := maybe_eq h ht
  refine ⟨t.align, P2.pos ht.1, ?_, ?_⟩
  · rw [e1]; exact Nat.mod_eq_zero_of_dvd (P2.dvd h.2.1 ht.1 (Nat.le_of_lt ha))
  · rw [Aligned, e2, Nat.add_mod_left, Nat.mod_eq_of_lt ha]
    have := P2.pos h.2.1
    omega

theorem two_mul_le {m n : Nat} (hm : P2 m) (hn : P2 n) (h : m < n) : 2 * m ≤ n := by
  obtain ⟨i, rfl⟩ := hm
  obtain ⟨j, rfl⟩ := hn
  have h1 := (Nat.pow_lt_pow_iff_right (by decide : 1 < 2)).1 h
  have h2 := Nat.pow_le_pow_right (by decide : 0 < 2) (show i + 1 ≤ j from h1)
  rwa [Nat.pow_succ, Nat.mul_comm] at h2

theorem buffer_eq (h : abi.Legal) : buffer abi = ⟨roundUp (max 8 (abi.ptr * 3)) abi.aldbl, abi.aldbl⟩ := by
  have hp : 0 < abi.aldbl := P2.pos h.2.2.1
  simp only [buffer, unionOf, maxSize, maxAlign]
  rw [show max abi.aldbl (max 1 1) = abi.aldbl by omega, show max 8 (max (abi.ptr * 3) 0) = max 8 (abi.ptr * 3) by omega]

theorem buffer_size (h : abi.Legal) : (buffer abi).size < 4 * abi.ptr ∨ (abi.ptr = 4 ∧ abi.aldbl = 8 ∧ (buffer abi).size = 16) := by
  rw [buffer_eq h]
  obtain ⟨⟨k, hk⟩, -, ⟨d, hd⟩, -, h4, -, h5, -, h6, -⟩ := h
  show roundUp _ _ < _ ∨ _
  have hk8 : abi.ptr ≤ 8 := by omega
  have hp : abi.ptr = 4 ∨ abi.ptr = 8 := by
    have : k ≤ 3 := by
      apply Nat.le_of_not_lt; intro hlt
      have := Nat.pow_le_pow_right (by decide : 0 < 2) (show 4 ≤ k from hlt)
      omega
    match k, this with
    | 0, _ => omega
    | 1, _ => omega
    | 2, _ => left; omega
    | 3, _ => right; omega
  have hd' : abi.aldbl = 4 ∨ abi.aldbl = 8 := by
    have : d ≤ 3 := by
      apply Nat.le_of_not_lt; intro hlt
      have := Nat.pow_le_pow_right (by decide : 0 < 2) (show 4 ≤ d from hlt)
      omega
    match d, this with
    | 0, _ => omega
    | 1, _ => omega
    | 2, _ => left; omega
    | 3, _ => right; omega
  rcases hp with e | e <;> rcases hd' with f | f <;> rw [e, f]
  · left; decide
  · right; decide
  · omega
  · left; decide

theorem holder_eq (h : abi.Legal) (ht : t.Legal) :
    (holder abi t).align = max abi.ptr t.align ∧ (holder abi t).size = roundUp (roundUp abi.ptr t.align + t.size) (max abi.ptr t.align) ∧
    ∀ x, holderObject abi t x = x + roundUp abi.ptr t.align := by
  have hp : 0 < abi.ptr := P2.pos h.1
  have h0 : roundUp 0 abi.ptr = 0 := roundUp_of_dvd hp (Nat.dvd_zero _)
  have ht0 := P2.pos ht.1
  refine ⟨?_, ?_, fun x => ?_⟩
  · simp only [holder, holderMembers, structOf, maxAlign]; omega
  · simp only [holder, holderMembers, structOf, fieldsEnd, maxAlign, h0, Nat.zero_add]
    rw [show max abi.ptr (max t.align 1) = max abi.ptr t.align by omega]
  · simp only [holderObject, holderMembers, offsets, h0, Nat.zero_add]; rfl

/-- The callable's place inside its holder, inline or on the heap. -/
theorem holder_object (h : abi.Legal) (ht : t.Legal) {x : Nat} (hx : Aligned (holder abi t) x) :
    Aligned t (holderObject abi t x) ∧ Inside t (holderObject abi t x) x (holder abi t).size ∧ Apart x abi.ptr (holderObject abi t x) t.size := by
  obtain ⟨e1, e2, e3⟩ := holder_eq h ht
  have ht0 := P2.pos ht.1
  rw [Aligned, e1] at hx
  have hm : P2 (max abi.ptr t.align) := P2.max h.1 ht.1
  have hd : t.align ∣ x := Nat.dvd_trans (P2.dvd ht.1 hm (Nat.le_max_right _ _)) (Nat.dvd_of_mod_eq_zero hx)
  have h1 := le_roundUp abi.ptr ht0
  have h2 := le_roundUp (roundUp abi.ptr t.align + t.size) hm.pos
  rw [Aligned, Inside, Apart, e3, e2]
  exact ⟨Nat.mod_eq_zero_of_dvd (Nat.dvd_add hd (dvd_roundUp _ _)), ⟨by omega, by omega⟩, Or.inl (by omega)⟩

/-- C97 for `Function`, in full: whenever a callable is stored inline the buffer suits its holder and holds all of it, apart from `impl_`, and the callable is aligned and
inside the holder. So a more aligned callable is never stored inline. -/
theorem C97_function (h : abi.Legal) (ht : t.Legal) (this : Nat) (hthis : Aligned (function abi) this) (hin : fitsInline abi t = true) :
    Aligned (holder abi t) (inlineHolder abi this) ∧ Inside (holder abi t) (inlineHolder abi this) this (function abi).size ∧
    Apart this abi.ptr (inlineHolder abi this) (holder abi t).size ∧
    Aligned t (holderObject abi t (inlineHolder abi this)) ∧ Inside t (holderObject abi t (inlineHolder abi this)) (inlineHolder abi this) (holder abi t).size := by
  have hin : (holder abi t).size ≤ (buffer abi).size := of_decide_eq_true hin
  have hb := buffer_size h
  have hbe := buffer_eq h
  obtain ⟨e1, e2, -⟩ := holder_eq h ht
  have hl := h
  obtain ⟨hpt, -, hdbl, -, h4, -, h5, -, h6, -⟩ := h
  have hp : 0 < abi.ptr := P2.pos hpt
  have hd : 0 < abi.aldbl := P2.pos hdbl
  have ht0 := P2.pos ht.1
  have h0 : roundUp 0 abi.ptr = 0 := roundUp_of_dvd hp (Nat.dvd_zero _)
  have hdp : abi.ptr ∣ abi.aldbl := P2.dvd hpt hdbl h5
  have hru : roundUp abi.ptr abi.aldbl = abi.aldbl := roundUp_small hp h5
  have fe : (function abi).align = abi.aldbl ∧ abi.aldbl + (buffer abi).size ≤ (function abi).size ∧ inlineHolder abi this = this + abi.aldbl := by
    have hba : (buffer abi).align = abi.aldbl := by rw [hbe]
    refine ⟨?_, ?_, ?_⟩
    · simp only [function, functionMembers, structOf, maxAlign, hba]; omega
    · simp only [function, functionMembers, structOf, fieldsEnd, maxAlign, hba, h0, Nat.zero_add, hru]
      exact le_roundUp _ (by omega)
    · simp only [inlineHolder, functionMembers, offsets, hba, h0, Nat.zero_add, hru]; rfl
  -- the holder is no more aligned than the buffer
  have hal : (holder abi t).align ≤ abi.aldbl := by
    rw [e1]
    rcases Nat.lt_or_ge abi.ptr t.align with hlt | hge
    · have h2 := two_mul_le hpt ht.1 hlt
      have hmx : max abi.ptr t.align = t.align := Nat.max_eq_right (Nat.le_of_lt hlt)
      have hr1 : roundUp abi.ptr t.align = t.align := roundUp_small hp (Nat.le_of_lt hlt)
      have h3 : 2 * t.align ≤ (holder abi t).size := by
        rw [e2, hmx, hr1]
        have := Nat.le_of_dvd ht.2.2 ht.2.1
        have := le_roundUp (t.align + t.size) ht0
        omega
      rw [hmx]
      rcases hb with hb | ⟨f1, f2, f3⟩
      · omega
      · omega
    · rw [Nat.max_eq_left hge]; exact h5
  have hmx : P2 (holder abi t).align := by rw [e1]; exact P2.max hpt ht.1
  have hal' : Aligned (holder abi t) (inlineHolder abi this) := by
    rw [Aligned, fe.1] at hthis
    rw [Aligned, fe.2.2]
    have h7 : (holder abi t).align ∣ abi.aldbl := P2.dvd hmx hdbl hal
    exact Nat.mod_eq_zero_of_dvd (Nat.dvd_add (Nat.dvd_trans h7 (Nat.dvd_of_mod_eq_zero hthis)) h7)
  obtain ⟨o1, o2, -⟩ := holder_object hl ht hal'
  refine ⟨hal', ⟨?_, ?_⟩, Or.inl ?_, o1, o2⟩
  · rw [fe.2.2]; omega
  · rw [fe.2.2]; omega
  · rw [fe.2.2]; omega

theorem entry_eq (ht : t.Legal) :
    (entry t).align = max 4 t.align ∧ (entry t).size = roundUp (roundUp 4 t.align + t.size) (max 4 t.align) ∧
    (∀ base i, tableObject t base i = base + i * (entry t).size + roundUp 4 t.align) ∧ (∀ base i, tableHash t base i = base + i * (entry t).size) := by
  have ht0 := P2.pos ht.1
  have h0 : roundUp 0 4 = 0 := by decide
  refine ⟨?_, ?_, fun x i => ?_, fun x i => ?_⟩
  · simp only [entry, entryMembers, structOf, maxAlign]; omega
  · simp only [entry, entryMembers, structOf, fieldsEnd, maxAlign, h0, Nat.zero_add]
    rw [show max 4 (max t.align 1) = max 4 t.align by omega]
  · simp only [tableObject, entryMembers, offsets, h0, Nat.zero_add]; rfl
  · simp only [tableHash, entryMembers, offsets, h0]; rfl

/-- C97 for hash tables, the part that always holds: every payload lies inside the table, apart from every hash and every other payload. -/
theorem C97_table_inside (ht : t.Legal) (base capacity i : Nat) (hi : i < capacity) :
    Inside t (tableObject t base i) base (tableBytes t capacity) ∧
    (∀ j, Apart (tableHash t base j) 4 (tableObject t base i) t.size) ∧ (∀ j, i ≠ j → Apart (tableObject t base i) t.size (tableObject t base j) t.size) := by
  obtain ⟨-, e2, e3, e4⟩ := entry_eq ht
  have ht0 := P2.pos ht.1
  have hm : P2 (max 4 t.align) := P2.max ⟨2, rfl⟩ ht.1
  have h1 := le_roundUp 4 ht0
  have h2 := le_roundUp (roundUp 4 t.align + t.size) hm.pos
  rw [← e2] at h2
  have step : ∀ {a b : Nat}, a < b → a * (entry t).size + (entry t).size ≤ b * (entry t).size := by
    intro a b hab
    have := Nat.mul_le_mul_right (entry t).size (show a + 1 ≤ b from hab)
    rwa [Nat.add_mul, Nat.one_mul] at this
  refine ⟨⟨by rw [e3]; omega, ?_⟩, fun j => ?_, fun j hne => ?_⟩
  · rw [e3, tableBytes]; have := step hi; omega
  · rw [Apart, e3, e4]
    rcases Nat.lt_trichotomy i j with h | h | h
    · right; have := step h; omega
    · subst h; left; omega
    · left; have := step h; omega
  · rw [Apart, e3, e3]
    rcases Nat.lt_or_gt_of_ne hne with h | h
    · left; have := step h; omega
    · right; have := step h; omega

/-- C97 for hash tables and arrays, for types no more aligned than what `malloc` returns: the address suits the object. What is missing: more aligned types. -/
theorem C97_heap_partial (h : abi.Legal) (ht : t.Legal) (ha : t.align ≤ abi.malloc) (base : Nat) (hb : base % abi.malloc = 0) (i : Nat) :
    Aligned t (tableObject t base i) ∧ Aligned t (arrayObject t base i) := by
  obtain ⟨e1, e2, e3, -⟩ := entry_eq ht
  have hm : P2 (max 4 t.align) := P2.max ⟨2, rfl⟩ ht.1
  have hd : t.align ∣ base := Nat.dvd_trans (P2.dvd ht.1 h.2.2.2.1 ha) (Nat.dvd_of_mod_eq_zero hb)
  have hs : t.align ∣ (entry t).size := by rw [e2]; exact Nat.dvd_trans (P2.dvd ht.1 hm (Nat.le_max_right _ _)) (dvd_roundUp _ _)
  refine ⟨?_, ?_⟩
  · rw [Aligned, e3]
    exact Nat.mod_eq_zero_of_dvd (Nat.dvd_add (Nat.dvd_add hd (Nat.dvd_trans hs (Nat.dvd_mul_left _ _))) (dvd_roundUp _ _))
  · rw [Aligned, arrayObject]
    exact Nat.mod_eq_zero_of_dvd (Nat.dvd_add hd (Nat.dvd_trans ht.2.1 (Nat.dvd_mul_left _ _)))

/-- ... and those types do go wrong, each of them, at some address `malloc` may return. -/
theorem C97_heap_overaligned_refuted (h : abi.Legal) (ht : t.Legal) (ha : abi.malloc < t.align) :
    ∃ base, 0 < base ∧ base % abi.malloc = 0 ∧ ∀ i, ¬ Aligned t (tableObject t base i) ∧ ¬ Aligned t (arrayObject t base i) := by
  obtain ⟨e1, e2, e3, -⟩ := entry_eq ht
  have hm : P2 (max 4 t.align) := P2.max ⟨2, rfl⟩ ht.1
  have hs : t.align ∣ (entry t).size := by rw [e2]; exact Nat.dvd_trans (P2.dvd ht.1 hm (Nat.le_max_right _ _)) (dvd_roundUp _ _)
  have hp := P2.pos h.2.2.2.1
  have bad : ∀ {k : Nat}, t.align ∣ k → ¬ (abi.malloc + k) % t.align = 0 := by
    intro k hk e
    have := (Nat.dvd_add_iff_left hk).2 (Nat.dvd_of_mod_eq_zero e)
    have := Nat.le_of_dvd hp this
    omega
  refine ⟨abi.malloc, hp, Nat.mod_self _, fun i => ⟨?_, ?_⟩⟩
  · rw [Aligned, e3, Nat.add_assoc]
    exact bad (Nat.dvd_add (Nat.dvd_trans hs (Nat.dvd_mul_left _ _)) (dvd_roundUp _ _))
  · rw [Aligned, arrayObject]
    exact bad (Nat.dvd_trans ht.2.1 (Nat.dvd_mul_left _ _))

/-- C97 for `FixedArray`: every element lies inside the allocation, apart from the others. -/
theorem C97_array_inside (t : Ty) (base size i : Nat) (hi : i < size) :
    Inside t (arrayObject t base i) base (t.size * size) ∧ ∀ j, i ≠ j → Apart (arrayObject t base i) t.size (arrayObject t base j) t.size := by
  have step : ∀ {a b : Nat}, a < b → a * t.size + t.size ≤ b * t.size := by
    intro a b hab
    have := Nat.mul_le_mul_right t.size (show a + 1 ≤ b from hab)
    rwa [Nat.add_mul, Nat.one_mul] at this
  refine ⟨⟨by rw [arrayObject]; omega, ?_⟩, fun j hne => ?_⟩
  · have := step hi; rw [arrayObject, Nat.mul_comm t.size]; omega
  · rw [Apart, arrayObject, arrayObject]
    rcases Nat.lt_or_gt_of_ne hne with h | h
    · left; have := step h; omega
    · right; have := step h; omega

end

/-! ### Concrete cases -/

theorem lp64_legal : lp64.Legal := ⟨⟨3, rfl⟩, ⟨3, rfl⟩, ⟨3, rfl⟩, ⟨4, rfl⟩, by decide, by decide, by decide, by decide, by decide, by decide⟩
theorem i386_legal : i386.Legal := ⟨⟨2, rfl⟩, ⟨2, rfl⟩, ⟨2, rfl⟩, ⟨4, rfl⟩, by decide, by decide, by decide, by decide, by decide, by decide⟩
theorem win32_legal : win32.Legal := ⟨⟨2, rfl⟩, ⟨3, rfl⟩, ⟨3, rfl⟩, ⟨3, rfl⟩, by decide, by decide, by decide, by decide, by decide, by decide⟩

/-- A `Maybe<std::string>` (32 bytes) on LP64 takes 40 bytes with the string at offset 8; a two-pointer lambda goes inline in a 32-byte `Function`, one with a
16-byte-aligned capture does not; on 32-bit Windows an eight-byte-aligned capture does, at offset 16. -/
example : (⟨32, 8⟩ : Ty).Legal ∧ maybe lp64 ⟨32, 8⟩ = ⟨40, 8⟩ ∧ maybeObject lp64 ⟨32, 8⟩ 4096 = 4104 ∧
    fitsInline lp64 ⟨16, 8⟩ = true ∧ function lp64 = ⟨32, 8⟩ ∧ fitsInline lp64 ⟨16, 16⟩ = false ∧
    fitsInline win32 ⟨8, 8⟩ = true ∧ holderObject win32 ⟨8, 8⟩ (inlineHolder win32 4096) = 4112 ∧
    entry ⟨16, 8⟩ = ⟨24, 8⟩ ∧ tableObject ⟨16, 8⟩ 4096 3 = 4176 := by
  refine ⟨⟨⟨3, rfl⟩, ⟨4, rfl⟩, by decide⟩, ?_⟩
  decide

end Verif.Storage
