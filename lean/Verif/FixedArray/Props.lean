import Verif.FixedArray.Lemmas
/-!
# C58-C60, C85: `ke::FixedArray`
-/
namespace Verif.FixedArray
open Verif

set_option linter.unusedSimpArgs false

variable {V A : Type} [DecidableEq V]

/-- What a client sees of one array: `size()`, `at(i)` for every `i`, `back()` and `initialize()`. -/
def Shows (x : Option Arr) (m : Mem A) : Option (Option (List A)) → Prop
  | none => x = none
  | y => ∃ a, x = some a ∧ a.size = (elems y).length ∧ isInitialized a = true ∧
      (∀ i (h : i < (elems y).length), at' m a i = .ok (elems y)[i]) ∧
      (∀ i, (elems y).length ≤ i → at' m a i = .error .assertFail) ∧
      (∀ h : elems y ≠ [], back m a = .ok ((elems y).getLast h))

theorem shows_of_rep {c : Cfg} {m : Mem A} {x : Option Arr} {y : Option (Option (List A))} (h : Rep c m x y) : Shows x m y := by
  have key : ∀ a, x = some a → a.size = (elems y).length → isInitialized a = true → ∃ a, x = some a ∧ a.size = (elems y).length ∧ isInitialized a = true ∧
      (∀ i (h : i < (elems y).length), at' m a i = .ok (elems y)[i]) ∧
      (∀ i, (elems y).length ≤ i → at' m a i = .error .assertFail) ∧
      (∀ h : elems y ≠ [], back m a = .ok ((elems y).getLast h)) := by
    intro a ha hs hin
    rw [ha] at h
    refine ⟨a, ha, hs, hin, ?_, ?_, ?_⟩
    · intro i hi; rw [h.at i, dif_pos hi]
    · intro i hi; rw [h.at i, dif_neg (by omega)]
    · intro hne
      have hpos : 0 < (elems y).length := List.length_pos_iff.2 hne
      have hlt : (elems y).length - 1 < (elems y).length := by omega
      unfold back
      rw [if_pos (by omega), hs, h.at, dif_pos hlt, List.getLast_eq_getElem]
  rcases y with _ | _ | l
  · exact h
  · exact key ⟨0, none⟩ h rfl rfl
  · obtain ⟨b, h1, -⟩ := id h
    exact key _ h1 rfl (by simp [isInitialized])

/-! ## C58 -/

/-- The sequences of calls a client may make: C58's legality without the restriction to bufferless targets of move
assignments. -/
def MayCall (y : Layout) (e : Env V A) : Op V A → Prop
  | .assignMove v w => e v ≠ none ∧ e w ≠ none ∧ v ≠ w
  | o => Legal y e o

def MayCallRun (y : Layout) : List (Op V A) → Env V A → Prop
  | [], _ => True
  | o :: os, e => MayCall y e o ∧ MayCallRun y os (specStep e o)

/-- C58 in full: with an allocator that never fails, once all arrays are gone every buffer was freed exactly once and every
element destroyed. -/
def Balanced : Prop :=
  ∀ (os : List (Op Nat Nat)) (s : State Nat Nat), MayCallRun ⟨4, 64⟩ os (fun _ => none) →
    run ⟨⟨4, 64⟩, fun _ _ => true, true⟩ os State.start = .ok s → (∀ v, specRun os (fun _ => none) v = none) →
    s.mem.made = s.mem.gone ∧ ∀ b, b < s.mem.next → s.mem.freed.count b = 1

instance (n : Layout) (e : Env Nat Nat) (o : Op Nat Nat) : Decidable (Legal n e o) := by
  cases o <;> simp only [Legal] <;> infer_instance

instance (n : Layout) (e : Env Nat Nat) (o : Op Nat Nat) : Decidable (MayCall n e o) := by
  cases o <;> simp only [MayCall] <;> infer_instance

instance instDecLegalRun (n : Layout) : (os : List (Op Nat Nat)) → (e : Env Nat Nat) → Decidable (LegalRun n os e)
  | [], _ => isTrue trivial
  | o :: os, e => @instDecidableAnd _ _ _ (instDecLegalRun n os (specStep e o))

instance instDecMayCallRun (n : Layout) : (os : List (Op Nat Nat)) → (e : Env Nat Nat) → Decidable (MayCallRun n os e)
  | [], _ => isTrue trivial
  | o :: os, e => @instDecidableAnd _ _ _ (instDecMayCallRun n os (specStep e o))

/-- `FixedArray<int> a(2), b(1); a = std::move(b);` -/
def leaky : List (Op Nat Nat) := [.ctorSize 0 2 7, .ctorSize 1 1 8, .assignMove 0 1, .dtor 0, .dtor 1]

/-- C58 is false of the code: move assignment drops the left side's buffer without freeing it. -/
theorem C58_balanced_refuted : ¬ Balanced := by
  intro h
  cases hr : run ⟨⟨4, 64⟩, fun _ _ => true, true⟩ leaky State.start with
  | error f =>
    have : (match run ⟨⟨4, 64⟩, fun _ _ => true, true⟩ leaky State.start with | .ok _ => true | .error _ => false) = true := by decide +kernel
    rw [hr] at this; cases this
  | ok s =>
    have h1 := (h leaky s (by decide +kernel) hr (by
      intro v
      simp only [leaky, specRun, specStep, Env.set]
      split
      · rfl
      · split <;> simp_all)).1
    have h2 : (match run ⟨⟨4, 64⟩, fun _ _ => true, true⟩ leaky State.start with
      | .ok s => decide (s.mem.made = s.mem.gone) | .error _ => true) = false := by decide +kernel
    rw [hr] at h2
    simp only [decide_eq_false_iff_not] at h2
    exact h2 h1

/-- C58, what holds: for every history in which a move assignment's left side holds no buffer, with every allocator that
succeeds or aborts: the program aborts (only when an allocation failed), or `size()`, `at(i)` and `back()` of every array
report exactly the contents assigned to it; each buffer ever allocated was freed exactly once or belongs to exactly one array, never both; and the
elements constructed are those destroyed plus those the arrays (the ones in `L`) hold. -/
theorem C58_value_semantics_partial (c : Cfg) (hs : 0 < c.sizeof) (hp : c.aborts = true ∨ ∀ k b, c.alloc k b = true)
    (os : List (Op V A)) (hl : LegalRun c.toLayout os (fun _ => none)) :
    (run c os State.start = .error .abort ∧ c.aborts = true ∧ ∃ k b, c.alloc k b = false) ∨
    ∃ s, run c os State.start = .ok s ∧
      (∀ v, Shows (s.vars v) s.mem (specRun os (fun _ => none) v)) ∧
      (∀ b, b < s.mem.next → (s.mem.freed.count b = 1 ∧ ∀ v n, s.vars v ≠ some ⟨n, some b⟩) ∨
        (s.mem.freed.count b = 0 ∧ ∃ v n, s.vars v = some ⟨n, some b⟩ ∧ ∀ w k, s.vars w = some ⟨k, some b⟩ → w = v)) ∧
      ∃ L : List V, L.Nodup ∧ (∀ v, elems (specRun os (fun _ => none) v) ≠ [] → v ∈ L) ∧
        s.mem.made = s.mem.gone + (L.map (fun v => (elems (specRun os (fun _ => none) v)).length)).sum := by
  rcases good_run hs hp os (inv_start c) hl with ⟨s, h1, h2⟩ | h
  · right
    refine ⟨s, h1, fun v => shows_of_rep (h2.rep v), ?_, h2.num⟩
    intro b hb
    by_cases hf : b ∈ s.mem.freed
    · left
      refine ⟨by rw [h2.nodup.count, if_pos hf], ?_⟩
      intro v n hv
      have := h2.rep v
      rw [hv] at this
      rcases he : specRun os (fun _ => none) v with _ | _ | l <;> rw [he] at this
      · cases this
      · cases this
      · obtain ⟨b', g1, -, -, g2, -⟩ := this
        injection g1 with g1; injection g1 with _ g1; injection g1 with g1
        exact g2 (g1 ▸ hf)
    · right
      refine ⟨List.count_eq_zero.2 hf, ?_⟩
      obtain ⟨v, n, hv⟩ := (h2.cover b hb).resolve_left (fun h => h.elim hf (nomatch ·))
      exact ⟨v, n, hv, fun w k hw => h2.inj w v k n b hw hv⟩
  · exact .inl h

/-- C58, at the end: when all arrays of such a history are gone, every buffer was freed exactly once and every element
constructed was destroyed. -/
theorem C58_all_released_partial (c : Cfg) (hs : 0 < c.sizeof) (hp : c.aborts = true ∨ ∀ k b, c.alloc k b = true)
    (os : List (Op V A)) (hl : LegalRun c.toLayout os (fun _ => none)) (s : State V A) (hr : run c os State.start = .ok s)
    (hg : ∀ v, specRun os (fun _ => none) v = none) :
    s.mem.made = s.mem.gone ∧ ∀ b, b < s.mem.next → s.mem.freed.count b = 1 := by
  rcases C58_value_semantics_partial c hs hp os hl with ⟨h, -⟩ | ⟨s', h1, h2, h3, L, -, -, h4⟩
  · rw [hr] at h; cases h
  · rw [hr] at h1; injection h1 with h1; subst h1
    constructor
    · rw [h4]
      have : ∀ L : List V, (L.map (fun v => (elems (specRun os (fun _ => none) v)).length)).sum = 0 := by
        intro L; induction L with
        | nil => rfl
        | cons v L ih => simp only [List.map_cons, List.sum_cons, ih, hg v]; rfl
      rw [this]; omega
    · intro b hb
      rcases h3 b hb with ⟨h, -⟩ | ⟨-, v, n, hv, -⟩
      · exact h
      · have := h2 v; rw [hg v] at this
        have : s.vars v = none := this
        rw [hv] at this; cases this

/-- A history that meets the hypotheses: construction, element writes, copies, growing and same-size assignment, moves. -/
def sample : List (Op Nat Nat) :=
  [.ctorSize 0 3 7, .write 0 1 9, .ctorCopy 1 0, .ctorVector 2 [4, 5], .assignCopy 2 0, .assignCopy 1 2, .ctor 3, .assignMove 3 0,
   .ctorMove 4 2, .dtor 1, .dtor 0]

example : LegalRun ⟨4, 64⟩ sample (fun _ => none) := by decide +kernel
example : specRun sample (fun _ => none) 3 = some (some [7, 9, 7]) ∧ specRun sample (fun _ => none) 4 = some (some [7, 9, 7]) := by decide +kernel
example : (match run ⟨⟨4, 64⟩, fun _ _ => true, true⟩ sample State.start with
  | .ok s => decide (s.mem.made = 14 ∧ s.mem.gone = 8 ∧ s.mem.freed.length = 2 ∧ s.mem.next = 4) | .error _ => false) = true := by decide +kernel

/-! ## C59 -/

/-- C59 in full, `size_t` having `w` bits: `FixedArray(n)` and then reading every element and destroying the array never faults; if
the allocation fails the client can tell and destroy the array. -/
def ConstructSafe (w : Nat) (aborts : Bool) : Prop :=
  ∀ (sizeof n : Nat) (alloc : Nat → Nat → Bool), 0 < sizeof → n < 2 ^ w →
    match run (V := Nat) (A := Nat) ⟨⟨sizeof, w⟩, alloc, aborts⟩ [.ctorSize 0 n 7, .dtor 0] State.start with
    | .ok _ => True
    | .error f => f = .abort

/-- The first element is constructed outside a buffer of no slots. -/
theorem fill_wrapped (m : Mem Nat) (b n : Nat) (hb : m.bufs b = some []) (hn : 0 < n) :
    fillElems m ⟨n, some b⟩ (fun _ => 7) = .error .outOfBounds := by
  obtain ⟨k, rfl⟩ : ∃ k, n = k + 1 := ⟨n - 1, by omega⟩
  simp only [fillElems, List.range_succ_eq_map, List.foldlM_cons, construct, hb, List.getElem?_nil, bind, Except.bind]

theorem run_wrapped (w sz n : Nat) (h : sz * n % 2 ^ w = 0) (hn : 0 < n) :
    run (V := Nat) ⟨⟨sz, w⟩, fun _ _ => true, true⟩ [.ctorSize 0 n 7, .dtor 0] State.start = .error .outOfBounds := by
  simp only [run, step, allocate, if_true, bind, Except.bind, h, Nat.zero_div, List.replicate_zero]
  rw [fill_wrapped _ _ _ (by simp [State.start]) hn]

/-- C59 is false of the code, for every width of `size_t`: for `sizeof(T) = 16` and `n = 2^(w-4)` the byte count is 0, and the
constructor writes outside the buffer. -/
theorem C59_overflow_refuted (w : Nat) (hw : 4 ≤ w) : ¬ ConstructSafe w true := by
  intro h
  obtain ⟨k, rfl⟩ : ∃ k, w = k + 4 := ⟨w - 4, by omega⟩
  have hp : 2 ^ (k + 4) = 16 * 2 ^ k := by rw [Nat.pow_add]; omega
  have hk := Nat.two_pow_pos k
  have := h 16 (2 ^ k) (fun _ _ => true) (by decide) (by omega)
  rw [run_wrapped (k + 4) 16 (2 ^ k) (by rw [hp, Nat.mod_self]) hk] at this
  cases this

/-- C59 is false of the code: when a fallible allocator returns null the size stays `n`, and the
destructor runs over a null pointer. -/
theorem C59_failure_refuted (w : Nat) (hw : 0 < w) : ¬ ConstructSafe w false := by
  intro h
  have := h 4 1 (fun _ _ => false) (by decide) (Nat.one_lt_two_pow (by omega))
  have h2 : run (V := Nat) (A := Nat) ⟨⟨4, w⟩, fun _ _ => false, false⟩ [.ctorSize 0 1 7, .dtor 0] State.start = .error .nullDeref := rfl
  rw [h2] at this
  cases this

/-- C59, what holds: if the byte count fits `size_t`, an allocation that succeeds has exactly `n` slots, all raw, in a buffer used
by no one else; one that fails aborts, or is reported by `initialize()` when `n > 0`. -/
theorem C59_allocate_partial (c : Cfg) (hs : 0 < c.sizeof) (m : Mem A) (n : Nat) (hn : c.sizeof * n < 2 ^ c.word) :
    match allocate c m n with
    | .error f => f = .abort ∧ c.aborts = true ∧ c.alloc m.tries (c.sizeof * n) = false
    | .ok (x, good, m') => x.size = n ∧
        (good = true → isInitialized x = true ∧ x.data = some m.next ∧ m'.bufs m.next = some (List.replicate n none) ∧
          ∀ b, b ≠ m.next → m'.bufs b = m.bufs b) ∧
        (good = false → m'.bufs = m.bufs ∧ (isInitialized x = false ↔ 0 < n)) := by
  unfold allocate
  simp only [Nat.mod_eq_of_lt hn, Nat.mul_div_cancel_left n hs]
  by_cases ha : c.alloc m.tries (c.sizeof * n) = true
  · rw [if_pos ha]
    refine ⟨rfl, fun _ => ⟨by simp [isInitialized], rfl, by simp, fun b hb => by simp [hb]⟩, fun h => by cases h⟩
  · rw [if_neg ha]
    by_cases hb : c.aborts = true
    · rw [if_pos hb]; exact ⟨rfl, hb, by simpa using ha⟩
    · rw [if_neg hb]
      exact ⟨rfl, (fun h => by cases h), fun _ => ⟨rfl, by simp [isInitialized]; omega⟩⟩

/-- C59: the condition on the byte count is exactly what is needed: without it a buffer that is allocated is too small. -/
theorem C59_too_small_partial (c : Cfg) (hs : 0 < c.sizeof) (m : Mem A) (n : Nat) (hn : 2 ^ c.word ≤ c.sizeof * n) (x : Arr) (m' : Mem A)
    (h : allocate c m n = .ok (x, true, m')) : ∃ l, m'.bufs m.next = some l ∧ x.data = some m.next ∧ x.size = n ∧ l.length < n := by
  unfold allocate at h
  simp only at h
  split at h
  · injection h with h
    simp only [Prod.mk.injEq, true_and] at h
    obtain ⟨h1, h2⟩ := h
    subst h1; subst h2
    refine ⟨List.replicate (c.sizeof * n % 2 ^ c.word / c.sizeof) none, by simp only [if_true], rfl, rfl, ?_⟩
    rw [List.length_replicate]
    apply (Nat.div_lt_iff_lt_mul hs).2
    have := Nat.mod_lt (c.sizeof * n) (Nat.two_pow_pos c.word)
    rw [Nat.mul_comm n]; omega
  · split at h
    · cases h
    · injection h with h; simp at h

example : ∃ c : Cfg, 0 < c.sizeof ∧ c.sizeof * 5 < 2 ^ c.word ∧ c.aborts = false := ⟨⟨⟨8, 64⟩, fun _ _ => false, false⟩, by decide⟩

/-! ## C60 -/

theorem equal_go [DecidableEq A] {c : Cfg} {m : Mem A} {x y : Arr} {lx ly : Option (Option (List A))} (hx : Rep c m (some x) lx) (hy : Rep c m (some y) ly)
    (hlen : (elems ly).length = (elems lx).length) : ∀ k i, i + k = (elems ly).length →
      equal.go m x y k i = .ok (decide ((elems lx).drop i = (elems ly).drop i))
  | 0, i, h => by
    have h1 : (elems lx).drop i = [] := List.drop_eq_nil_of_le (by omega)
    have h2 : (elems ly).drop i = [] := List.drop_eq_nil_of_le (by omega)
    simp [equal.go, h1, h2]
  | k + 1, i, h => by
    have hix : i < (elems lx).length := by omega
    have hiy : i < (elems ly).length := by omega
    simp only [equal.go, hx.at i, hy.at i, dif_pos hix, dif_pos hiy, bind, Except.bind]
    have e1 := List.drop_eq_getElem_cons hix
    have e2 := List.drop_eq_getElem_cons hiy
    by_cases hab : (elems lx)[i] = (elems ly)[i]
    · rw [if_neg (by simp [hab]), equal_go hx hy hlen k (i + 1) (by omega), e1, e2, hab]
      simp only [List.cons.injEq, true_and]
    · rw [if_pos hab, e1, e2]
      simp only [List.cons.injEq, hab, false_and, decide_false]

/-- C60: for any two arrays of a history, `==` says whether their contents are the same sequence and `!=` is its
negation; neither faults. -/
theorem C60_equality [DecidableEq A] (c : Cfg) (hs : 0 < c.sizeof) (hp : c.aborts = true ∨ ∀ k b, c.alloc k b = true)
    (os : List (Op V A)) (hl : LegalRun c.toLayout os (fun _ => none)) (s : State V A) (hr : run c os State.start = .ok s)
    (v w : V) (x y : Arr) (hv : s.vars v = some x) (hw : s.vars w = some y) :
    equal s.mem x y = .ok (decide (elems (specRun os (fun _ => none) v) = elems (specRun os (fun _ => none) w))) ∧
    notEqual s.mem x y = .ok (decide (elems (specRun os (fun _ => none) v) ≠ elems (specRun os (fun _ => none) w))) := by
  rcases good_run hs hp os (inv_start c) hl with ⟨s', h1, h2⟩ | ⟨h, -⟩
  rotate_left
  · rw [hr] at h; cases h
  rw [hr] at h1; injection h1 with h1; subst h1
  have hx := h2.rep v
  have hy := h2.rep w
  rw [hv] at hx; rw [hw] at hy
  have hsz : ∀ {x : Arr} {y : Option (Option (List A))}, Rep c s.mem (some x) y → x.size = (elems y).length := by
    intro x y h
    rcases y with _ | _ | l
    · cases h
    · injection h with h; rw [h]; rfl
    · obtain ⟨b, h, -⟩ := h; injection h with h; rw [h]; rfl
  have key : equal s.mem x y = .ok (decide (elems (specRun os (fun _ => none) v) = elems (specRun os (fun _ => none) w))) := by
    unfold equal
    by_cases hne : y.size = x.size
    · rw [if_neg (by simp [hne])]
      have hlen : (elems (specRun os (fun _ => none) w)).length = (elems (specRun os (fun _ => none) v)).length := by rw [← hsz hx, ← hsz hy, hne]
      rw [equal_go hx hy hlen y.size 0 (by rw [hsz hy]; omega)]
      simp
    · rw [if_pos hne]
      have : elems (specRun os (fun _ => none) v) ≠ elems (specRun os (fun _ => none) w) := by
        intro h; apply hne; rw [hsz hx, hsz hy, h]
      simp [this]
  refine ⟨key, ?_⟩
  simp only [notEqual, key, bind, Except.bind]
  simp

example : (match run ⟨⟨4, 64⟩, fun _ _ => true, true⟩ sample State.start with
  | .ok s => (match s.vars 3, s.vars 4 with
    | some x, some y => decide (equal s.mem x y = .ok true)
    | _, _ => false)
  | .error _ => false) = true := by decide +kernel

/-! ## C85 -/

/-- C85: assigning an array to itself keeps its contents. -/
def SelfAssignKeeps : Prop :=
  ∀ (l : List Nat) (o : Op Nat Nat), o = .assignCopy 0 0 ∨ o = .assignMove 0 0 →
    match run ⟨⟨4, 64⟩, fun _ _ => true, true⟩ [.ctorVector 0 l, o] State.start with
    | .ok s => ∃ x, s.vars 0 = some x ∧ x.size = l.length
    | .error _ => False

/-- C85 is false of the code: `a = a` copies from elements it has just destroyed. -/
theorem C85_self_copy_refuted : ¬ SelfAssignKeeps := by
  intro h
  have := h [1] (.assignCopy 0 0) (.inl rfl)
  have h2 : run ⟨⟨4, 64⟩, fun _ _ => true, true⟩ [.ctorVector 0 [1], .assignCopy 0 0] (State.start : State Nat Nat) = .error .useAfterFree := by rfl
  rw [h2] at this
  exact this

/-- C85, exactly what happens, for every array of every history: self copy assignment of a non-empty array reads a destroyed element; of an
empty one it changes nothing; self move assignment leaves it empty without freeing its buffer or destroying its elements. -/
theorem C85_self_assign_partial (c : Cfg) (hs : 0 < c.sizeof) (hp : c.aborts = true ∨ ∀ k b, c.alloc k b = true)
    (os : List (Op V A)) (hl : LegalRun c.toLayout os (fun _ => none)) (s : State V A) (hr : run c os State.start = .ok s)
    (v : V) (hv : specRun os (fun _ => none) v ≠ none) :
    (elems (specRun os (fun _ => none) v) ≠ [] → step c s (.assignCopy v v) = .error .useAfterFree) ∧
    (elems (specRun os (fun _ => none) v) = [] → ∃ s', step c s (.assignCopy v v) = .ok s' ∧ s'.vars = s.vars ∧
      s'.mem.freed = s.mem.freed ∧ s'.mem.next = s.mem.next) ∧
    (∃ s', step c s (.assignMove v v) = .ok s' ∧ s'.vars v = some ⟨0, none⟩ ∧ s'.mem = s.mem) := by
  rcases good_run hs hp os (inv_start c) hl with ⟨s', h1, hi⟩ | ⟨h, -⟩
  rotate_left
  · rw [hr] at h; cases h
  rw [hr] at h1; injection h1 with h1; subst h1
  obtain ⟨x, hx, hxl, hxs⟩ := hi.look hv
  have hrep := hi.rep v
  rw [hx] at hrep
  have hself : s.set v (some x) = s := by
    simp only [State.set]
    congr 1
    funext u; split
    · rename_i h; rw [h, hx]
    · rfl
  refine ⟨?_, ?_, ?_⟩
  · intro hne
    rcases he : specRun os (fun _ => none) v with _ | _ | l
    · exact (hv he).elim
    · rw [he] at hne; exact (hne rfl).elim
    · rw [he] at hne hrep
      obtain ⟨b, hxb, hd⟩ := hrep.destruct
      simp only [step, hxl, bind, Except.bind, assignCopy, hd]
      rw [if_neg (by simp)]
      obtain ⟨k, hk⟩ : ∃ k, l.length = k + 1 := ⟨l.length - 1, by have := List.length_pos_iff.2 (show l ≠ [] from hne); omega⟩
      rw [hxb, hk]
      simp [copyElems, List.range_succ_eq_map, List.foldlM_cons, at', Mem.emptied, List.replicate_succ, bind, Except.bind]
  · intro hnil
    have hz : x.size = 0 := by rw [hxs, hnil]; rfl
    refine ⟨({ s with mem := s.mem } : State V A).set v (some x), ?_, by rw [show ({ s with mem := s.mem } : State V A) = s from rfl, hself], rfl, rfl⟩
    simp only [step, hxl, bind, Except.bind, assignCopy, destruct, hz, List.range_zero, List.foldlM_nil, pure, Except.pure, ne_eq, not_true, if_false, copyElems]
  · refine ⟨(s.set v (some x)).set v (some ⟨0, none⟩), by simp only [step, hxl, bind, Except.bind], by simp [State.set], rfl⟩

end Verif.FixedArray
