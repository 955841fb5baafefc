import Verif.Flags.Model
/-!
# C64: `ke::Flags` and enum operators
-/
namespace Verif.Flags
open Verif

variable {w : Nat}

/-- The flags set in a value: the positions of its 1 bits. -/
def Has (v : BitVec w) (i : Nat) : Prop := v.getLsbD i = true

theorem promote_bit (signed : Bool) (v : BitVec w) (i : Nat) (h : i < w) : (promote signed v).getLsbD i = v.getLsbD i := by
  have hp : i < promoted w := by unfold promoted; omega
  unfold promote
  cases signed with
  | false => simp [BitVec.getLsbD_setWidth, hp]
  | true => simp only [if_true, BitVec.getLsbD_signExtend, hp, h, decide_true, Bool.true_and]

theorem toEnum_bit (x : BitVec (promoted w)) (i : Nat) (h : i < w) : (toEnum x).getLsbD i = x.getLsbD i := by
  simp [toEnum, BitVec.getLsbD_setWidth, h]

theorem has_lt {v : BitVec w} {i : Nat} (h : Has v i) : i < w := BitVec.lt_of_getLsbD h

theorem not_has {v : BitVec w} {i : Nat} (h : ¬ i < w) : ¬ Has v i := fun h' => h (has_lt h')

/-- C64: for every width and signedness of the underlying type, `+` and `|` give the union, `-` the difference, `&` the
intersection and `^` the symmetric difference of the sets of flags; `==`, `!=` compare the sets; the boolean conversions test
emptiness. -/
theorem C64_operators (signed : Bool) (a b : Flags w) :
    (∀ i, Has (a.add signed b).value i ↔ Has a.value i ∨ Has b.value i) ∧
    (∀ i, Has (a.or signed b).value i ↔ Has a.value i ∨ Has b.value i) ∧
    (∀ i, Has (a.sub signed b).value i ↔ Has a.value i ∧ ¬ Has b.value i) ∧
    (∀ i, Has (a.and signed b).value i ↔ Has a.value i ∧ Has b.value i) ∧
    (∀ i, Has (a.xor signed b).value i ↔ (Has a.value i ∧ ¬ Has b.value i) ∨ (Has b.value i ∧ ¬ Has a.value i)) ∧
    (a.eq b = true ↔ ∀ i, Has a.value i ↔ Has b.value i) ∧ (a.ne b = true ↔ ¬ ∀ i, Has a.value i ↔ Has b.value i) ∧
    (a.toBool = true ↔ ∃ i, Has a.value i) ∧ (a.not = true ↔ ¬ ∃ i, Has a.value i) ∧
    (∀ i, ¬ Has (Flags.empty : Flags w).value i) := by
  have hext : ∀ u v : BitVec w, u = v ↔ ∀ i, Has u i ↔ Has v i := by
    intro u v
    refine ⟨fun h i => by rw [h], fun h => ?_⟩
    apply BitVec.eq_of_getLsbD_eq
    intro i _
    have := h i
    simp only [Has] at this
    cases hu : u.getLsbD i <;> cases hv : v.getLsbD i <;> simp_all
  have hz : ∀ u : BitVec w, u = 0#w ↔ ¬ ∃ i, Has u i := by
    intro u
    rw [hext]
    simp [Has]
  have bits : ∀ (f : Flags w) (g : Nat → Prop), (∀ i, i < w → (Has f.value i ↔ g i)) → (∀ i, ¬ i < w → ¬ g i) → ∀ i, Has f.value i ↔ g i := by
    intro f g h1 h2 i
    by_cases h : i < w
    · exact h1 i h
    · exact ⟨fun h' => (not_has h h').elim, fun h' => (h2 i h h').elim⟩
  refine ⟨?_, ?_, ?_, ?_, ?_, ?_, ?_, ?_, ?_, ?_⟩
  · refine bits _ _ (fun i h => ?_) (fun i h h' => h'.elim (not_has h) (not_has h))
    simp [Has, Flags.add, Flags.bits, toEnum_bit _ i h, promote_bit _ _ i h]
  · refine bits _ _ (fun i h => ?_) (fun i h h' => h'.elim (not_has h) (not_has h))
    simp [Has, Flags.or, Flags.bits, toEnum_bit _ i h, promote_bit _ _ i h]
  · refine bits _ _ (fun i h => ?_) (fun i h h' => not_has h h'.1)
    simp only [Has, Flags.sub, Flags.bits, toEnum_bit _ i h, BitVec.getLsbD_and, BitVec.getLsbD_xor, promote_bit _ _ i h]
    cases a.value.getLsbD i <;> cases b.value.getLsbD i <;> simp
  · refine bits _ _ (fun i h => ?_) (fun i h h' => not_has h h'.1)
    simp [Has, Flags.and, Flags.bits, toEnum_bit _ i h, promote_bit _ _ i h]
  · refine bits _ _ (fun i h => ?_) (fun i h h' => h'.elim (fun k => not_has h k.1) (fun k => not_has h k.1))
    simp only [Has, Flags.xor, Flags.bits, toEnum_bit _ i h, BitVec.getLsbD_xor, promote_bit _ _ i h]
    cases a.value.getLsbD i <;> cases b.value.getLsbD i <;> simp
  · simp only [Flags.eq, beq_iff_eq]; exact hext _ _
  · simp only [Flags.ne, bne_iff_ne, ne_eq]; exact not_congr (hext _ _)
  · simp only [Flags.toBool, bne_iff_ne, ne_eq]; rw [hz]; exact Classical.not_not
  · simp only [Flags.not, beq_iff_eq]; exact hz _
  · intro i; simp [Flags.empty, Has]

/-- C64, compound forms: `x op= y` gives `x` the flags of `x op y` computed from the old values, also when `x` and `y` are the same variable,
and changes no other variable. -/
theorem C64_compound {V : Type} [DecidableEq V] (signed : Bool) (env : V → Flags w) (x y : V) :
    (∀ i, Has (assignOp signed env x y .add x).value i ↔ Has (env x).value i ∨ Has (env y).value i) ∧
    (∀ i, Has (assignOp signed env x y .or x).value i ↔ Has (env x).value i ∨ Has (env y).value i) ∧
    (∀ i, Has (assignOp signed env x y .sub x).value i ↔ Has (env x).value i ∧ ¬ Has (env y).value i) ∧
    (∀ i, Has (assignOp signed env x y .and x).value i ↔ Has (env x).value i ∧ Has (env y).value i) ∧
    (∀ i, Has (assignOp signed env x y .xor x).value i ↔ (Has (env x).value i ∧ ¬ Has (env y).value i) ∨ (Has (env y).value i ∧ ¬ Has (env x).value i)) ∧
    (∀ op z, z ≠ x → assignOp signed env x y op z = env z) := by
  obtain ⟨h1, h2, h3, h4, h5, -⟩ := C64_operators signed (env x) (env y)
  refine ⟨?_, ?_, ?_, ?_, ?_, ?_⟩
  · simpa only [assignOp, if_true] using h1
  · simpa only [assignOp, if_true] using h2
  · simpa only [assignOp, if_true] using h3
  · simpa only [assignOp, if_true] using h4
  · simpa only [assignOp, if_true] using h5
  · intro op z hz; simp only [assignOp, hz, if_false]

/-- C64, for the operators `KE_DEFINE_ENUM_OPERATORS` defines on the enum itself. -/
theorem C64_enum_operators (signed : Bool) (a b : BitVec w) :
    (∀ i, Has (enumOr signed a b) i ↔ Has a i ∨ Has b i) ∧
    (∀ i, Has (enumAnd signed a b) i ↔ Has a i ∧ Has b i) ∧
    (∀ i, Has (enumXor signed a b) i ↔ (Has a i ∧ ¬ Has b i) ∨ (Has b i ∧ ¬ Has a i)) ∧
    (∀ i, Has (enumNot signed a) i ↔ i < w ∧ ¬ Has a i) ∧
    (enumBang a = true ↔ ¬ ∃ i, Has a i) := by
  obtain ⟨-, h2, -, h4, h5, -, -, -, h9, -⟩ := C64_operators signed ⟨a⟩ ⟨b⟩
  refine ⟨h2, h4, h5, ?_, h9⟩
  intro i
  by_cases h : i < w
  · have hp : i < promoted w := by unfold promoted; omega
    simp only [Has, enumNot, toEnum_bit _ i h, BitVec.getLsbD_not, hp, promote_bit _ _ i h, h]; simp
  · exact ⟨fun h' => (not_has h h').elim, fun h' => (h h'.1).elim⟩

/-- A signed 8-bit enum with its sign bit used as a flag. -/
example : ((⟨0x91#8⟩ : Flags 8).sub true ⟨0x11#8⟩).value = 0x80#8 ∧ ((⟨0x91#8⟩ : Flags 8).xor true ⟨0x83#8⟩).value = 0x12#8 := by decide

end Verif.Flags
