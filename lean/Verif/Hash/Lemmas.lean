import Verif.Hash.Model
import Mathlib.Data.Finset.Card
import Mathlib.Data.Finset.Image
import Mathlib.Algebra.Order.BigOperators.Group.Finset
/-! # Lemmas about the hash functions -/
namespace Verif.Hash
open Verif

/-- `x ^ (x >> k)` with an arithmetic shift. -/
def xs {w : Nat} (k : Nat) (x : BitVec w) : BitVec w := x ^^^ x.sshiftRight k

theorem xs_bit {w : Nat} (k : Nat) (x : BitVec w) (i : Nat) (hi : i < w) :
    (xs k x).getLsbD i = (x.getLsbD i ^^ (if k + i < w then x.getLsbD (k + i) else x.msb)) := by
  rw [xs, BitVec.getLsbD_xor, BitVec.getLsbD_sshiftRight]
  simp [hi]

theorem xs_not {w : Nat} (k : Nat) (x : BitVec w) : xs k (~~~x) = xs k x := by
  ext i hi
  rw [← BitVec.getLsbD_eq_getElem, ← BitVec.getLsbD_eq_getElem, xs_bit _ _ _ hi, xs_bit _ _ _ hi]
  have hm : (~~~x).msb = !x.msb := by
    rw [BitVec.msb_not]; simp; omega
  split
  · simp [*]
  · simp [hi, hm]

theorem xs_inj_msb {w : Nat} {k : Nat} (hk : 0 < k) {x y : BitVec w} (hm : x.msb = y.msb)
    (h : xs k x = xs k y) : x = y := by
  have key : ∀ d i, i + d = w - 1 → i < w → x.getLsbD i = y.getLsbD i := by
    intro d
    induction d using Nat.strongRecOn with
    | ind d ih =>
      intro i hi hw
      have hb := congrArg (fun v => v.getLsbD i) h
      simp only [xs_bit _ _ _ hw] at hb
      split at hb
      · rename_i hlt
        have := ih (d - k) (by omega) (k + i) (by omega) hlt
        rw [this] at hb
        exact Bool.xor_right_inj.1 (by rw [Bool.xor_comm, hb, Bool.xor_comm]) 
      · rw [hm] at hb
        exact Bool.xor_right_inj.1 (by rw [Bool.xor_comm, hb, Bool.xor_comm])
  ext i hi
  rw [← BitVec.getLsbD_eq_getElem, ← BitVec.getLsbD_eq_getElem]
  exact key (w - 1 - i) i (by omega) hi

theorem xs_eq_iff {w : Nat} {k : Nat} (hk : 0 < k) (hw : 0 < w) (x y : BitVec w) :
    xs k x = xs k y ↔ x = y ∨ x = ~~~y := by
  constructor
  · intro h
    by_cases hm : x.msb = y.msb
    · exact .inl (xs_inj_msb hk hm h)
    · right
      refine xs_inj_msb hk ?_ (by rw [h, xs_not])
      rw [BitVec.msb_not]
      cases hx : x.msb <;> cases hy : y.msb <;> simp_all
  · rintro (rfl | rfl)
    · rfl
    · exact xs_not k y

theorem xs_msb {w : Nat} {k : Nat} (hk : 0 < k) (hw : 0 < w) (x : BitVec w) : (xs k x).msb = false := by
  rw [BitVec.msb_eq_getLsbD_last, xs_bit _ _ _ (by omega), if_neg (by omega),
    BitVec.msb_eq_getLsbD_last]
  simp

/-- `x ^ (x >> k)` with a logical shift is injective. -/
theorem xor_ushiftRight_inj {w : Nat} {k : Nat} (hk : 0 < k) {x y : BitVec w}
    (h : x ^^^ (x >>> k) = y ^^^ (y >>> k)) : x = y := by
  have key : ∀ d i, i + d = w - 1 → i < w → x.getLsbD i = y.getLsbD i := by
    intro d
    induction d using Nat.strongRecOn with
    | ind d ih =>
      intro i hi hw
      have hb := congrArg (fun v => v.getLsbD i) h
      simp only [BitVec.getLsbD_xor, BitVec.getLsbD_ushiftRight] at hb
      by_cases hlt : k + i < w
      · have := ih (d - k) (by omega) (k + i) (by omega) hlt
        rw [this] at hb
        exact Bool.xor_right_inj.1 (by rw [Bool.xor_comm, hb, Bool.xor_comm])
      · rw [BitVec.getLsbD_of_ge x (k + i) (by omega), BitVec.getLsbD_of_ge y (k + i) (by omega)] at hb
        simpa using hb
  ext i hi
  rw [← BitVec.getLsbD_eq_getElem, ← BitVec.getLsbD_eq_getElem]
  exact key (w - 1 - i) i (by omega) hi

/-- Multiplication by an invertible constant is injective. -/
theorem mul_const_inj {w : Nat} {c d x y : BitVec w} (hcd : c * d = 1) (h : x * c = y * c) : x = y := by
  have := congrArg (· * d) h
  simpa [BitVec.mul_assoc, hcd] using this

theorem add_shl3 (x : BitVec 32) : x + x <<< 3 = x * 9#32 := by
  rw [BitVec.shiftLeft_eq_mul_twoPow]
  have : x * 9#32 = x * (1#32 + BitVec.twoPow 32 3) := rfl
  rw [this, BitVec.mul_add, BitVec.mul_one]

theorem add_shl6 (x : BitVec 64) : x + x <<< 6 = x * 65#64 := by
  rw [BitVec.shiftLeft_eq_mul_twoPow]
  have : x * 65#64 = x * (1#64 + BitVec.twoPow 64 6) := rfl
  rw [this, BitVec.mul_add, BitVec.mul_one]

/-- `f` sends at most `n` arguments to any one value. -/
def AtMost {α β : Type} (n : Nat) (f : α → β) : Prop :=
  ∀ (s : Finset α) (y : β), (∀ x ∈ s, f x = y) → s.card ≤ n

theorem AtMost.of_inj {α β : Type} {f : α → β} (h : ∀ x y, f x = f y → x = y) : AtMost 1 f := by
  intro s y hs
  rw [Finset.card_le_one]
  intro a ha b hb
  exact h a b (by rw [hs a ha, hs b hb])

theorem AtMost.comp {α β γ : Type} [DecidableEq β] {m n : Nat} {f : α → β} {g : β → γ}
    (hf : AtMost m f) (hg : AtMost n g) : AtMost (m * n) (fun x => g (f x)) := by
  intro s y hs
  calc s.card ≤ m * (s.image f).card := by
        apply Finset.card_le_mul_card_image
        intro b _
        exact hf _ b (fun x hx => (Finset.mem_filter.1 hx).2)
    _ ≤ m * n := by
        apply Nat.mul_le_mul_left
        apply hg _ y
        intro b hb
        obtain ⟨a, ha, rfl⟩ := Finset.mem_image.1 hb
        exact hs a ha

theorem xs_atMost {w : Nat} {k : Nat} (hk : 0 < k) (hw : 0 < w) : AtMost 2 (xs k : BitVec w → BitVec w) := by
  intro s y hs
  rcases s.eq_empty_or_nonempty with rfl | ⟨a, ha⟩
  · simp
  · have : s ⊆ {a, ~~~a} := by
      intro b hb
      have := (xs_eq_iff hk hw b a).1 (by rw [hs b hb, hs a ha])
      simpa using this
    exact (Finset.card_le_card this).trans (Finset.card_le_two)

/-- Under wrap-around `HashInt32` is this composition. -/
theorem hashInt32_wrap (a : BitVec 32) :
    hashInt32 .wrap a = .ok (xs 15 ((xs 4 ((xs 16 a ^^^ 61#32) * 9#32)) * 0x27d4eb2d#32)) := by
  simp only [hashInt32, sshl, sadd, smul, bind, Except.bind]
  simp only [reduceCtorEq, false_and, if_false, add_shl3]
  have : a ^^^ 61#32 ^^^ a.sshiftRight 16 = xs 16 a ^^^ 61#32 := by
    simp only [xs, BitVec.xor_assoc]; congr 1; exact BitVec.xor_comm _ _
  rw [this]; rfl

end Verif.Hash
