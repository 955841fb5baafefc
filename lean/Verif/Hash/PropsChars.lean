import Verif.Hash.Props
import Verif.Hash.PropsRef
import Verif.Hash.Chars
/-!
# C145: the hash functions on targets with unsigned `char` or 32-bit pointers
-/
namespace Verif.Hash
open Verif

/-- The models of `Model.lean` are those for signed characters. -/
theorem addAllOn_signed (s : List (BitVec 8)) : ∀ h : Hasher, h.addAllOn true s = h.addAll s := by
  induction s with
  | nil => intro h; rfl
  | cons c s ih => intro h; exact ih _

theorem fastHashLoopOn_signed (s : List (BitVec 8)) : ∀ h, fastHashLoopOn true h s = fastHashLoop h s := by
  induction s with
  | nil => intro h; rfl
  | cons c s ih => intro h; exact ih _

/-- C145: with signed characters the functions are those of C15, C16 and C131. -/
theorem C145_signed (s : List (BitVec 8)) : hashCharSequenceOn true s = hashCharSequence s ∧ fastHashCharSequenceOn true s = fastHashCharSequence s :=
  ⟨by rw [hashCharSequenceOn, addAllOn_signed]; rfl, fastHashLoopOn_signed s 0⟩

theorem addAllOn_append (signed : Bool) (a : List (BitVec 8)) : ∀ (b : List (BitVec 8)) (h : Hasher), h.addAllOn signed (a ++ b) = (h.addAllOn signed a).addAllOn signed b := by
  induction a with
  | nil => intro b h; rfl
  | cons x a ih => intro b h; exact ih b _

theorem fastHashLoopOn_append (signed : Bool) (a : List (BitVec 8)) :
    ∀ (b : List (BitVec 8)) (h : BitVec 32), fastHashLoopOn signed h (a ++ b) = fastHashLoopOn signed (fastHashLoopOn signed h a) b := by
  induction a with
  | nil => intro b h; rfl
  | cons x a ih => intro b h; exact ih b _

/-- C145: on every target the hash does not depend on how the text is cut into pieces. -/
theorem C145_chunking (signed : Bool) (chunks : List (List (BitVec 8))) :
    (chunks.foldl (fun h c => h.addAllOn signed c) Hasher.new).result.1 = hashCharSequenceOn signed chunks.flatten := by
  have key : ∀ (chunks : List (List (BitVec 8))) (h : Hasher), chunks.foldl (fun h c => h.addAllOn signed c) h = h.addAllOn signed chunks.flatten := by
    intro chunks
    induction chunks with
    | nil => intro h; rfl
    | cons c cs ih => intro h; rw [List.foldl_cons, ih, List.flatten_cons, addAllOn_append]
  rw [key]; rfl

theorem unsigned_byte (c : BitVec 8) : (charOn false c).toNat = byteOf c := by
  revert c; decide +kernel

theorem addAllOn_ref (s : List (BitVec 8)) : ∀ h : Hasher,
    (h.addAllOn false s).hash.toNat = (s.map byteOf).foldl Ref.oaatRound h.hash.toNat := by
  induction s with
  | nil => intro h; rfl
  | cons c s ih =>
    intro h
    simp only [Hasher.addAllOn, List.map_cons, List.foldl_cons]
    rw [ih]
    congr 1
    simp only [Hasher.addCharOn, Ref.oaatRound]
    rw [xor_shr_toNat, add_shl_toNat, BitVec.toNat_add, unsigned_byte]

/-- C145: where `char` is unsigned, `HashCharSequence` is the published one-at-a-time hash of every text. -/
theorem C145_published_unsigned (s : List (BitVec 8)) : (hashCharSequenceOn false s).toNat = Ref.oaat (s.map byteOf) := by
  rw [hashCharSequenceOn, result_ref, addAllOn_ref]; rfl

/-- Hash values can be exchanged between targets. -/
def Portable (hash : Bool → List (BitVec 8) → BitVec 32) : Prop := ∀ s, hash true s = hash false s

/-- C145 in full is false: hashes of text differ between targets. -/
theorem C145_portable_refuted : ¬ Portable hashCharSequenceOn ∧ ¬ Portable fastHashCharSequenceOn :=
  ⟨fun h => absurd (h [0x80]) (by decide +kernel), fun h => absurd (h [0x80]) (by decide +kernel)⟩

theorem charOn_ascii (c : BitVec 8) (h : c.toNat < 128) : charOn true c = charOn false c := by
  revert c; decide +kernel

theorem addAllOn_ascii (s : List (BitVec 8)) (hs : ∀ c ∈ s, c.toNat < 128) : ∀ h : Hasher, h.addAllOn true s = h.addAllOn false s := by
  induction s with
  | nil => intro h; rfl
  | cons c s ih =>
    intro h
    simp only [Hasher.addAllOn, Hasher.addCharOn]
    rw [charOn_ascii c (hs c (by simp))]
    exact ih (fun x hx => hs x (by simp [hx])) _

theorem fastHashLoopOn_ascii (s : List (BitVec 8)) (hs : ∀ c ∈ s, c.toNat < 128) : ∀ h, fastHashLoopOn true h s = fastHashLoopOn false h s := by
  induction s with
  | nil => intro h; rfl
  | cons c s ih =>
    intro h
    simp only [fastHashLoopOn]
    rw [charOn_ascii c (hs c (by simp))]
    exact ih (fun x hx => hs x (by simp [hx])) _

/-- C145, what holds: text of 7-bit characters has the same hashes on every target. -/
theorem C145_portable_partial (s : List (BitVec 8)) (hs : ∀ c ∈ s, c.toNat < 128) :
    hashCharSequenceOn true s = hashCharSequenceOn false s ∧ fastHashCharSequenceOn true s = fastHashCharSequenceOn false s :=
  ⟨by rw [hashCharSequenceOn, addAllOn_ascii s hs]; rfl, fastHashLoopOn_ascii s hs 0⟩

/-! ### A single character above 127 always makes a difference -/

theorem add_shl_mul (k : Nat) (x : BitVec 32) : x + x <<< k = x * (1#32 + BitVec.twoPow 32 k) := by
  rw [BitVec.shiftLeft_eq_mul_twoPow, BitVec.mul_add, BitVec.mul_one]

theorem add_right_inj32 {x y c : BitVec 32} (h : x + c = y + c) : x = y := by
  have := congrArg (· - c) h
  simpa using this

theorem addCharOn_inj (signed : Bool) (c : BitVec 8) {h h' : Hasher} (e : h.addCharOn signed c = h'.addCharOn signed c) : h = h' := by
  simp only [Hasher.addCharOn, Hasher.mk.injEq] at e
  have e := xor_ushiftRight_inj (by decide) e
  rw [add_shl_mul, add_shl_mul] at e
  have e := mul_const_inj (c := 1#32 + BitVec.twoPow 32 10) (d := 0xC00FFC01#32) (by decide +kernel) e
  have e := add_right_inj32 e
  cases h; cases h'
  exact congrArg Hasher.mk e

theorem addAllOn_inj (signed : Bool) (s : List (BitVec 8)) : ∀ {h h' : Hasher}, h.addAllOn signed s = h'.addAllOn signed s → h = h' := by
  induction s with
  | nil => intro h h' e; exact e
  | cons c s ih => intro h h' e; exact addCharOn_inj signed c (ih e)

theorem result_inj {h h' : Hasher} (e : h.result.1 = h'.result.1) : h = h' := by
  simp only [Hasher.result] at e
  rw [add_shl_mul 15, add_shl_mul 15] at e
  have e := mul_const_inj (c := 1#32 + BitVec.twoPow 32 15) (d := 0x3FFF8001#32) (by decide +kernel) e
  have e := xor_ushiftRight_inj (by decide) e
  rw [add_shl_mul 3, add_shl_mul 3] at e
  have e := mul_const_inj (c := 1#32 + BitVec.twoPow 32 3) (d := 0x38E38E39#32) (by decide +kernel) e
  cases h; cases h'
  exact congrArg Hasher.mk e

theorem charOn_high (c : BitVec 8) (h : 128 ≤ c.toNat) : charOn true c ≠ charOn false c := by
  revert c; decide +kernel

theorem fastHashLoopOn_inj (signed : Bool) (s : List (BitVec 8)) : ∀ {h h' : BitVec 32}, fastHashLoopOn signed h s = fastHashLoopOn signed h' s → h = h' := by
  induction s with
  | nil => intro h h' e; exact e
  | cons c s ih =>
    intro h h' e
    have e := ih e
    rw [fastStep, fastStep, BitVec.add_comm, BitVec.add_comm (charOn signed c)] at e
    exact mul_const_inj (c := 65599#32) (d := 0x8E7AEFBF#32) (by decide +kernel) (add_right_inj32 e)

theorem charOn_eq {a b : BitVec 32} (h : BitVec 32) (e : a + (h <<< 6) + (h <<< 16) - h = b + (h <<< 6) + (h <<< 16) - h) : a = b := by
  rw [fastStep, fastStep] at e
  exact add_right_inj32 e

/-- C145, exact for one such character: text with exactly one character above 127 never has the same hash on two targets that differ in
the signedness of `char`. -/
theorem C145_one_high_character (a b : List (BitVec 8)) (c : BitVec 8) (ha : ∀ x ∈ a, x.toNat < 128) (hb : ∀ x ∈ b, x.toNat < 128) (hc : 128 ≤ c.toNat) :
    hashCharSequenceOn true (a ++ c :: b) ≠ hashCharSequenceOn false (a ++ c :: b) ∧
    fastHashCharSequenceOn true (a ++ c :: b) ≠ fastHashCharSequenceOn false (a ++ c :: b) := by
  constructor
  · intro e
    have e := result_inj e
    rw [addAllOn_append, addAllOn_append, addAllOn_ascii a ha] at e
    generalize Hasher.addAllOn false Hasher.new a = g at e
    simp only [Hasher.addAllOn] at e
    rw [addAllOn_ascii b hb] at e
    have e := addAllOn_inj false b e
    simp only [Hasher.addCharOn, Hasher.mk.injEq] at e
    have e := xor_ushiftRight_inj (by decide) e
    rw [add_shl_mul, add_shl_mul] at e
    have e := mul_const_inj (c := 1#32 + BitVec.twoPow 32 10) (d := 0xC00FFC01#32) (by decide +kernel) e
    rw [BitVec.add_comm, BitVec.add_comm g.hash] at e
    exact charOn_high c hc (add_right_inj32 e)
  · intro e
    rw [fastHashCharSequenceOn, fastHashCharSequenceOn, fastHashLoopOn_append, fastHashLoopOn_append, fastHashLoopOn_ascii a ha] at e
    generalize fastHashLoopOn false 0 a = g at e
    simp only [fastHashLoopOn] at e
    rw [fastHashLoopOn_ascii b hb] at e
    exact charOn_high c hc (charOn_eq g (fastHashLoopOn_inj false b e))

/-! ### Pointers of 32 bits -/

/-- C145: where pointers have 32 bits `HashPointer` is `HashInt32`: `p` and `~p` collide, and no hash is shared by more than eight
addresses. -/
theorem C145_pointer32 :
    (∀ p : BitVec 32, hashPointer32 .wrap (~~~p) = hashPointer32 .wrap p) ∧
    (∀ (l : List (BitVec 32)) (v : BitVec 32), l.Nodup → (∀ p ∈ l, hashPointer32 .wrap p = .ok v) → l.length ≤ 8) :=
  C13_hashInt32_partial

/-- "Zürich" in UTF-8 has two characters above 127, in Latin-1 one; "Zurich" none. -/
example : hashCharSequenceOn true [0x5a, 0xfc, 0x72, 0x69, 0x63, 0x68] ≠ hashCharSequenceOn false [0x5a, 0xfc, 0x72, 0x69, 0x63, 0x68] :=
  (C145_one_high_character [0x5a] [0x72, 0x69, 0x63, 0x68] 0xfc (by decide) (by decide) (by decide)).1

example : hashCharSequenceOn true [0x5a, 0x75, 0x72, 0x69, 0x63, 0x68] = hashCharSequenceOn false [0x5a, 0x75, 0x72, 0x69, 0x63, 0x68] :=
  (C145_portable_partial _ (by decide)).1

end Verif.Hash
