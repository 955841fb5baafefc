import Verif.Restyler.Spec
/-!
# A small lexer for the examples

It knows words, comments, and single characters. `checkWalk` and `checkNext` decide the relations of the specification on concrete texts.
-/
namespace Verif.Restyler
open Verif Verif.Rewriter

/-- The bytes of a string. -/
def txt (s : String) : Text := s.toUTF8.toList

def isWord (c : UInt8) : Bool := (48 ≤ c && c ≤ 57) || (65 ≤ c && c ≤ 90) || (97 ≤ c && c ≤ 122) || c == 95 || 128 ≤ c

/-- How many characters up to the end of a block comment. -/
def blockLen : Text → Nat
  | 42 :: 47 :: _ => 2
  | _ :: r => blockLen r + 1
  | [] => 0

/-- The kind and the length of the token at the beginning of a text. -/
def demoTok (t : Text) : Tok × Nat :=
  match t with
  | 47 :: 47 :: r => (.comment, 2 + (r.takeWhile (· != 10)).length)
  | 47 :: 42 :: r => (.comment, 2 + blockLen r)
  | c :: _ =>
    if isWord c then (if t.takeWhile isWord = [111, 112, 101, 114, 97, 116, 111, 114] then .operatorKw else .other, (t.takeWhile isWord).length)
    else (if c = 44 then .comma else if c = 41 then .rparen else if c = 35 then .hash else .other, 1)
  | [] => (.other, 1)

def demo (t : Text) : Src where
  text := t
  tokEnd i := min t.length (max (i + 1) (i + (demoTok (t.drop i)).2))
  kind i := (demoTok (t.drop i)).1

theorem demo_lexes (t : Text) : Lexes (demo t) := by
  intro i hs
  obtain ⟨c, hc, hw⟩ := hs
  have hc : t[i]? = some c := hc
  have hl : i < t.length := (List.getElem?_eq_some_iff.1 hc).1
  refine ⟨⟨by simp only [demo]; omega, by simp only [demo]; omega⟩, ?_⟩
  intro hk
  simp only [demo] at hk ⊢
  rw [List.getElem?_eq_getElem hl]
  rw [List.drop_eq_getElem_cons hl] at hk
  generalize t[i] = d at *
  generalize t.drop (i + 1) = r at *
  unfold demoTok at hk
  split at hk
  · cases hk
  · cases hk
  · rename_i h1 h2
    injection h2 with h2 h3
    subst h2 h3
    split at hk
    · split at hk <;> cases hk
    · split at hk
      · rename_i h; rw [h]
      · split at hk
        · cases hk
        · split at hk <;> cases hk
  · rename_i h; cases h

def checkWalk (s : Src) (j : Nat) : Nat → Nat → Bool
  | 0, _ => false
  | n + 1, i => if i = j then true else if White s.text i then checkWalk s j n (i + 1) else if Solid s.text i then checkWalk s j n (s.tokEnd i) else false

theorem walk_of_check {s : Src} {j : Nat} : ∀ {n i : Nat}, checkWalk s j n i = true → Walk s i j := by
  intro n
  induction n with
  | zero => intro i h; cases h
  | succ n ih =>
    intro i h
    unfold checkWalk at h
    split at h
    · rename_i he; subst he; exact .refl _
    · split at h
      · rename_i hw; exact .white _ _ hw (ih h)
      · split at h
        · rename_i hs; exact .token _ _ hs (ih h)
        · cases h

def checkNext (s : Src) (j : Nat) : Nat → Nat → Bool
  | 0, _ => false
  | n + 1, i =>
    if White s.text i then checkNext s j n (i + 1)
    else if Solid s.text i then (if s.kind i = .comment then checkNext s j n (s.tokEnd i) else decide (i = j))
    else false

theorem next_of_check {s : Src} {j : Nat} : ∀ {n i : Nat}, checkNext s j n i = true → NextCode s i j := by
  intro n
  induction n with
  | zero => intro i h; cases h
  | succ n ih =>
    intro i h
    unfold checkNext at h
    split at h
    · rename_i hw; exact .white _ _ hw (ih h)
    · split at h
      · rename_i hs
        split at h
        · rename_i hk; exact .comment _ _ hs hk (ih h)
        · rename_i hk
          have : i = j := of_decide_eq_true h
          subst this
          exact .here _ hs hk
      · cases h

end Verif.Restyler
