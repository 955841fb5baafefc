import Verif.Restyler.Model
import Verif.Rewriter.Spec
/-!
# Specification of the restyler: which edits the style rules ask for

The rules are stated over the text and over what clang says about each construct, with words of their own for lines, columns, indentation and white space;
of the model only the shapes of its input (`Src`, `Node`, ...) are used, and `isWs`.
-/
namespace Verif.Restyler
open Verif Verif.Rewriter

/-- The character at `i` is white space. -/
def White (t : Text) (i : Nat) : Prop := ∃ c ∈ t[i]?, isWs c = true

/-- There is a character at `i`, and it is not white space. -/
def Solid (t : Text) (i : Nat) : Prop := ∃ c ∈ t[i]?, isWs c = false

instance (t : Text) (i : Nat) : Decidable (White t i) :=
  match h : t[i]? with
  | none => .isFalse (by simp [White, h])
  | some c => if hc : isWs c = true then .isTrue ⟨c, h, hc⟩ else .isFalse (by simp [White, h, hc])

instance (t : Text) (i : Nat) : Decidable (Solid t i) :=
  match h : t[i]? with
  | none => .isFalse (by simp [Solid, h])
  | some c => if hc : isWs c = false then .isTrue ⟨c, h, hc⟩ else .isFalse (by simp [Solid, h, hc])

/-- Nothing but white space from `i` up to `j`. -/
def AllWhite (t : Text) (i j : Nat) : Prop := ∀ k < j, i ≤ k → White t k

instance (t : Text) (i j : Nat) : Decidable (AllWhite t i j) := inferInstanceAs (Decidable (∀ k < j, i ≤ k → White t k))

/-- No newline is between the places `i` and `j`. -/
def SameLine (t : Text) (i j : Nat) : Prop := ∀ k < max i j, min i j ≤ k → t[k]? ≠ some 10

instance (t : Text) (i j : Nat) : Decidable (SameLine t i j) := inferInstanceAs (Decidable (∀ k < max i j, min i j ≤ k → t[k]? ≠ some 10))

/-- The place `i` is the first of its line. -/
def FirstCol (t : Text) (i : Nat) : Prop := i = 0 ∨ t[i - 1]? = some 10

instance (t : Text) (i : Nat) : Decidable (FirstCol t i) := inferInstanceAs (Decidable (_ ∨ _))

/-- The characters of the line of `i` that are before `i`. -/
def lineUpTo (t : Text) (i : Nat) : Text := ((t.take i).reverse.takeWhile (· != 10)).reverse

/-- The indentation of the line of `i`: the white space it begins with. -/
def indentOf (t : Text) (i : Nat) : Text := (lineUpTo t i).takeWhile isWs

/-- Where the white space that ends at `i` begins. -/
def runStart (t : Text) (i : Nat) : Nat := i - ((t.take i).reverse.takeWhile isWs).length

/-- From `i`, over white space and comments, `j` is the next place with anything else. -/
inductive NextCode (s : Src) : Nat → Nat → Prop
  | here (i : Nat) : Solid s.text i → s.kind i ≠ .comment → NextCode s i i
  | white (i j : Nat) : White s.text i → NextCode s (i + 1) j → NextCode s i j
  | comment (i j : Nat) : Solid s.text i → s.kind i = .comment → NextCode s (s.tokEnd i) j → NextCode s i j

/-- From `i`, over white space and whole tokens, one comes to `j`. -/
inductive Walk (s : Src) : Nat → Nat → Prop
  | refl (i : Nat) : Walk s i i
  | white (i j : Nat) : White s.text i → Walk s (i + 1) j → Walk s i j
  | token (i j : Nat) : Solid s.text i → Walk s (s.tokEnd i) j → Walk s i j

/-- What one may expect of a lexer: a token ends behind its first character, and not behind the file; a comma is a comma. -/
def Lexes (s : Src) : Prop := ∀ i, Solid s.text i → (i < s.tokEnd i ∧ s.tokEnd i ≤ s.text.length) ∧ (s.kind i = .comma → s.text[i]? = some 44)

/-- The line of `i` begins (after its indentation) with an ASCII character. -/
def AsciiLine (t : Text) (i : Nat) : Prop := ∀ c, ((lineUpTo t i ++ t.drop i).dropWhile isWs).head? = some c → c.toNat < 128

instance (t : Text) (i : Nat) : Decidable (AsciiLine t i) :=
  match h : ((lineUpTo t i ++ t.drop i).dropWhile isWs).head? with
  | none => .isTrue (by simp [AsciiLine, h])
  | some c => if hc : c.toNat < 128 then .isTrue (by simp [AsciiLine, h, hc]) else .isFalse (by simp [AsciiLine, h]; omega)

/-- A body as clang describes it: a compound statement begins with a brace, and ends with one. -/
def BodyOk (s : Src) (b : Body) : Prop :=
  Solid s.text b.start ∧ (b.compound = true → s.tokEnd b.start = b.start + 1 ∧ b.start < b.rbrace ∧ Solid s.text b.rbrace)

/-! ## The rules -/

/-- A brace moved to a line of its own, below the line of `line`: the white space before it becomes a newline and the indentation of that line. -/
def splitEdit (t : Text) (line brace : Nat) : Edit := ⟨runStart t brace, brace, 10 :: indentOf t line⟩

/-- `if`, `while`, `switch`, `for`, `catch`: if the parenthetical takes several lines and the brace follows on its last line, the brace is moved. -/
def SplitsStmt (t : Text) (start rparen : Nat) (b : Body) : Prop := ¬ SameLine t start rparen ∧ SameLine t rparen b.start

instance (t : Text) (start rparen : Nat) (b : Body) : Decidable (SplitsStmt t start rparen b) := inferInstanceAs (Decidable (_ ∧ _))

def stmtEdits (t : Text) (start rparen : Nat) (b : Body) : List Edit :=
  if SplitsStmt t start rparen b then [splitEdit t start b.start] else []

/-- The name or the type of the function is in the first column. -/
def AtLeft (t : Text) (typeBegin name : Nat) : Prop := FirstCol t typeBegin ∨ FirstCol t name

instance (t : Text) (a b : Nat) : Decidable (AtLeft t a b) := inferInstanceAs (Decidable (_ ∨ _))

/-- The braces of an empty function are to be joined: unless the function is in the first column, there is a comment in it, or head and braces are on one
line already. `onLine`: the head of the function ends on the line of the brace. -/
def JoinsBraces (t : Text) (left onLine : Prop) (b : Body) : Prop :=
  ¬ left ∧ b.compound = true ∧ b.empty = true ∧ AllWhite t (b.start + 1) b.rbrace ∧ ¬ (onLine ∧ SameLine t b.start b.rbrace)

instance (t : Text) (left onLine : Prop) [Decidable left] [Decidable onLine] (b : Body) : Decidable (JoinsBraces t left onLine b) :=
  inferInstanceAs (Decidable (_ ∧ _))

/-- What is between the braces goes. -/
def joinEdit (b : Body) : Edit := ⟨b.start + 1, b.rbrace, []⟩

/-- The brace of a function that is no constructor is moved if it follows on the last line of the head, and the function is in the first column or its head
takes several lines; unless the body is empty and its braces have just been joined on that line. -/
def SplitsFn (t : Text) (left : Prop) (typeBegin typeEnd : Nat) (b : Body) : Prop :=
  SameLine t typeEnd b.start ∧ (left ∨ ¬ SameLine t typeBegin typeEnd) ∧ ¬ JoinsBraces t left (SameLine t typeEnd b.start) b

instance (t : Text) (left : Prop) [Decidable left] (x y : Nat) (b : Body) : Decidable (SplitsFn t left x y b) := inferInstanceAs (Decidable (_ ∧ _))

def plainEdits (t : Text) (name typeBegin typeEnd : Nat) (b : Body) : List Edit :=
  (if JoinsBraces t (AtLeft t typeBegin name) (SameLine t typeEnd b.start) b then [joinEdit b] else []) ++
  (if SplitsFn t (AtLeft t typeBegin name) typeBegin typeEnd b then [splitEdit t typeBegin b.start] else [])

/-- Some initialiser ends on the line of the brace. -/
def InitOnLine (t : Text) (inits : List Init) (b : Body) : Prop := ∃ x ∈ inits, ∃ p ∈ x.rparen, SameLine t p b.start

instance (t : Text) (inits : List Init) (b : Body) : Decidable (InitOnLine t inits b) := inferInstanceAs (Decidable (∃ x ∈ inits, _))

/-- The brace of a constructor is moved if it follows on the line of the last initialiser, and that is not the line of the head. -/
def ctorEdits (t : Text) (inits : List Init) (name typeBegin typeEnd : Nat) (b : Body) : List Edit :=
  if inits = [] then [] else
  (if JoinsBraces t (AtLeft t typeBegin name) (SameLine t typeEnd b.start ∨ InitOnLine t inits b) b then [joinEdit b] else []) ++
  (if InitOnLine t inits b ∧ ¬ SameLine t typeEnd b.start then [splitEdit t typeBegin b.start] else [])

/-- A comma at the beginning of a line is moved to the end of the initialiser before it, and a space takes its place. -/
def commaEdits (s : Src) (x : Init) : List Edit :=
  match x.rparen with
  | none => []
  | some p => if s.kind x.next = .comma ∧ ¬ SameLine s.text p x.next then [⟨p + 1, p + 1, [44]⟩, ⟨x.next, x.next + 1, [32]⟩] else []

/-- The initialisers up to the first whose place is not known. -/
def known (inits : List Init) : List Init := inits.takeWhile (fun x => x.rparen.isSome)

def initEdits (s : Src) (inits : List Init) : List Edit := if inits.length ≤ 1 then [] else (known inits).flatMap (commaEdits s)

/-- `operator=` becomes `operator =`. -/
def operEdits (s : Src) (f : Fn) : List Edit :=
  if f.oper = true ∧ s.kind f.name = .operatorKw ∧ ¬ White s.text (f.name + 8) then [⟨f.name + 8, f.name + 8, [32]⟩] else []

/-- The commas of a constructor. -/
def fnInitEdits (s : Src) (f : Fn) : List Edit :=
  match f.inits with
  | some inits => initEdits s inits
  | none => []

/-- The braces of a function. -/
def fnBodyEdits (s : Src) (f : Fn) (b : Body) (typeBegin typeEnd : Nat) : List Edit :=
  match f.inits with
  | some inits => ctorEdits s.text inits f.name typeBegin typeEnd b
  | none => plainEdits s.text f.name typeBegin typeEnd b

/-- All edits for a function. Without a body there is nothing to do but for an operator's name. -/
def fnEdits (s : Src) (f : Fn) : List Edit :=
  match f.body with
  | none => operEdits s f
  | some b => match f.type with
    | none => operEdits s f ++ fnInitEdits s f
    | some (x, y) => operEdits s f ++ fnInitEdits s f ++ fnBodyEdits s f b x y

/-! ## What is expected of a file -/

/-- Between the parenthesis (or last token) that ends at `r` and the brace is white space, some, and no comment. -/
def Spaced (t : Text) (r brace : Nat) : Prop := r + 1 < brace ∧ AllWhite t (r + 1) brace ∧ Solid t r

instance (t : Text) (r b : Nat) : Decidable (Spaced t r b) := inferInstanceAs (Decidable (_ ∧ _))

/-- A statement with a parenthetical that ends at `r`: if its brace is to be moved, there is only white space before it, and its line begins with ASCII. -/
def StmtOk (s : Src) (start r : Nat) (b : Body) : Prop :=
  BodyOk s b ∧ Solid s.text start ∧ (SplitsStmt s.text start r b → Spaced s.text r b.start ∧ AsciiLine s.text start)

/-- The parenthesis after the token at `e` is at `r`. -/
def ClosedAt (s : Src) (e r : Nat) : Prop := Solid s.text e ∧ NextCode s (s.tokEnd e) r ∧ s.kind r = .rparen

/-- The token at `e` is followed by a preprocessor directive. -/
def HashAfter (s : Src) (e : Nat) : Prop := Solid s.text e ∧ ∃ r, NextCode s (s.tokEnd e) r ∧ s.kind r = .hash

/-- `r` is the last parenthesis between `start` and the brace. -/
def LastParen (t : Text) (start brace r : Nat) : Prop := start < r ∧ r ≤ brace ∧ t[r]? = some 41 ∧ ∀ k, r < k → k ≤ brace → t[k]? ≠ some 41

/-- Where the condition of an `if`, `while` or `switch` is closed: after the condition if clang knows where that ends and no directive follows, else at the
last parenthesis before the brace. -/
def CondParen (s : Src) (start : Nat) (condEnd : Option Nat) (b : Body) (r : Nat) : Prop :=
  (∃ e, condEnd = some e ∧ ClosedAt s e r) ∨ ((condEnd = none ∨ ∃ e, condEnd = some e ∧ HashAfter s e) ∧ LastParen s.text start b.start r)

/-- What is expected of the text around a function whose body is `b`. -/
def FnTextOk (s : Src) (f : Fn) : Prop :=
  (f.oper = true → Solid s.text f.name ∧ (s.kind f.name = .operatorKw → f.name + 8 < s.text.length)) ∧
  ∀ b, f.body = some b → BodyOk s b ∧
    (∀ inits, f.inits = some inits → 1 < inits.length → ∀ x ∈ known inits, ∀ p ∈ x.rparen, Solid s.text p ∧ NextCode s (p + 1) x.next ∧ p < x.next) ∧
    ∀ x y, f.type = some (x, y) → Solid s.text x ∧ y ≤ b.start ∧
      (splitEdit s.text x b.start ∈ fnBodyEdits s f b x y → AsciiLine s.text x) ∧
      (joinEdit b ∈ fnBodyEdits s f b x y → b.start + 1 < b.rbrace) ∧
      match f.inits with
      | none => SplitsFn s.text (AtLeft s.text x f.name) x y b → runStart s.text b.start < b.start ∧ Walk s y (runStart s.text b.start)
      | some inits => (∀ i ∈ inits, ∀ p ∈ i.rparen, p ≤ b.start) ∧
        (¬ SameLine s.text y b.start → ∀ i ∈ inits, ∀ p ∈ i.rparen, SameLine s.text p b.start → Spaced s.text p b.start)

/-- The construct is laid out as the tool expects, and these are the edits the style rules ask for. -/
inductive Asks (s : Src) : Node → List Edit → Prop
  | elsewhere : Asks s .elsewhere []
  | plainCond (start : Nat) (condEnd : Option Nat) (b : Body) : b.compound = false → Asks s (.cond start condEnd b) []
  | cond (start : Nat) (condEnd : Option Nat) (b : Body) (r : Nat) : b.compound = true → CondParen s start condEnd b r → StmtOk s start r b →
      Asks s (.cond start condEnd b) (stmtEdits s.text start r b)
  | condNone (start : Nat) (condEnd : Option Nat) (b : Body) : b.compound = true → (condEnd = none ∨ ∃ e, condEnd = some e ∧ HashAfter s e) →
      start ≤ b.start → Solid s.text b.start → (∀ k, start < k → k ≤ b.start → s.text[k]? ≠ some 41) → Asks s (.cond start condEnd b) []
  | plainLoop (start r : Nat) (b : Body) : b.compound = false → Asks s (.loop start r b) []
  | loop (start r : Nat) (b : Body) : b.compound = true → StmtOk s start r b → Asks s (.loop start r b) (stmtEdits s.text start r b)
  | plainHandler (start : Nat) (e : Option Nat) (b : Body) : b.compound = false → Asks s (.handler start e b) []
  | handler (start e : Nat) (b : Body) (r : Nat) : b.compound = true → ClosedAt s e r → StmtOk s start r b →
      Asks s (.handler start (some e) b) (stmtEdits s.text start r b)
  | fn (f : Fn) : FnTextOk s f → Asks s (.fn f) (fnEdits s f)

/-- The same for all constructs of a file. -/
inductive AsksAll (s : Src) : List Node → List Edit → Prop
  | nil : AsksAll s [] []
  | cons (n : Node) (r : List Node) (es fs : List Edit) : Asks s n es → AsksAll s r fs → AsksAll s (n :: r) (es ++ fs)

/-- The braces that a construct calls its own. -/
def Node.braces : Node → List Nat
  | .cond _ _ b | .loop _ _ b | .handler _ _ b => [b.start]
  | .fn f => match f.body with
    | some b => if b.compound = true then [b.start, b.rbrace] else [b.start]
    | none => []
  | .elsewhere => []

/-- The other tokens of a construct that the tool may put something next to: what follows `operator`, the initialisers' parentheses, and their commas. -/
def Node.marks (s : Src) : Node → List Nat
  | .fn f => (if f.oper = true then [f.name + 8] else []) ++
    match f.inits with
    | some inits => inits.flatMap (fun x => match x.rparen with
      | none => []
      | some p => if s.kind x.next = .comma then [p, x.next] else [p])
    | none => []
  | _ => []

/-- No two constructs share a token, and no two functions with a body begin at the same place. -/
def Distinct (s : Src) (nodes : List Node) : Prop :=
  (nodes.flatMap Node.braces).Nodup ∧ (nodes.flatMap (Node.marks s)).Nodup ∧
  nodes.Pairwise (fun a b => ∀ f g, a = .fn f → b = .fn g → f.start = g.start → f.body = none)

/-! ## What clang says of any file -/

/-- A statement: its parenthetical is closed at `r`, between its beginning and its body. -/
def StmtDescribed (s : Src) (start r : Nat) (b : Body) : Prop := BodyOk s b ∧ b.compound = true ∧ Solid s.text start ∧ start < r ∧ r < b.start ∧ s.text[r]? = some 41

/-- A function: the places that clang gives are tokens, in the right order, with whole tokens between the head and the body. -/
def FnDescribed (s : Src) (f : Fn) : Prop :=
  (f.oper = true → Solid s.text f.name ∧ (s.kind f.name = .operatorKw → f.name + 8 < s.text.length)) ∧
  ∀ b, f.body = some b → BodyOk s b ∧ ∀ x y, f.type = some (x, y) → Solid s.text x ∧ y < b.start ∧ Walk s y b.start ∧
    ∀ inits, f.inits = some inits → ∀ i ∈ inits, ∀ p ∈ i.rparen, Solid s.text p ∧ y < p ∧ p < b.start ∧ NextCode s (p + 1) i.next

/-- However it is laid out, this is a construct of the file. -/
inductive Described (s : Src) : Node → Prop
  | cond (start e : Nat) (b : Body) (r : Nat) : ClosedAt s e r → StmtDescribed s start r b → Described s (.cond start (some e) b)
  | loop (start r : Nat) (b : Body) : StmtDescribed s start r b → Described s (.loop start r b)
  | handler (start e : Nat) (b : Body) (r : Nat) : ClosedAt s e r → StmtDescribed s start r b → Described s (.handler start (some e) b)
  | handlerAll (start : Nat) (b : Body) (r : Nat) : StmtDescribed s start r b → Described s (.handler start none b)
  | fn (f : Fn) : FnDescribed s f → Described s (.fn f)

/-- What is neither white space nor a comma. -/
def code (t : Text) : Text := t.filter (fun c => !isWs c && c != 44)

end Verif.Restyler
