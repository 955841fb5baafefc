import Verif.Rewriter.Model
/-!
# Model of the visitors of the restyler, tools/restyler/amstyler.cpp:182-599

What clang knows is input: the text of the main file, its lexer (`Src`), and what its syntax tree says about each node the traversal visits (`Node`).
`SourceLocation`s are offsets into the main file; nodes of other files are `Node.elsewhere`. Simplified: no locations inside macros; lines end with a
newline character (no carriage returns); asserts are compiled in. The result of a visit is the list of operations added to the `TextRewriter` (Verif.Rewriter).
-/
namespace Verif.Restyler
open Verif Verif.Rewriter

/-- The kinds of raw tokens the code tells apart, tools/restyler/amstyler.cpp:396, 417-421, 482, 487, 494. -/
inductive Tok where
  | comma
  | comment
  | hash
  | rparen
  /-- a raw identifier that is the keyword `operator` -/
  | operatorKw
  | other
deriving DecidableEq, Repr

/-- The main file and clang's lexer on it: `Lexer::getLocForEndOfToken` (tools/restyler/amstyler.cpp:530) and the kind `Lexer::getRawToken` finds (415, 535). -/
structure Src where
  text : Text
  tokEnd : Nat → Nat
  kind : Nat → Tok

/-- `clang::isWhitespace` (tools/restyler/amstyler.cpp:551) and, on ASCII, `isspace` (588). -/
def isWs (c : UInt8) : Bool := c == 32 || (9 ≤ c.toNat && c.toNat ≤ 13)

/-- `*getCharacterData()`, tools/restyler/amstyler.cpp:470, 551: the buffer ends with a NUL. -/
def charAt (t : Text) (i : Nat) : Exec UInt8 :=
  match t[i]? with
  | some c => .ok c
  | none => if i = t.length then .ok 0 else .error .outOfBounds

/-- `isWhitespace`, tools/restyler/amstyler.cpp:549-552. -/
def isWhitespace (s : Src) (i : Nat) : Exec Bool := do
  let c ← charAt s.text i
  .ok (isWs c)

/-- The loop of `skipWhitespace`, tools/restyler/amstyler.cpp:541-545, over the text from `i` on. -/
def skipWs : Text → Nat → Nat
  | [], i => i
  | c :: r, i => if isWs c then skipWs r (i + 1) else i

/-- `skipWhitespace`, tools/restyler/amstyler.cpp:540-547. -/
def skipWhitespace (s : Src) (i : Nat) : Exec Nat :=
  if i ≤ s.text.length then .ok (skipWs (s.text.drop i) i) else .error .outOfBounds

/-- `skipToken`, tools/restyler/amstyler.cpp:528-531. -/
def skipToken (s : Src) (i : Nat) : Exec Nat := do
  if ← isWhitespace s i then .error .assertFail
  else .ok (s.tokEnd i)

/-- `getTokenKind`, tools/restyler/amstyler.cpp:533-538; `getRawToken` fails on white space. -/
def getTokenKind (s : Src) (i : Nat) : Exec Tok := do
  if ← isWhitespace s i then .error .assertFail
  else .ok (s.kind i)

/-- The loop of `getNextToken`, tools/restyler/amstyler.cpp:491-498, for at most `fuel` rounds. -/
def getNextTokenLoop (s : Src) : Nat → Nat → Exec Nat
  | 0, _ => .error .diverge
  | fuel + 1, i => do
    let i ← skipWhitespace s i
    let k ← getTokenKind s i
    if k ≠ .comment then .ok i
    else do
      let i ← skipToken s i
      getNextTokenLoop s fuel i

/-- `getNextToken`, tools/restyler/amstyler.cpp:491-498. Every round consumes a comment, so it takes no more rounds than there are characters. -/
def getNextToken (s : Src) (i : Nat) : Exec Nat := getNextTokenLoop s (s.text.length + 2) i

/-- `getLine`, tools/restyler/amstyler.cpp:561-566. -/
def getLine (t : Text) (i : Nat) : Nat := (t.take i).count 10 + 1

/-- The offset at which the line of the character before `i` begins (clang's column computation, tools/restyler/amstyler.cpp:556, and 577-586). -/
def lineBegin (t : Text) : Nat → Nat
  | 0 => 0
  | i + 1 => if t[i]? = some 10 then i + 1 else lineBegin t i

/-- `getCol`, tools/restyler/amstyler.cpp:554-559. -/
def getCol (t : Text) (i : Nat) : Nat := i - lineBegin t i + 1

/-- `while (isspace(*iter)) iter++;`, tools/restyler/amstyler.cpp:588-589: the characters passed. `isspace` of a negative `char` is not defined. -/
def indentLoop : Text → Exec Text
  | [] => .ok []
  | c :: r =>
    if 128 ≤ c.toNat then .error .badBuiltin
    else if isWs c then do
      let x ← indentLoop r
      .ok (c :: x)
    else .ok []

/-- `getIndentForLine`, tools/restyler/amstyler.cpp:572-591. The search backwards begins with the character itself. -/
def getIndentForLine (t : Text) (i : Nat) : Exec Text := indentLoop (t.drop (lineBegin t (i + 1)))

/-- The loop of `getFirstWhitespaceBeforeLoc`, tools/restyler/amstyler.cpp:514-525, for at most `fuel` rounds. -/
def firstWsLoop (s : Src) (stop : Nat) : Nat → Nat → Exec Nat
  | 0, _ => .error .diverge
  | fuel + 1, i => do
    if ← isWhitespace s i then do
      let j ← skipWhitespace s i
      if j = stop then .ok i
      else if j < stop then firstWsLoop s stop fuel j
      else .error .assertFail
    else do
      let j ← skipToken s i
      if j < stop then firstWsLoop s stop fuel j
      else .error .assertFail

/-- `getFirstWhitespaceBeforeLoc`, tools/restyler/amstyler.cpp:507-526. -/
def getFirstWhitespaceBeforeLoc (s : Src) (i stop : Nat) : Exec Nat := firstWsLoop s stop (s.text.length + 2) i

/-- `getRParenLoc(SourceLocation)`, tools/restyler/amstyler.cpp:478-489; `none`: an invalid location. -/
def getRParenLoc (s : Src) (i : Nat) : Exec (Option Nat) := do
  let i ← skipToken s i
  let i ← getNextToken s i
  let k ← getTokenKind s i
  if k = .hash then .ok none
  else if k = .rparen then .ok (some i)
  else .error .assertFail

/-- `getRParenLocBackwards`, tools/restyler/amstyler.cpp:466-476; a search that passes the beginning of the file is a fault. -/
def getRParenLocBackwards (t : Text) (stop : Nat) : Nat → Exec (Option Nat)
  | 0 => if 0 = stop then .ok none else do
    let c ← charAt t 0
    if c = 41 then .ok (some 0) else .error .outOfBounds
  | i + 1 => if i + 1 = stop then .ok none else do
    let c ← charAt t (i + 1)
    if c = 41 then .ok (some (i + 1)) else getRParenLocBackwards t stop i

/-- The body of a statement or function: where it begins (for a compound statement, its left brace), and for a compound statement where its right brace is
and whether it has no statements. tools/restyler/amstyler.cpp:208, 230, 269, 335-341. -/
structure Body where
  start : Nat
  compound : Bool
  rbrace : Nat
  empty : Bool
deriving DecidableEq, Repr

/-- A constructor initialiser: `getRParenLoc()` (tools/restyler/amstyler.cpp:290, 390; `none`: invalid). `next` is the next token that is not a comment
(395); the model does not use it, the specification does. -/
structure Init where
  rparen : Option Nat
  next : Nat
deriving DecidableEq, Repr

/-- What `VisitFunctionDecl` asks of a function declaration, tools/restyler/amstyler.cpp:240-290: `getLocStart`, `isOverloadedOperator`, the location of the
name, the body if there is one, the initialisers if it is a constructor, and the beginning and end of the `FunctionTypeLoc` if they are valid. -/
structure Fn where
  start : Nat
  oper : Bool
  name : Nat
  body : Option Body
  inits : Option (List Init)
  type : Option (Nat × Nat)
deriving DecidableEq, Repr

/-- The nodes that are visited, tools/restyler/amstyler.cpp:193-236. -/
inductive Node where
  /-- `IfStmt`, `WhileStmt`, `SwitchStmt`, 193-201: where it begins, the end of the condition or of its variable (458-462; `none`: invalid), the body -/
  | cond (start : Nat) (condEnd : Option Nat) (body : Body)
  /-- `ForStmt`, 202-209 -/
  | loop (start rparen : Nat) (body : Body)
  /-- `CXXCatchStmt`, 210-219: `none` for `catch (...)`, which has no declaration -/
  | handler (start : Nat) (declEnd : Option Nat) (body : Body)
  /-- `FunctionDecl`, 236 -/
  | fn (f : Fn)
  /-- a node outside the main file, 203, 211, 223, 237 -/
  | elsewhere
deriving DecidableEq, Repr

/-- `rewriter_` as the operations added to it, latest last, and `visited_`, tools/restyler/amstyler.cpp:594-598. -/
structure State where
  ops : List Op
  visited : List Nat
deriving DecidableEq, Repr

/-- Bookkeeping: operations are appended (tools/restyler/amstyler.cpp:62, 73, 81, 90). -/
def State.add (st : State) (ops : List Op) : State := { st with ops := st.ops ++ ops }

/-- `splitBrace`, tools/restyler/amstyler.cpp:434-440. -/
def splitBrace (s : Src) (line where_ : Nat) (body : Body) : Exec (List Op) := do
  let indent ← getIndentForLine s.text line
  .ok [replace where_ body.start (10 :: indent)]

/-- `splitBraceAfter`, tools/restyler/amstyler.cpp:428-432. -/
def splitBraceAfter (s : Src) (line where_ : Nat) (body : Body) : Exec (List Op) := splitBrace s line (where_ + 1) body

/-- `maybeSplitBrace`, tools/restyler/amstyler.cpp:442-450. -/
def maybeSplitBrace (s : Src) (line rparen : Nat) (body : Body) : Exec (List Op) :=
  if getLine s.text line = getLine s.text rparen then .ok []
  else if getLine s.text rparen ≠ getLine s.text body.start then .ok []
  else splitBraceAfter s line rparen body

/-- `HandleCondStmt`, tools/restyler/amstyler.cpp:221-234, with `getRParenLoc(CondStmt*)`, 456-464. -/
def handleCond (s : Src) (start : Nat) (condEnd : Option Nat) (body : Body) : Exec (List Op) := do
  if body.compound = false then .ok []
  else do
    let r ← match condEnd with
      | none => .ok none
      | some e => getRParenLoc s e
    let r ← match r with
      | none => getRParenLocBackwards s.text start body.start
      | some r => .ok (some r)
    match r with
    | none => .ok []
    | some r => maybeSplitBrace s start r body

/-- `isEmptyBetween`, tools/restyler/amstyler.cpp:452-454. -/
def isEmptyBetween (s : Src) (a b : Nat) : Exec Bool := do
  let i ← skipToken s a
  let i ← skipWhitespace s i
  .ok (i == b)

/-- `maybeFixEmptyFunction`, tools/restyler/amstyler.cpp:328-368: the operations, and whether the brace should not be split. -/
def maybeFixEmptyFunction (s : Src) (body : Body) (lastRparen : Nat) (firstCol : Bool) : Exec (List Op × Bool) := do
  if firstCol then .ok ([], false)
  else if body.compound = false ∨ body.empty = false then .ok ([], false)
  else do
    let e ← isEmptyBetween s body.start body.rbrace
    if !e then .ok ([], false)
    else if getLine s.text lastRparen = getLine s.text body.start then
      if getLine s.text body.start = getLine s.text body.rbrace then .ok ([], false)
      else .ok ([remove (body.start + 1) body.rbrace], true)
    else .ok ([remove (body.start + 1) body.rbrace], false)

/-- The loop of `maybeFixCtorInitializers`, tools/restyler/amstyler.cpp:389-402; an invalid location ends it (391-394). -/
def fixInits (s : Src) : List Init → Exec (List Op)
  | [] => .ok []
  | x :: r => match x.rparen with
    | none => .ok []
    | some p => do
      let n ← getNextToken s (p + 1)
      let k ← getTokenKind s n
      if k ≠ .comma then fixInits s r
      else if getLine s.text p = getLine s.text n then fixInits s r
      else do
        let more ← fixInits s r
        .ok (insertAfter p [44] :: replace n (n + 1) [32] :: more)

/-- `maybeFixCtorInitializers`, tools/restyler/amstyler.cpp:370-403. -/
def maybeFixCtorInitializers (s : Src) (inits : List Init) : Exec (List Op) :=
  if inits.length ≤ 1 then .ok [] else fixInits s inits

/-- `maybeFixOperatorKeyword`, tools/restyler/amstyler.cpp:405-426; the keyword has eight characters. -/
def maybeFixOperatorKeyword (s : Src) (name : Nat) : Exec (List Op) := do
  let k ← getTokenKind s name
  if k ≠ .operatorKw then .ok []
  else do
    let w ← isWhitespace s (name + 8)
    if w then .ok [] else .ok [insertAt (name + 8) [32]]

/-- `last_rparen`, tools/restyler/amstyler.cpp:288-295. -/
def lastRparen (t : Text) : Nat → List Init → Nat
  | last, [] => last
  | last, x :: r => match x.rparen with
    | none => lastRparen t last r
    | some p => lastRparen t (if getLine t last < getLine t p then p else last) r

/-- The constructor's part of `VisitFunctionDecl`, tools/restyler/amstyler.cpp:275-305. -/
def visitCtor (s : Src) (inits : List Init) (typeBegin typeEnd : Nat) (body : Body) (firstCol : Bool) : Exec (List Op) :=
  if inits = [] then .ok []
  else do
    let last := lastRparen s.text typeEnd inits
    let (ops, _) ← maybeFixEmptyFunction s body last firstCol
    if getLine s.text last = getLine s.text body.start ∧ getLine s.text typeEnd ≠ getLine s.text body.start then do
      let more ← splitBraceAfter s typeBegin last body
      .ok (ops ++ more)
    else .ok ops

/-- The rest of `VisitFunctionDecl`, tools/restyler/amstyler.cpp:307-323, for what is not a constructor. -/
def visitPlain (s : Src) (typeBegin typeEnd : Nat) (body : Body) (firstCol : Bool) : Exec (List Op) := do
  let (ops, cannotSplit) ← maybeFixEmptyFunction s body typeEnd firstCol
  if cannotSplit = false ∧ (firstCol = true ∨ getLine s.text typeBegin ≠ getLine s.text typeEnd) then
    if getLine s.text typeEnd = getLine s.text body.start then do
      let e ← getFirstWhitespaceBeforeLoc s typeEnd body.start
      let more ← splitBrace s typeBegin e body
      .ok (ops ++ more)
    else .ok ops
  else .ok ops

/-- tools/restyler/amstyler.cpp:244-245. -/
def visitOper (s : Src) (f : Fn) : Exec (List Op) := if f.oper then maybeFixOperatorKeyword s f.name else .ok []

/-- tools/restyler/amstyler.cpp:251-252. -/
def visitInits (s : Src) (f : Fn) : Exec (List Op) :=
  match f.inits with
  | some inits => maybeFixCtorInitializers s inits
  | none => .ok []

/-- tools/restyler/amstyler.cpp:268-323. -/
def visitBody (s : Src) (f : Fn) (body : Body) (typeBegin typeEnd : Nat) : Exec (List Op) :=
  let firstCol := getCol s.text typeBegin == 1 || getCol s.text f.name == 1
  match f.inits with
  | some inits => visitCtor s inits typeBegin typeEnd body firstCol
  | none => visitPlain s typeBegin typeEnd body firstCol

/-- `VisitFunctionDecl`, tools/restyler/amstyler.cpp:236-324: the operations, and whether the function is marked as visited (266). -/
def visitFn (s : Src) (visited : List Nat) (f : Fn) : Exec (List Op × Bool) :=
  if f.start ∈ visited then .ok ([], false)
  else do
    let ops1 ← visitOper s f
    match f.body with
    | none => .ok (ops1, false)
    | some body => do
      let ops2 ← visitInits s f
      match f.type with
      | none => .ok (ops1 ++ ops2, false)
      | some (typeBegin, typeEnd) => do
        let ops3 ← visitBody s f body typeBegin typeEnd
        .ok (ops1 ++ ops2 ++ ops3, true)

/-- One visit, tools/restyler/amstyler.cpp:193-324. -/
def visit (s : Src) (st : State) : Node → Exec State
  | .cond start condEnd body => do
    let ops ← handleCond s start condEnd body
    .ok (st.add ops)
  | .loop start rparen body =>
    if body.compound = false then .ok st
    else do
      let ops ← maybeSplitBrace s start rparen body
      .ok (st.add ops)
  | .handler start declEnd body =>
    if body.compound = false then .ok st
    else match declEnd with
      | none => .error .nullDeref
      | some e => do
        let r ← getRParenLoc s e
        match r with
        | none => .error .assertFail
        | some r => do
          let ops ← maybeSplitBrace s start r body
          .ok (st.add ops)
  | .fn f => do
    let (ops, mark) ← visitFn s st.visited f
    .ok { ops := st.ops ++ ops, visited := if mark then f.start :: st.visited else st.visited }
  | .elsewhere => .ok st

/-- The traversal, tools/restyler/amstyler.cpp:611-617. -/
def visitAll (s : Src) : State → List Node → Exec State
  | st, [] => .ok st
  | st, n :: r => do
    let st ← visit s st n
    visitAll s st r

/-- All the edits the tool asks for, tools/restyler/amstyler.cpp:709-713. -/
def requests (s : Src) (nodes : List Node) : Exec (List Op) := do
  let st ← visitAll s { ops := [], visited := [] } nodes
  .ok st.ops

/-- What the tool writes out for a file: the visits, then `emit` (tools/restyler/amstyler.cpp:709-720). -/
def Restyles (debug : Bool) (s : Src) (nodes : List Node) (r : Exec Text) : Prop :=
  match requests s nodes with
  | .error e => r = .error e
  | .ok ops => Emits debug s.text ops r

end Verif.Restyler
