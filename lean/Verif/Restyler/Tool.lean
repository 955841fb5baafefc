import Verif.Rewriter.Model
/-!
# Model of the restyler's main program, tools/restyler/amstyler.cpp:623-781

Parsing, visiting and `TextRewriter::emit` of one file are a parameter (`style`), whose model is Verif.Restyler.Model. A file system is a function from
paths to contents; the model shows every state of it that another process, or somebody after a crash, could see.
-/
namespace Verif.Restyler.Tool
open Verif Verif.Rewriter

/-- `isspace` on ASCII, tools/restyler/amstyler.cpp:763, 767. -/
def isSpace (c : UInt8) : Bool := c == 32 || (9 ≤ c.toNat && c.toNat ≤ 13)

/-- `isspace(char)`: not defined for a negative `char`. tools/restyler/amstyler.cpp:763, 767. -/
def isspace (c : UInt8) : Exec Bool := if 128 ≤ c.toNat then .error .badBuiltin else .ok (isSpace c)

/-- The pieces that successive calls of `fgets(buffer, 1024, fp)` return, tools/restyler/amstyler.cpp:749: each ends with a newline or has 1023 characters, or
is the last. `room`: how many more fit; `acc`: the piece so far, backwards. -/
def pieces : Text → Nat → Text → List Text
  | [], _, acc => if acc = [] then [] else [acc.reverse]
  | c :: r, room, acc => if c = 10 ∨ room ≤ 1 then (c :: acc).reverse :: pieces r 1023 [] else pieces r (room - 1) (c :: acc)

/-- `std::string line = buffer;`, tools/restyler/amstyler.cpp:750: up to the first NUL. -/
def cString (t : Text) : Text := t.takeWhile (· != 0)

/-- `start_string`, tools/restyler/amstyler.cpp:743. -/
def startString : Text := "#include <...> search starts here:".toUTF8.toList

/-- `end_string`, tools/restyler/amstyler.cpp:744. -/
def endString : Text := "End of search list.".toUTF8.toList

/-- `line.compare(0, s.size(), s) == 0`, tools/restyler/amstyler.cpp:751, 755. -/
def startsWith (line s : Text) : Bool := line.take s.length == s

/-- `while (cursor < line.size() && isspace(line[cursor])) cursor++; line = line.substr(cursor);`, tools/restyler/amstyler.cpp:762-765. -/
def trimFront : Text → Exec Text
  | [] => .ok []
  | c :: r => do
    if ← isspace c then trimFront r else .ok (c :: r)

/-- `while (!line.empty() && isspace(line.back())) line.pop_back();`, tools/restyler/amstyler.cpp:767-768, on the line backwards. -/
def trimBack (t : Text) : Exec Text := do
  let r ← trimFront t.reverse
  .ok r.reverse

/-- The loop of `GetSearchPaths`, tools/restyler/amstyler.cpp:749-772, over the pieces. -/
def pathsLoop : List Text → Bool → Exec (List Text)
  | [], _ => .ok []
  | p :: r, parsing =>
    let line := cString p
    if startsWith line startString then pathsLoop r true
    else if startsWith line endString && parsing then .ok []
    else if !parsing then pathsLoop r parsing
    else do
      let line ← trimFront line
      let line ← trimBack line
      if line = [] then pathsLoop r parsing
      else do
        let more ← pathsLoop r parsing
        .ok (line :: more)

/-- `GetSearchPaths`, tools/restyler/amstyler.cpp:737-774: what the compiler prints is input; `none`: `popen` returned null (741), which is not checked. -/
def getSearchPaths (output : Option Text) : Exec (List Text) :=
  match output with
  | none => .error .nullDeref
  | some out => pathsLoop (pieces out 1023 []) false

/-- `ToolMain::ToolMain`, tools/restyler/amstyler.cpp:638-643. -/
def searchPaths (output : Option Text) (includeDirs : List Text) : Exec (List Text) := do
  let paths ← getSearchPaths output
  .ok (paths ++ includeDirs)

/-- Files and standard output, tools/restyler/amstyler.cpp:697, 724, 730-732. -/
structure World where
  files : Nat → Option Text
  out : Text

/-- A file gets a new content, tools/restyler/amstyler.cpp:724, 730. -/
def World.set (w : World) (path : Nat) (t : Text) : World := { w with files := fun p => if p = path then some t else w.files p }

/-- What surrounds a run: `-p` (721); what parsing, visiting and `emit` do with a file's text (705-720; `none`: there were errors, 717); whether the file can
be opened for writing (725), and how many bytes the device takes. tools/restyler/amstyler.cpp:705-732. -/
structure Env where
  inPlace : Bool
  style : Text → Option (Exec Text)
  writable : Nat → Bool
  room : Nat → Nat

/-- The states of the world while `t` is written to the freshly truncated file, tools/restyler/amstyler.cpp:724-731: the text may arrive byte by byte (a
buffer only makes for fewer states), and what the device does not take is lost. -/
def writing (w : World) (path : Nat) (t : Text) (room : Nat) : List World := (List.range (min room t.length + 1)).map (fun k => w.set path (t.take k))

/-- `RunForPath`, tools/restyler/amstyler.cpp:654-735: the states the world passes through (the first is the one it began with), and what is returned. The
result of `output_file << new_text` is not looked at (730). -/
def runForPath (env : Env) (path : Nat) (w : World) : List World × Exec Bool :=
  match w.files path with
  | none => ([w], .ok false)
  | some text =>
    match env.style text with
    | none => ([w], .ok false)
    | some (.error e) => ([w], .error e)
    | some (.ok new) =>
      if env.inPlace then
        if env.writable path then (w :: writing w path new (env.room path), .ok true)
        else ([w], .ok false)
      else ([w, { w with out := w.out ++ new }], .ok true)

/-- The last state. (Bookkeeping for tools/restyler/amstyler.cpp:649-650.) -/
def lastOf (w : World) (trace : List World) : World := trace.getLast?.getD w

/-- `Run`, tools/restyler/amstyler.cpp:645-652: `ok &= ...` evaluates every call; a fault ends the program. -/
def runAll (env : Env) : List Nat → Bool → World → List World × Exec Bool
  | [], ok, w => ([w], .ok ok)
  | p :: r, ok, w =>
    let (trace, res) := runForPath env p w
    match res with
    | .error e => (trace, .error e)
    | .ok b =>
      let (more, res) := runAll env r (ok && b) (lastOf w trace)
      (trace ++ more, res)

/-- `main`, tools/restyler/amstyler.cpp:776-781: the exit code. -/
def exitCode (env : Env) (paths : List Nat) (w : World) : Exec Nat := do
  let ok ← (runAll env paths true w).2
  .ok (if ok then 0 else 1)

end Verif.Restyler.Tool
