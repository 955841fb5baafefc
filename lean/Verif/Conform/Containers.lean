import Verif.HashTable.Model
import Verif.Hash.Model
import Verif.IList.Model
import Verif.Str.Model
import Verif.ArgParser.Model
/-!
# Conformance of the models with the unit tests of the repository, 2

Tests of the models, not proofs of properties: see Small.lean.
-/
namespace Verif.Conform
open Verif

/-! ## tests/test-hashmap.cpp -/

section hashmap
open Verif.HashTable

/-- `std::string` keys of the test, by their bytes; `const char*` lookups likewise. -/
abbrev Key := List UInt8

/-- `StringPolicy` of the test, with `FastHashCharSequence`. -/
def stringPolicy : Policy Key (Key × Int) where
  hash k := Hash.fastHashCharSequence (k.map fun b => BitVec.ofNat 8 b.toNat)
  isMatch k p := p.1 == k

/-- `sizeof(Entry)` for `HashMap<std::string, int, …>` on x86-64: 8 + 40. -/
def mapConfig : Config := { entrySize := 48, aborts := true }

/-- Part of the replay of tests/test-hashmap.cpp. -/
def cat : Key := ArgParser.lit "cat"
/-- Part of the replay of tests/test-hashmap.cpp. -/
def dog : Key := ArgParser.lit "dog"

/-- The body of HashMap.Basic; each list entry is one of the things the test checks. -/
def mapBasic : Exec (List Bool) := do
  let (ok, t) ← init mapConfig (Table.new : Table (Key × Int)) 16 true
  let r ← find stringPolicy t cat
  let rf ← t.found r
  let i ← findForAdd stringPolicy t cat
  let jf ← t.found i.entry
  let (added, t, _) ← add mapConfig t i (cat, 5) true
  -- the earlier `r` now sees the element
  let v ← deref t r
  let it ← iter t
  let first ← deref t it.i
  let it ← it.next t
  let i2 ← findForAdd stringPolicy t cat
  let i2f ← t.found i2.entry
  let rd ← find stringPolicy t dog
  let rdf ← t.found rd
  let rc ← find stringPolicy t cat
  let rcf ← t.found rc
  let v2 ← deref t rc
  let t ← remove t rc
  let rc2 ← find stringPolicy t cat
  let rc2f ← t.found rc2
  .ok [ok, !rf, !jf, added, v.2 == 5, first == (cat, 5), it.empty, i2f, !rdf, rcf, v2.2 == 5, !rc2f]

example : mapBasic = .ok (List.replicate 12 true) := by decide +kernel

/-- The loop of HashMap.Bug6527: the elements the iterator shows. -/
def shown (t : Table (Key × Int)) (it : Iter) : Nat → Exec (List (Key × Int))
  | 0 => .error .diverge
  | n + 1 => if it.empty then .ok [] else do
    let p ← deref t it.i
    let it ← it.next t
    let r ← shown t it n
    .ok (p :: r)

/-- The body of HashMap.Bug6527: what is checked, and the elements shown at the end. -/
def mapBug6527 : Exec (List Bool × List (Key × Int)) := do
  let bb := ArgParser.lit "bb"
  let dddd := ArgParser.lit "dddd"
  let (ok, t) ← init mapConfig (Table.new : Table (Key × Int)) 16 true
  let p ← findForAdd stringPolicy t bb
  let pf ← t.found p.entry
  let (a, t, p) ← add mapConfig t p (bb, 0) true
  let t ← assign t p.entry (bb, 0xabab)
  let q ← findForAdd stringPolicy t dddd
  let qf ← t.found q.entry
  let (b, t, q) ← add mapConfig t q (dddd, 0) true
  let t ← assign t q.entry (dddd, 0xacac)
  let t ← removeIfExists stringPolicy t bb
  let p ← findForAdd stringPolicy t dddd
  let pf2 ← t.found p.entry
  let (_, t, p) ← if pf2 then .ok (true, t, p) else add mapConfig t p (dddd, 0) true
  let t ← assign t p.entry (dddd, 0xadad)
  let xs ← shown t (← iter t) 17
  .ok ([ok, !pf, a, !qf, b], xs)

-- "Should only occur once."
example : mapBug6527 = .ok (List.replicate 5 true, [(ArgParser.lit "dddd", 0xadad)]) := by decide +kernel

end hashmap

/-! ## tests/test-inlinelist.cpp -/

section inlinelist
open Verif.IList

/-- Part of the replay of tests/test-inlinelist.cpp. -/
abbrev LState := IList.State Nat Nat

/-- `list.append` of each. -/
def appendAll (l : Nat) (s : LState) : List Nat → Exec LState
  | [] => .ok s
  | n :: ns => do appendAll l (← append true s l n) ns

/-- The loop of the test from `it` on, by `iter++`: the values seen before `end()`. -/
def values (l : Nat) (s : LState) (it : Option (Addr Nat Nat)) : Nat → Exec (List Nat)
  | 0 => .error .diverge
  | k + 1 => if it = some (.head l) then .ok [] else match it with
    | some (.node n) => do
      let it ← nextIt false s it
      let r ← values l s it k
      .ok (n :: r)
    | _ => .error .nullDeref

/-- `while (iter != list.end()) iter = list.erase(iter);`. -/
def eraseAll (l : Nat) (s : LState) (it : Option (Addr Nat Nat)) : Nat → Exec LState
  | 0 => .error .diverge
  | k + 1 => if it = some (.head l) then .ok s else do
    let (s, it) ← erase true false s l it
    eraseAll l s it k

/-- One round of the loop of InlineList.Basic on list `l`. -/
def listRound (l : Nat) (s : LState) : Exec (LState × List Bool) := do
  let c0 := beginIt false s l == some (.head l)
  let s ← appendAll l s [1, 2, 3, 4, 5]
  let v1 ← values l s (beginIt false s l) 10
  let s ← remove true s l (.node 1)
  let v2 ← values l s (beginIt false s l) 10
  let s ← remove true s l (.node 5)
  let v3 ← values l s (beginIt false s l) 10
  let s ← remove true s l (.node 3)
  let v4 ← values l s (beginIt false s l) 10
  let s ← eraseAll l s (beginIt false s l) 10
  .ok (s, [c0, v1 == [1, 2, 3, 4, 5], v2 == [2, 3, 4, 5], v3 == [2, 3, 4], v4 == [2, 4], beginIt false s l == some (.head l)])

-- "Do these test twice."
example : (do
    let (s, c) ← listRound 0 (IList.State.new : LState)
    let (_, d) ← listRound 1 s
    .ok (c ++ d)) = (.ok (List.replicate 12 true) : Exec (List Bool)) := by decide +kernel

end inlinelist

/-! ## tests/test-string.cpp and System.Paths of tests/test-system.cpp -/

section string
open Verif.Str

/-- A literal's bytes. -/
abbrev L (x : String) : List Byte := ArgParser.lit x
/-- A literal in memory: its bytes and the terminator. -/
abbrev Z (x : String) : List Byte := ArgParser.lit x ++ [0]
/-- What `strcmp` sees of a buffer. -/
abbrev seen (m : List Byte) : List Byte := m.takeWhile (· ≠ 0)

-- Sprintf
example : (safeVsprintf (.text (L "1234")) (List.replicate 256 7) 256).map (fun r => (seen r.1, r.2)) = .ok (L "1234", 4) := by decide +kernel
-- Allocating
/-- Part of the replay of tests/test-string.cpp. -/
def long : List Byte := L "A: 2147483647 B: Hello this is a test."
example : (sprintf (.text long) (.text long)).map (fun r => r.map seen) = .ok (some long) := by decide +kernel
example : stringPrintf (.text long) (.text long) = .ok long := by decide +kernel
-- Split
example : split true (L "     ") (L " ") = .ok (List.replicate 6 []) := by decide +kernel
example : split true (L "egg") (L " ") = .ok [L "egg"] := by decide +kernel
example : split true (L "") (L "egg") = .ok [] := by decide +kernel
example : split true (L "xaba") (L "a") = .ok [L "x", L "b", L ""] := by decide +kernel
example : split true (L "egg ham") (L " ") = .ok [L "egg", L "ham"] := by decide +kernel
-- Join
example : join [] (L "x") = .ok [] := by decide +kernel
example : join [L "abc"] (L "x") = .ok (L "abc") := by decide +kernel
example : join [L "abc", L "xyz"] (L "T") = .ok (L "abcTxyz") := by decide +kernel
example : join [L "abc", L "xyz", L "def"] (L "") = .ok (L "abcxyzdef") := by decide +kernel
example : join [L "a", L "b", L "", L "d"] (L ",") = .ok (L "a,b,,d") := by decide +kernel
example : join [L "a", L "b", L "c", L ""] (L ",") = .ok (L "a,b,c,") := by decide +kernel
-- Case
example : uppercase (L "samPle1.com") = .ok (L "SAMPLE1.COM") := by decide +kernel
example : lowercase (L "samPle1.com") = .ok (L "sample1.com") := by decide +kernel
example : lowercase (L "") = .ok (L "") := by decide +kernel
-- StrCpy
example : (safeStrcpy (some (List.replicate 6 7)) 6 (Z "hello")).map (fun r => r.1.map seen) = .ok (some (L "hello")) := by decide +kernel
example : (safeStrcpy (some (Z "hello")) 6 (Z "hello, crab")).map (fun r => r.1.map seen) = .ok (some (L "hello")) := by decide +kernel
example : (safeStrcpyN (some (Z "hello")) 6 (Z "asdfasdf") 8).map (fun r => r.1.map seen) = .ok (some (L "asdfa")) := by decide +kernel
example : (safeStrcpyN (some (Z "asdfa")) 6 (Z "qwertyuiop") 3).map (fun r => r.1.map seen) = .ok (some (L "qwe")) := by decide +kernel
-- StartsWith
example : startsWith (Z "blah") (Z "b") = .ok true ∧ startsWith (Z "blah") (Z "blah") = .ok true := by decide +kernel
example : startsWith (Z "blah") (Z "a") = .ok false ∧ startsWith (Z "blah") (Z "blah2") = .ok false := by decide +kernel
-- EndsWith
example : endsWith (L "blah") (L "h") = true ∧ endsWith (L "blah") (L "blah") = true := by decide +kernel
example : endsWith (L "blah") (L "a") = false ∧ endsWith (L "blah") (L "blah2") = false := by decide +kernel
-- SafeStrcat: the buffer is "h\0llo\0"
/-- Part of the replay of tests/test-string.cpp. -/
def hllo : List Byte := [104, 0, 108, 108, 111, 0]
example : (safeStrcat hllo 0 (Z "blah")) = .ok (hllo, 1) := by decide +kernel
example : (safeStrcat hllo 1 (Z "blah")) = .ok (hllo, 1) := by decide +kernel
example : (safeStrcat hllo 2 (Z "blah")) = .ok (hllo, 1) := by decide +kernel
example : (safeStrcat hllo 6 (Z "b")).map (fun r => (seen r.1, r.2)) = .ok (L "hb", 2) := by decide +kernel
example : (safeStrcat [104, 98, 0, 108, 111, 0] 6 (Z "hamocrab")).map (fun r => (seen r.1, r.2)) = .ok (L "hbham", 5) := by decide +kernel
-- System.Paths
example : (pathFormat false (.text (L "\\egg.txt")) (List.replicate 255 7) 255).map (fun r => seen r.1) = .ok (L "/egg.txt") := by decide +kernel
example : (pathFormat true (.text (L "C:/egg.txt")) (List.replicate 255 7) 255).map (fun r => seen r.1) = .ok (L "C:\\egg.txt") := by decide +kernel

end string

end Verif.Conform
