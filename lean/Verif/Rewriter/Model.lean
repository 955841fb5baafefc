import Verif.Common
/-!
# Model of `TextRewriter`, tools/restyler/amstyler.cpp:48-177

`SourceLocation`s are modelled by the offsets `offset()` computes from them (152-157); `size_t` arithmetic wraps at `2^64`.
-/
namespace Verif.Rewriter
open Verif

/-- `std::string` contents, tools/restyler/amstyler.cpp:48-177. -/
abbrev Text := List UInt8

/-- `OpKind`, tools/restyler/amstyler.cpp:160-165. -/
inductive OpKind where
  | replace
  | remove
  | insertAt
  | insertAfter
deriving DecidableEq, Repr

/-- `Operation`, tools/restyler/amstyler.cpp:167-172. -/
structure Op where
  kind : OpKind
  offset : Nat
  length : Nat := 0
  text : Text := []
deriving DecidableEq, Repr

/-- `end_pos - start_pos` of two `size_t`, tools/restyler/amstyler.cpp:65, 76. -/
def sizeDiff (b e : Nat) : Nat := (e + 2 ^ 64 - b) % 2 ^ 64

/-- `replace`, tools/restyler/amstyler.cpp:59-68: the operation it appends to `ops_`. -/
def replace (b e : Nat) (text : Text) : Op := { kind := .replace, offset := b, length := sizeDiff b e, text := text }

/-- `remove`, tools/restyler/amstyler.cpp:70-78. -/
def remove (b e : Nat) : Op := { kind := .remove, offset := b, length := sizeDiff b e }

/-- `insertAt`, tools/restyler/amstyler.cpp:80-87. -/
def insertAt (at_ : Nat) (text : Text) : Op := { kind := .insertAt, offset := at_, text := text }

/-- `insertAfter`, tools/restyler/amstyler.cpp:89-96. -/
def insertAfter (at_ : Nat) (text : Text) : Op := { kind := .insertAfter, offset := at_, text := text }

/-- `std::string::npos`, tools/restyler/amstyler.cpp:105. -/
def npos : Nat := 2 ^ 64 - 1

/-- The loop of `emit` and what follows it, tools/restyler/amstyler.cpp:106-144, from the character at `i` on: `rest` is the text from there, `ops` what
is left in `ops_`, `ign` is `ignore_until`. The result is what is still written to `output`. `debug`: asserts are compiled in. The debugging output at
113-114 is left out. -/
def emitLoop (debug : Bool) : Text → Nat → List Op → Nat → Exec Text
  | [], _, ops, _ => if debug && !ops.isEmpty then .error .assertFail else .ok []
  | c :: rest, i, ops, ign =>
    if ign ≠ npos ∧ i < ign then emitLoop debug rest (i + 1) ops ign
    else match ops with
      | [] => do
        let out ← emitLoop debug rest (i + 1) [] npos
        .ok (c :: out)
      | op :: more =>
        if debug ∧ op.offset < i then .error .assertFail
        else if op.offset ≠ i then do
          let out ← emitLoop debug rest (i + 1) (op :: more) npos
          .ok (c :: out)
        else match op.kind with
          | .replace => do
            let out ← emitLoop debug rest (i + 1) more ((i + op.length) % 2 ^ 64)
            .ok (op.text ++ out)
          | .remove => emitLoop debug rest (i + 1) more ((i + op.length) % 2 ^ 64)
          | .insertAt => do
            let out ← emitLoop debug rest (i + 1) more npos
            .ok (op.text ++ c :: out)
          | .insertAfter => do
            let out ← emitLoop debug rest (i + 1) more npos
            .ok (c :: op.text ++ out)

/-- `emit`, tools/restyler/amstyler.cpp:98-145: it returns `out` for the operations `ops` if `std::sort` (which orders operations at the same offset as it
likes) leaves them in some order `sorted` that the loop then follows. -/
def Emits (debug : Bool) (text : Text) (ops : List Op) (r : Exec Text) : Prop :=
  ∃ sorted : List Op, sorted.Perm ops ∧ sorted.Pairwise (fun a b => a.offset ≤ b.offset) ∧ r = emitLoop debug text 0 sorted npos

end Verif.Rewriter
