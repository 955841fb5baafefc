import Verif.PQueue.Cmp
import Verif.PQueue.Spec
/-!
# Specification of C117 and C118
-/
namespace Verif.PQueue
open Verif

variable {T S : Type}

/-! ## C118: the calls of the comparator are counted -/

/-- The comparator `cmp`, with a counter of its calls. -/
def counted (cmp : Cmp T S) : Cmp T (S × Nat) := fun a b s =>
  match cmp a b s.1 with
  | .ok (r, s') => .ok (r, (s', s.2 + 1))
  | .error f => .error f

/-- Every call returns; nothing is asked of the answers, which may depend on the state. -/
def Returns (cmp : Cmp T S) : Prop := ∀ a b s, ∃ r s', cmp a b s = .ok (r, s')

/-- One call on a queue whose comparator has a state. -/
def execC (cmp : Cmp T S) (v : Vec T) (s : S) : Op T → Exec (Vec T × S × Out T)
  | .add x => do
    let (v, s) ← addC cmp v x s
    .ok (v, s, .done)
  | .pop => do
    let (x, v, s) ← popC cmp v s
    .ok (v, s, .item x)
  | .peek => do
    let x ← peek v
    .ok (v, s, .item x)
  | .empty => .ok (v, s, .flag (empty v))

/-- The client code. -/
def runC (cmp : Cmp T S) (v : Vec T) (s : S) : List (Op T) → Exec (Vec T × S × List (Out T))
  | [] => .ok (v, s, [])
  | op :: ops => do
    let (v, s, o) ← execC cmp v s op
    let (v, s, os) ← runC cmp v s ops
    .ok (v, s, o :: os)

/-- The sum of the bounds of the single calls, from a queue of `k` items. -/
def budget : Nat → List (Op T) → Nat
  | _, [] => 0
  | k, .add _ :: ops => (k + 1).log2 + budget (k + 1) ops
  | k, .pop :: ops => 2 * (k - 1).log2 + budget (k - 1) ops
  | k, .peek :: ops => budget k ops
  | k, .empty :: ops => budget k ops

/-! ## C117: queues and moves -/

/-- What the client promises about the comparator type. `ord s = some hp`: a comparator in state `s` compares by the strict weak order `hp`, and goes on doing so. The
object made by the move constructor compares as the source did; nothing is promised about what is left of the source. -/
structure IsComparator (call : Cmp T S) (mv : S → S × S) (ord : S → Option (T → T → Bool)) : Prop where
  calls : ∀ s hp a b, ord s = some hp → ∃ s', call a b s = .ok (hp a b, s') ∧ ord s' = some hp
  moves : ∀ s, ord (mv s).1 = ord s
  strict : ∀ s hp, ord s = some hp → StrictWeak hp

variable {V : Type} [DecidableEq V]

/-- Bookkeeping: one name gets a new value. -/
def wset {A : Type} (w : V → Option A) (v : V) (a : Option A) : V → Option A := fun u => if u = v then a else w u

/-- What a client may call, given for each queue its number of items and whether its comparator may be called. `keep`: a moved-from comparator may still be called. A
queue whose comparator may not be called takes one item, but not a second. -/
def Legal (ord : S → Option (T → T → Bool)) (keep : Bool) : (V → Option (Nat × Bool)) → List (QOp V T S) → Prop
  | _, [] => True
  | w, .ctor v c :: os => w v = none ∧ ord c ≠ none ∧ Legal ord keep (wset w v (some (0, true))) os
  | w, .ctorMove v u :: os => w v = none ∧ ∃ k g, w u = some (k, g) ∧ Legal ord keep (wset (wset w v (some (k, g))) u (some (0, keep && g))) os
  | w, .dtor v :: os => w v ≠ none ∧ Legal ord keep (wset w v none) os
  | w, .add v _ :: os => ∃ k g, w v = some (k, g) ∧ (g = true ∨ k = 0) ∧ Legal ord keep (wset w v (some (k + 1, g))) os
  | w, .pop v :: os => ∃ k g, w v = some (k + 1, g) ∧ Legal ord keep (wset w v (some (k, g))) os
  | w, .peek v :: os => (∃ k g, w v = some (k + 1, g)) ∧ Legal ord keep w os
  | w, .empty v :: os => w v ≠ none ∧ Legal ord keep w os

/-- The abstract queues: a multiset of items each, and the order given when the queue was made (`none` after a move away that spoils it). -/
abbrev Bags (V T : Type) := V → Option (List T × Option (T → T → Bool))

/-- One call, on multisets. -/
inductive WStep (ord : S → Option (T → T → Bool)) (keep : Bool) : Bags V T → QOp V T S → QOut T → Bags V T → Prop
  | ctor W v c : WStep ord keep W (.ctor v c) .done (wset W v (some ([], ord c)))
  | ctorMove {W v u B o} : W u = some (B, o) →
      WStep ord keep W (.ctorMove v u) .done (wset (wset W v (some (B, o))) u (some ([], if keep then o else none)))
  | dtor W v : WStep ord keep W (.dtor v) .done (wset W v none)
  | add {W v B o} x : W v = some (B, o) → WStep ord keep W (.add v x) .done (wset W v (some (x :: B, o)))
  | pop {W v B B' o x} : W v = some (B, o) → B.Perm (x :: B') → (∀ hp, o = some hp → Best hp B x) →
      WStep ord keep W (.pop v) (.item x) (wset W v (some (B', o)))
  | peek {W v B o x} : W v = some (B, o) → x ∈ B → (∀ hp, o = some hp → Best hp B x) → WStep ord keep W (.peek v) (.item x) W
  | empty {W v B o} : W v = some (B, o) → WStep ord keep W (.empty v) (.flag B.isEmpty) W

/-- A program, on multisets. -/
inductive WSteps (ord : S → Option (T → T → Bool)) (keep : Bool) : Bags V T → List (QOp V T S) → List (QOut T) → Bags V T → Prop
  | nil W : WSteps ord keep W [] [] W
  | cons {W W' W'' op o ops os} : WStep ord keep W op o W' → WSteps ord keep W' ops os W'' → WSteps ord keep W (op :: ops) (o :: os) W''

/-- The claim in full: whatever the comparator type, a moved-from queue is an empty queue with the same order, to be used like any other; every queue's answers are
right. -/
def QueueMoveCorrect : Prop :=
  ∀ (T S : Type) (call : Cmp T S) (mv : S → S × S) (ord : S → Option (T → T → Bool)), IsComparator call mv ord →
    ∀ (ops : List (QOp Nat T S)), Legal ord true (fun _ => none) ops →
      ∃ env outs W, qrun call mv ops (fun _ => none) = .ok (env, outs) ∧ WSteps ord true (fun _ => none) ops outs W

end Verif.PQueue
