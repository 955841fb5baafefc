import Verif.IList.Spec
/-!
# Model: copies of nodes and lists

`InlineListNode` and `InlineList` (am-inlinelist.h:44-75, 86-235) do not declare copy operations, so the compiler provides
them: they copy the pointers and the length.
-/
namespace Verif.IList
open Verif

variable {L N : Type} [DecidableEq L] [DecidableEq N]

/-- `T m(*n);` or `*m = *n;` for objects derived from `InlineListNode`: `next_` and `prev_` (am-inlinelist.h:73-74) are copied. -/
def copyNode (s : State L N) (m n : N) : State L N :=
  { s with mem := fun a => if a = .node m then s.mem (.node n) else s.mem a }

/-- `InlineList<T> k(l);` or `k = l;`: `head_` and `length_` (am-inlinelist.h:90-91) are copied. -/
def copyList (s : State L N) (k l : L) : State L N :=
  { mem := fun a => if a = .head k then s.mem (.head l) else s.mem a, len := fun j => if j = k then s.len l else s.len j }

end Verif.IList
