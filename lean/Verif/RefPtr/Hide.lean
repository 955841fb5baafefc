import Verif.RefPtr.Copy
import Verif.RefPtr.Lemmas
/-!
# Hidden handles

A state with surplus counts looks like a state in which some more variables hold the objects: `hide` forgets the
variables `inr a`. Every operation of the program commutes with `hide`.
-/
namespace Verif.RefPtr
open Verif

set_option linter.unusedSectionVars false
set_option linter.unusedSimpArgs false

variable {H : Type} [DecidableEq H] {arity : Obj → Nat}

abbrev GH (H : Type) := H ⊕ Nat

def up : Slot H → Slot (GH H)
  | .root h => .root (.inl h)
  | .field o i => .field o i

def vis : Slot (GH H) → Option (Slot H)
  | .root (.inl h) => some (.root h)
  | .root (.inr _) => none
  | .field o i => some (.field o i)

theorem vis_up (e : Slot H) : vis (up e) = some e := by cases e <;> rfl

theorem vis_some {x : Slot (GH H)} {e : Slot H} : vis x = some e ↔ x = up e := by
  constructor
  · intro h
    cases x with
    | root a => cases a with
      | inl a => simp only [vis] at h; cases h; rfl
      | inr a => simp [vis] at h
    | field o i => simp only [vis] at h; cases h; rfl
  · rintro rfl; exact vis_up e

theorem up_inj {d e : Slot H} : up d = up e ↔ d = e := by
  constructor
  · intro h; have := congrArg vis h; rw [vis_up, vis_up] at this; injection this
  · rintro rfl; rfl

def hide (g : State (GH H)) : State H :=
  { live := g.live, cnt := g.cnt, hs := g.hs.filterMap vis, val := fun e => g.val (up e), fresh := g.fresh, freed := g.freed }

theorem mem_hide {g : State (GH H)} {e : Slot H} : e ∈ (hide g).hs ↔ up e ∈ g.hs := by
  simp only [hide, List.mem_filterMap, vis_some]
  constructor
  · rintro ⟨x, h, rfl⟩; exact h
  · intro h; exact ⟨_, h, rfl⟩

def map (r : Exec (State (GH H))) : Exec (State H) := match r with
  | .ok g => .ok (hide g)
  | .error f => .error f

theorem addRef_hide (g : State (GH H)) (o : Obj) : addRef (hide g) o = map (addRef g o) := by
  unfold addRef
  by_cases h : o ∈ g.live
  · rw [if_neg (by simpa [hide] using h), if_neg (by simpa using h)]; rfl
  · rw [if_pos (by simpa [hide] using h), if_pos (by simpa using h)]; rfl

theorem addRefOpt_hide (g : State (GH H)) (v : Option Obj) : addRefOpt (hide g) v = map (addRefOpt g v) := by
  cases v with
  | none => rfl
  | some o => exact addRef_hide g o

theorem read_hide (g : State (GH H)) (d : Slot H) : read (hide g) d = read g (up d) := by
  unfold read
  by_cases h : up d ∈ g.hs
  · rw [if_neg (by simpa [mem_hide] using h), if_neg (by simpa using h)]; rfl
  · rw [if_pos (by simpa [mem_hide] using h), if_pos (by simpa using h)]

theorem write_hide (g : State (GH H)) (d : Slot H) (v : Option Obj) : write (hide g) d v = map (write g (up d) v) := by
  unfold write
  by_cases h : up d ∈ g.hs
  · rw [if_neg (by simpa [mem_hide] using h), if_neg (by simpa using h)]
    simp only [map, hide, up_inj]
  · rw [if_pos (by simpa [mem_hide] using h), if_pos (by simpa using h)]; rfl

theorem construct_hide (g : State (GH H)) (d : Slot H) (v : Option Obj) : construct (hide g) d v = map (construct g (up d) v) := by
  unfold construct
  by_cases h : up d ∈ g.hs
  · rw [if_pos (by simpa [mem_hide] using h), if_pos h]; rfl
  · rw [if_neg (by simpa [mem_hide] using h), if_neg h]
    simp only [map, hide, up_inj, List.filterMap_cons, vis_up]

theorem filterMap_ne (d : Slot H) : ∀ l : List (Slot (GH H)),
    (l.filter (fun e => decide (e ≠ up d))).filterMap vis = (l.filterMap vis).filter (fun e => decide (e ≠ d)) := by
  intro l
  induction l with
  | nil => rfl
  | cons x l ih =>
    by_cases hx : x = up d
    · subst hx
      rw [List.filter_cons_of_neg (by simp), List.filterMap_cons, vis_up]
      rw [List.filter_cons_of_neg (by simp), ih]
    · rw [List.filter_cons_of_pos (by simpa using hx), List.filterMap_cons, List.filterMap_cons]
      cases hv : vis x with
      | none => exact ih
      | some e =>
        have : e ≠ d := by
          rintro rfl; exact hx (vis_some.1 hv)
        simp only []
        rw [List.filter_cons_of_pos (by simpa using this), ih]

theorem destroySlot_hide (rel : State H → Obj → Exec (State H)) (rel' : State (GH H) → Obj → Exec (State (GH H)))
    (hr : ∀ g o, rel (hide g) o = map (rel' g o)) (g : State (GH H)) (d : Slot H) :
    destroySlot rel (hide g) d = map (destroySlot rel' g (up d)) := by
  unfold destroySlot
  rw [read_hide]
  cases h1 : read g (up d) with
  | error f => rfl
  | ok v =>
    cases v with
    | none =>
      simp only [bind, Except.bind, map]
      rw [hide, hide]
      simp only [filterMap_ne]
    | some o =>
      simp only [bind, Except.bind, hr]
      cases h2 : rel' g o with
      | error f => rfl
      | ok g' =>
        simp only [map]
        rw [hide, hide]
        simp only [filterMap_ne]

theorem members_hide (rel : State H → Obj → Exec (State H)) (rel' : State (GH H) → Obj → Exec (State (GH H)))
    (hr : ∀ g o, rel (hide g) o = map (rel' g o)) (o : Obj) : ∀ (n : Nat) (g : State (GH H)),
    members rel o n (hide g) = map (members rel' o n g) := by
  intro n
  induction n with
  | zero => intro g; rfl
  | succ n ih =>
    intro g
    unfold members
    rw [destroySlot_hide rel rel' hr g (.field o n)]
    show (do let s ← map (destroySlot rel' g (.field o n)); members rel o n s) = _
    cases h : destroySlot rel' g (.field o n) with
    | error f => rfl
    | ok g' => exact ih g'

theorem release_hide : ∀ (fuel : Nat) (g : State (GH H)) (o : Obj),
    release arity fuel (hide g) o = map (release arity fuel g o) := by
  intro fuel
  induction fuel with
  | zero => intro g o; rfl
  | succ fuel ih =>
    intro g o
    unfold release
    by_cases h1 : o ∈ g.live
    · have h1' : ¬ o ∉ (hide g).live := fun h => h h1
      have h1'' : ¬ o ∉ g.live := fun h => h h1
      rw [if_neg h1', if_neg h1'']
      by_cases h2 : g.cnt o = 0
      · have h2' : (hide g).cnt o = 0 := h2
        rw [if_pos h2', if_pos h2]; rfl
      · have h2' : ¬ (hide g).cnt o = 0 := h2
        rw [if_neg h2', if_neg h2]
        by_cases h3 : g.cnt o - 1 = 0
        · have h3' : (hide g).cnt o - 1 = 0 := h3
          simp only [if_true]
          rw [if_pos h3', if_pos h3]
          exact members_hide _ _ (ih) o (arity o) { g with cnt := fun p => if p = o then g.cnt o - 1 else g.cnt p, live := g.live.filter (fun p => decide (p ≠ o)), freed := o :: g.freed }
        · have h3' : ¬ (hide g).cnt o - 1 = 0 := h3
          simp only [if_true]
          rw [if_neg h3', if_neg h3]; rfl
    · have h1' : o ∉ (hide g).live := h1
      rw [if_pos h1', if_pos h1]; rfl

theorem releaseOpt_hide (g : State (GH H)) (v : Option Obj) : releaseOpt arity (hide g) v = map (releaseOpt arity g v) := by
  cases v with
  | none => rfl
  | some o => exact release_hide _ g o

theorem filterMap_fields (o : Obj) : ∀ l : List Nat, (l.map (Slot.field (H := GH H) o)).filterMap vis = l.map (Slot.field o) := by
  intro l
  induction l with
  | nil => rfl
  | cons a l ih => rw [List.map_cons, List.filterMap_cons, ih]; rfl

theorem mem_fields (o : Obj) (l : List Nat) (e : Slot H) : up e ∈ l.map (Slot.field o) ↔ e ∈ l.map (Slot.field o) := by
  cases e <;> simp [up]

theorem newObj_hide (g : State (GH H)) : newObj arity (hide g) = (hide (newObj arity g).1, (newObj arity g).2) := by
  unfold newObj
  simp only [hide, List.filterMap_append, filterMap_fields]
  congr 2
  funext e
  by_cases h : e ∈ (List.range (arity g.fresh)).map (Slot.field g.fresh)
  · exact (if_pos h).trans (if_pos ((mem_fields _ _ e).2 h)).symm
  · exact (if_neg h).trans (if_neg (fun h' => h ((mem_fields _ _ e).1 h'))).symm

def upOp : Op H → Op (GH H)
  | .ctorNull h => .ctorNull (.inl h)
  | .ctorNew h => .ctorNew (.inl h)
  | .ctorGet h e => .ctorGet (.inl h) (up e)
  | .ctorCopy h e => .ctorCopy (.inl h) (up e)
  | .ctorMove h e => .ctorMove (.inl h) (up e)
  | .assignNull d => .assignNull (up d)
  | .assignNew d => .assignNew (up d)
  | .assignGet d e => .assignGet (up d) (up e)
  | .assignCopy d e => .assignCopy (up d) (up e)
  | .assignMove d e => .assignMove (up d) (up e)
  | .destroy h => .destroy (.inl h)

theorem ctorRaw_hide (g : State (GH H)) (d : Slot H) (v : Option Obj) : ctorRaw (hide g) d v = map (ctorRaw g (up d) v) := by
  unfold ctorRaw
  rw [construct_hide]
  cases h : construct g (up d) v with
  | error f => rfl
  | ok g' => exact addRefOpt_hide g' v

theorem assignRaw_hide (g : State (GH H)) (d : Slot H) (v : Option Obj) : assignRaw arity (hide g) d v = map (assignRaw arity g (up d) v) := by
  unfold assignRaw
  rw [read_hide]
  cases h : read g (up d) with
  | error f => rfl
  | ok old =>
    simp only [bind, Except.bind, releaseOpt_hide]
    cases h2 : releaseOpt arity g old with
    | error f => rfl
    | ok g2 =>
      simp only [map, write_hide]
      cases h3 : write g2 (up d) v with
      | error f => rfl
      | ok g3 => simp only [map, addRefOpt_hide]

theorem exec_hide (g : State (GH H)) (op : Op H) : exec arity (hide g) op = map (exec arity g (upOp op)) := by
  cases op with
  | ctorNull h => exact construct_hide g (.root h) none
  | ctorNew h =>
    simp only [exec, upOp, newObj_hide]
    exact ctorRaw_hide _ (.root h) _
  | ctorGet h e =>
    simp only [exec, upOp, read_hide]
    cases hr : read g (up e) with
    | error f => rfl
    | ok v => exact ctorRaw_hide _ (.root h) _
  | ctorCopy h e =>
    simp only [exec, upOp, ctorCopy, read_hide]
    cases hr : read g (up e) with
    | error f => rfl
    | ok v => exact ctorRaw_hide _ (.root h) _
  | ctorMove h e =>
    simp only [exec, upOp, ctorMove, read_hide]
    cases hr : read g (up e) with
    | error f => rfl
    | ok v =>
      simp only [bind, Except.bind, construct_hide]
      have e0 : up (Slot.root h) = .root (.inl h) := rfl
      rw [e0]
      cases hc : construct g (.root (.inl h)) v with
      | error f => rfl
      | ok g1 => simp only [map, write_hide]
  | assignNull d => exact assignRaw_hide g d none
  | assignNew d =>
    simp only [exec, upOp, newObj_hide]
    exact assignRaw_hide _ d _
  | assignGet d e =>
    simp only [exec, upOp, read_hide]
    cases hr : read g (up e) with
    | error f => rfl
    | ok v => exact assignRaw_hide _ d _
  | assignCopy d e =>
    simp only [exec, upOp, assignCopy, read_hide]
    cases hr : read g (up d) with
    | error f => rfl
    | ok old =>
      simp only [bind, Except.bind, releaseOpt_hide]
      cases h2 : releaseOpt arity g old with
      | error f => rfl
      | ok g2 =>
        simp only [map, read_hide]
        cases h4 : read g2 (up e) with
        | error f => rfl
        | ok v =>
          simp only [write_hide]
          cases h3 : write g2 (up d) v with
          | error f => rfl
          | ok g3 => simp only [map, addRefOpt_hide]
  | assignMove d e =>
    simp only [exec, upOp, assignMove, read_hide]
    cases hr : read g (up d) with
    | error f => rfl
    | ok old =>
      simp only [bind, Except.bind, releaseOpt_hide]
      cases h2 : releaseOpt arity g old with
      | error f => rfl
      | ok g2 =>
        simp only [map, read_hide]
        cases h4 : read g2 (up e) with
        | error f => rfl
        | ok v =>
          simp only [write_hide]
          cases h3 : write g2 (up d) v with
          | error f => rfl
          | ok g3 => simp only [map, write_hide]
  | destroy h => exact destroySlot_hide _ _ (fun g o => release_hide _ g o) g (.root h)

/-! ### Legality carries over -/

theorem reach_hide {g : State (GH H)} {d : Slot H} {o : Obj} (h : Reach (hide g) [d] o) : Reach g [up d] o := by
  induction h with
  | @root h o h1 h2 h3 =>
    have h1' : Slot.root (.inl h) ∈ g.hs := mem_hide.1 h1
    have h3' : g.val (Slot.root (.inl h)) = some o := h3
    refine Reach.root h1' ?_ h3'
    intro hm
    simp only [List.mem_singleton] at hm h2
    exact h2 (up_inj (d := .root h).1 hm)
  | @step p i o _ h1 h2 h3 ih =>
    have h1' : Slot.field p i ∈ g.hs := mem_hide.1 h1
    have h3' : g.val (Slot.field p i) = some o := h3
    refine Reach.step ih h1' ?_ h3'
    intro hm
    simp only [List.mem_singleton] at hm h2
    exact h2 (up_inj (d := .field p i).1 hm)

theorem shared_hide {g : State (GH H)} {d : Slot H} (h : Shared (hide g) d) : Shared g (up d) := by
  rcases h with h | ⟨e, h1, h2, h3⟩
  · exact .inl h
  · exact .inr ⟨up e, mem_hide.1 h1, fun h => h2 (up_inj.1 h), h3⟩

theorem stays_hide {g : State (GH H)} {d e : Slot H} (h : Stays (hide g) d e) : Stays g (up d) (up e) := by
  cases e with
  | root _ => trivial
  | field o i => exact reach_hide h

theorem legal_hide {g : State (GH H)} (op : Op H) (h : Legal (hide g) op) : Legal g (upOp op) := by
  have hroot : ∀ {k : H}, .root k ∉ (hide g).hs → .root (.inl k) ∉ g.hs := fun h hm => h (mem_hide.2 hm)
  cases op with
  | ctorNull k => exact hroot h
  | ctorNew k => exact hroot h
  | ctorGet k e => exact ⟨hroot h.1, mem_hide.1 h.2⟩
  | ctorCopy k e => exact ⟨hroot h.1, mem_hide.1 h.2⟩
  | ctorMove k e => exact ⟨hroot h.1, mem_hide.1 h.2⟩
  | assignNull d => exact ⟨mem_hide.1 h.1, h.2.imp shared_hide stays_hide⟩
  | assignNew d => exact ⟨mem_hide.1 h.1, h.2.imp shared_hide stays_hide⟩
  | assignGet d e =>
    exact ⟨mem_hide.1 h.1, mem_hide.1 h.2.1, h.2.2.imp shared_hide (fun h => ⟨stays_hide h.1, fun o ho => reach_hide (h.2 o ho)⟩)⟩
  | assignCopy d e =>
    exact ⟨mem_hide.1 h.1, mem_hide.1 h.2.1, h.2.2.imp shared_hide (fun h => ⟨fun he => h.1 (up_inj.1 he), stays_hide h.2.1, stays_hide h.2.2⟩)⟩
  | assignMove d e => exact ⟨mem_hide.1 h.1, mem_hide.1 h.2.1, h.2.2.imp shared_hide (fun h => ⟨stays_hide h.1, stays_hide h.2⟩)⟩
  | destroy k => exact mem_hide.1 h

end Verif.RefPtr
