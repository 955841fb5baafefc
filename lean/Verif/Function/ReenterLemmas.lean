import Verif.Function.SpecReenter
import Verif.Function.Lemmas
/-!
# Lemmas: callables and destructors that use `Function`s
-/
namespace Verif.Function
open Verif

set_option linter.unusedSimpArgs false
set_option linter.unusedSectionVars false

variable {V C : Type} [DecidableEq V]

/-- No holder of a `Function` is inline. -/
def Fn.flat : Fn C → Prop
  | .empty => True
  | .call _ _ _ => True
  | .wrap inl _ f => inl = false ∧ f.flat

def Fn.held (f : Fn C) : Held C :=
  match f.abs with
  | .empty => .empty
  | .fn c => .fn f.inline c
  | .hollow => .hollow

theorem held_val (f : Fn C) : f.held.val = f.abs := by
  unfold Fn.held; cases f.abs <;> rfl

theorem held_copied (f : Fn C) (id : Nat) : (Fn.wrap false id f).held = f.held.copied := by
  simp only [Fn.held, Fn.abs, Fn.inline]
  cases f.abs <;> rfl

theorem abs_set (f : Fn C) : f.abs = .empty ↔ f = .empty := by
  cases f with
  | empty => simp [Fn.abs]
  | call => simp [Fn.abs]
  | wrap i d f => cases h : f.abs <;> simp [Fn.abs, Val.copied, h]

theorem held_isSet (f : Fn C) : f.held.isSet = f.isSet := by
  cases f with
  | empty => rfl
  | call => rfl
  | wrap i d f => cases h : f.abs <;> simp [Fn.held, Fn.abs, Val.copied, Held.isSet, Fn.isSet, h]

theorem held_inline (f : Fn C) (hf : f.flat) : f.held.inline = f.inline := by
  cases f with
  | empty => rfl
  | call => rfl
  | wrap i d f =>
    obtain rfl := hf.1
    cases h : f.abs <;> simp [Fn.held, Fn.abs, Val.copied, Held.inline, Fn.inline, h]

theorem inner_abs (f : Fn C) : f.inner = none ∨ ∃ id c, f.inner = some (id, c) ∧ f.abs = .fn c ∧ id ∈ f.ids := by
  induction f with
  | empty => exact .inl rfl
  | call i d c => exact .inr ⟨d, c, rfl, rfl, by simp [Fn.ids]⟩
  | wrap i d f ih =>
    rcases ih with h | ⟨id, c, h1, h2, h3⟩
    · exact .inl h
    · exact .inr ⟨id, c, h1, by simp [Fn.abs, h2, Val.copied], by simp [Fn.ids, h3]⟩

theorem inner_none (f : Fn C) (h : f.inner = none) : ∀ c, f.abs ≠ .fn c := by
  induction f with
  | empty => simp [Fn.abs]
  | call => cases h
  | wrap i d f ih =>
    intro c hc
    have := ih h
    cases hf : f.abs with
    | fn c' => exact this c' hf
    | empty => simp [Fn.abs, hf, Val.copied] at hc
    | hollow => simp [Fn.abs, hf, Val.copied] at hc

theorem assignConst_flat (f : Fn C) (m m' : Mem) (f' : Fn C) (hf : f.flat) (h : assignConst f m = .ok (f', m')) : f'.flat := by
  induction f generalizing m m' f' with
  | empty => cases h; trivial
  | call i d c =>
    simp only [assignConst] at h; split at h
    · cases h
    · cases h; trivial
  | wrap i d f ih =>
    simp only [assignConst] at h; split at h
    · cases h
    · cases h1 : assignConst f m with
      | error x => rw [h1] at h; cases h
      | ok r =>
        rw [h1] at h
        cases h
        exact ⟨hf.1, ih _ _ _ hf.2 h1⟩

/-- The variables in `B` are as good as empty. -/
def State.blank (B : List V) (s : State V C) : State V C :=
  { s with vars := fun u => if u ∈ B then (s.vars u).map (fun _ => Fn.empty) else s.vars u }

def Sound (s : State V C) : Prop := Inv s (fun v => (s.vars v).map Fn.abs)

theorem Inv.sound {s : State V C} {e : Env V C} (h : Inv s e) : Sound s := by
  have : e = fun v => (s.vars v).map Fn.abs := funext fun v => (h.abs v).symm
  unfold Sound; rw [← this]; exact h

/-- The machine's client code in progress is the specification's. -/
inductive FR (s : State V C) (B : List V) : List (Frame V C) → List (Pend V C) → Prop
  | nil : FR s B [] []
  | home {id st p v f c} : v ∉ B → s.vars v = some f → f.inner = some (id, c) → FR s B st p →
      FR s B (.calling id :: st) (.running (some v) :: p)
  | lost {id st p} : id ∈ s.mem.dead → FR s B st p → FR s B (.calling id :: st) (.running none :: p)
  | finishing {o st p} : FR s B st p → FR s B (.finishing o :: st) (.waiting o :: p)
  | zapping {w st p} : FR s B st p → FR s B (.zapping w :: st) (.emptying w :: p)

/-- Every operation in progress works on variables no operation below it works on. -/
def WF : List (Pend V C) → Prop
  | [] => True
  | .running _ :: p => WF p
  | .waiting o :: p => o.replaces = true ∧ o.target ∉ busy p ∧ (∀ w, o.source = some w → w ≠ o.target ∧ w ∉ busy p) ∧ WF p
  | .emptying w :: p => w ∉ busy p ∧ WF p

theorem busy_rehome (v : V) (w : Option V) (p : List (Pend V C)) : busy (p.map (Pend.rehome v w)) = busy p := by
  induction p with
  | nil => rfl
  | cons a p ih =>
    simp only [busy, List.map_cons, List.filterMap_cons] at ih ⊢
    have : (Pend.rehome v w a).dying = a.dying := by
      cases a with
      | running u => cases u <;> rfl
      | waiting => rfl
      | emptying => rfl
    rw [this, ih]

theorem wf_rehome (v : V) (w : Option V) (p : List (Pend V C)) (h : WF p) : WF (p.map (Pend.rehome v w)) := by
  induction p with
  | nil => exact h
  | cons a p ih =>
    cases a with
    | running u => cases u <;> exact ih h
    | waiting o =>
      refine ⟨h.1, ?_, ?_, ih h.2.2.2⟩
      · rw [busy_rehome]; exact h.2.1
      · intro w hw; rw [busy_rehome]; exact h.2.2.1 w hw
    | emptying u =>
      refine ⟨?_, ih h.2⟩
      rw [busy_rehome]; exact h.1

/-- Variable `v` changes hands: callables running in `v` are now held by `w`, or destroyed. -/
theorem FR.rehome {s s' : State V C} {B B' : List V} {st : List (Frame V C)} {p : List (Pend V C)} (h : FR s B st p)
    (v : V) (w : Option V)
    (hdead : ∀ id ∈ s.mem.dead, id ∈ s'.mem.dead)
    (hother : ∀ u f, u ≠ v → u ∉ B → s.vars u = some f → u ∉ B' ∧ s'.vars u = some f)
    (hnone : w = none → ∀ f id c, s.vars v = some f → f.inner = some (id, c) → id ∈ s'.mem.dead)
    (hsome : ∀ u, w = some u → v ∉ B → ∀ f id c, s.vars v = some f → f.inner = some (id, c) → u ∉ B' ∧ s'.vars u = some f) :
    FR s' B' st (p.map (Pend.rehome v w)) := by
  induction h with
  | nil => exact .nil
  | @home id st p u f c h1 h2 h3 h4 ih =>
    simp only [List.map_cons, Pend.rehome]
    split
    · rename_i huv; subst huv
      cases w with
      | none => exact .lost (hnone rfl f id c h2 h3) ih
      | some x =>
        obtain ⟨a, b⟩ := hsome x rfl h1 f id c h2 h3
        exact .home a b h3 ih
    · rename_i huv
      obtain ⟨a, b⟩ := hother u f huv h1 h2
      exact .home a b h3 ih
  | lost h1 h2 ih => exact .lost (hdead _ h1) ih
  | finishing h ih => exact .finishing ih
  | zapping h ih => exact .zapping ih

theorem FR.rehome_none {s s' : State V C} {B B' : List V} {st : List (Frame V C)} {p : List (Pend V C)} (h : FR s B st p)
    (hdead : ∀ id ∈ s.mem.dead, id ∈ s'.mem.dead)
    (hother : ∀ u f c, u ∉ B → s.vars u = some f → f.inner = some c → u ∉ B' ∧ s'.vars u = some f) : FR s' B' st p := by
  induction h with
  | nil => exact .nil
  | home h1 h2 h3 h4 ih =>
    obtain ⟨a, b⟩ := hother _ _ _ h1 h2 h3
    exact .home a b h3 ih
  | lost h1 h2 ih => exact .lost (hdead _ h1) ih
  | finishing h ih => exact .finishing ih
  | zapping h ih => exact .zapping ih

theorem FR.mono {s s' : State V C} {B B' : List V} {st : List (Frame V C)} {p : List (Pend V C)} (h : FR s B st p)
    (hdead : ∀ id ∈ s.mem.dead, id ∈ s'.mem.dead)
    (hother : ∀ u f, u ∉ B → s.vars u = some f → u ∉ B' ∧ s'.vars u = some f) : FR s' B' st p :=
  h.rehome_none hdead (fun u f _ h1 h2 _ => hother u f h1 h2)

structure Rel (m : Mach V C) (a : AState V C) : Prop where
  env : ∀ v, (m.s.vars v).map Fn.held = a.env v
  flat : ∀ v f, m.s.vars v = some f → f.flat
  inv : Sound (m.s.blank (busy a.pend))
  wf : WF a.pend
  alive : ∀ v ∈ busy a.pend, m.s.vars v ≠ none
  fr : FR m.s (busy a.pend) m.stack a.pend

theorem blank_mem (B : List V) (s : State V C) : (s.blank B).mem = s.mem := rfl

theorem blank_in {B : List V} {s : State V C} {v : V} {f : Fn C} (h : v ∉ B) (hs : s.vars v = some f) : (s.blank B).vars v = some f := by
  simp [State.blank, h, hs]

theorem blank_own {B : List V} {s : State V C} {v : V} (h : v ∈ B) : (s.blank B).own v = [] := by
  simp only [State.own, State.blank, h, if_true]
  cases s.vars v <;> rfl

theorem blank_set {B : List V} {s : State V C} {v : V} (h : v ∉ B) (m : Mem) (x : Option (Fn C)) :
    ({ (s.blank (v :: B)) with mem := m } : State V C).set v x = (({ s with mem := m } : State V C).set v x).blank B := by
  simp only [State.set, State.blank]
  congr 1
  funext u
  by_cases hu : u = v
  · subst hu; simp [h]
  · simp [hu]

end Verif.Function
