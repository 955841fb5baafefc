import Verif.Function.SpecThrows
import Verif.Function.Lemmas
/-!
# Lemmas about `ke::Function` and exceptions
-/
namespace Verif.Function
open Verif

set_option linter.unusedSimpArgs false
set_option linter.unusedSectionVars false

variable {V C : Type} [DecidableEq V]

/-- Wrapped `Function`s are always on the heap. -/
def Fn.HW : Fn C → Prop
  | .empty | .call _ _ _ => True
  | .wrap inl _ f => inl = false ∧ f.HW

def Fn.topDead (m : Mem) : Fn C → Prop
  | .empty => False
  | .call _ id _ | .wrap _ id _ => id ∈ m.dead

def ValT.inl : ValT C → Bool
  | .fn _ i | .broken i => i
  | _ => false

/-- Broken `Function`s own nothing, like empty ones. -/
def ValT.base : ValT C → Val C
  | .empty | .broken _ => .empty
  | .fn c _ => .fn c
  | .hollow => .hollow

def EnvT.base (e : EnvT V C) : Env V C := fun v => (e v).map ValT.base

def EnvT.br (e : EnvT V C) (v : V) : Bool := (e v).any ValT.isBroken

def State.blankX (s : State V C) (e : EnvT V C) : State V C := { s with vars := fun v => if e.br v then some .empty else s.vars v }

structure InvX (s : State V C) (e : EnvT V C) : Prop where
  base : Inv (s.blankX e) e.base
  shape : ∀ v f x, s.vars v = some f → e v = some x → f.HW ∧ f.inline = x.inl
  brk : ∀ v, e.br v = true → ∃ f, s.vars v = some f ∧ f.topDead s.mem

def Op.uses : Op V C → List V
  | .ctorNull v | .ctorCallable v _ | .dtor v | .assignNull v | .assignCallable v _ => [v]
  | .ctorCopyConst v w | .ctorCopy v w | .ctorMove v w | .assignCopyConst v w | .assignCopy v w | .assignMove v w => [v, w]

theorem step_frame {size : C → Nat} {s t s' : State V C} {o : Op V C} (hm : s.mem = t.mem) (hv : ∀ u ∈ o.uses, s.vars u = t.vars u)
    (h : step size s o = .ok s') :
    step size t o = .ok ⟨fun u => if u ∈ o.uses then s'.vars u else t.vars u, s'.mem⟩ ∧ ∀ u, u ∉ o.uses → s'.vars u = s.vars u := by
  have hget : ∀ u ∈ o.uses, t.get u = s.get u := fun u hu => by simp only [State.get, hv u hu]
  have one : ∀ (v : V) (m : Mem) (x : Option (Fn C)) (l : List V), (∀ u ∈ l, s.vars u = t.vars u) → v ∈ l →
      (({ t with mem := m } : State V C).set v x) = ⟨fun u => if u ∈ l then (({ s with mem := m } : State V C).set v x).vars u else t.vars u, m⟩ ∧
      ∀ u, u ∉ l → (({ s with mem := m } : State V C).set v x).vars u = s.vars u := by
    intro v m x l hl hv
    refine ⟨?_, fun u hu => ?_⟩
    · simp only [State.set, State.mk.injEq, and_true]
      funext u
      by_cases h1 : u = v
      · subst h1; simp [hv]
      · by_cases h2 : u ∈ l
        · simp [h1, h2, hl u h2]
        · simp [h1, h2]
    · have : u ≠ v := by rintro rfl; exact hu hv
      simp [State.set, this]
  have two : ∀ (v w : V) (m : Mem) (x y : Option (Fn C)) (l : List V), (∀ u ∈ l, s.vars u = t.vars u) → v ∈ l → w ∈ l →
      ((({ t with mem := m } : State V C).set v x).set w y) =
        ⟨fun u => if u ∈ l then ((({ s with mem := m } : State V C).set v x).set w y).vars u else t.vars u, m⟩ ∧
      ∀ u, u ∉ l → ((({ s with mem := m } : State V C).set v x).set w y).vars u = s.vars u := by
    intro v w m x y l hl hv hw
    refine ⟨?_, fun u hu => ?_⟩
    · simp only [State.set, State.mk.injEq, and_true]
      funext u
      by_cases h0 : u = w
      · subst h0; simp [hw]
      by_cases h1 : u = v
      · subst h1; simp [hv, h0]
      · by_cases h2 : u ∈ l
        · simp [h0, h1, h2, hl u h2]
        · simp [h0, h1, h2]
    · have h1 : u ≠ v := by rintro rfl; exact hu hv
      have h2 : u ≠ w := by rintro rfl; exact hu hw
      simp [State.set, h1, h2]
  cases o with
  | ctorNull v =>
    simp only [step, Except.ok.injEq] at h ⊢
    subst h
    have := one v s.mem (some .empty) _ hv (by simp [Op.uses])
    refine ⟨?_, this.2⟩
    have h1 := this.1
    rwa [show ({ t with mem := s.mem } : State V C) = t by rw [hm]] at h1
  | ctorCallable v c =>
    simp only [step, Except.ok.injEq] at h ⊢
    subst h
    rw [← hm]
    exact one v _ _ _ hv (by simp [Op.uses])
  | ctorCopyConst v w =>
    simp only [step, bind, Except.bind, hget w (by simp [Op.uses]), ← hm] at h ⊢
    split at h
    · cases h
    rename_i f hf
    split at h
    · cases h
    rename_i r hr
    cases h
    exact ⟨congrArg _ (one v _ _ _ hv (by simp [Op.uses])).1, (one v r.2 (some r.1) _ hv (by simp [Op.uses])).2⟩
  | ctorCopy v w =>
    simp only [step, bind, Except.bind, hget w (by simp [Op.uses]), ← hm] at h ⊢
    split at h
    · cases h
    rename_i f hf
    split at h
    · cases h
    rename_i r hr
    cases h
    exact ⟨congrArg _ (one v _ _ _ hv (by simp [Op.uses])).1, (one v r.2 (some r.1) _ hv (by simp [Op.uses])).2⟩
  | ctorMove v w =>
    simp only [step, bind, Except.bind, hget w (by simp [Op.uses]), ← hm] at h ⊢
    split at h
    · cases h
    rename_i f hf
    split at h
    · cases h
    rename_i r hr
    cases h
    exact ⟨congrArg _ (two v w _ _ _ _ hv (by simp [Op.uses]) (by simp [Op.uses])).1,
      (two v w r.2.2 (some r.1) (some r.2.1) _ hv (by simp [Op.uses]) (by simp [Op.uses])).2⟩
  | dtor v =>
    simp only [step, bind, Except.bind, hget v (by simp [Op.uses]), ← hm] at h ⊢
    split at h
    · cases h
    rename_i f hf
    split at h
    · cases h
    rename_i r hr
    cases h
    exact ⟨congrArg _ (one v _ _ _ hv (by simp [Op.uses])).1, (one v r none _ hv (by simp [Op.uses])).2⟩
  | assignNull v =>
    simp only [step, bind, Except.bind, hget v (by simp [Op.uses]), ← hm] at h ⊢
    split at h
    · cases h
    rename_i f hf
    split at h
    · cases h
    rename_i r hr
    cases h
    exact ⟨congrArg _ (one v _ _ _ hv (by simp [Op.uses])).1, (one v r (some .empty) _ hv (by simp [Op.uses])).2⟩
  | assignCallable v c =>
    simp only [step, bind, Except.bind, hget v (by simp [Op.uses]), ← hm] at h ⊢
    split at h
    · cases h
    rename_i f hf
    split at h
    · cases h
    rename_i r hr
    cases h
    exact ⟨congrArg _ (one v _ _ _ hv (by simp [Op.uses])).1, (one v _ _ _ hv (by simp [Op.uses])).2⟩
  | assignCopyConst v w =>
    simp only [step, bind, Except.bind, hget v (by simp [Op.uses]), hget w (by simp [Op.uses]), ← hm] at h ⊢
    split at h
    · cases h
    rename_i f hf
    split at h
    · cases h
    rename_i r hr
    split at h
    · cases h
    rename_i f' hf'
    split at h
    · cases h
    rename_i r' hr'
    cases h
    exact ⟨congrArg _ (one v _ _ _ hv (by simp [Op.uses])).1, (one v _ _ _ hv (by simp [Op.uses])).2⟩
  | assignCopy v w =>
    simp only [step, bind, Except.bind, hget v (by simp [Op.uses]), hget w (by simp [Op.uses]), ← hm] at h ⊢
    split at h
    · cases h
    rename_i f hf
    split at h
    · cases h
    rename_i r hr
    split at h
    · cases h
    rename_i f' hf'
    split at h
    · cases h
    rename_i r' hr'
    cases h
    exact ⟨congrArg _ (one v _ _ _ hv (by simp [Op.uses])).1, (one v _ _ _ hv (by simp [Op.uses])).2⟩
  | assignMove v w =>
    simp only [step, bind, Except.bind, hget v (by simp [Op.uses]), hget w (by simp [Op.uses]), ← hm] at h ⊢
    split at h
    · cases h
    rename_i f hf
    split at h
    · cases h
    rename_i r hr
    split at h
    · cases h
    rename_i f' hf'
    split at h
    · cases h
    rename_i r' hr'
    cases h
    exact ⟨congrArg _ (two v w _ _ _ _ hv (by simp [Op.uses]) (by simp [Op.uses])).1,
      (two v w r'.2.2 (some r'.1) (some r'.2.1) _ hv (by simp [Op.uses]) (by simp [Op.uses])).2⟩

theorem assignConst_shape {f f' : Fn C} {m m' : Mem} (h : assignConst f m = .ok (f', m')) (hw : f.HW) : f'.HW ∧ f'.inline = f.inline := by
  induction f generalizing f' m m' with
  | empty => simp only [assignConst] at h; cases h; exact ⟨trivial, rfl⟩
  | call i d c =>
    simp only [assignConst] at h
    split at h <;> cases h
    exact ⟨trivial, rfl⟩
  | wrap i d f ih =>
    simp only [assignConst, bind, Except.bind] at h
    split at h
    · cases h
    split at h
    · cases h
    rename_i r hr
    cases h
    exact ⟨⟨hw.1, (ih hr hw.2).1⟩, rfl⟩

theorem moveFn_shape {f f' g : Fn C} {m m' : Mem} (h : moveFn f m = .ok (f', g, m')) (hw : f.HW) : f'.HW ∧ f'.inline = f.inline ∧ g = .empty := by
  cases f with
  | empty => simp only [moveFn] at h; cases h; exact ⟨trivial, rfl, rfl⟩
  | call i d c =>
    cases i with
    | false => simp only [moveFn] at h; cases h; exact ⟨trivial, rfl, rfl⟩
    | true =>
      simp only [moveFn, bind, Except.bind] at h
      split at h
      · cases h
      split at h <;> cases h
      exact ⟨trivial, rfl, rfl⟩
  | wrap i d f =>
    obtain ⟨rfl, hw⟩ := hw
    simp only [moveFn] at h
    cases h
    exact ⟨⟨rfl, hw⟩, rfl, rfl⟩

theorem wrapper_heap : decide (wrapperSize ≤ bufferSize) = false := by decide

/-- The specification of a call that throws nothing. -/
def specN (size : C → Nat) (e : EnvT V C) : Op V C → EnvT V C
  | .ctorNull v | .assignNull v => e.set v (some .empty)
  | .ctorCallable v c | .assignCallable v c => e.set v (some (.fn c (fits size c)))
  | .ctorCopyConst v w | .assignCopyConst v w => e.set v (e w)
  | .ctorCopy v w | .assignCopy v w => e.set v ((e w).map .copied)
  | .ctorMove v w | .assignMove v w => (e.set v (e w)).set w (some .empty)
  | .dtor v => e.set v none

theorem base_set (e : EnvT V C) (v : V) (x : Option (ValT C)) : (e.set v x).base = e.base.set v (x.map ValT.base) := by
  funext u
  simp only [EnvT.base, EnvT.set, Env.set]
  split <;> rfl

theorem base_specN (size : C → Nat) (e : EnvT V C) (o : Op V C) : (specN size e o).base = specStep e.base o := by
  have hc : ∀ x : Option (ValT C), (x.map ValT.copied).map ValT.base = (x.map ValT.base).map Val.copied := by
    intro x
    cases x with
    | none => rfl
    | some x => cases x <;> rfl
  cases o <;> simp only [specN, specStep, base_set] <;> first | rfl | (rw [hc]; rfl)

theorem step_shape {size : C → Nat} {s s' : State V C} {e : EnvT V C} {o : Op V C} (h : step size s o = .ok s')
    (hs : ∀ v f x, s.vars v = some f → e v = some x → f.HW ∧ f.inline = x.inl) :
    ∀ v f x, s'.vars v = some f → specN size e o v = some x → f.HW ∧ f.inline = x.inl := by
  have key : ∀ (t : State V C) (e : EnvT V C), (∀ v f x, t.vars v = some f → e v = some x → f.HW ∧ f.inline = x.inl) → ∀ (m : Mem) (v : V) (y : Option (Fn C)) (z : Option (ValT C)),
      (∀ f x, y = some f → z = some x → f.HW ∧ f.inline = x.inl) →
      ∀ u f x, (({ t with mem := m } : State V C).set v y).vars u = some f → (e.set v z) u = some x → f.HW ∧ f.inline = x.inl := by
    intro t e ht m v y z hyz u f x h1 h2
    simp only [State.set, EnvT.set] at h1 h2
    split at h1
    · rename_i hu; rw [if_pos hu] at h2; exact hyz f x h1 h2
    · rename_i hu; rw [if_neg hu] at h2; exact ht u f x h1 h2
  have hget : ∀ {u f}, s.get u = .ok f → s.vars u = some f := by
    intro u f hg
    simp only [State.get] at hg
    split at hg
    · rename_i hx; cases hg; exact hx
    · cases hg
  have hcall : ∀ c m f x, some (assignCallable size c m).1 = some f → some (ValT.fn c (fits size c)) = some x → f.HW ∧ f.inline = x.inl := by
    intro c m f x h1 h2
    cases h1; cases h2
    exact ⟨trivial, rfl⟩
  have hcopy : ∀ (w : V) (f f' : Fn C) (m m' : Mem), s.get w = .ok f → assignConst f m = .ok (f', m') →
      ∀ g x, some f' = some g → e w = some x → g.HW ∧ g.inline = x.inl := by
    intro w f f' m m' h1 h2 g x h3 h4
    cases h3
    obtain ⟨h5, h6⟩ := hs w f x (hget h1) h4
    obtain ⟨h7, h8⟩ := assignConst_shape h2 h5
    exact ⟨h7, h8.trans h6⟩
  have hcopyN : ∀ (w : V) (f f' : Fn C) (m m' : Mem), s.get w = .ok f → assignNonConst f m = .ok (f', m') →
      ∀ g x, some f' = some g → (e w).map ValT.copied = some x → g.HW ∧ g.inline = x.inl := by
    intro w f f' m m' h1 h2 g x h3 h4
    cases h3
    cases hx : e w with
    | none => rw [hx] at h4; cases h4
    | some y =>
      rw [hx] at h4
      cases h4
      obtain ⟨h5, h6⟩ := hs w f y (hget h1) hx
      simp only [assignNonConst, bind, Except.bind] at h2
      split at h2
      · cases h2
      rename_i r hr
      cases h2
      obtain ⟨h7, h8⟩ := assignConst_shape hr h5
      refine ⟨⟨wrapper_heap, h7⟩, ?_⟩
      simp only [Fn.inline, wrapper_heap]
      cases y <;> rfl
  have hmove : ∀ (v w : V) (f f' g : Fn C) (m m' : Mem), s.get w = .ok f → moveFn f m = .ok (f', g, m') → ∀ u h x,
      ((({ s with mem := m' } : State V C).set v (some f')).set w (some g)).vars u = some h → ((e.set v (e w)).set w (some .empty)) u = some x →
      h.HW ∧ h.inline = x.inl := by
    intro v w f f' g m m' h1 h2
    refine key (({ s with mem := m' } : State V C).set v (some f')) (e.set v (e w)) (key s e hs m' v (some f') (e w) ?_) m' w (some g) (some .empty) ?_
    · intro k x h3 h4
      cases h3
      obtain ⟨h5, h6⟩ := hs w f x (hget h1) h4
      obtain ⟨h7, h8, -⟩ := moveFn_shape h2 h5
      exact ⟨h7, h8.trans h6⟩
    · intro k x h3 h4
      cases h3; cases h4
      cases hw : e w with
      | none =>
        -- the source's shape is only known through the specification
        have : g = .empty := by
          clear key hcall hcopy hcopyN
          have hf := hget h1
          have : ∀ (f f' g : Fn C) (m m' : Mem), moveFn f m = .ok (f', g, m') → g = .empty := by
            intro f
            induction f with
            | empty => intro f' g m m' h; simp only [moveFn] at h; cases h; rfl
            | call i d c =>
              intro f' g m m' h
              cases i with
              | false => simp only [moveFn] at h; cases h; rfl
              | true =>
                simp only [moveFn, bind, Except.bind] at h
                split at h
                · cases h
                split at h <;> cases h
                rfl
            | wrap i d f ih =>
              intro f' g m m' h
              cases i with
              | false => simp only [moveFn] at h; cases h; rfl
              | true =>
                simp only [moveFn, bind, Except.bind] at h
                split at h
                · cases h
                split at h
                · cases h
                split at h <;> cases h
                rfl
          exact this _ _ _ _ _ h2
        subst this
        exact ⟨trivial, rfl⟩
      | some y =>
        obtain ⟨h5, h6⟩ := hs w f y (hget h1) hw
        obtain ⟨-, -, rfl⟩ := moveFn_shape h2 h5
        exact ⟨trivial, rfl⟩
  have hempty : ∀ (f : Fn C) (x : ValT C), some Fn.empty = some f → some ValT.empty = some x → f.HW ∧ f.inline = x.inl := by
    intro f x h1 h2
    cases h1; cases h2
    exact ⟨trivial, rfl⟩
  cases o with
  | ctorNull v =>
    cases h
    exact key s e hs s.mem v _ _ hempty
  | ctorCallable v c =>
    cases h
    exact key s e hs _ v _ _ (hcall c s.mem)
  | ctorCopyConst v w =>
    simp only [step, bind, Except.bind] at h
    split at h
    · cases h
    rename_i f hf
    split at h
    · cases h
    rename_i r hr
    cases h
    exact key s e hs _ v _ _ (hcopy w f _ _ _ hf hr)
  | ctorCopy v w =>
    simp only [step, bind, Except.bind] at h
    split at h
    · cases h
    rename_i f hf
    split at h
    · cases h
    rename_i r hr
    cases h
    exact key s e hs _ v _ _ (hcopyN w f _ _ _ hf hr)
  | ctorMove v w =>
    simp only [step, bind, Except.bind] at h
    split at h
    · cases h
    rename_i f hf
    split at h
    · cases h
    rename_i r hr
    cases h
    exact hmove v w f _ _ _ _ hf hr
  | dtor v =>
    simp only [step, bind, Except.bind] at h
    split at h
    · cases h
    split at h
    · cases h
    cases h
    exact key s e hs _ v _ _ (fun _ _ h => nomatch h)
  | assignNull v =>
    simp only [step, bind, Except.bind] at h
    split at h
    · cases h
    split at h
    · cases h
    cases h
    exact key s e hs _ v _ _ hempty
  | assignCallable v c =>
    simp only [step, bind, Except.bind] at h
    split at h
    · cases h
    split at h
    · cases h
    rename_i r hr
    cases h
    exact key s e hs _ v _ _ (hcall c _)
  | assignCopyConst v w =>
    simp only [step, bind, Except.bind] at h
    split at h
    · cases h
    split at h
    · cases h
    split at h
    · cases h
    rename_i f hf
    split at h
    · cases h
    rename_i r hr
    cases h
    exact key s e hs _ v _ _ (hcopy w f _ _ _ hf hr)
  | assignCopy v w =>
    simp only [step, bind, Except.bind] at h
    split at h
    · cases h
    split at h
    · cases h
    split at h
    · cases h
    rename_i f hf
    split at h
    · cases h
    rename_i r hr
    cases h
    exact key s e hs _ v _ _ (hcopyN w f _ _ _ hf hr)
  | assignMove v w =>
    simp only [step, bind, Except.bind] at h
    split at h
    · cases h
    split at h
    · cases h
    split at h
    · cases h
    rename_i f hf
    split at h
    · cases h
    rename_i r hr
    cases h
    exact hmove v w f _ _ _ _ hf hr

end Verif.Function
