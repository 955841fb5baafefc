import Verif.RefPtr.Newborn
import Verif.RefPtr.PropsManual
/-!
# Newborn objects: what one statement does to an object that nobody owns
-/
namespace Verif.RefPtr
open Verif

variable {H : Type} [DecidableEq H] {arity : Obj → Nat}

theorem nb_construct_live {s s' : State H} {d : Slot H} {v : Option Obj} (h : construct s d v = .ok s') : s'.live = s.live := by
  unfold construct at h; split at h <;> cases h; rfl

theorem nb_write_live {s s' : State H} {d : Slot H} {v : Option Obj} (h : write s d v = .ok s') : s'.live = s.live := by
  unfold write at h; split at h <;> cases h; rfl

theorem nb_addRef_live {s s' : State H} {p : Obj} (h : addRef s p = .ok s') : s'.live = s.live := by
  unfold addRef at h; split at h <;> cases h; rfl

theorem nb_addRefOpt_live {s s' : State H} {v : Option Obj} (h : addRefOpt s v = .ok s') : s'.live = s.live := by
  cases v with
  | none => cases h; rfl
  | some p => exact nb_addRef_live h

theorem nb_ctorRaw_live {s s' : State H} {d : Slot H} {v : Option Obj} (h : ctorRaw s d v = .ok s') : s'.live = s.live := by
  obtain ⟨s1, h1, h2⟩ := bind_ok h
  rw [nb_addRefOpt_live h2, nb_construct_live h1]

/-- `o` does not come back to life, and an unowned `o` stays alive. -/
def Spares (o : Obj) (s s' : State H) : Prop := (o ∈ s'.live → o ∈ s.live) ∧ (o ∈ s.live → s.cnt o = 0 → o ∈ s'.live)

theorem Spares.of_live {o : Obj} {s s' : State H} (h : s'.live = s.live) : Spares o s s' := by
  unfold Spares; rw [h]; exact ⟨id, fun h _ => h⟩

theorem Spares.then_live {o : Obj} {s t s' : State H} (h : Spares o s t) (h' : s'.live = t.live) : Spares o s s' := by
  unfold Spares; rw [h']; exact h

theorem Rel.spares {p : Option Obj} {s s' : State H} (h : Rel p s s') (o : Obj) : Spares o s s' := ⟨h.live o, h.keep o⟩

theorem Spares.newObj {s : State H} {o : Obj} {t : State H} (ho : o < s.fresh) (h : Spares o (newObj arity s).1 t) : Spares o s t := by
  have hne : o ≠ s.fresh := Nat.ne_of_lt ho
  have h1 : o ∈ (RefPtr.newObj arity s).1.live ↔ o ∈ s.live := by simp [RefPtr.newObj, hne]
  have h2 : (RefPtr.newObj arity s).1.cnt o = s.cnt o := by simp [RefPtr.newObj, hne]
  exact ⟨fun h' => h1.1 (h.1 h'), fun h' h0 => h.2 (h1.2 h') (h2.trans h0)⟩

theorem assignRaw_spares {x : Obj → Prop} {s s' : State H} {d : Slot H} {v : Option Obj} (hw : Wf x s) (h : assignRaw arity s d v = .ok s') (o : Obj) :
    Spares o s s' := by
  obtain ⟨old, h1, h⟩ := bind_ok h
  obtain ⟨s1, h2, h⟩ := bind_ok h
  obtain ⟨s2, h3, h⟩ := bind_ok h
  exact ((releaseOpt_rel hw h2).2.spares o).then_live (by rw [nb_addRefOpt_live h, nb_write_live h3])

theorem mexec_spares {x : Obj → Prop} {s s' : State H} (hw : Wf x s) (op : MOp H) (h : mexec arity s op = .ok s') (o : Obj) (ho : o < s.fresh) :
    Spares o s s' := by
  cases op with
  | plain op =>
    cases op with
    | ctorNull k => exact .of_live (nb_construct_live h)
    | ctorNew k =>
      refine Spares.newObj (arity := arity) ho (.of_live ?_)
      obtain ⟨s1, h1, h2⟩ := bind_ok h
      rw [nb_addRefOpt_live h2, nb_construct_live h1]; rfl
    | ctorGet k e => obtain ⟨v, h1, h⟩ := bind_ok h; exact .of_live (nb_ctorRaw_live h)
    | ctorCopy k e => obtain ⟨v, h1, h⟩ := bind_ok h; exact .of_live (nb_ctorRaw_live h)
    | ctorMove k e =>
      obtain ⟨v, h1, h⟩ := bind_ok h
      obtain ⟨s1, h2, h⟩ := bind_ok h
      exact .of_live (by rw [nb_write_live h, nb_construct_live h2])
    | assignNull d => exact assignRaw_spares hw h o
    | assignNew d =>
      obtain ⟨n1, -⟩ := newObj_wf (arity := arity) hw
      refine Spares.newObj (arity := arity) ho ?_
      obtain ⟨old, h1, h⟩ := bind_ok h
      obtain ⟨s1, h2, h⟩ := bind_ok h
      obtain ⟨s2, h3, h⟩ := bind_ok h
      exact ((releaseOpt_rel n1 h2).2.spares o).then_live (by rw [nb_addRef_live h, nb_write_live h3])
    | assignGet d e => obtain ⟨v, h1, h⟩ := bind_ok h; exact assignRaw_spares hw h o
    | assignCopy d e =>
      obtain ⟨old, h1, h⟩ := bind_ok h
      obtain ⟨s1, h2, h⟩ := bind_ok h
      obtain ⟨v, h4, h⟩ := bind_ok h
      obtain ⟨s2, h3, h⟩ := bind_ok h
      exact ((releaseOpt_rel hw h2).2.spares o).then_live (by rw [nb_addRefOpt_live h, nb_write_live h3])
    | assignMove d e =>
      obtain ⟨old, h1, h⟩ := bind_ok h
      obtain ⟨s1, h2, h⟩ := bind_ok h
      obtain ⟨v, h4, h⟩ := bind_ok h
      obtain ⟨s2, h3, h⟩ := bind_ok h
      exact ((releaseOpt_rel hw h2).2.spares o).then_live (by rw [nb_write_live h, nb_write_live h3])
    | destroy k =>
      obtain ⟨hd, t, ht, rfl⟩ := destroySlot_ok h
      have ht' : releaseOpt arity s (s.val (.root k)) = .ok t := by
        cases hv : s.val (.root k) with
        | none => rw [hv] at ht; exact ht
        | some p => rw [hv] at ht; exact ht
      exact ((releaseOpt_rel hw ht').2.spares o).then_live rfl
  | newRef => exact Spares.newObj (arity := arity) ho (.of_live (nb_addRef_live h))
  | addRef p => exact .of_live (nb_addRef_live h)
  | release p => exact (release_rel _ x s s' p hw h).2.spares o
  | ctorPtr k p => exact .of_live (nb_ctorRaw_live h)
  | assignPtr d p => exact assignRaw_spares hw h o
  | adopt k p => exact .of_live (nb_construct_live h)
  | assignAdopt d p =>
    obtain ⟨old, h1, h⟩ := bind_ok h
    obtain ⟨s1, h2, h⟩ := bind_ok h
    exact ((releaseOpt_rel hw h2).2.spares o).then_live (nb_write_live h)
  | take e =>
    obtain ⟨old, h1, h⟩ := bind_ok h
    exact .of_live (nb_write_live h)

end Verif.RefPtr
