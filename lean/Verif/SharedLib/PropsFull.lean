import Verif.SharedLib.Full
import Verif.SharedLib.Props
import Mathlib.Data.List.Count
import Mathlib.Data.List.Perm.Basic
/-!
# Property C106: a library stays loaded as long as a `SharedLib` object for it exists
-/
namespace Verif.SharedLib
open Verif Verif.RefPtr

set_option linter.unusedSimpArgs false
set_option linter.unusedSectionVars false

variable {H Lib Sym Ptr : Type} [DecidableEq H] [DecidableEq Lib]

/-! ### Objects are only created by the operations that say so -/

section fresh
variable {K : Type} [DecidableEq K] {arity : Obj → Nat}

theorem destroySlot_fresh {rel : RefPtr.State K → Obj → Exec (RefPtr.State K)} (hrel : ∀ s o s', rel s o = .ok s' → s'.fresh = s.fresh)
    {s s' : RefPtr.State K} {d : Slot K} (h : destroySlot rel s d = .ok s') : s'.fresh = s.fresh := by
  unfold destroySlot RefPtr.read at h
  split at h
  · simp [bind, Except.bind] at h
  · simp only [bind, Except.bind] at h
    cases hv : s.val d with
    | none => simp only [hv] at h; cases h; rfl
    | some o =>
      simp only [hv] at h
      cases hr : rel s o with
      | error e => simp [hr] at h
      | ok s1 => simp only [hr] at h; cases h; exact hrel s o s1 hr

theorem members_fresh {rel : RefPtr.State K → Obj → Exec (RefPtr.State K)} (hrel : ∀ s o s', rel s o = .ok s' → s'.fresh = s.fresh)
    (o : Obj) : ∀ (n : Nat) {s s' : RefPtr.State K}, members rel o n s = .ok s' → s'.fresh = s.fresh := by
  intro n
  induction n with
  | zero => intro s s' h; simp only [members] at h; cases h; rfl
  | succ n ih =>
    intro s s' h
    simp only [members, bind, Except.bind] at h
    cases hd : destroySlot rel s (.field o n) with
    | error e => simp [hd] at h
    | ok s1 => simp only [hd] at h; rw [ih h, destroySlot_fresh hrel hd]

theorem release_fresh : ∀ (fuel : Nat) (s : RefPtr.State K) (o : Obj) (s' : RefPtr.State K), release arity fuel s o = .ok s' → s'.fresh = s.fresh := by
  intro fuel
  induction fuel with
  | zero => intro s o s' h; simp [release] at h
  | succ n ih =>
    intro s o s' h
    unfold release at h
    split at h
    · simp at h
    split at h
    · simp at h
    simp only [if_true] at h
    split at h
    · have := members_fresh (rel := release arity n) ih o _ h
      exact this
    · cases h; rfl

theorem releaseOpt_fresh {s s' : RefPtr.State K} {v : Option Obj} (h : releaseOpt arity s v = .ok s') : s'.fresh = s.fresh := by
  cases v with
  | none => cases h; rfl
  | some o => exact release_fresh _ _ _ _ h

theorem addRefOpt_fresh {s s' : RefPtr.State K} {v : Option Obj} (h : addRefOpt s v = .ok s') : s'.fresh = s.fresh := by
  cases v with
  | none => cases h; rfl
  | some o =>
    simp only [addRefOpt, addRef] at h
    split at h
    · cases h
    · cases h; rfl

theorem write_fresh {s s' : RefPtr.State K} {d : Slot K} {v : Option Obj} (h : write s d v = .ok s') : s'.fresh = s.fresh := by
  simp only [write] at h
  split at h
  · cases h
  · cases h; rfl

theorem construct_fresh {s s' : RefPtr.State K} {d : Slot K} {v : Option Obj} (h : construct s d v = .ok s') : s'.fresh = s.fresh := by
  simp only [construct] at h
  split at h
  · cases h
  · cases h; rfl

theorem bind_fresh {s s' : RefPtr.State K} {a : Exec (RefPtr.State K)} {g : RefPtr.State K → Exec (RefPtr.State K)}
    (ha : ∀ t, a = .ok t → t.fresh = s.fresh) (hg : ∀ t t', g t = .ok t' → t'.fresh = t.fresh)
    (h : (a >>= g) = .ok s') : s'.fresh = s.fresh := by
  cases hx : a with
  | error e => rw [hx] at h; cases h
  | ok t => rw [hx] at h; rw [hg t s' h, ha t hx]

theorem read_bind_fresh {s s' t0 : RefPtr.State K} {d : Slot K} {g : Option Obj → Exec (RefPtr.State K)}
    (hg : ∀ v t', g v = .ok t' → t'.fresh = s.fresh) (h : (RefPtr.read t0 d >>= g) = .ok s') : s'.fresh = s.fresh := by
  cases hx : RefPtr.read t0 d with
  | error e => rw [hx] at h; cases h
  | ok t => rw [hx] at h; exact hg t s' h

theorem ctorRaw_fresh {s s' : RefPtr.State K} {d : Slot K} {v : Option Obj} (h : ctorRaw s d v = .ok s') : s'.fresh = s.fresh :=
  bind_fresh (fun _ => construct_fresh) (fun _ _ => addRefOpt_fresh) h

theorem assignRaw_fresh {s s' : RefPtr.State K} {d : Slot K} {v : Option Obj} (h : assignRaw arity s d v = .ok s') : s'.fresh = s.fresh :=
  read_bind_fresh (fun _ _ h => bind_fresh (fun _ => releaseOpt_fresh) (fun _ _ h => bind_fresh (fun _ => write_fresh) (fun _ _ => addRefOpt_fresh) h) h) h

/-- The number of objects an operation creates. -/
def creates : RefPtr.Op K → Nat
  | .ctorNew _ => 1
  | .assignNew _ => 1
  | _ => 0

theorem exec_fresh {s s' : RefPtr.State K} {op : RefPtr.Op K} (h : exec arity s op = .ok s') : s'.fresh = s.fresh + creates op := by
  cases op with
  | ctorNull k => exact construct_fresh h
  | ctorNew k => exact ctorRaw_fresh (s := (newObj arity s).1) h
  | ctorGet k e => exact read_bind_fresh (fun _ _ => ctorRaw_fresh) h
  | ctorCopy k e => exact read_bind_fresh (fun _ _ h => bind_fresh (fun _ => construct_fresh) (fun _ _ => addRefOpt_fresh) h) h
  | ctorMove k e => exact read_bind_fresh (fun _ _ h => bind_fresh (fun _ => construct_fresh) (fun _ _ => write_fresh) h) h
  | assignNull d => exact assignRaw_fresh h
  | assignNew d => exact assignRaw_fresh (s := (newObj arity s).1) h
  | assignGet d e => exact read_bind_fresh (fun _ _ => assignRaw_fresh) h
  | assignCopy d e =>
    exact read_bind_fresh (fun _ _ h => bind_fresh (fun _ => releaseOpt_fresh) (fun t _ h =>
      read_bind_fresh (s := t) (fun _ _ h => bind_fresh (fun _ => write_fresh) (fun _ _ => addRefOpt_fresh) h) h) h) h
  | assignMove d e =>
    exact read_bind_fresh (fun _ _ h => bind_fresh (fun _ => releaseOpt_fresh) (fun t _ h =>
      read_bind_fresh (s := t) (fun _ _ h => bind_fresh (fun _ => write_fresh) (fun _ _ => write_fresh) h) h) h) h
  | destroy k => exact destroySlot_fresh (rel := releaseObj arity) (fun _ _ _ h => release_fresh _ _ _ _ h) h

theorem lift_creates (op : RefPtr.Op H) : creates (lift op) = 0 := by cases op <;> rfl

end fresh

/-! ### The claim -/

/-- The constructor that adopts an open library may only be given one that the client owns. -/
def SrcLegal (f : Full H Lib) : Src Lib → Prop
  | .adopt x => 0 < f.owned x
  | _ => True

/-- The client's obligations: those of the handles, and it closes or passes on only what it has opened. -/
def FLegal (f : Full H Lib) : FOp H Lib → Prop
  | .open' h r error maxlength => Legal f.w (.open' h r error maxlength)
  | .make h src => .root (some h) ∉ f.w.rc.hs ∧ SrcLegal f src
  | .assign d src => RefPtr.Legal f.w.rc (.assignNew (liftSlot d)) ∧ SrcLegal f src
  | .handle op => RefPtr.Legal f.w.rc (lift op)
  | .clientOpen _ => True
  | .clientClose x => 0 < f.owned x
  | .scopeCopy e => liftSlot e ∈ f.w.rc.hs ∧ ∃ o, f.w.rc.val (liftSlot e) = some o

def FLegalAll (f : Full H Lib) : List (FOp H Lib) → Prop
  | [] => True
  | op :: ops => FLegal f op ∧ ∀ f', fstep f op = .ok f' → FLegalAll f' ops

/-- The statement does not copy a `SharedLib` object. -/
def FOp.noCopy : FOp H Lib → Prop
  | .scopeCopy _ => False
  | _ => True

/-- The libraries of the objects created so far. -/
def libsOf (w : World H Lib) : List Lib := (List.range w.rc.fresh).filterMap w.lib

structure FInv (f : Full H Lib) : Prop where
  w : WInv f.w
  bal : ∀ x, f.opened x = f.owned x + f.closedElse x + (libsOf f.w).count x

theorem filterMap_congr' {l : List Obj} {g g' : Obj → Option Lib} (h : ∀ o ∈ l, g o = g' o) : l.filterMap g = l.filterMap g' := by
  induction l with
  | nil => rfl
  | cons a l ih => rw [List.filterMap_cons, List.filterMap_cons, h a (by simp), ih (fun o ho => h o (by simp [ho]))]

/-- One more object. -/
theorem libsOf_new {w w' : World H Lib} (hf : w'.rc.fresh = w.rc.fresh + 1) {l : Option Lib}
    (hl : w'.lib = fun p => if p = w.rc.fresh then l else w.lib p) (x : Lib) :
    (libsOf w').count x = (libsOf w).count x + if l = some x then 1 else 0 := by
  have hc : (List.range w.rc.fresh).filterMap w'.lib = (List.range w.rc.fresh).filterMap w.lib := by
    refine filterMap_congr' fun o ho => ?_
    rw [hl]; exact if_neg (Nat.ne_of_lt (List.mem_range.1 ho))
  unfold libsOf
  rw [hf, List.range_succ, List.filterMap_append, hc, List.count_append]
  congr 1
  cases l with
  | none => simp [hl]
  | some y => by_cases hy : y = x <;> simp [hl, hy]

/-- The operation `Open` ends with, before `lib` is destroyed. -/
def retOp (h : H) : Dl Lib → RefPtr.Op (Var H)
  | .fail _ => .ctorNull (some h)
  | .ok _ => .ctorMove (some h) (.root none)

theorem open_chain {w w' : World H Lib} {h : H} {r : Dl Lib} {error e' : Option (List Str.Byte)} {maxlength : Nat}
    (ho : open' w h r error maxlength = .ok (w', e')) : ∃ s1 s2, exec (fun _ => 0) w.rc (.ctorNew none) = .ok s1 ∧
      exec (fun _ => 0) s1 (retOp h r) = .ok s2 ∧ exec (fun _ => 0) s2 (.destroy none) = .ok w'.rc := by
  unfold open' at ho
  simp only [bind, Except.bind] at ho
  cases h1 : exec (fun _ => 0) w.rc (.ctorNew none) with
  | error e => simp [h1] at ho
  | ok s1 =>
    simp only [h1] at ho
    cases r with
    | fail msg =>
      dsimp only at ho
      cases h2 : exec (fun _ => 0) s1 (.ctorNull (some h)) with
      | error e =>
        simp only [h2] at ho
        split at ho
        · cases ho
        · cases hcp : Str.safeStrcpy error maxlength (msg ++ [0]) with
          | error e => simp [hcp] at ho
          | ok v => simp [hcp] at ho
      | ok s2 =>
        cases h3 : exec (fun _ => 0) s2 (.destroy none) with
        | error e =>
          simp only [h2, h3] at ho
          split at ho
          · cases ho
          · cases hcp : Str.safeStrcpy error maxlength (msg ++ [0]) with
            | error e => simp [hcp] at ho
            | ok v => simp [hcp] at ho
        | ok s3 =>
          simp only [h2, h3] at ho
          split at ho
          · cases ho; exact ⟨s1, s2, rfl, h2, h3⟩
          · cases hcp : Str.safeStrcpy error maxlength (msg ++ [0]) with
            | error e => simp [hcp] at ho
            | ok v => simp only [hcp] at ho; cases ho; exact ⟨s1, s2, rfl, h2, h3⟩
    | ok x =>
      dsimp only at ho
      cases h2 : exec (fun _ => 0) s1 (.ctorMove (some h) (.root none)) with
      | error e => simp [h2] at ho
      | ok s2 =>
        simp only [h2] at ho
        cases h3 : exec (fun _ => 0) s2 (.destroy none) with
        | error e => simp [h3] at ho
        | ok s3 => simp only [h3] at ho; cases ho; exact ⟨s1, s2, rfl, h2, h3⟩

theorem open_fresh {w w' : World H Lib} {h : H} {r : Dl Lib} {error e' : Option (List Str.Byte)} {maxlength : Nat}
    (ho : open' w h r error maxlength = .ok (w', e')) : w'.rc.fresh = w.rc.fresh + 1 := by
  obtain ⟨s1, s2, h1, h2, h3⟩ := open_chain ho
  rw [exec_fresh h3, exec_fresh h2, exec_fresh h1]
  cases r <;> rfl

/-- `Open` changes no other handle. -/
theorem open_frame {w w' : World H Lib} (hi : WInv w) {h : H} {r : Dl Lib} {error e' : Option (List Str.Byte)} {maxlength : Nat}
    (hh : .root (some h) ∉ w.rc.hs) (ho : open' w h r error maxlength = .ok (w', e')) (k : H) (hk : k ≠ h)
    (hm : .root (some k) ∈ w'.rc.hs) : .root (some k) ∈ w.rc.hs ∧ w'.rc.val (.root (some k)) = w.rc.val (.root (some k)) := by
  obtain ⟨s1, s2, h1, h2, h3⟩ := open_chain ho
  obtain ⟨hi, hn⟩ := hi
  obtain ⟨t1, g1, hi1, hv1, hr1⟩ := exec_spec hi (.ctorNew none) hn
  rw [h1] at g1; cases g1
  have hn1 : .root none ∈ s1.hs := (hr1 none).2 (.inl rfl)
  have hh1 : .root (some h) ∉ s1.hs := by
    rw [hr1]; rintro (h | h)
    · cases h
    · exact hh h
  have hl2 : RefPtr.Legal s1 (retOp h r) := by
    cases r with
    | fail m => exact hh1
    | ok x => exact ⟨hh1, hn1⟩
  obtain ⟨t2, g2, hi2, hv2, hr2⟩ := exec_spec hi1 _ hl2
  rw [h2] at g2; cases g2
  have hn2 : .root none ∈ s2.hs := (hr2 none).2 (by cases r <;> exact .inr hn1)
  obtain ⟨t3, g3, hi3, hv3, hr3⟩ := exec_spec hi2 (.destroy none) hn2
  rw [h3] at g3; cases g3
  have m2 : .root (some k) ∈ s2.hs := ((hr3 _).1 hm).2
  have m1 : .root (some k) ∈ s1.hs := by
    have := (hr2 _).1 m2
    cases r <;> simp only [retOp, varAfter, Option.some.injEq, hk, false_or] at this <;> exact this
  have m0 : .root (some k) ∈ w.rc.hs := by
    have := (hr1 _).1 m1
    simpa [varAfter] using this
  refine ⟨m0, ?_⟩
  rw [hv3 _ hm]
  show s2.val _ = _
  rw [hv2 _ m2]
  have e1 : s1.val (.root (some k)) = w.rc.val (.root (some k)) := by
    rw [hv1 _ m1]
    simp [valAfter, Slot.ownedBy]
  cases r <;> simp [retOp, valAfter, hk, e1]

theorem create_spec {f : Full H Lib} (hi : FInv f) {op : RefPtr.Op (Var H)} (hc : creates op = 1) (hl : RefPtr.Legal f.w.rc op)
    (hn : ¬ varAfter f.w.rc op none) {src : Src Lib} (hs : SrcLegal f src) : ∃ f', create f op src = .ok f' ∧ FInv f' := by
  obtain ⟨rc, h1, hi1, -, hr1⟩ := exec_spec hi.w.1 op hl
  have hf : rc.fresh = f.w.rc.fresh + 1 := by rw [exec_fresh h1, hc]
  refine ⟨{ f with
    w := { rc := rc, lib := fun p => if p = f.w.rc.fresh then src.lib else f.w.lib p }
    opened := match src with
      | .path r => bump f.opened r
      | _ => f.opened
    owned := match src with
      | .adopt x => drop f.owned x
      | _ => f.owned }, by cases src <;> simp only [create, h1, bind, Except.bind], ⟨⟨hi1, fun h => hn ((hr1 none).1 h)⟩, fun x => ?_⟩⟩
  have hb := hi.bal x
  have := libsOf_new (w := f.w) (w' := { rc := rc, lib := fun p => if p = f.w.rc.fresh then src.lib else f.w.lib p }) hf rfl x
  cases src with
  | empty => dsimp only at this ⊢; simp only [Src.lib, reduceCtorEq, if_false] at this ⊢; omega
  | path r =>
    dsimp only at this ⊢
    simp only [Src.lib] at this ⊢
    rw [this]
    unfold bump
    by_cases hx : r = some x
    · simp only [hx, if_true]; omega
    · simp only [hx, if_false]; omega
  | adopt y =>
    have hy : 0 < f.owned y := hs
    dsimp only at this ⊢
    simp only [Src.lib] at this ⊢
    rw [this]
    unfold drop
    by_cases hx : x = y
    · subst hx; simp only [if_true]; omega
    · have : y ≠ x := fun h => hx h.symm
      simp only [hx, if_false, Option.some.injEq, this]; omega

theorem fstep_spec {f : Full H Lib} (hi : FInv f) (op : FOp H Lib) (hl : FLegal f op) (hn : op.noCopy) :
    ∃ f', fstep f op = .ok f' ∧ FInv f' := by
  cases op with
  | open' h r e m =>
    obtain ⟨w', h1, h2, h3, -⟩ := open_spec hi.w h r e m hl
    refine ⟨{ f with w := w', opened := bump f.opened r.lib }, by simp only [fstep, h1, bind, Except.bind], ⟨h2, fun x => ?_⟩⟩
    have hb := hi.bal x
    have := libsOf_new (open_fresh h1) h3 x
    show bump f.opened r.lib x = f.owned x + f.closedElse x + (libsOf w').count x
    rw [this]
    unfold bump
    by_cases hx : r.lib = some x
    · simp only [hx, if_true]; omega
    · simp only [hx, if_false]; omega
  | make h src => exact create_spec (op := .ctorNew (some h)) hi rfl hl.1 (by simp [varAfter]; exact hi.w.2) hl.2
  | assign d src => exact create_spec (op := .assignNew (liftSlot d)) hi rfl hl.1 (by simp [varAfter]; exact hi.w.2) hl.2
  | handle op =>
    obtain ⟨rc, h1, h2, h3⟩ := handle_spec hi.w op hl
    refine ⟨{ f with w := { f.w with rc := rc } }, by simp only [fstep, h1, bind, Except.bind], ⟨⟨h2, h3⟩, fun x => ?_⟩⟩
    have hb := hi.bal x
    have hf := exec_fresh h1
    rw [lift_creates] at hf
    show f.opened x = f.owned x + f.closedElse x + (((List.range rc.fresh).filterMap f.w.lib).count x)
    rw [hf]; exact hb
  | clientOpen y =>
    refine ⟨_, rfl, ⟨hi.w, fun x => ?_⟩⟩
    have hb := hi.bal x
    show bump f.opened (some y) x = bump f.owned (some y) x + f.closedElse x + (libsOf f.w).count x
    unfold bump
    by_cases hx : some y = some x
    · simp only [hx, if_true]; omega
    · simp only [hx, if_false]; omega
  | clientClose y =>
    refine ⟨_, rfl, ⟨hi.w, fun x => ?_⟩⟩
    have hb := hi.bal x
    have hy : 0 < f.owned y := hl
    show f.opened x = drop f.owned y x + bump f.closedElse (some y) x + (libsOf f.w).count x
    unfold bump drop
    by_cases hx : x = y
    · subst hx; simp only [if_true]; omega
    · have : y ≠ x := fun h => hx h.symm
      simp only [hx, if_false, Option.some.injEq, this]; omega
  | scopeCopy e => exact hn.elim

theorem frun_spec : ∀ (ops : List (FOp H Lib)) (f : Full H Lib), FInv f → FLegalAll f ops → (∀ op ∈ ops, op.noCopy) →
    ∃ f', frun f ops = .ok f' ∧ FInv f' := by
  intro ops
  induction ops with
  | nil => intro f hi _ _; exact ⟨f, rfl, hi⟩
  | cons op ops ih =>
    intro f hi hl hn
    obtain ⟨f1, h1, hi1⟩ := fstep_spec hi op hl.1 (hn op (by simp))
    obtain ⟨f2, h2, hi2⟩ := ih f1 hi1 (hl.2 f1 h1) (fun o ho => hn o (by simp [ho]))
    exact ⟨f2, by simp only [frun, h1, h2, bind, Except.bind], hi2⟩

theorem FInv.new : FInv (Full.new : Full H Lib) :=
  ⟨⟨inv_new, by simp [Full.new, World.new, RefPtr.State.new]⟩, fun x => by simp [Full.new, World.new, RefPtr.State.new, libsOf]⟩

theorem FInv.live {f : Full H Lib} (hi : FInv f) (o : Obj) : o ∈ f.w.rc.live ↔ holds f.w o := by
  constructor
  · intro ho
    have h := hi.w.1.pos o ho (by simp)
    rw [hi.w.1.cnt o ho] at h
    obtain ⟨e, h1, -, h3⟩ := refs_pos.1 h
    exact ⟨e, h1, h3⟩
  · rintro ⟨e, h1, h3⟩
    exact hi.w.1.tgt e h1 (by simp) o h3

theorem FInv.loaded {f : Full H Lib} (hi : FInv f) (x : Lib) :
    f.loaded x = f.owned x + ((f.w.rc.live.filterMap f.w.lib).count x : Nat) := by
  have hp : (List.range f.w.rc.fresh).Perm (f.w.rc.freed ++ f.w.rc.live) := by
    refine (List.perm_ext_iff_of_nodup List.nodup_range ?_).2 fun o => ?_
    · refine List.nodup_append.2 ⟨hi.w.1.fnd, hi.w.1.lnd, fun a ha b hb hab => ?_⟩
      subst hab
      exact ((hi.w.1.fiff a).1 ha).2 hb
    · rw [List.mem_range, List.mem_append, hi.w.1.fiff]
      constructor
      · intro h
        by_cases hl : o ∈ f.w.rc.live
        · exact .inr hl
        · exact .inl ⟨h, hl⟩
      · rintro (h | h)
        · exact h.1
        · exact hi.w.1.lt o h
  have hb := hi.bal x
  unfold libsOf at hb
  rw [(hp.filterMap _).count_eq, List.filterMap_append, List.count_append] at hb
  unfold Full.loaded World.closed
  omega

/-- C106: in every legal history - libraries opened through `Open` or any constructor, handles copied, moved and dropped, the
client opening and closing libraries itself - nothing faults, and every library has been opened and not closed exactly as
often as there are `SharedLib` objects with a handle for it, plus the opens the client has kept for itself: no library is
unloaded while an object for it exists, and none stays loaded without one. -/
theorem C106_loaded (ops : List (FOp H Lib)) (hl : FLegalAll Full.new ops) (hn : ∀ op ∈ ops, op.noCopy) :
    ∃ f : Full H Lib, frun Full.new ops = .ok f ∧
      ∃ objs : List Obj, objs.Nodup ∧ (∀ o, o ∈ objs ↔ holds f.w o) ∧
        ∀ x, f.loaded x = f.owned x + ((objs.filterMap f.w.lib).count x : Nat) := by
  obtain ⟨f, h1, hi⟩ := frun_spec ops _ FInv.new hl hn
  exact ⟨f, h1, f.w.rc.live, hi.w.1.lnd, hi.live, hi.loaded⟩

/-- C106, continued: once all handles are gone exactly the client's own opens are left. -/
theorem C106_no_leak (ops : List (FOp H Lib)) (hl : FLegalAll Full.new ops) (hn : ∀ op ∈ ops, op.noCopy) (f : Full H Lib)
    (hr : frun Full.new ops = .ok f) (hg : ∀ e ∈ f.w.rc.hs, f.w.rc.val e = none) (x : Lib) : f.loaded x = f.owned x := by
  obtain ⟨f', h1, hi⟩ := frun_spec ops _ FInv.new hl hn
  rw [h1] at hr; cases hr
  have : f.w.rc.live = [] := by
    cases hlv : f.w.rc.live with
    | nil => rfl
    | cons o l =>
      obtain ⟨e, he, hv⟩ := (hi.live o).1 (by rw [hlv]; simp)
      rw [hg e he] at hv; cases hv
  rw [hi.loaded, this]; simp

/-- C106, continued: after any legal history, a lookup through a handle on a valid library gives what that library defines
for the symbol (the library is loaded), and null if it does not define it. -/
theorem C106_lookup (ld : Loader Lib Sym Ptr) (ops : List (FOp H Lib)) (hl : FLegalAll Full.new ops) (hn : ∀ op ∈ ops, op.noCopy)
    (f : Full H Lib) (hr : frun Full.new ops = .ok f) (e : Slot H) (he : liftSlot e ∈ f.w.rc.hs) (o : Obj)
    (hv : f.w.rc.val (liftSlot e) = some o) :
    valid f e = .ok (f.w.lib o).isSome ∧ ∀ x, f.w.lib o = some x → ∀ s, lookup ld f e s = .ok (ld.sym x s) := by
  obtain ⟨f', h1, hi⟩ := frun_spec ops _ FInv.new hl hn
  rw [h1] at hr; cases hr
  have hrd : RefPtr.read f.w.rc (liftSlot e) = .ok (some o) := by
    unfold RefPtr.read
    rw [if_neg (by simpa using he), hv]
  refine ⟨by simp only [valid, hrd, bind, Except.bind], fun x hx s => ?_⟩
  have hlv : o ∈ f.w.rc.live := hi.w.1.tgt _ he (by simp) o hv
  have hpos : 0 < (f.w.rc.live.filterMap f.w.lib).count x :=
    List.count_pos_iff.2 (List.mem_filterMap.2 ⟨o, hlv, hx⟩)
  have : ¬ f.loaded x ≤ 0 := by rw [hi.loaded]; omega
  simp only [lookup, hrd, bind, Except.bind, hx, this, if_false]

/-- Histories whose only way to make objects is `Open`. -/
def FOp.opensOnly : FOp H Lib → Prop
  | .open' .. => True
  | .handle _ => True
  | .clientOpen _ => True
  | .clientClose _ => True
  | _ => False

/-- What one would expect of `lookup` on an object whose library could not be loaded (or `SharedLib()`): nothing is found. -/
def InvalidFindsNothing : Prop :=
  ∀ (ld : Loader Nat Nat Nat) (ops : List (FOp Nat Nat)), FLegalAll Full.new ops → (∀ op ∈ ops, op.noCopy) →
    ∀ f : Full Nat Nat, frun Full.new ops = .ok f → ∀ e : Slot Nat, valid f e = .ok false → ∀ s, lookup ld f e s = .ok none

/-- C106: it does not hold. `dlsym` is called with a null handle, which is `RTLD_DEFAULT`: the symbols of the whole process
are searched, and one is returned. -/
theorem C106_invalid_finds_nothing_refuted : ¬ InvalidFindsNothing := by
  intro h
  have := h { sym := fun _ _ => none, global := fun s => some s } [.make 0 (.path none)]
    ⟨⟨by simp [Full.new, World.new, RefPtr.State.new], trivial⟩, fun _ _ => trivial⟩ (by simp [FOp.noCopy])
    { Full.new with
      w := { lib := fun p => if p = 0 then none else none
             rc := { live := [0], cnt := fun q => if q = 0 then 1 else if q = 0 then 0 else 0, hs := [.root (some 0)],
                     val := fun e => if e = .root (some 0) then some 0 else none, fresh := 1, freed := [] } }
      opened := bump (fun _ => 0) none } (by rfl) (.root 0) (by rfl) 5
  have h2 : (Except.ok (some 5) : Exec (Option Nat)) = .ok none := this
  cases h2

/-- What one would expect of copying a `SharedLib` object: the library stays loaded while an object for it exists. -/
def CopyKeepsLoaded : Prop :=
  ∀ (ld : Loader Nat Nat Nat) (ops : List (FOp Nat Nat)), FLegalAll Full.new ops →
    ∀ f : Full Nat Nat, frun Full.new ops = .ok f → ∀ e : Slot Nat, valid f e = .ok true → ∀ s, ∃ r, lookup ld f e s = .ok r

/-- C106: it does not hold. The implicit copy constructor copies the library handle, and the destructor of the copy closes the
library under the original. -/
theorem C106_copy_keeps_loaded_refuted : ¬ CopyKeepsLoaded := by
  intro h
  have := h { sym := fun _ s => some s, global := fun _ => none } [.make 0 (.path (some 7)), .scopeCopy (.root 0)]
    ⟨⟨by simp [Full.new, World.new, RefPtr.State.new], trivial⟩, fun f hf => by
      cases hf
      exact ⟨⟨by simp [liftSlot, Full.new, World.new, RefPtr.State.new, newObj], 0, by simp [liftSlot, Full.new, World.new, RefPtr.State.new, newObj]⟩,
        fun _ _ => trivial⟩⟩
    { (Full.new : Full Nat Nat) with
      w := { lib := fun p => if p = 0 then some 7 else none
             rc := { live := [0], cnt := fun q => if q = 0 then 1 else if q = 0 then 0 else 0, hs := [.root (some 0)],
                     val := fun e => if e = .root (some 0) then some 0 else none, fresh := 1, freed := [] } }
      opened := bump (fun _ => 0) (some 7)
      closedElse := bump (fun _ => 0) (some 7) } (by rfl) (.root 0) (by rfl) 5
  obtain ⟨r, hr⟩ := this
  have h2 : (Except.error .useAfterFree : Exec (Option Nat)) = .ok r := hr
  cases h2

/-- Every handle that is not null holds a valid library. -/
def AllValid (f : Full H Lib) : Prop := ∀ e ∈ f.w.rc.hs, ∀ o, f.w.rc.val e = some o → o < f.w.rc.fresh ∧ (f.w.lib o).isSome

theorem no_fields {w : World H Lib} (hi : WInv w) (o : Obj) (i : Nat) : .field o i ∉ w.rc.hs := by
  intro h
  rcases hi.1.own2 o i h with hl | hl
  · exact Nat.not_lt_zero _ ((hi.1.own o i hl).1 h)
  · cases hl

/-- No operation but `new` gives a handle an object that no handle had before. -/
theorem val_from {s : RefPtr.State (Var H)} (op : RefPtr.Op H) {k : Var H} {o : Obj} (hl : RefPtr.Legal s (lift op))
    (hk : varAfter s (lift op) k) (hv : valAfter s (lift op) (.root k) = some o) : ∃ e ∈ s.hs, s.val e = some o := by
  cases op with
  | ctorNull h =>
    simp only [lift, valAfter, varAfter] at hv hk
    by_cases h1 : k = some h
    · simp [h1] at hv
    · simp only [h1, false_or] at hk; simp [h1] at hv; exact ⟨_, hk, hv⟩
  | ctorNew h =>
    simp only [lift, valAfter, varAfter] at hv hk
    by_cases h1 : k = some h
    · simp [h1] at hv
    · simp only [h1, false_or] at hk; simp [h1] at hv; exact ⟨_, hk, hv⟩
  | ctorGet h e =>
    simp only [lift, valAfter, varAfter] at hv hk
    by_cases h1 : k = some h
    · simp only [h1, if_true] at hv; exact ⟨_, hl.2, hv⟩
    · simp only [h1, false_or] at hk; simp [h1] at hv; exact ⟨_, hk, hv⟩
  | ctorCopy h e =>
    simp only [lift, valAfter, varAfter] at hv hk
    by_cases h1 : k = some h
    · simp only [h1, if_true] at hv; exact ⟨_, hl.2, hv⟩
    · simp only [h1, false_or] at hk; simp [h1] at hv; exact ⟨_, hk, hv⟩
  | ctorMove h e =>
    simp only [lift, valAfter, varAfter] at hv hk
    by_cases h0 : Slot.root k = liftSlot e
    · simp [h0] at hv
    · simp only [h0, if_false] at hv
      by_cases h1 : k = some h
      · simp only [h1, if_true] at hv; exact ⟨_, hl.2, hv⟩
      · simp only [h1, false_or] at hk; simp [h1] at hv; exact ⟨_, hk, hv⟩
  | assignNull d =>
    simp only [lift, valAfter, varAfter] at hv hk
    by_cases h1 : Slot.root k = liftSlot d
    · simp [h1] at hv
    · simp only [h1, if_false] at hv; exact ⟨_, hk, hv⟩
  | assignNew d =>
    simp only [lift, valAfter, varAfter] at hv hk
    by_cases h1 : Slot.root k = liftSlot d
    · simp [h1] at hv
    · simp only [h1, if_false] at hv; exact ⟨_, hk, hv⟩
  | assignGet d e =>
    simp only [lift, valAfter, varAfter] at hv hk
    by_cases h1 : Slot.root k = liftSlot d
    · simp only [h1, if_true] at hv; exact ⟨_, hl.2.1, hv⟩
    · simp only [h1, if_false] at hv; exact ⟨_, hk, hv⟩
  | assignCopy d e =>
    simp only [lift, valAfter, varAfter] at hv hk
    by_cases h1 : Slot.root k = liftSlot d
    · simp only [h1, if_true] at hv; exact ⟨_, hl.2.1, hv⟩
    · simp only [h1, if_false] at hv; exact ⟨_, hk, hv⟩
  | assignMove d e =>
    simp only [lift, valAfter, varAfter] at hv hk
    by_cases h0 : Slot.root k = liftSlot e
    · simp [h0] at hv
    · simp only [h0, if_false] at hv
      by_cases h1 : Slot.root k = liftSlot d
      · simp only [h1, if_true] at hv; exact ⟨_, hl.2.1, hv⟩
      · simp only [h1, if_false] at hv; exact ⟨_, hk, hv⟩
  | destroy h => exact ⟨_, hk.2, hv⟩

theorem opens_valid : ∀ (ops : List (FOp H Lib)) (f : Full H Lib), FInv f → AllValid f → FLegalAll f ops → (∀ op ∈ ops, op.opensOnly) →
    ∀ f', frun f ops = .ok f' → AllValid f' := by
  intro ops
  induction ops with
  | nil => intro f _ ha _ _ f' h; cases h; exact ha
  | cons op ops ih =>
    intro f hi ha hl ho f' hr
    have hop := ho op (by simp)
    have hnc : op.noCopy := by cases op <;> first | trivial | exact hop.elim
    obtain ⟨f1, h1, hi1⟩ := fstep_spec hi op hl.1 hnc
    simp only [frun, h1, bind, Except.bind] at hr
    refine ih f1 hi1 ?_ (hl.2 f1 h1) (fun o h => ho o (by simp [h])) f' hr
    cases op with
    | make h src => exact hop.elim
    | assign d src => exact hop.elim
    | scopeCopy e => exact hop.elim
    | clientOpen x => cases h1; exact ha
    | clientClose x => cases h1; exact ha
    | handle op =>
      obtain ⟨rc, g1, g2, g3, g4⟩ := exec_spec hi.w.1 (lift op) hl.1
      simp only [fstep, g1, bind, Except.bind] at h1
      cases h1
      intro e he o hv
      have hfr := exec_fresh g1
      rw [lift_creates] at hfr
      have hv' : valAfter f.w.rc (lift op) e = some o := by rw [← g3 e he]; exact hv
      have hmem : ∃ e ∈ f.w.rc.hs, f.w.rc.val e = some o := by
        cases e with
        | field p i => exact absurd he (no_fields hi1.w p i)
        | root k => exact val_from op hl.1 ((g4 k).1 he) hv'
      obtain ⟨e0, he0, hv0⟩ := hmem
      obtain ⟨b1, b2⟩ := ha e0 he0 o hv0
      exact ⟨Nat.lt_of_lt_of_le b1 (Nat.le_of_eq hfr.symm), b2⟩
    | open' h r er m =>
      obtain ⟨w', g1, g2, g3, g4, g5⟩ := open_spec hi.w h r er m hl.1
      simp only [fstep, g1, bind, Except.bind] at h1
      cases h1
      intro e he o hv
      have hfr := open_fresh g1
      show o < w'.rc.fresh ∧ (w'.lib o).isSome
      cases e with
      | field p i => exact absurd he (no_fields g2 p i)
      | root k =>
        cases k with
        | none => exact absurd he g2.2
        | some k =>
          by_cases hk : k = h
          · subst hk
            have hv' : w'.rc.val (.root (some k)) = some o := hv
            rw [g5] at hv'
            split at hv'
            · rename_i hs
              cases hv'
              rw [g3]; exact ⟨by rw [hfr]; exact Nat.lt_succ_self _, by simpa using hs⟩
            · cases hv'
          · obtain ⟨m0, v0⟩ := open_frame hi.w hl.1.1 g1 k hk he
            have hv' : w'.rc.val (.root (some k)) = some o := hv
            rw [v0] at hv'
            obtain ⟨b1, b2⟩ := ha _ m0 o hv'
            have hne : o ≠ f.w.rc.fresh := Nat.ne_of_lt b1
            rw [g3]
            exact ⟨by rw [hfr]; exact Nat.lt_succ_of_lt b1, by simpa [hne] using b2⟩

/-- C106: histories whose objects all come from `Open` (and are not copied). Every handle is null or holds a valid library that
is loaded, and looks its symbols up in that library and nowhere else. Missing from the full claim: objects made by the other
constructors, whose lookups may search the whole process, and copies of objects. -/
theorem C106_opens_partial (ld : Loader Lib Sym Ptr) (ops : List (FOp H Lib)) (hl : FLegalAll Full.new ops)
    (ho : ∀ op ∈ ops, op.opensOnly) (f : Full H Lib) (hr : frun Full.new ops = .ok f) (e : Slot H)
    (he : liftSlot e ∈ f.w.rc.hs) :
    f.w.rc.val (liftSlot e) = none ∨
      ∃ x, valid f e = .ok true ∧ 0 < f.loaded x ∧ ∀ s, lookup ld f e s = .ok (ld.sym x s) := by
  have hnc : ∀ op ∈ ops, op.noCopy := by
    intro op h
    have := ho op h
    cases op <;> first | trivial | exact this.elim
  obtain ⟨f', h1, hi⟩ := frun_spec ops _ FInv.new hl hnc
  have hr' := hr
  rw [h1] at hr'; cases hr'
  have hav : AllValid f := opens_valid ops Full.new FInv.new (by intro e he; simp [Full.new, World.new, RefPtr.State.new] at he) hl ho f hr
  cases hv : f.w.rc.val (liftSlot e) with
  | none => exact .inl rfl
  | some o =>
    right
    obtain ⟨hlt, hs⟩ := hav _ he o hv
    obtain ⟨x, hx⟩ := Option.isSome_iff_exists.1 hs
    obtain ⟨hval, hlk⟩ := C106_lookup ld ops hl hnc f hr e he o hv
    refine ⟨x, by rw [hval, hs], ?_, hlk x hx⟩
    have hlv : o ∈ f.w.rc.live := hi.w.1.tgt _ he (by simp) o hv
    have hpos : 0 < (f.w.rc.live.filterMap f.w.lib).count x :=
      List.count_pos_iff.2 (List.mem_filterMap.2 ⟨o, hlv, hx⟩)
    rw [hi.loaded]; omega

/-! ### Non-vacuity: a library opened twice and passed on once, a failure, and an own open. -/

def fdemo : List (FOp Nat Nat) :=
  [.open' 0 (.ok 7) none 0, .clientOpen 7, .clientOpen 7, .make 1 (.adopt 7), .open' 2 (.fail [110]) none 0,
   .handle (.ctorCopy 3 (.root 0)), .handle (.destroy 0), .assign (.root 1) (.path (some 9)), .clientClose 7]

def loadedAfter (n : Nat) (x : Nat) : Option Int := (frun Full.new (fdemo.take n)).toOption.map (fun f => f.loaded x)

example : loadedAfter 4 7 = some 3 := by decide +kernel
example : loadedAfter 7 7 = some 3 := by decide +kernel
example : loadedAfter 8 7 = some 2 := by decide +kernel
example : loadedAfter 9 7 = some 1 ∧ loadedAfter 9 9 = some 1 := by decide +kernel
example : (frun Full.new fdemo).toOption.map (fun f => (lookup (Sym := Nat) { sym := fun x s => some (x, s), global := fun _ => none } f (.root 3) 4).toOption) =
    some (some (some (7, 4))) := by decide +kernel
example : FLegalAll Full.new (fdemo.take 4) := by
  refine ⟨⟨by simp [Full.new, World.new, RefPtr.State.new], by simp, by simp⟩, fun f h => ?_⟩
  cases h
  refine ⟨trivial, fun f h => ?_⟩
  cases h
  refine ⟨trivial, fun f h => ?_⟩
  cases h
  exact ⟨⟨by simp [Full.new, World.new, RefPtr.State.new, newObj], by simp [SrcLegal, bump]⟩, fun f h => trivial⟩

end Verif.SharedLib
