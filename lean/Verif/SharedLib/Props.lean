import Verif.SharedLib.Model
import Verif.RefPtr.Lemmas
import Verif.Str.Props
/-!
# Property C50: `SharedLib`
-/
namespace Verif.SharedLib
open Verif Verif.RefPtr

set_option linter.unusedSimpArgs false

variable {H Lib : Type} [DecidableEq H]

/-- The client's obligations. The error buffer, if given, has at least `maxlength` bytes. -/
def Legal (w : World H Lib) : Op H Lib → Prop
  | .open' h r error maxlength => .root (some h) ∉ w.rc.hs ∧ (∀ e, error = some e → maxlength ≤ e.length) ∧
      ∀ msg, r = .fail msg → 0 ∉ msg
  | .handle op => RefPtr.Legal w.rc (lift op)

def LegalAll (w : World H Lib) : List (Op H Lib) → Prop
  | [] => True
  | op :: ops => Legal w op ∧ ∀ w', step w op = .ok w' → LegalAll w' ops

/-- The caller's error buffer afterwards: on failure, if there is room, the message cut to
`maxlength - 1` bytes and a NUL; otherwise untouched. -/
def errorAfter : Dl Lib → Option (List Str.Byte) → Nat → Option (List Str.Byte)
  | .fail msg, some e, maxlength =>
    if maxlength = 0 then some e else some (Str.overwritten e (msg.take (maxlength - 1) ++ [0]))
  | _, e, _ => e

/-- A program variable or member handle. -/
def holds (w : World H Lib) (o : Obj) : Prop := ∃ e ∈ w.rc.hs, w.rc.val e = some o

def WInv (w : World H Lib) : Prop := Inv (fun _ => 0) [] [] [] w.rc ∧ .root none ∉ w.rc.hs

theorem open_spec {w : World H Lib} (hi : WInv w) (h : H) (r : Dl Lib) (error : Option (List Str.Byte)) (maxlength : Nat)
    (hl : Legal w (.open' h r error maxlength)) :
    ∃ w', open' w h r error maxlength = .ok (w', errorAfter r error maxlength) ∧ WInv w' ∧
      w'.lib = (fun p => if p = w.rc.fresh then r.lib else w.lib p) ∧
      (.root (some h) ∈ w'.rc.hs) ∧ w'.rc.val (.root (some h)) = (if r.lib.isSome then some w.rc.fresh else none) := by
  obtain ⟨hi, hn⟩ := hi
  obtain ⟨hh, hlen, hmsg⟩ := hl
  obtain ⟨s1, h1, hi1, hv1, hr1⟩ := exec_spec hi (.ctorNew none) hn
  have hn1 : .root none ∈ s1.hs := (hr1 none).2 (.inl rfl)
  have hh1 : .root (some h) ∉ s1.hs := by
    rw [hr1]; rintro (h | h)
    · cases h
    · exact hh h
  cases r with
  | fail msg =>
    obtain ⟨s2, h2, hi2, hv2, hr2⟩ := exec_spec hi1 (.ctorNull (some h)) hh1
    have hn2 : .root none ∈ s2.hs := (hr2 none).2 (.inr hn1)
    obtain ⟨s3, h3, hi3, hv3, hr3⟩ := exec_spec hi2 (.destroy none) hn2
    have hh3 : .root (some h) ∈ s3.hs := (hr3 _).2 ⟨by simp, (hr2 _).2 (.inl rfl)⟩
    refine ⟨{ rc := s3, lib := fun p => if p = w.rc.fresh then none else w.lib p }, ?_, ⟨hi3, ?_⟩, rfl, hh3, ?_⟩
    · cases error with
      | none =>
        simp only [open', h1, bind, Except.bind, true_or, if_true, h2, h3, Dl.lib, errorAfter, if_true, if_false]
      | some e =>
        by_cases hm : maxlength = 0
        · simp only [open', h1, bind, Except.bind, hm, or_true, if_true, h2, h3, Dl.lib, errorAfter, if_true]
        · have hc := Str.C27_safeStrcpy e msg [] maxlength (hmsg msg rfl) (by omega) (hlen e rfl)
          simp only [open', h1, bind, Except.bind, hm, reduceCtorEq, or_self, if_false, hc, h2, h3, Dl.lib, errorAfter, if_true, if_false]
    · intro h; exact ((hr3 none).1 h).1 rfl
    · show s3.val _ = none
      rw [hv3 _ hh3]
      show s2.val _ = none
      rw [hv2 _ ((hr2 _).2 (.inl rfl))]
      simp [valAfter]
  | ok x =>
    obtain ⟨s2, h2, hi2, hv2, hr2⟩ := exec_spec hi1 (.ctorMove (some h) (.root none)) ⟨hh1, hn1⟩
    have hn2 : .root none ∈ s2.hs := (hr2 none).2 (.inr hn1)
    obtain ⟨s3, h3, hi3, hv3, hr3⟩ := exec_spec hi2 (.destroy none) hn2
    have hh3 : .root (some h) ∈ s3.hs := (hr3 _).2 ⟨by simp, (hr2 _).2 (.inl rfl)⟩
    refine ⟨{ rc := s3, lib := fun p => if p = w.rc.fresh then some x else w.lib p }, ?_, ⟨hi3, ?_⟩, rfl, hh3, ?_⟩
    · simp only [open', h1, bind, Except.bind, h2, h3, Dl.lib, errorAfter, if_true, if_false]
    · intro h; exact ((hr3 none).1 h).1 rfl
    · show s3.val _ = some w.rc.fresh
      rw [hv3 _ hh3]
      show s2.val _ = _
      rw [hv2 _ ((hr2 _).2 (.inl rfl))]
      simp [valAfter, hv1 _ hn1]

theorem handle_spec {w : World H Lib} (hi : WInv w) (op : RefPtr.Op H) (hl : RefPtr.Legal w.rc (lift op)) :
    ∃ rc, exec (fun _ => 0) w.rc (lift op) = .ok rc ∧ Inv (fun _ => 0) [] [] [] rc ∧ .root none ∉ rc.hs := by
  obtain ⟨hi, hn⟩ := hi
  obtain ⟨s1, h1, hi1, hv1, hr1⟩ := exec_spec hi (lift op) hl
  refine ⟨s1, h1, hi1, ?_⟩
  rw [hr1]
  cases op <;> simp [lift, varAfter, hn]

theorem run_spec : ∀ (ops : List (Op H Lib)) (w : World H Lib), WInv w → LegalAll w ops →
    ∃ w', runAll w ops = .ok w' ∧ WInv w' := by
  intro ops
  induction ops with
  | nil => intro w hi _; exact ⟨w, rfl, hi⟩
  | cons op ops ih =>
    intro w hi hl
    cases op with
    | open' h r e m =>
      obtain ⟨w1, h1, hi1, -⟩ := open_spec hi h r e m hl.1
      have hs : step w (.open' h r e m) = .ok w1 := by simp only [step, h1, bind, Except.bind]
      obtain ⟨w2, h2, hi2⟩ := ih w1 hi1 (hl.2 _ hs)
      exact ⟨w2, by simp only [runAll, hs, h2, bind, Except.bind], hi2⟩
    | handle op =>
      obtain ⟨rc, h1, hi1⟩ := handle_spec hi op hl.1
      have hs : step w (.handle op) = .ok { w with rc := rc } := by simp only [step, h1, bind, Except.bind]
      obtain ⟨w2, h2, hi2⟩ := ih { w with rc := rc } hi1 (hl.2 _ hs)
      exact ⟨w2, by simp only [runAll, hs, h2, bind, Except.bind], hi2⟩

/-- C50: in every legal history of `Open` (with any outcomes of `dlopen`) and handle operations nothing
faults, and the `dlclose` calls are exactly: one for each object that was opened successfully and has no
handle any more, none for any other. -/
theorem C50_closed_once (ops : List (Op H Lib)) (hl : LegalAll World.new ops) :
    ∃ w : World H Lib, runAll World.new ops = .ok w ∧
      ∃ gone : List Obj, gone.Nodup ∧ w.closed = gone.filterMap w.lib ∧
        ∀ o, o ∈ gone ↔ o < w.rc.fresh ∧ ¬ holds w o := by
  obtain ⟨w, h1, hi, -⟩ := run_spec ops World.new ⟨inv_new, by simp [World.new, RefPtr.State.new]⟩ hl
  refine ⟨w, h1, w.rc.freed, hi.fnd, rfl, fun o => ?_⟩
  rw [hi.fiff]
  have : o ∈ w.rc.live ↔ holds w o := by
    constructor
    · intro ho
      have h := hi.pos o ho (by simp)
      rw [hi.cnt o ho] at h
      obtain ⟨e, h1, -, h3⟩ := refs_pos.1 h
      exact ⟨e, h1, h3⟩
    · rintro ⟨e, h1, h3⟩
      exact hi.tgt e h1 (by simp) o h3
  rw [this]

/-- C50, continued: the outcome of `Open` after any legal history. Success: the result holds a new object
for the library and nothing is closed. Failure: the result is null, nothing is closed, and the error
buffer (if any) holds the message cut to `maxlength - 1` bytes, NUL-terminated. -/
theorem C50_open (ops : List (Op H Lib)) (hl : LegalAll World.new ops) (w : World H Lib)
    (hr : runAll World.new ops = .ok w) (h : H) (r : Dl Lib) (error : Option (List Str.Byte)) (maxlength : Nat)
    (hop : Legal w (.open' h r error maxlength)) :
    ∃ w', open' w h r error maxlength = .ok (w', errorAfter r error maxlength) ∧
      w'.rc.val (.root (some h)) = (if r.lib.isSome then some w.rc.fresh else none) ∧
      (∀ x, r = .ok x → w'.lib w.rc.fresh = some x) ∧ (∀ msg, r = .fail msg → w'.lib w.rc.fresh = none) ∧
      w'.closed = w.closed := by
  obtain ⟨w1, h1, hi⟩ := run_spec ops World.new ⟨inv_new, by simp [World.new, RefPtr.State.new]⟩ hl
  rw [h1] at hr
  cases hr
  obtain ⟨w', h2, hi2, h3, h4, h5⟩ := open_spec hi h r error maxlength hop
  refine ⟨w', h2, h5, fun x hx => by rw [h3, hx]; simp [Dl.lib], fun m hm => by rw [h3, hm]; simp [Dl.lib], ?_⟩
  -- the only object that may have been destroyed is the new one
  have hfr : w'.rc.freed = w.rc.freed ∨ (w'.rc.freed = w.rc.fresh :: w.rc.freed ∧ r.lib = none) := by
    obtain ⟨hi0, hn0⟩ := hi
    have ha : exec (fun _ => 0) w.rc (.ctorNew none) =
        .ok { live := w.rc.fresh :: w.rc.live, cnt := fun q => if q = w.rc.fresh then 1 else if q = w.rc.fresh then 0 else w.rc.cnt q, hs := .root none :: w.rc.hs, val := fun e => if e = .root none then some w.rc.fresh else w.rc.val e, fresh := w.rc.fresh + 1, freed := w.rc.freed } := by
      simp [exec, newObj, ctorRaw, construct, hn0, bind, Except.bind, addRefOpt, addRef]
    have hh : .root (some h) ∉ w.rc.hs := hop.1
    cases r with
    | fail msg =>
      right
      refine ⟨?_, rfl⟩
      simp only [open', ha, bind, Except.bind] at h2
      simp only [bind, Except.bind, exec, construct, List.mem_cons, Slot.root.injEq, reduceCtorEq, hh, or_self, if_false,
        destroySlot, RefPtr.read, true_or, not_true_eq_false, releaseObj, or_true, List.length_cons, release, members] at h2
      simp [release, members] at h2
      split at h2
      · injection h2 with h2; injection h2 with h2 _; rw [← h2]
      · split at h2
        · cases h2
        · injection h2 with h2; injection h2 with h2 _; rw [← h2]
    | ok x =>
      left
      simp only [open', ha, bind, Except.bind] at h2
      simp only [exec, ctorMove, write, construct, List.mem_cons, Slot.root.injEq, reduceCtorEq, hh, or_self, if_false, destroySlot, RefPtr.read, true_or,
          not_true_eq_false, releaseObj, bind, Except.bind, or_true, if_true] at h2
      simp at h2
      rw [← h2.1]
  unfold World.closed
  have hlib : ∀ o ∈ w.rc.freed, w'.lib o = w.lib o := by
    intro o ho
    have := ((hi.1.fiff o).1 ho).1
    rw [h3]
    dsimp only
    rw [if_neg (Nat.ne_of_lt this)]
  have hcongr : ∀ l : List Obj, (∀ o ∈ l, w'.lib o = w.lib o) → l.filterMap w'.lib = l.filterMap w.lib := by
    intro l
    induction l with
    | nil => intro _; rfl
    | cons a l ih =>
      intro hl
      rw [List.filterMap_cons, List.filterMap_cons, hl a (by simp), ih (fun o ho => hl o (by simp [ho]))]
  rcases hfr with h | ⟨h, hn⟩
  · rw [h, hcongr _ hlib]
  · rw [h, List.filterMap_cons, hcongr _ hlib]
    simp [h3, hn]

/-! ### Non-vacuity: two successful opens of the same library, one failure; all handles dropped. -/

def demo : List (Op Nat Nat) :=
  [.open' 0 (.ok 7) none 0, .open' 1 (.fail [110, 111]) (some [9, 9, 9]) 2, .handle (.ctorCopy 2 (.root 0)),
   .handle (.destroy 0), .open' 3 (.ok 7) none 0, .handle (.destroy 2), .handle (.destroy 3)]

example : (runAll World.new demo).toOption.map World.closed = some [7, 7] := by decide +kernel
example : (runAll World.new (demo.take 5)).toOption.map World.closed = some [] := by decide +kernel
example : LegalAll World.new (demo.take 4) := by
  refine ⟨⟨by simp [World.new, RefPtr.State.new], by simp, by simp⟩, fun w h => ?_⟩
  cases h
  refine ⟨⟨by simp [World.new, RefPtr.State.new, newObj], by simp, by simp⟩, fun w h => ?_⟩
  cases h
  refine ⟨by simp [Legal, RefPtr.Legal, lift, liftSlot, World.new, RefPtr.State.new, newObj], fun w h => ?_⟩
  cases h
  exact ⟨by simp [Legal, RefPtr.Legal, lift, liftSlot, World.new, RefPtr.State.new, newObj], fun w h => trivial⟩

end Verif.SharedLib
