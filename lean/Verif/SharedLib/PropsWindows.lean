import Verif.SharedLib.Windows
import Verif.SharedLib.Props
import Verif.Os.Props
/-!
# C137: `SharedLib` on Windows
-/
namespace Verif.SharedLib
open Verif Verif.RefPtr

set_option linter.unusedSimpArgs false

variable {H Lib : Type} [DecidableEq H]

/-- What Windows may answer: a message that fits, or none. -/
def WinReply (maxlength : Nat) : Os.Reply → Prop
  | .windows t => t.length < maxlength % 2 ^ 32
  | .windowsFails _ => True
  | _ => False

/-- The client's obligations: the result is a new variable, the error buffer has at least `maxlength` bytes and is no larger than objects are. -/
def WLegal (w : World H Lib) : WOp H Lib → Prop
  | .open' h r error maxlength => .root (some h) ∉ w.rc.hs ∧ (∀ e, error = some e → maxlength ≤ e.length ∧ e.length < 2 ^ 63) ∧
      ∀ code reply, r = .fail code reply → maxlength ≠ 0 → WinReply maxlength reply
  | .handle op => RefPtr.Legal w.rc (lift op)

def WLegalAll (w : World H Lib) : List (WOp H Lib) → Prop
  | [] => True
  | op :: ops => WLegal w op ∧ ∀ w', wstep w op = .ok w' → WLegalAll w' ops

/-- The text a buffer starts with: the system's message, or "error code " and the code in eight hexadecimal digits, cut to fit. -/
def ShowsText (code : BitVec 32) (reply : Os.Reply) (maxlength : Nat) (b : List Str.Byte) : Prop :=
  match reply with
  | .windows t => t ++ [0] <+: b
  | _ => ∃ ds : List Str.Byte, ds.length = 8 ∧ (∀ d ∈ ds, Os.IsHex d) ∧ Os.hexNumber ds = code.toNat ∧
      (Os.bytes "error code " ++ ds).take (maxlength - 1) ++ [0] <+: b

/-- What the caller may find in its error buffer: untouched unless the library could not be loaded and there is room; then the bytes after the first `maxlength` are untouched,
the text is terminated within them, and it is as `ShowsText` says. -/
def ErrorText (r : Load Lib) (maxlength : Nat) : Option (List Str.Byte) → Option (List Str.Byte) → Prop
  | none, after => after = none
  | some e, after => match r with
    | .ok _ => after = some e
    | .fail code reply =>
      if maxlength = 0 then after = some e
      else ∃ b, after = some b ∧ b.length = e.length ∧ b.drop maxlength = e.drop maxlength ∧ (∃ n, n < maxlength ∧ b[n]? = some 0) ∧
        ShowsText code reply maxlength b

/-- The same outcome on POSIX, without the message. -/
def toDl : Load Lib → Dl Lib
  | .ok x => .ok x
  | .fail _ _ => .fail []

/-- The same call on POSIX, as far as objects go. -/
def toPosix : WOp H Lib → Op H Lib
  | .open' h r _ _ => .open' h (toDl r) none 0
  | .handle op => .handle op

theorem format_ok (code : BitVec 32) (reply : Os.Reply) (e : List Str.Byte) (maxlength : Nat) (h0 : maxlength ≠ 0) (hlen : maxlength ≤ e.length) (hobj : e.length < 2 ^ 63)
    (hr : WinReply maxlength reply) :
    ∃ b, Os.formatSystemErrorCode code reply e maxlength = .ok b ∧ b.length = e.length ∧ b.drop maxlength = e.drop maxlength ∧ (∃ n, n < maxlength ∧ b[n]? = some 0) ∧
      ShowsText code reply maxlength b := by
  have hmod : maxlength % 2 ^ 32 ≤ maxlength := Nat.mod_le _ _
  cases reply with
  | windows t =>
    have ht : t.length < maxlength % 2 ^ 32 := hr
    obtain ⟨b, h1, h2, h3, h4, h5⟩ := Os.fill_text (t := t) hlen (by omega)
    refine ⟨b, h1, h2, h3, h4, ?_⟩
    rwa [List.take_of_length_le (by omega)] at h5
  | windowsFails g =>
    obtain ⟨b, h1, h2, h3, h4, -⟩ := Os.C95_message_partial code (.windowsFails g) e maxlength (by omega) hlen hobj trivial (by simp)
    obtain ⟨b', ds, g1, g2, g3, g4, g5⟩ := Os.C95_windows_fallback code g e maxlength (by omega) hlen hobj
    rw [h1] at g1; cases g1
    exact ⟨b, h1, h2, h3, h4, ds, g2, g3, g4, g5⟩
  | gnuBuffer _ => cases hr
  | gnuOwn _ => cases hr
  | posix _ => cases hr
  | posixFails _ => cases hr

theorem openWin_spec {w : World H Lib} (h : H) (r : Load Lib) (error : Option (List Str.Byte)) (maxlength : Nat)
    (hl : WLegal w (.open' h r error maxlength)) (w' : World H Lib) (er : Option (List Str.Byte))
    (hp : open' w h (toDl r) none 0 = .ok (w', er)) :
    ∃ after, openWin w h r error maxlength = .ok (w', after) ∧ ErrorText r maxlength error after := by
  obtain ⟨-, hb, hrep⟩ := hl
  cases r with
  | ok x =>
    refine ⟨error, ?_, ?_⟩
    · simp only [toDl, open', bind, Except.bind] at hp
      simp only [openWin, bind, Except.bind]
      split at hp
      · cases hp
      · rename_i rc e1
        split at hp
        · cases hp
        · rename_i rc2 e2
          split at hp
          · cases hp
          · rename_i rc3 e3
            injection hp with hp; injection hp with hp _
            simp only [e1, e2, e3, ← hp]; rfl
    · cases error <;> rfl
  | fail code reply =>
    have herr : ∃ after, winMessage code reply maxlength error = .ok after ∧
        ErrorText (.fail code reply : Load Lib) maxlength error after := by
      cases error with
      | none => exact ⟨none, rfl, rfl⟩
      | some e =>
        by_cases h0 : maxlength = 0
        · exact ⟨some e, by simp [winMessage, h0], by simp [ErrorText, h0]⟩
        · obtain ⟨b, h1, h2⟩ := format_ok code reply e maxlength h0 (hb e rfl).1 (hb e rfl).2 (hrep code reply rfl h0)
          exact ⟨some b, by simp [winMessage, h0, h1, bind, Except.bind], by simp only [ErrorText, h0, if_false]; exact ⟨b, rfl, h2⟩⟩
    obtain ⟨after, h1, h2⟩ := herr
    refine ⟨after, ?_, h2⟩
    simp only [toDl, open', bind, Except.bind, true_or, if_true] at hp
    simp only [openWin, bind, Except.bind]
    split at hp
    · cases hp
    · rename_i rc e1
      split at hp
      · cases hp
      · rename_i rc2 e2
        split at hp
        · cases hp
        · rename_i rc3 e3
          injection hp with hp; injection hp with hp _
          simp only [e1, h1, e2, e3, ← hp]; rfl

omit [DecidableEq H] in
theorem wlegal_posix {w : World H Lib} {op : WOp H Lib} (h : WLegal w op) : Legal w (toPosix op) := by
  cases op with
  | open' v r e m => cases r <;> exact ⟨h.1, by simp, by simp [toDl]⟩
  | handle op => exact h

theorem wstep_posix {w : World H Lib} (hi : WInv w) (op : WOp H Lib) (hl : WLegal w op) : ∃ w', wstep w op = .ok w' ∧ step w (toPosix op) = .ok w' ∧ WInv w' := by
  cases op with
  | handle op =>
    obtain ⟨rc, h1, hi1⟩ := handle_spec hi op hl
    exact ⟨{ w with rc := rc }, by simp only [wstep, h1, bind, Except.bind], by simp only [toPosix, toDl, step, h1, bind, Except.bind], hi1⟩
  | open' h r e m =>
    cases r with
    | ok x =>
      obtain ⟨w', h1, hi1, -⟩ := open_spec hi h (.ok x) none 0 (wlegal_posix hl)
      obtain ⟨after, h2, -⟩ := openWin_spec h (.ok x) e m hl w' _ h1
      exact ⟨w', by simp only [wstep, h2, bind, Except.bind], by simp only [toPosix, toDl, step, h1, bind, Except.bind], hi1⟩
    | fail c rep =>
      obtain ⟨w', h1, hi1, -⟩ := open_spec hi h (.fail []) none 0 (wlegal_posix hl)
      obtain ⟨after, h2, -⟩ := openWin_spec h (.fail c rep) e m hl w' _ h1
      exact ⟨w', by simp only [wstep, h2, bind, Except.bind], by simp only [toPosix, toDl, step, h1, bind, Except.bind], hi1⟩

theorem wrun_posix : ∀ (ops : List (WOp H Lib)) (w : World H Lib), WInv w → WLegalAll w ops →
    ∃ w', wrunAll w ops = .ok w' ∧ WInv w' ∧ runAll w (ops.map toPosix) = .ok w' ∧ LegalAll w (ops.map toPosix) := by
  intro ops
  induction ops with
  | nil => intro w hi _; exact ⟨w, rfl, hi, rfl, trivial⟩
  | cons op ops ih =>
    intro w hi hl
    obtain ⟨w1, h1, h2, hi1⟩ := wstep_posix hi op hl.1
    obtain ⟨w2, h3, hi2, h4, h5⟩ := ih w1 hi1 (hl.2 _ h1)
    refine ⟨w2, by simp only [wrunAll, h1, h3, bind, Except.bind], hi2, by simp only [List.map_cons, runAll, h2, h4, bind, Except.bind], wlegal_posix hl.1, fun w' h => ?_⟩
    rw [h2] at h; cases h; exact h5

/-- C137: on Windows, in every legal history of `Open` (with any outcomes of `LoadLibraryA`) and handle operations nothing faults, and the `FreeLibrary` calls are exactly:
one for each object that was opened successfully and has no handle any more, none for any other. -/
theorem C137_closed_once (ops : List (WOp H Lib)) (hl : WLegalAll World.new ops) :
    ∃ w : World H Lib, wrunAll World.new ops = .ok w ∧
      ∃ gone : List Obj, gone.Nodup ∧ w.closed = gone.filterMap w.lib ∧ ∀ o, o ∈ gone ↔ o < w.rc.fresh ∧ ¬ holds w o := by
  obtain ⟨w, h1, -, h2, h3⟩ := wrun_posix ops World.new ⟨inv_new, by simp [World.new, RefPtr.State.new]⟩ hl
  obtain ⟨w', h4, h5⟩ := C50_closed_once _ h3
  rw [h2] at h4; cases h4
  exact ⟨w, h1, h5⟩

/-- C137, continued: the outcome of `Open` after any legal history. The result holds a new object for the library exactly if it was loaded, else it is null; nothing is closed;
the error buffer is as `ErrorText` says. -/
theorem C137_open (ops : List (WOp H Lib)) (hl : WLegalAll World.new ops) (w : World H Lib) (hr : wrunAll World.new ops = .ok w)
    (h : H) (r : Load Lib) (error : Option (List Str.Byte)) (maxlength : Nat) (hop : WLegal w (.open' h r error maxlength)) :
    ∃ w' after, openWin w h r error maxlength = .ok (w', after) ∧ ErrorText r maxlength error after ∧
      w'.rc.val (.root (some h)) = (if r.lib.isSome then some w.rc.fresh else none) ∧ w'.lib w.rc.fresh = r.lib ∧ w'.closed = w.closed := by
  obtain ⟨w1, h1, -, h2, h3⟩ := wrun_posix ops World.new ⟨inv_new, by simp [World.new, RefPtr.State.new]⟩ hl
  rw [h1] at hr; cases hr
  cases r with
  | ok x =>
    obtain ⟨w', g1, g2, g3, -, g5⟩ := C50_open _ h3 w h2 h (.ok x) none 0 (wlegal_posix hop)
    obtain ⟨after, k1, k2⟩ := openWin_spec h (.ok x) error maxlength hop w' _ g1
    exact ⟨w', after, k1, k2, g2, g3 x rfl, g5⟩
  | fail c rep =>
    obtain ⟨w', g1, g2, -, g4, g5⟩ := C50_open _ h3 w h2 h (.fail []) none 0 (wlegal_posix hop)
    obtain ⟨after, k1, k2⟩ := openWin_spec h (.fail c rep) error maxlength hop w' _ g1
    exact ⟨w', after, k1, k2, g2, g4 [] rfl, g5⟩

/-! ### Non-vacuity: a failure without message, with one, and a success; all handles dropped. -/

def wdemo : List (WOp Nat Nat) :=
  [.open' 0 (.fail 126#32 (.windowsFails [])) (some [9, 9, 9]) 3, .open' 1 (.fail 126#32 (.windows [110, 111])) (some [9, 9, 9]) 3, .open' 2 (.ok 7) none 0,
   .handle (.ctorCopy 3 (.root 2)), .handle (.destroy 2), .handle (.destroy 3)]

example : (wrunAll World.new wdemo).toOption.map World.closed = some [7] := by decide +kernel
example : (wrunAll World.new (wdemo.take 5)).toOption.map World.closed = some [] := by decide +kernel
example : (openWin (World.new : World Nat Nat) 0 (.fail 126#32 (.windows [110, 111])) (some [9, 9, 9]) 3).toOption.map Prod.snd = some (some [110, 111, 0]) := by decide +kernel
example : WLegalAll World.new (wdemo.take 3) := by
  refine ⟨⟨by simp [World.new, RefPtr.State.new], by simp, ?_⟩, fun w h => ?_⟩
  · intro c r h; cases h; intro _; trivial
  cases h
  refine ⟨⟨by simp [World.new, RefPtr.State.new, newObj], by simp, ?_⟩, fun w h => ?_⟩
  · intro c r h; cases h; intro _; show 2 < 3 % 2 ^ 32; decide
  cases h
  exact ⟨⟨by simp [World.new, RefPtr.State.new, newObj], by simp, by simp⟩, fun w h => trivial⟩

end Verif.SharedLib
