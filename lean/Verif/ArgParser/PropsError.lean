import Verif.ArgParser.Errors
import Verif.ArgParser.Props
/-! # Properties of `ke::args::Parser`: error messages (C130) -/
namespace Verif.ArgParser
open Verif

/-- C130: when `parse` returns false, then either help was asked for (no message), or the message is the right one: the command line can be cut after some
items that are all right, what follows is wrong in one of the ways of `Complaint`, and the message names that argument or option and says what is wrong. -/
theorem C130_error_names_culprit (w : Nat) (cfg : Config) (args : List Str) (st' : State) (hw : 32 ≤ w) (hv : cfg.Valid)
    (h : parse w cfg fresh args = .ok (false, st')) :
    (st'.error = [] ∧ cfg.help = true ∧ ∃ items, Explains IntNum cfg args items ∧ ∃ it ∈ items, it.gives = some (0, .bool true)) ∨
    ∃ before rest, args = before.flatMap Item.args ++ rest ∧ SoFar IntNum cfg before ∧ Complaint cfg before rest st'.error := by
  rcases C72_refused_has_reason w cfg args st' hw hv h with he | he
  rotate_left
  · exact .inl he
  right
  rcases loop_spec w cfg hv args.length args (Nat.le_refl _) fresh 0 with ⟨st1, h1, h2⟩ | ⟨items, st1, pos', h1, h2, h3, h4⟩ | ⟨items, jt, st1, pos', h1, h2, h3, h4, h5⟩ | ⟨_, h2⟩
  · simp only [parse, h2, bind, Except.bind] at h
    cases h
    obtain ⟨items, rest', stf, posf, e1, e2, e3, e4⟩ := loop_complaint hv args.length args (Nat.le_refl _) [] fresh st' 0 .nil (by simp) h2
    exact ⟨items, rest', by simpa using e1, chain_soFar hw e2 e3, e4⟩
  · simp only [parse, h4, bind, Except.bind, Bool.false_eq_true, if_false] at h
    cases hp : cfg.positionals[pos']? with
    | none =>
      rw [hp] at h
      simp only at h
      have hne := chain_error h1
      split at h
      · cases h; exact (he hne).elim
      · cases h
    | some o =>
      rw [hp] at h
      cases h
      refine ⟨items, [], by simp [h2], chain_soFar hw h1 h3, ?_⟩
      rw [show ({ st1 with error := msgMissing o } : State).error = msgMissing o from rfl]
      unfold msgMissing
      rw [ascii_lit7, ascii_lit8]
      have := (chain_pos h1).1
      rw [Nat.zero_add] at this
      exact .missing (by rw [← this]; exact hp) (called_positional hv hp)
  · simp only [parse, h5, bind, Except.bind, if_true] at h
    have hne := chain_error h1
    split at h
    · cases h; exact (he hne).elim
    · cases h
  · simp only [parse, h2, bind, Except.bind] at h; cases h

/-- The messages themselves, on lines that go wrong after something that is all right. -/
example : summary demo (parse 64 demo fresh [lit "f", lit "--nope=3"]) =
    .ok ⟨false, [(none, []), (none, []), (none, []), (none, [])], [some (.str (lit "f"))], ascii "Unrecognized option: --nope=3", [], []⟩ := by decide +kernel
example : summary demo (parse 64 demo fresh [lit "-n", lit "4", lit "--num=x"]) =
    .ok ⟨false, [(none, []), (some (.int 4), []), (none, []), (none, [])], [none], ascii "Option 'num' was specified more than once.", [], []⟩ := by decide +kernel
example : summary demo (parse 64 demo fresh [lit "-n", lit "4x"]) =
    .ok ⟨false, [(none, []), (none, []), (none, []), (none, [])], [none], ascii "Argument 'num' did not recognize value: 4x", [], []⟩ := by decide +kernel
example : summary demo (parse 64 demo fresh [lit "--on=yes"]) =
    .ok ⟨false, [(none, []), (none, []), (none, []), (none, [])], [none], ascii "Argument 'on' did not recognize value: yes", [], []⟩ := by decide +kernel
example : summary demo (parse 64 demo fresh [lit "f", lit "-I"]) =
    .ok ⟨false, [(none, []), (none, []), (none, []), (none, [])], [some (.str (lit "f"))], ascii "Option 'I' needs a value.", [], []⟩ := by decide +kernel
example : summary demo (parse 64 demo fresh [lit "-n=4"]) =
    .ok ⟨false, [(none, []), (some (.int 4), []), (none, []), (none, [])], [none], ascii "Missing value for 'file'.", [], []⟩ := by decide +kernel
example : Complaint demo [] [lit "--num"] (ascii "Option '" ++ lit "num" ++ ascii "' needs a value.") :=
  have hh : Head demo (lit "--num") (lit "--num") := .whole (by decide) (by decide)
  have ho : Owns Opt.long demo 1 { short := some (lit "n"), long := some (lit "num"), name := none, help := [], kind := .int (some 5) } (lit "num") :=
    ⟨rfl, rfl, fun j q hj hq => by
      obtain rfl : j = 0 := by omega
      cases hq; decide⟩
  .needsValue (.inl rfl) (.long hh ho) hh rfl rfl (.long rfl rfl)

end Verif.ArgParser
