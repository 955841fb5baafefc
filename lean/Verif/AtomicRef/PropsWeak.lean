import Verif.AtomicRef.PropsOrder
import Mathlib.Order.Extension.Linear
/-!
# Executions of a weak memory model are the interleavings of Model.lean (C93)

An execution in the C++ memory model (C++17 [intro.races]) is not an interleaving: it is a set of events with a
happens-before order and, for every atomic object, a modification order. This file proves that it can be laid out as one
interleaving in which the writes to the `AtomicRef`'s word come in modification order, so that every CAS that succeeds
reads the last value written, as the model's step `cont` at `cas` does. Nothing is claimed of what plain loads and
failing CASes read; the model lets them read anything (`Act.stale`).

The reference counts need no separate treatment: every write to a count is a read-modify-write that releases and
acquires (am-refcounting-threadsafe.h:53, 56), so its modification order is part of happens-before.
-/
namespace Verif.AtomicRef

/-- What the C++ memory model says of an execution, as far as it concerns one atomic word: `hb` is happens-before,
`writes` the events that write the word (stores and successful CASes), `mo` its modification order, and `source e` the
write a successful CAS `e` reads from. -/
structure Execution (E : Type) where
  hb : E → E → Prop
  writes : E → Prop
  mo : E → E → Prop
  source : E → Option E

/-- The rules of the memory model used: happens-before is a strict partial order; the modification order is a strict
total order of the writes ([intro.races]/4); it agrees with happens-before (write-write coherence, [intro.races]/15);
and a read-modify-write reads the last value in the modification order before its own write ([atomics.order]/10). -/
structure Execution.Permitted {E : Type} (x : Execution E) : Prop where
  hb_irrefl : ∀ a, ¬ x.hb a a
  hb_trans : ∀ a b c, x.hb a b → x.hb b c → x.hb a c
  mo_writes : ∀ a b, x.mo a b → x.writes a ∧ x.writes b
  mo_irrefl : ∀ a, ¬ x.mo a a
  mo_trans : ∀ a b c, x.mo a b → x.mo b c → x.mo a c
  mo_total : ∀ a b, x.writes a → x.writes b → a ≠ b → x.mo a b ∨ x.mo b a
  coherent : ∀ a b, x.writes a → x.writes b → x.hb a b → x.mo a b
  rmw : ∀ e w, x.source e = some w → x.mo w e ∧ ∀ c, x.mo w c → c ≠ e → x.mo e c

/-- A strict total order of all events. -/
structure Interleaving {E : Type} (lt : E → E → Prop) : Prop where
  irrefl : ∀ a, ¬ lt a a
  trans : ∀ a b c, lt a b → lt b c → lt a c
  total : ∀ a b, a ≠ b → lt a b ∨ lt b a

variable {E : Type}

/-- Happens-before, extended by the modification order. -/
def Execution.ext (x : Execution E) (a b : E) : Prop :=
  x.hb a b ∨ ∃ c d, (a = c ∨ x.hb a c) ∧ x.mo c d ∧ (d = b ∨ x.hb d b)

theorem ext_trans {x : Execution E} (h : x.Permitted) {a b c : E} (h1 : x.ext a b) (h2 : x.ext b c) : x.ext a c := by
  have tr : ∀ {p q r : E}, (p = q ∨ x.hb p q) → (q = r ∨ x.hb q r) → (p = r ∨ x.hb p r) := by
    rintro p q r (rfl | h1) (rfl | h2)
    · exact .inl rfl
    · exact .inr h2
    · exact .inr h1
    · exact .inr (h.hb_trans _ _ _ h1 h2)
  rcases h1 with h1 | ⟨p, q, e1, e2, e3⟩
  · rcases h2 with h2 | ⟨p', q', f1, f2, f3⟩
    · exact .inl (h.hb_trans _ _ _ h1 h2)
    · exact .inr ⟨p', q', tr (.inr h1) f1, f2, f3⟩
  · rcases h2 with h2 | ⟨p', q', f1, f2, f3⟩
    · exact .inr ⟨p, q, e1, e2, tr e3 (.inr h2)⟩
    · rcases tr e3 f1 with rfl | hq
      · exact .inr ⟨p, q', e1, h.mo_trans _ _ _ e2 f2, f3⟩
      · have := h.coherent q p' (h.mo_writes _ _ e2).2 (h.mo_writes _ _ f2).1 hq
        exact .inr ⟨p, q', e1, h.mo_trans _ _ _ e2 (h.mo_trans _ _ _ this f2), f3⟩

theorem ext_irrefl {x : Execution E} (h : x.Permitted) (a : E) : ¬ x.ext a a := by
  rintro (h1 | ⟨p, q, e1, e2, e3⟩)
  · exact h.hb_irrefl _ h1
  · have : q = p ∨ x.hb q p := by
      rcases e3 with rfl | e3
      · rcases e1 with rfl | e1
        · exact .inl rfl
        · exact .inr e1
      · rcases e1 with rfl | e1
        · exact .inr e3
        · exact .inr (h.hb_trans _ _ _ e3 e1)
    rcases this with rfl | hq
    · exact h.mo_irrefl _ e2
    · exact h.mo_irrefl _ (h.mo_trans _ _ _ e2 (h.coherent q p (h.mo_writes _ _ e2).2 (h.mo_writes _ _ e2).1 hq))

/-- C93: an execution the memory model permits is an interleaving. The events can be put into one total order that
keeps happens-before (each thread's own order included) and the order of the writes to the word, and in that order a
successful CAS reads the write that comes last before it. -/
theorem C93_interleaving (x : Execution E) (h : x.Permitted) : ∃ lt : E → E → Prop, Interleaving lt ∧
    (∀ a b, x.hb a b → lt a b) ∧ (∀ a b, x.mo a b → lt a b) ∧
    (∀ e w, x.source e = some w → lt w e ∧ ∀ c, x.writes c → lt w c → lt c e → False) := by
  have po : IsPartialOrder E (fun a b => a = b ∨ x.ext a b) :=
    { refl := fun a => .inl rfl
      trans := by
        rintro a b c (rfl | h1) (rfl | h2)
        · exact .inl rfl
        · exact .inr h2
        · exact .inr h1
        · exact .inr (ext_trans h h1 h2)
      antisymm := by
        rintro a b (rfl | h1) (h2 | h2)
        · rfl
        · rfl
        · exact h2.symm
        · exact (ext_irrefl h _ (ext_trans h h1 h2)).elim }
  obtain ⟨le, hl, hr⟩ := @extend_partialOrder E _ po
  have inc : ∀ a b, x.ext a b → le a b ∧ a ≠ b := fun a b hab =>
    ⟨hr a b (.inr hab), by rintro rfl; exact ext_irrefl h _ hab⟩
  have hmo : ∀ a b, x.mo a b → le a b ∧ a ≠ b := fun a b hab => inc a b (.inr ⟨a, b, .inl rfl, hab, .inl rfl⟩)
  refine ⟨fun a b => le a b ∧ a ≠ b, ⟨fun a h => h.2 rfl, fun a b c h1 h2 => ⟨hl.trans _ _ _ h1.1 h2.1, ?_⟩, fun a b hab => ?_⟩,
    fun a b hab => inc a b (.inl hab), hmo, fun e w hs => ⟨hmo _ _ (h.rmw e w hs).1, fun c hc h1 h2 => ?_⟩⟩
  · rintro rfl; exact h1.2 (hl.antisymm _ _ h1.1 h2.1)
  · rcases hl.total a b with h1 | h1
    · exact .inl ⟨h1, hab⟩
    · exact .inr ⟨h1, hab.symm⟩
  · have ⟨hwe, hn⟩ := h.rmw e w hs
    rcases h.mo_total w c (h.mo_writes _ _ hwe).1 hc h1.2 with hm | hm
    · have := hmo _ _ (hn c hm h2.2)
      exact this.2 (hl.antisymm _ _ this.1 h2.1)
    · have := hmo _ _ hm
      exact this.2 (hl.antisymm _ _ this.1 h1.1)

/-- Two threads: thread A stores (event 0), thread B locks by a CAS that reads it (2) and stores (3), thread A loads the
word after its own store, but still reads the old value (1). -/
def twoThreads : Execution (Fin 4) where
  hb := fun a b => (a = 0 ∧ b = 1) ∨ (a = 2 ∧ b = 3)
  writes := fun a => a = 0 ∨ a = 2 ∨ a = 3
  mo := fun a b => a < b ∧ a ≠ 1 ∧ b ≠ 1
  source := fun e => if e = 2 then some 0 else none

example : twoThreads.Permitted where
  hb_irrefl := by simp only [twoThreads]; decide
  hb_trans := by simp only [twoThreads]; decide
  mo_writes := by simp only [twoThreads]; decide
  mo_irrefl := by simp only [twoThreads]; decide
  mo_trans := by simp only [twoThreads]; decide
  mo_total := by simp only [twoThreads]; decide
  coherent := by simp only [twoThreads]; decide
  rmw := by simp only [twoThreads]; decide

/-! In the model such a load and such a CAS are steps: thread 1 starts a `get`, its load returns the null pointer that
was there before thread 0's assignment and the CAS fails; it then tries the right value, but the CAS sees the old value
again. In the end it gets the object. -/

def demoStale : List (Act (Fin 2)) :=
  [.make 0 0#64, .create 0 16#64, .set 0 16#64, .cont 0, .cont 0, .cont 0, .cont 0, .cont 0, .cont 0,
   .get 1, .stale 1 0#64, .cont 1, .cont 1, .stale 1 0#64, .cont 1, .cont 1, .cont 1, .cont 1, .cont 1, .cont 1]

example : (sched State.start demoStale).map (fun s => decide (s.word = 16#64 ∧ s.cnt 16#64 = 3 ∧ s.pc 1 = .idle
    ∧ s.tok = [(1, 16#64), (0, 16#64)])) = some true := by decide +kernel

end Verif.AtomicRef
