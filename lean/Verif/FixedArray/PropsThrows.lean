import Verif.FixedArray.SpecThrows
import Verif.FixedArray.Props
/-!
# C140: `ke::FixedArray` when constructors of elements throw
-/
namespace Verif.FixedArray
open Verif

set_option linter.unusedSectionVars false
set_option linter.unusedSimpArgs false
variable {V A : Type} [DecidableEq V]

/-- A new buffer that nobody will own. -/
theorem inv_abandon {c : Cfg} {s : State V A} {e : Env V A} {ab : List Nat} {j : Nat} (hi : Inv c s e (ab, j)) (k : Nat) (m : Mem A)
    (hm : ∀ b, b ≠ s.mem.next → m.bufs b = s.mem.bufs b) (h1 : m.next = s.mem.next + 1)
    (h2 : m.freed = s.mem.freed) (h3 : m.made = s.mem.made + k) (h4 : m.gone = s.mem.gone) :
    Inv c ({ s with mem := m } : State V A) e (s.mem.next :: ab, j + k) := by
  have hold : ∀ u n b, s.vars u = some ⟨n, some b⟩ → b < s.mem.next := by
    intro u n b h
    have := hi.rep u
    rcases hu : e u with _ | _ | k <;> rw [hu] at this
    · simp only [Rep] at this; rw [h] at this; cases this
    · simp only [Rep] at this; rw [h] at this; cases this
    · obtain ⟨b', g1, -, g2, -⟩ := this
      rw [h] at g1; injection g1 with g1; injection g1 with _ g1; injection g1 with g1; omega
  refine ⟨fun u => ?_, hi.inj, by show m.freed.Nodup; rw [h2]; exact hi.nodup, ?_, ?_, ?_, ?_, ?_⟩
  · refine (hi.rep u).frame (fun n b h => ?_) (by show s.mem.next ≤ m.next; omega)
    have := hold u n b h
    exact ⟨hm b (by omega), by show _ → b ∉ m.freed; rw [h2]; exact id⟩
  · intro b hb
    change b ∈ m.freed at hb
    show b < m.next
    rw [h2] at hb; have := hi.lt b hb; omega
  · intro b hb
    change b < m.next at hb
    show (b ∈ m.freed ∨ _) ∨ _
    rw [h1] at hb
    by_cases hbn : b = s.mem.next
    · left; right; rw [hbn]; exact List.mem_cons_self
    · rw [h2]
      exact (hi.cover b (by omega)).imp (fun h => h.imp id (fun h => List.mem_cons_of_mem _ h)) id
  · obtain ⟨L, g1, g2, g3⟩ := hi.num
    refine ⟨L, g1, g2, ?_⟩
    show m.made = m.gone + (j + k) + _
    simp only at g3
    omega
  · refine List.nodup_cons.2 ⟨fun h => ?_, hi.lost.1⟩
    have := (hi.lost.2 _ h).1; omega
  · intro b hb
    show b < m.next ∧ b ∉ m.freed ∧ _
    rw [h1, h2]
    rcases List.mem_cons.1 hb with rfl | hb
    · exact ⟨by omega, fun h => by have := hi.lt _ h; omega, fun v n h => by have := hold v n _ h; omega⟩
    · obtain ⟨q1, q2, q3⟩ := hi.lost.2 b hb
      exact ⟨by omega, q2, q3⟩

/-- A loop whose exception does not come. -/
theorem loopThrow_done {k n : Nat} (h : ¬ k < n) (body : Mem A → Nat → Exec (Mem A)) (pre : Mem A → Exec Unit) (m : Mem A) :
    loopThrow k n body pre m = ((List.range n).foldlM body m).map (fun m => (m, false)) := by
  rw [loopThrow, Nat.min_eq_right (by omega)]
  simp only [if_neg h, bind, Except.bind]
  cases (List.range n).foldlM body m <;> rfl

/-- The buffer `b` of `n` slots has its first `k` slots filled. -/
def Mem.partly (m : Mem A) (b n k : Nat) (val : Nat → A) : Mem A :=
  { m with bufs := fun c => if c = b then some ((List.range k).map (fun i => some (val i)) ++ List.replicate (n - k) none) else m.bufs c, made := m.made + k }

/-- A loop that is left by an exception. -/
theorem loopThrow_throws {k n : Nat} (h : k < n) (m : Mem A) (b : Nat) (val : Nat → A) (body : Mem A → Nat → Exec (Mem A)) (pre : Mem A → Exec Unit)
    (hb : m.bufs b = some (List.replicate n none))
    (hbody : ∀ m' i, i < n → (∀ c, c ≠ b → m'.bufs c = m.bufs c) → body m' i = construct m' (some b) i (val i))
    (hpre : ∀ m', (∀ c, c ≠ b → m'.bufs c = m.bufs c) → pre m' = .ok ()) :
    loopThrow k n body pre m =
      .ok (m.partly b n k val, true) := by
  rw [Mem.partly, loopThrow, Nat.min_eq_left (by omega), fill_loop m b n val body hb hbody k (by omega)]
  simp only [bind, Except.bind, if_pos h]
  rw [hpre _ (by intro c hc; simp [hc])]

/-- Without an exception a call is the call of C58. -/
theorem stepThrow_none {c : Cfg} {s : State V A} {e : Env V A} {g : List Nat × Nat} (hi : Inv c s e g) (o : Op V A) (hl : Legal c.toLayout e o) (k : Nat)
    (hk : ¬ k < builds e o) : stepThrow c k s o = (step c s o).map (fun s => (s, false)) := by
  cases o with
  | ctorSize v n a =>
    simp only [stepThrow, step, bind, Except.bind]
    cases ha : allocate c s.mem n with
    | error f => rfl
    | ok r =>
      obtain ⟨x, good, m⟩ := r
      have hx : x.size = n := by
        unfold allocate at ha; simp only at ha
        split at ha
        · cases ha; rfl
        · split at ha <;> cases ha; rfl
      cases good with
      | false => simp [ended, Except.map]
      | true =>
        simp only [if_true, fillElems, loopThrow_done (show ¬ k < x.size by rw [hx]; exact hk), bind, Except.bind]
        cases (List.range x.size).foldlM (fun m i => construct m x.data i a) m <;> rfl
  | ctorVector v l =>
    simp only [stepThrow, step, bind, Except.bind]
    cases ha : allocate c s.mem l.length with
    | error f => rfl
    | ok r =>
      obtain ⟨x, good, m⟩ := r
      have hx : x.size = l.length := by
        unfold allocate at ha; simp only at ha
        split at ha
        · cases ha; rfl
        · split at ha <;> cases ha; rfl
      cases good with
      | false => simp [ended, Except.map]
      | true =>
        simp only [if_true, loopThrow_done (show ¬ k < x.size by rw [hx]; exact hk), bind, Except.bind]
        cases (List.range x.size).foldlM (fun m i => putFrom m x.data l i) m <;> rfl
  | ctorCopy v w =>
    obtain ⟨y, hy, hyl, hys⟩ := hi.look hl.2
    simp only [stepThrow, step, bind, Except.bind, hyl]
    cases ha : allocate c s.mem y.size with
    | error f => rfl
    | ok r =>
      obtain ⟨x, good, m⟩ := r
      have hx : x.size = y.size := by
        unfold allocate at ha; simp only at ha
        split at ha
        · cases ha; rfl
        · split at ha <;> cases ha; rfl
      cases good with
      | false => simp [ended, Except.map]
      | true =>
        simp only [if_true, copyElems, loopThrow_done (show ¬ k < x.size by rw [hx, hys]; exact hk), bind, Except.bind]
        generalize List.foldlM (m := Except Fault) _ m (List.range x.size) = R
        cases R <;> rfl
  | assignCopy v w =>
    obtain ⟨x, hx, hxl, hxs⟩ := hi.look hl.1
    obtain ⟨y, hy, hyl, hys⟩ := hi.look hl.2.1
    simp only [stepThrow, step, bind, Except.bind, hxl, hyl, assignCopy]
    cases destruct s.mem x with
    | error f => rfl
    | ok m =>
      simp only
      by_cases hne : x.size ≠ y.size
      · rw [if_pos hne, if_pos hne]
        cases deallocate m x with
        | error f => rfl
        | ok m =>
          simp only
          cases ha : allocate c m y.size with
          | error f => rfl
          | ok r =>
            obtain ⟨x', good, m⟩ := r
            have hx : x'.size = y.size := by
              unfold allocate at ha; simp only at ha
              split at ha
              · cases ha; rfl
              · split at ha <;> cases ha; rfl
            cases good with
            | false => rfl
            | true =>
              simp only [if_true, copyElems, loopThrow_done (show ¬ k < x'.size by rw [hx, hys]; exact hk), bind, Except.bind]
              generalize List.foldlM (m := Except Fault) _ m (List.range x'.size) = R
              cases R <;> rfl
      · rw [if_neg hne, if_neg hne]
        simp only [copyElems, loopThrow_done (show ¬ k < x.size by rw [Decidable.not_not.1 hne, hys]; exact hk), bind, Except.bind]
        generalize List.foldlM (m := Except Fault) _ m (List.range x.size) = R
        cases R <;> rfl
  | ctor v => rfl
  | ctorMove v w => simp only [stepThrow, bind, Except.bind]; cases step c s (.ctorMove v w) <;> rfl
  | dtor v => simp only [stepThrow, bind, Except.bind]; cases step c s (.dtor v) <;> rfl
  | write v i a => simp only [stepThrow, bind, Except.bind]; cases step c s (.write v i a) <;> rfl
  | assignMove v w => simp only [stepThrow, bind, Except.bind]; cases step c s (.assignMove v w) <;> rfl

theorem size_lookup_touch {c : Cfg} {m0 m : Mem A} {y : Arr} {ly : Option (Option (List A))} (hy : Rep c m0 (some y) ly) (b i : Nat)
    (hyb : y.data ≠ some b) (hm : ∀ d, d ≠ b → m.bufs d = m0.bufs d) (hi : i < (elems ly).length) : at' m y i = .ok (elems ly)[i] := by
  have h1 := hy.at i
  rw [dif_pos hi] at h1
  rw [← h1]
  unfold at'
  cases hd : y.data with
  | none => rfl
  | some d =>
    have hdb : d ≠ b := by rintro rfl; exact hyb hd
    simp only [hm d hdb]

/-- The outcomes of a call: as C58, or an exception after which the variables are as before and one more buffer is lost. -/
def GoodT (c : Cfg) (r : Exec (State V A × Bool)) (b : Bool) (e : Env V A) (g : List Nat × Nat) (k : Nat) : Prop :=
  (∃ s ab, r = .ok (s, b) ∧ Inv c s e (ab, g.2 + (if b then k else 0)) ∧ ab.length = g.1.length + (if b then 1 else 0)) ∨
    (r = .error .abort ∧ c.aborts = true ∧ ∃ k b, c.alloc k b = false)

theorem goodT_of_good {c : Cfg} {r : Exec (State V A)} {e : Env V A} {g : List Nat × Nat} (k : Nat) (h : Good c r e g) :
    GoodT c (r.map (fun s => (s, false))) false e g k := by
  rcases h with ⟨s, rfl, h⟩ | ⟨rfl, h⟩
  · exact .inl ⟨s, g.1, rfl, h, rfl⟩
  · exact .inr ⟨rfl, h⟩

theorem goodT_step {c : Cfg} (hs : 0 < c.sizeof) (hp : c.aborts = true ∨ ∀ k b, c.alloc k b = true) {s : State V A} {e : Env V A} {g : List Nat × Nat}
    (hi : Inv c s e g) (o : Op V A × Option Nat) (hl : Legal c.toLayout e o.1) (hn : ∀ v w, o.1 = .assignCopy v w → throws e o = false) :
    GoodT c (stepT c s o.1 o.2) (throws e o) (specT e o) g (o.2.getD 0) := by
  obtain ⟨o, t⟩ := o
  simp only at hl hn
  cases t with
  | none =>
    have h := goodT_of_good 0 (good_step hs hp hi o hl)
    have he : stepT c s o none = (step c s o).map (fun s => (s, false)) := by
      simp only [stepT, bind, Except.bind]; cases step c s o <;> rfl
    simpa [throws, specT, he] using h
  | some k =>
    by_cases hk : k < builds e o
    · have ht : throws e (o, some k) = true := by simp [throws, hk]
      simp only [ht, specT, if_true, stepT, Option.getD_some]
      cases o with
      | ctorSize v n a =>
        rcases alloc_cases c hp s.mem.tries (c.sizeof * n) with ha | ⟨ha, hab⟩
        · left
          have hal := allocate_ok c hs s.mem n hl.2 ha
          have hf := loopThrow_throws hk (s.mem.grown n) s.mem.next (fun _ => a) (fun m i => construct m (some s.mem.next) i a) (fun _ => .ok ())
            (by simp [Mem.grown, builds]) (fun _ _ _ _ => rfl) (fun _ _ => rfl)
          simp only [builds] at hf
          refine ⟨{ s with mem := (s.mem.grown n).partly s.mem.next n k (fun _ => a) }, s.mem.next :: g.1, by simp only [stepThrow, hal, bind, Except.bind, if_true, hf, ended],
            inv_abandon hi k _ ?_ rfl rfl rfl rfl, rfl⟩
          intro b hb
          simp [Mem.partly, Mem.grown, hb]
        · right
          exact ⟨by simp only [stepThrow, allocate_abort c s.mem n hl.2 hab ha, bind, Except.bind], hab, _, _, ha⟩
      | ctorVector v l =>
        have hsz := hl.2
        rcases alloc_cases c hp s.mem.tries (c.sizeof * l.length) with ha | ⟨ha, hab⟩
        · left
          have hal := allocate_ok c hs s.mem l.length hl.2 ha
          obtain ⟨d, hd⟩ : ∃ d, d ∈ l := by
            cases l with
            | nil => simp [builds] at hk
            | cons d l => exact ⟨d, by simp⟩
          have hf := loopThrow_throws hk (s.mem.grown l.length) s.mem.next (fun i => l[i]?.getD d) (fun m i => putFrom m (some s.mem.next) l i) (fun _ => .ok ())
            (by simp [Mem.grown, builds]) (fun m' i hi _ => by simp only [builds] at hi; simp [putFrom, List.getElem?_eq_getElem hi]) (fun _ _ => rfl)
          simp only [builds] at hf
          refine ⟨{ s with mem := (s.mem.grown l.length).partly s.mem.next l.length k (fun i => l[i]?.getD d) }, s.mem.next :: g.1,
            by simp only [stepThrow, hal, bind, Except.bind, if_true, hf, ended], inv_abandon hi k _ ?_ rfl rfl rfl rfl, rfl⟩
          intro b hb
          simp [Mem.partly, Mem.grown, hb]
        · right
          exact ⟨by simp only [stepThrow, allocate_abort c s.mem _ hl.2 hab ha, bind, Except.bind], hab, _, _, ha⟩
      | ctorCopy v w =>
        obtain ⟨y, hy, hyl, hys⟩ := hi.look hl.2
        have hsz := hi.size_ok w
        have hr := hi.rep w
        rw [hy] at hr
        rcases alloc_cases c hp s.mem.tries (c.sizeof * (elems (e w)).length) with ha | ⟨ha, hab⟩
        · left
          have hal := allocate_ok c hs s.mem (elems (e w)).length hsz ha
          simp only [builds] at hk
          have hat : ∀ (m' : Mem A) i, i < (elems (e w)).length → (∀ c, c ≠ s.mem.next → m'.bufs c = (s.mem.grown (elems (e w)).length).bufs c) →
              at' m' y i = .ok ((elems (e w))[i]?.getD (elems (e w))[k]) := by
            intro m' i hi' hc
            rw [size_lookup_touch hr s.mem.next i (hi.data_lt hy) (fun d hd => by rw [hc d hd]; simp [Mem.grown, hd]) hi', List.getElem?_eq_getElem hi', Option.getD_some]
          have hf := loopThrow_throws hk (s.mem.grown (elems (e w)).length) s.mem.next (fun i => (elems (e w))[i]?.getD (elems (e w))[k])
            (fun m i => do construct m (some s.mem.next) i (← at' m y i)) (touch y k)
            (by simp [Mem.grown]) (fun m' i hi' hc => by simp only [bind, Except.bind, hat m' i hi' hc]) (fun m' hc => by simp only [touch, bind, Except.bind, hat m' k hk hc])
          simp only [bind, Except.bind] at hf
          refine ⟨{ s with mem := (s.mem.grown (elems (e w)).length).partly s.mem.next (elems (e w)).length k (fun i => (elems (e w))[i]?.getD (elems (e w))[k]) }, s.mem.next :: g.1,
            by simp only [stepThrow, hyl, hys, hal, bind, Except.bind, if_true, hf, ended], inv_abandon hi k _ ?_ rfl rfl rfl rfl, rfl⟩
          intro b hb
          simp [Mem.partly, Mem.grown, hb]
        · right
          exact ⟨by simp only [stepThrow, hyl, hys, allocate_abort c s.mem _ hsz hab ha, bind, Except.bind], hab, _, _, ha⟩
      | assignCopy v w => rw [hn v w rfl] at ht; cases ht
      | ctor v => simp [builds] at hk
      | ctorMove v w => simp [builds] at hk
      | dtor v => simp [builds] at hk
      | write v i a => simp [builds] at hk
      | assignMove v w => simp [builds] at hk
    · have ht : throws e (o, some k) = false := by simp [throws, hk]
      have h := goodT_of_good k (good_step hs hp hi o hl)
      simpa [ht, specT, stepT, stepThrow_none hi o hl k hk] using h

theorem goodT_run {c : Cfg} (hs : 0 < c.sizeof) (hp : c.aborts = true ∨ ∀ k b, c.alloc k b = true) (os : List (Op V A × Option Nat))
    {s : State V A} {e : Env V A} {g : List Nat × Nat} (hi : Inv c s e g) (hl : LegalRunT c.toLayout os e) (hn : NoAssignThrows os e) :
    (∃ s' ab, runT c os s = .ok (s', throwsRun os e) ∧ Inv c s' (specRunT os e) (ab, g.2 + (lostRun os e).sum) ∧ ab.length = g.1.length + (lostRun os e).length) ∨
    (runT c os s = .error .abort ∧ c.aborts = true ∧ ∃ k b, c.alloc k b = false) := by
  induction os generalizing s e g with
  | nil => exact .inl ⟨s, g.1, rfl, hi, rfl⟩
  | cons o os ih =>
    rcases goodT_step hs hp hi o hl.1 hn.1 with ⟨s1, ab1, h1, hi1, hlen⟩ | ⟨h1, h2⟩
    · rcases ih hi1 hl.2 hn.2 with ⟨s', ab, h3, h4, h5⟩ | ⟨h3, h4⟩
      · left
        refine ⟨s', ab, by simp only [runT, bind, Except.bind, h1, h3, throwsRun], ?_, ?_⟩
        · have : g.2 + (if throws e o then o.2.getD 0 else 0) + (lostRun os (specT e o)).sum = g.2 + (lostRun (o :: os) e).sum := by
            cases ht : throws e o <;> simp [lostRun, ht, Nat.add_assoc]
          rw [← this]
          exact h4
        · rw [h5]
          simp only [hlen]
          cases ht : throws e o <;> simp [lostRun, ht] <;> omega
      · exact .inr ⟨by simp only [runT, bind, Except.bind, h1, h3], h4⟩
    · exact .inr ⟨by simp only [runT, bind, Except.bind, h1], h2⟩

/-- C140: whatever constructors throw, a history that follows the rules of C58 has no undefined behaviour. -/
def ExceptionSafe : Prop :=
  ∀ os : List (Op Nat Nat × Option Nat), LegalRunT ⟨4, 64⟩ os (fun _ => none) → ∃ r, runT ⟨⟨4, 64⟩, fun _ _ => true, true⟩ os State.start = .ok r

/-- C140 is false: an assignment whose second element copy throws leaves one element of two; the destructor destroys both. -/
theorem C140_exception_refuted : ¬ ExceptionSafe := by
  intro h
  obtain ⟨r, hr⟩ := h [(.ctorVector 0 [1, 2], none), (.ctorVector 1 [3, 4], none), (.assignCopy 0 1, some 1), (.dtor 0, none)]
    (by simp [LegalRunT, Legal, specT, throws, builds, specStep, Env.set, elems])
  have : (runT ⟨⟨4, 64⟩, fun _ _ => true, true⟩ [(.ctorVector 0 [1, 2], none), (.ctorVector 1 [3, 4], none), (.assignCopy 0 1, some 1), (.dtor 0, none)]
    (State.start : State Nat Nat)).toOption.isNone = true := by decide +kernel
  rw [hr] at this
  cases this

/-- C140: as long as no copy assignment throws, exceptions are harmless but leak: nothing faults, a call whose constructor throws leaves all variables as they were, and exactly
one buffer with the elements constructed before the exception is never freed. -/
theorem C140_constructors_partial (c : Cfg) (hs : 0 < c.sizeof) (hp : c.aborts = true ∨ ∀ k b, c.alloc k b = true) (os : List (Op V A × Option Nat))
    (hl : LegalRunT c.toLayout os (fun _ => none)) (hn : NoAssignThrows os (fun _ => none : Env V A)) :
    (runT c os State.start = .error .abort ∧ c.aborts = true ∧ ∃ k b, c.alloc k b = false) ∨
    ∃ (s : State V A) (ab : List Nat), runT c os State.start = .ok (s, throwsRun os (fun _ => none)) ∧
      (∀ v, Shows (s.vars v) s.mem (specRunT os (fun _ => none) v)) ∧
      ab.Nodup ∧ ab.length = (lostRun os (fun _ => none : Env V A)).length ∧
      (∀ b, b < s.mem.next → (s.mem.freed.count b = 0 ↔ b ∈ ab ∨ ∃ v n, s.vars v = some ⟨n, some b⟩)) ∧ s.mem.freed.Nodup ∧
      ∃ L : List V, L.Nodup ∧ (∀ v, elems (specRunT os (fun _ => none) v) ≠ [] → v ∈ L) ∧
        s.mem.made = s.mem.gone + (lostRun os (fun _ => none : Env V A)).sum + (L.map (fun v => (elems (specRunT os (fun _ => none) v)).length)).sum := by
  rcases goodT_run hs hp os (inv_start c) hl hn with ⟨s, ab, h1, h2, h3⟩ | h
  · right
    refine ⟨s, ab, h1, fun v => shows_of_rep (h2.rep v), h2.lost.1, by simpa using h3, fun b hb => ?_, h2.nodup, ?_⟩
    · rw [List.count_eq_zero]
      constructor
      · intro hf
        rcases h2.cover b hb with (h | h) | h
        · exact absurd h hf
        · exact .inl h
        · exact .inr h
      · rintro (h | ⟨v, n, h⟩)
        · exact (h2.lost.2 b h).2.1
        · have := h2.rep v
          rcases hu : specRunT os (fun _ => none) v with _ | _ | l <;> rw [hu] at this
          · simp only [Rep] at this; rw [h] at this; cases this
          · simp only [Rep] at this; rw [h] at this; cases this
          · obtain ⟨b', g1, -, -, g4, -⟩ := this
            rw [h] at g1; injection g1 with g1; injection g1 with _ g1; injection g1 with g1; rw [g1]; exact g4
    · obtain ⟨L, g1, g2, g3⟩ := h2.num
      exact ⟨L, g1, g2, by simpa using g3⟩
  · exact .inl h

/-- Destroying the elements of a buffer that has fewer than it should: the first missing one is a fault. -/
theorem destruct_partly (l : List A) (j : Nat) (m : Mem A) (b : Nat) (hb : m.bufs b = some (l.map some ++ List.replicate (j + 1) none)) :
    destruct m ⟨l.length + (j + 1), some b⟩ = .error .doubleFree := by
  have key : ∀ n, n ≤ l.length → (List.range n).foldlM (fun m i => destroyAt m (some b) i) m =
      .ok { m with bufs := fun c => if c = b then some (List.replicate n none ++ ((l.drop n).map some ++ List.replicate (j + 1) none)) else m.bufs c, gone := m.gone + n } := by
    intro n
    induction n with
    | zero =>
      intro _
      simp only [List.range_zero, List.foldlM_nil, pure, Except.pure]
      congr 1
      cases m with
      | mk bufs next tries freed made gone =>
        simp only [Mem.mk.injEq, and_true, true_and, Nat.add_zero]
        funext c
        by_cases h : c = b
        · subst h; simpa using hb
        · simp [h]
    | succ n ih =>
      intro hn
      rw [range_append_one, List.foldlM_append, ih (by omega)]
      have hd : l.drop n = l[n] :: l.drop (n + 1) := List.drop_eq_getElem_cons (by omega)
      have hget : (List.replicate n (none : Option A) ++ ((l.drop n).map some ++ List.replicate (j + 1) none))[n]? = some (some l[n]) := by
        rw [List.getElem?_append_right (by simp), List.length_replicate, Nat.sub_self, hd]; rfl
      simp only [bind, Except.bind, List.foldlM_cons, List.foldlM_nil, destroyAt, if_pos, hget, pure, Except.pure]
      congr 1
      simp only [Mem.mk.injEq, true_and, and_true]
      refine ⟨?_, by omega⟩
      funext c
      by_cases h : c = b
      · subst h
        simp only [if_pos, Option.some.injEq]
        rw [List.set_append_right _ _ (by simp), List.length_replicate, Nat.sub_self, hd, List.map_cons, List.cons_append, List.set_cons_zero,
          List.replicate_succ' (n := n), List.append_assoc]
        rfl
      · simp [h]
  have hr : List.range (l.length + (j + 1)) = List.range l.length ++ (l.length :: (List.range j).map (fun i => l.length + 1 + i)) := by
    rw [List.range_add]
    congr 1
    rw [List.range_succ_eq_map]
    simp only [List.map_cons, List.map_map, Nat.add_zero]
    congr 1
    apply List.map_congr_left
    intro i _
    simp only [Function.comp]
    omega
  unfold destruct
  simp only
  rw [hr, List.foldlM_append, key l.length (Nat.le_refl _)]
  have hget : (List.replicate l.length (none : Option A) ++ ((l.drop l.length).map some ++ List.replicate (j + 1) none))[l.length]? = some none := by
    rw [List.getElem?_append_right (by simp)]
    simp
  simp only [bind, Except.bind, List.foldlM_cons, destroyAt, if_pos, hget]

/-- What is left of the left side of an assignment that threw. -/
theorem partly_shows {m : Mem A} {b k : Nat} {L : List A} (hk : k < L.length) (val : Nat → A) (hval : ∀ i (h : i < L.length), val i = L[i]) :
    (∀ i (h : i < k), at' (m.partly b L.length k val) ⟨L.length, some b⟩ i = .ok (L[i]'(by omega))) ∧
    (∀ i, k ≤ i → i < L.length → at' (m.partly b L.length k val) ⟨L.length, some b⟩ i = .error .useAfterFree) ∧
    destruct (m.partly b L.length k val) ⟨L.length, some b⟩ = .error .doubleFree := by
  have hb : (m.partly b L.length k val).bufs b = some ((L.take k).map some ++ List.replicate (L.length - k - 1 + 1) none) := by
    simp only [Mem.partly, if_pos, Option.some.injEq]
    congr 1
    · apply List.ext_getElem
      · simp; omega
      · intro i h1 h2
        simp only [List.length_map, List.length_range] at h1
        simp [hval i (by omega)]
    · congr 1; omega
  refine ⟨fun i h => ?_, fun i h1 h2 => ?_, ?_⟩
  · unfold at'
    simp only [if_pos (show i < L.length by omega), hb]
    rw [List.getElem?_append_left (by simp; omega)]
    simp [h, List.getElem?_eq_getElem (show i < L.length by omega)]
  · unfold at'
    simp only [if_pos h2, hb]
    rw [List.getElem?_append_right (by simp; omega)]
    simp only [List.length_map, List.length_take, Nat.min_eq_left (show k ≤ L.length by omega)]
    rw [List.getElem?_replicate, if_pos (by omega)]
  · have hlen : (L.take k).length + (L.length - k - 1 + 1) = L.length := by rw [List.length_take]; omega
    have := destruct_partly (L.take k) (L.length - k - 1) _ b hb
    rwa [hlen] at this

theorem assign_throws {c : Cfg} (hs : 0 < c.sizeof) (hp : c.aborts = true ∨ ∀ k b, c.alloc k b = true) {s : State V A} {e : Env V A} {g : List Nat × Nat}
    (hi : Inv c s e g) (v w : V) (hl2 : Legal c.toLayout e (.assignCopy v w : Op V A)) (k : Nat) (hk : k < (elems (e w)).length) :
    (stepT c s (.assignCopy v w) (some k) = .error .abort ∧ c.aborts = true ∧ ∃ k b, c.alloc k b = false) ∨
    ∃ (s' : State V A) (x : Arr), stepT c s (.assignCopy v w) (some k) = .ok (s', true) ∧ s'.vars v = some x ∧ x.size = (elems (e w)).length ∧
      (∀ i (h : i < k), at' s'.mem x i = .ok ((elems (e w))[i]'(by omega))) ∧
      (∀ i, k ≤ i → i < x.size → at' s'.mem x i = .error .useAfterFree) ∧
      step c s' (.dtor v) = .error .doubleFree ∧
      ∀ u, u ≠ v → Shows (s'.vars u) s'.mem (e u) := by
  obtain ⟨hv, hw, hvw⟩ := hl2
  obtain ⟨x, hx, hxl, hxs⟩ := hi.look hv
  obtain ⟨y, hy, hyl, hys⟩ := hi.look hw
  have hsz := hi.size_ok w
  -- the loop, once the buffer is ready
  have loop : ∀ (m : Mem A) (b : Nat) (mr : Mem A), Rep c mr (some y) (e w) → y.data ≠ some b → (∀ d, d ≠ b → m.bufs d = mr.bufs d) →
      m.bufs b = some (List.replicate (elems (e w)).length none) →
      loopThrow k (elems (e w)).length (fun m i => do construct m (some b) i (← at' m y i)) (touch y k) m =
        .ok (m.partly b (elems (e w)).length k (fun i => (elems (e w))[i]?.getD (elems (e w))[k]), true) := by
    intro m b mr hrep hyb hm hb
    have hat : ∀ (m' : Mem A) i, i < (elems (e w)).length → (∀ c, c ≠ b → m'.bufs c = m.bufs c) →
        at' m' y i = .ok ((elems (e w))[i]?.getD (elems (e w))[k]) := by
      intro m' i hi' hc
      rw [size_lookup_touch hrep b i hyb (fun d hd => by rw [hc d hd, hm d hd]) hi', List.getElem?_eq_getElem hi', Option.getD_some]
    exact loopThrow_throws hk m b _ _ _ hb (fun m' i hi' hc => by simp only [bind, Except.bind, hat m' i hi' hc])
      (fun m' hc => by simp only [touch, bind, Except.bind, hat m' k hk hc])
  -- what follows from it
  have fin : ∀ (m : Mem A) (b : Nat), (∀ u, u ≠ v → ∃ (m0 : Mem A), Rep c m0 (s.vars u) (e u) ∧ m0.next ≤ m.next ∧ ∀ n d, s.vars u = some ⟨n, some d⟩ → d ≠ b ∧ m.bufs d = m0.bufs d ∧ (d ∉ m0.freed → d ∉ m.freed)) →
      let m' := m.partly b (elems (e w)).length k (fun i => (elems (e w))[i]?.getD (elems (e w))[k])
      let s' := ({ s with mem := m' } : State V A).set v (some ⟨(elems (e w)).length, some b⟩)
      s'.vars v = some ⟨(elems (e w)).length, some b⟩ ∧ (elems (e w)).length = (elems (e w)).length ∧
      (∀ i (h : i < k), at' s'.mem ⟨(elems (e w)).length, some b⟩ i = .ok ((elems (e w))[i]'(by omega))) ∧
      (∀ i, k ≤ i → i < (elems (e w)).length → at' s'.mem ⟨(elems (e w)).length, some b⟩ i = .error .useAfterFree) ∧
      step c s' (.dtor v) = .error .doubleFree ∧
      ∀ u, u ≠ v → Shows (s'.vars u) s'.mem (e u) := by
    intro m b hrep m' s'
    obtain ⟨p1, p2, p3⟩ := partly_shows (m := m) (b := b) hk (fun i => (elems (e w))[i]?.getD (elems (e w))[k])
      (fun i h => by rw [List.getElem?_eq_getElem h, Option.getD_some])
    refine ⟨by simp [s', State.set], rfl, p1, p2, ?_, fun u hu => ?_⟩
    · have hlk : s'.lookup v = .ok ⟨(elems (e w)).length, some b⟩ := by simp [s', State.lookup, State.set]
      have hmm : s'.mem = m' := rfl
      simp only [step, hlk, bind, Except.bind, hmm]
      rw [p3]
    · obtain ⟨m0, q1, q2, q3⟩ := hrep u hu
      have hvu : s'.vars u = s.vars u := by simp [s', State.set, hu]
      rw [hvu]
      refine shows_of_rep (c := c) (q1.frame (fun n d hd => ?_) q2)
      obtain ⟨r1, r2, r3⟩ := q3 n d hd
      exact ⟨by show (if d = b then _ else m.bufs d) = _; rw [if_neg r1, r2], r3⟩
  have hbuf : ∀ u n d, s.vars u = some ⟨n, some d⟩ → d < s.mem.next := by
    intro u n d h
    have := hi.rep u
    rcases hu : e u with _ | _ | k <;> rw [hu] at this
    · simp only [Rep] at this; rw [h] at this; cases this
    · simp only [Rep] at this; rw [h] at this; cases this
    · obtain ⟨b', g1, -, g2, -⟩ := this
      rw [h] at g1; injection g1 with g1; injection g1 with _ g1; injection g1 with g1; omega
  have hrv := hi.rep v
  rw [hx] at hrv
  have hrw := hi.rep w
  rw [hy] at hrw
  rcases hev : e v with _ | _ | l
  · exact absurd hev hv
  · -- no buffer on the left
    rw [hev] at hrv
    injection hrv with hrv; subst hrv
    have hne : (0 : Nat) ≠ y.size := by rw [hys]; omega
    rcases alloc_cases c hp s.mem.tries (c.sizeof * (elems (e w)).length) with ha | ⟨ha, hab⟩
    · right
      have hal := allocate_ok c hs s.mem (elems (e w)).length hsz ha
      have hlp := loop (s.mem.grown (elems (e w)).length) s.mem.next s.mem hrw (hi.data_lt hy) (by intro d hd; simp [Mem.grown, hd]) (by simp [Mem.grown])
      simp only [bind, Except.bind] at hlp
      refine ⟨_, _, ?_, fin (s.mem.grown (elems (e w)).length) s.mem.next ?_⟩
      · simp only [stepT, stepThrow, hxl, hyl, bind, Except.bind, destruct_none, deallocate]
        rw [if_pos hne]
        simp only [hys, hal, if_true, hlp]
      · intro u hu
        refine ⟨s.mem, hi.rep u, by simp [Mem.grown], fun n d hd => ?_⟩
        have := hbuf u n d hd
        exact ⟨by omega, by simp [Mem.grown, show d ≠ s.mem.next by omega], id⟩
    · left
      refine ⟨?_, hab, _, _, ha⟩
      simp only [stepT, stepThrow, hxl, hyl, bind, Except.bind, destruct_none, deallocate]
      rw [if_pos hne]
      simp only [hys, allocate_abort c s.mem _ hsz hab ha]
  · rw [hev] at hxs hrv
    by_cases hne : x.size = y.size
    · -- same size
      right
      obtain ⟨b, hxb, hd⟩ := hrv.destruct
      have hlen : (elems (e w)).length = l.length := by rw [← hys, ← hne, hxs]; rfl
      have hyb : y.data ≠ some b := by
        intro h
        cases y with
        | mk n d => exact hvw (hi.inj v w _ n b (by rw [hx, hxb]) (by rw [hy]; simp only at h; rw [h]))
      have hlp := loop (s.mem.emptied b l.length) b s.mem hrw hyb (by intro d hd; simp [Mem.emptied, hd]) (by simp [Mem.emptied, hlen])
      simp only [bind, Except.bind] at hlp
      refine ⟨_, _, ?_, fin (s.mem.emptied b l.length) b ?_⟩
      · simp only [stepT, stepThrow, hxl, hyl, bind, Except.bind, hd]
        rw [if_neg (by simp [hne])]
        have hxe : x = ⟨(elems (e w)).length, some b⟩ := by rw [hxb, hlen]
        rw [hxe]
        simp only [hlp]
      · intro u hu
        refine ⟨s.mem, hi.rep u, Nat.le_refl _, fun n d hdu => ?_⟩
        have hdb : d ≠ b := by rintro rfl; exact hu (hi.inj u v n _ d hdu (by rw [hx, hxb]))
        exact ⟨hdb, by simp [Mem.emptied, hdb], id⟩
    · -- new buffer
      obtain ⟨m1, m2, h1, h2, htr, h4⟩ := inv_release hi hx hev
      have hew : (e.set v (some none)) w = e w := by simp [Env.set, hvw.symm]
      have hy3 : (({ s with mem := m2 } : State V A).set v (some ⟨0, none⟩)).vars w = some y := by simp [State.set, hvw.symm, hy]
      have hrw' := h4.rep w
      rw [hy3, hew] at hrw'
      change Rep c m2 (some y) (e w) at hrw'
      rcases alloc_cases c hp m2.tries (c.sizeof * (elems (e w)).length) with ha | ⟨ha, hab⟩
      · right
        have hal := allocate_ok c hs m2 (elems (e w)).length hsz ha
        have hlp := loop (m2.grown (elems (e w)).length) m2.next m2 hrw' (h4.data_lt hy3) (by intro d hd; simp [Mem.grown, hd]) (by simp [Mem.grown])
        simp only [bind, Except.bind] at hlp
        refine ⟨_, _, ?_, fin (m2.grown (elems (e w)).length) m2.next ?_⟩
        · simp only [stepT, stepThrow, hxl, hyl, bind, Except.bind, h1]
          rw [if_pos hne]
          simp only [h2, hys, hal, if_true, hlp]
        · intro u hu
          have hr4 := h4.rep u
          have hvu : (({ s with mem := m2 } : State V A).set v (some ⟨0, none⟩)).vars u = s.vars u := by simp [State.set, hu]
          have heu : (e.set v (some none)) u = e u := by simp [Env.set, hu]
          rw [hvu, heu] at hr4
          refine ⟨m2, hr4, by simp [Mem.grown], fun n d hd => ?_⟩
          have hdn : d ≠ m2.next := by
            have := h4.data_lt (w := u) (y := ⟨n, some d⟩) (by rw [hvu]; exact hd)
            intro hh; exact this (by simp only [hh]; rfl)
          exact ⟨hdn, by simp [Mem.grown, hdn], id⟩
      · left
        refine ⟨?_, hab, _, _, ha⟩
        simp only [stepT, stepThrow, hxl, hyl, bind, Except.bind, h1]
        rw [if_pos hne]
        simp only [h2, hys, allocate_abort c m2 _ hsz hab ha]

/-- C140, the assignment that throws: the left side has the new size, but only the elements before the exception exist. Reading another one, and destroying the array, is a
use of an object that does not exist. All other arrays are as before. -/
theorem C140_assignment_partial (c : Cfg) (hs : 0 < c.sizeof) (hp : c.aborts = true ∨ ∀ k b, c.alloc k b = true) (os : List (Op V A × Option Nat))
    (hl : LegalRunT c.toLayout os (fun _ => none)) (hn : NoAssignThrows os (fun _ => none : Env V A)) (s : State V A) (bs : List Bool)
    (hr : runT c os State.start = .ok (s, bs)) (v w : V) (hl2 : Legal c.toLayout (specRunT os (fun _ => none)) (.assignCopy v w : Op V A)) (k : Nat)
    (hk : k < (elems (specRunT os (fun _ => none) w)).length) :
    (stepT c s (.assignCopy v w) (some k) = .error .abort ∧ c.aborts = true ∧ ∃ k b, c.alloc k b = false) ∨
    ∃ (s' : State V A) (x : Arr), stepT c s (.assignCopy v w) (some k) = .ok (s', true) ∧ s'.vars v = some x ∧ x.size = (elems (specRunT os (fun _ => none) w)).length ∧
      (∀ i (h : i < k), at' s'.mem x i = .ok ((elems (specRunT os (fun _ => none) w))[i]'(by omega))) ∧
      (∀ i, k ≤ i → i < x.size → at' s'.mem x i = .error .useAfterFree) ∧
      step c s' (.dtor v) = .error .doubleFree ∧
      ∀ u, u ≠ v → Shows (s'.vars u) s'.mem (specRunT os (fun _ => none) u) := by
  rcases goodT_run hs hp os (inv_start c) hl hn with ⟨s0, ab, h1, hi, h3⟩ | ⟨h, -⟩
  rotate_left
  · rw [hr] at h; cases h
  rw [hr] at h1
  injection h1 with h1
  injection h1 with h1 _
  subst h1
  exact assign_throws hs hp hi v w hl2 k hk

-- a history in which three constructors throw, and what is lost
def thrown : List (Op Nat Nat × Option Nat) :=
  [(.ctorSize 0 3 7, some 2), (.ctorSize 0 3 7, some 3), (.ctorCopy 1 0, some 0), (.ctorVector 1 [4, 5], some 1)]

example : LegalRunT ⟨4, 64⟩ thrown (fun _ => none) ∧ NoAssignThrows thrown (fun _ => none) := by
  simp [thrown, LegalRunT, NoAssignThrows, Legal, specT, throws, builds, specStep, Env.set, elems]
example : lostRun thrown (fun _ => none) = [2, 0, 1] ∧ throwsRun thrown (fun _ => none) = [true, false, true, true] := by decide +kernel
example : ((runT ⟨⟨4, 64⟩, fun _ _ => true, true⟩ thrown State.start).map (fun r => (r.1.mem.next, r.1.mem.freed, r.1.mem.made, r.1.mem.gone))).toOption = some (4, [], 6, 0) := by
  decide +kernel

-- the assignment of the theorem: two of three copies are made
example : LegalRunT ⟨4, 64⟩ [(Op.ctorVector 0 [1, 2], none), (.ctorVector 1 [3, 4, 5], none)] (fun _ => none : Env Nat Nat) ∧
    Legal ⟨4, 64⟩ (specRunT [(Op.ctorVector 0 [1, 2], none), (.ctorVector 1 [3, 4, 5], none)] (fun _ => none : Env Nat Nat)) (.assignCopy 0 1) := by
  simp [LegalRunT, Legal, specRunT, specT, throws, builds, specStep, Env.set, elems]
example : ((runT ⟨⟨4, 64⟩, fun _ _ => true, true⟩ [(.ctorVector 0 [1, 2], none), (.ctorVector 1 [3, 4, 5], none), (.assignCopy 0 1, some 2)] State.start).map
    (fun r => (r.1.mem.bufs 2, r.1.vars 0, r.2))).toOption = some (some [some 3, some 4, none], some ⟨3, some 2⟩, [false, false, true]) := by decide +kernel

end Verif.FixedArray
