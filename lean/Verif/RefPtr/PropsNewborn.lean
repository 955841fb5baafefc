import Verif.RefPtr.NewbornLemmas
import Verif.RefPtr.SpecNewborn
/-!
# C155: objects whose constructor takes references on them
-/
namespace Verif.RefPtr
open Verif

variable {H : Type} [DecidableEq H] {arity : Obj → Nat}

theorem mrun_append (ops ops' : List (MOp H)) (s t t' : State H) (h : mrun arity s ops = .ok t) (h' : mrun arity t ops' = .ok t') :
    mrun arity s (ops ++ ops') = .ok t' := by
  induction ops generalizing s with
  | nil => cases h; exact h'
  | cons op ops ih =>
    obtain ⟨s1, h1, h2⟩ := bind_ok h
    show (mexec arity s op >>= fun s => mrun arity s (ops ++ ops')) = _
    rw [h1]; exact ih s1 h2

theorem ledger_append (ops ops' : List (MOp H)) (s t : State H) (h : mrun arity s ops = .ok t) (o : Obj) :
    ledger arity s (ops ++ ops') o = ledger arity s ops o + ledger arity t ops' o := by
  induction ops generalizing s with
  | nil => cases h; simp [ledger]
  | cons op ops ih =>
    obtain ⟨s1, h1, h2⟩ := bind_ok h
    have e : ∀ l, ledger arity s (op :: l) o = taken s op o + ledger arity s1 l o := fun l => by simp only [ledger, h1]
    rw [List.cons_append, e, e, ih s1 h2]
    omega

/-- A statement destroys `o` exactly if it takes its count from something to 0. -/
theorem step_lives {x : Obj → Prop} {t t1 : State H} (hw : Wf x t) (op : MOp H) (h : mexec arity t op = .ok t1) (o : Obj) (ho : o < t.fresh) :
    o ∈ t1.live ↔ o ∈ t.live ∧ ¬ (0 < t.cnt o ∧ t1.cnt o = 0) := by
  have hk := mexec_spares hw op h o ho
  have hpos : 0 < t.cnt o → Wf (fun q => x q ∧ q ≠ o) t := fun hc => hw.mono fun q _ hx h0 => ⟨hx, by rintro rfl; omega⟩
  constructor
  · refine fun hl => ⟨hk.1 hl, fun ⟨h1, h2⟩ => ?_⟩
    have := (mexec_step (hpos h1) op h).1.held o hl (fun h => h.2 rfl)
    omega
  · rintro ⟨hl, hn⟩
    by_cases h0 : t.cnt o = 0
    · exact hk.2 hl h0
    · exact (mexec_step hw op h).1.alive o (Nat.pos_of_ne_zero fun h1 => hn ⟨by omega, h1⟩)

theorem run_lives {x : Obj → Prop} (o : Obj) : ∀ (ops : List (MOp H)) (t t' : State H), Wf x t → o < t.fresh → mrun arity t ops = .ok t' →
    (o ∈ t'.live ↔ o ∈ t.live ∧ ¬ ∃ done op rest u u', ops = done ++ op :: rest ∧ mrun arity t done = .ok u ∧ mexec arity u op = .ok u' ∧
      0 < u.cnt o ∧ u'.cnt o = 0) := by
  intro ops
  induction ops with
  | nil =>
    intro t t' _ _ h
    cases h
    refine ⟨fun h => ⟨h, ?_⟩, fun h => h.1⟩
    rintro ⟨done, op, rest, u, u', h, -⟩
    exact absurd h (by simp)
  | cons op ops ih =>
    intro t t' hw ho h
    obtain ⟨t1, h1, h2⟩ := bind_ok h
    obtain ⟨hw1, hs⟩ := mexec_step hw op h1
    rw [ih t1 t' hw1 (Nat.lt_of_lt_of_le ho hs.fresh) h2, step_lives hw op h1 o ho]
    constructor
    · rintro ⟨⟨hl, hn⟩, hr⟩
      refine ⟨hl, ?_⟩
      rintro ⟨done, op', rest, u, u', he, hd, hm, hc⟩
      cases done with
      | nil =>
        cases hd
        injection he with e1 e2
        subst e1
        rw [h1] at hm; cases hm
        exact hn hc
      | cons a done =>
        injection he with e1 e2
        subst e1
        obtain ⟨s1, g1, g2⟩ := bind_ok hd
        rw [h1] at g1; cases g1
        exact hr ⟨done, op', rest, u, u', e2, g2, hm, hc⟩
    · rintro ⟨hl, hn⟩
      refine ⟨⟨hl, fun hc => hn ⟨[], op, ops, t, t1, rfl, rfl, h1, hc⟩⟩, ?_⟩
      rintro ⟨done, op', rest, u, u', he, hd, hm, hc⟩
      refine hn ⟨op :: done, op', rest, u, u', by rw [he]; rfl, ?_, hm, hc⟩
      show (mexec arity t op >>= fun s => mrun arity s done) = _
      rw [h1]; exact hd

/-- The state in which the body begins, after any history. -/
theorem born_wf (pre : List (MOp H)) (s : State H) (hs : mrun arity State.new pre = .ok s) :
    Wf (fun o => False ∨ o = s.fresh) (newObj arity s).1 ∧ ∀ o, bal (newObj arity s).1 o = - ledger arity State.new pre o := by
  obtain ⟨hw, hb⟩ := mrun_ledger pre _ _ (wf_new Nobody) hs
  obtain ⟨n1, -, -, -, n5⟩ := newObj_wf (arity := arity) hw
  refine ⟨n1, fun o => ?_⟩
  have h0 : bal (State.new : State H) o = 0 := rfl
  rw [n5, hb, h0]; omega

/-- C155: the count of the new object (and of every other) is its handles plus the references held by hand, at every moment of its
constructor. -/
theorem C155_ledger (pre body : List (MOp H)) (s t : State H) (hs : mrun arity State.new pre = .ok s) (ht : newWith arity s body = .ok t) (o : Obj) :
    (t.cnt o : Int) = refsAfter arity (ledger arity State.new pre o) (newObj arity s).1 body t o := by
  obtain ⟨hw, hb⟩ := born_wf pre s hs
  have h2 := (mrun_ledger body _ _ hw ht).2 o
  rw [hb] at h2
  simp only [bal, refsAfter] at h2 ⊢
  omega

/-- C155: exactly when the object outlives its constructor: no statement of the body gives up the last reference on it. -/
theorem C155_exact (pre body : List (MOp H)) (s t : State H) (hs : mrun arity State.new pre = .ok s) (ht : newWith arity s body = .ok t) :
    s.fresh ∈ t.live ↔ ¬ GivesUp arity (ledger arity State.new pre s.fresh) (newObj arity s).1 body s.fresh := by
  obtain ⟨hw, -⟩ := born_wf pre s hs
  have hl : s.fresh ∈ (newObj arity s).1.live := by simp [newObj]
  rw [run_lives s.fresh body _ _ hw (Nat.lt_succ_self _) ht]
  refine ⟨fun h => ?_, fun h => ⟨hl, ?_⟩⟩
  · rintro ⟨done, op, rest, u, u', he, hd, hm, h1, h2⟩
    have hu' := mrun_append done [op] _ _ _ hd (show mrun arity u [op] = .ok u' by show (mexec arity u op >>= _) = _; rw [hm]; rfl)
    have c1 := C155_ledger pre done s u hs hd s.fresh
    have c2 := C155_ledger pre (done ++ [op]) s u' hs hu' s.fresh
    exact h.2 ⟨done, op, rest, u, u', he, hd, hm, by omega, by omega⟩
  · rintro ⟨done, op, rest, u, u', he, hd, hm, h1, h2⟩
    have hu' := mrun_append done [op] _ _ _ hd (show mrun arity u [op] = .ok u' by show (mexec arity u op >>= _) = _; rw [hm]; rfl)
    have c1 := C155_ledger pre done s u hs hd s.fresh
    have c2 := C155_ledger pre (done ++ [op]) s u' hs hu' s.fresh
    exact h ⟨done, op, rest, u, u', he, hd, hm, by omega, by omega⟩

/-- C155: `RefPtr<T> h(new T)` works exactly if the body runs without fault and the object outlives it; otherwise `h` would hold a
dangling pointer, which its constructor already uses. -/
theorem C155_create (pre body : List (MOp H)) (s : State H) (h : H) (hs : mrun arity State.new pre = .ok s) :
    (∃ s', ctorNewWith arity s h body = .ok s') ↔
      ∃ t, newWith arity s body = .ok t ∧ .root h ∉ t.hs ∧
        ¬ GivesUp arity (ledger arity State.new pre s.fresh) (newObj arity s).1 body s.fresh := by
  constructor
  · rintro ⟨s', hc⟩
    obtain ⟨t, h1, h2⟩ := bind_ok hc
    refine ⟨t, h1, ?_, (C155_exact pre body s t hs h1).1 ?_⟩
    · obtain ⟨t1, g1, -⟩ := bind_ok h2
      unfold construct at g1
      split at g1
      · cases g1
      · assumption
    · obtain ⟨t1, g1, g2⟩ := bind_ok h2
      have := nb_construct_live g1
      refine Classical.byContradiction fun hn => ?_
      have g3 : addRef t1 s.fresh = .ok s' := g2
      unfold addRef at g3
      rw [if_pos (by rw [this]; exact hn)] at g3
      cases g3
  · rintro ⟨t, h1, h2, h3⟩
    have hl := (C155_exact pre body s t hs h1).2 h3
    have h4 : ∃ s', ctorRaw t (.root h) (some s.fresh) = .ok s' := by
      simp [ctorRaw, construct, h2, bind, Except.bind, addRefOpt, addRef, hl]
    obtain ⟨s', h4⟩ := h4
    exact ⟨s', by show (newWith arity s body >>= _) = _; rw [h1]; exact h4⟩

/-- The property in full: whatever its constructor does with references on it, an object whose constructor has run can be given to a
handle. -/
def NewbornCorrect : Prop :=
  ∀ (arity : Obj → Nat) (pre body : List (MOp Nat)) (s t : State Nat) (h : Nat), mrun arity State.new pre = .ok s →
    newWith arity s body = .ok t → .root h ∉ t.hs → ∃ s', ctorNewWith arity s h body = .ok s'

/-- It is false: `T() { RefPtr<T> self(this); }` destroys the object before `new T` returns. -/
theorem C155_refuted : ¬ NewbornCorrect := by
  intro hc
  obtain ⟨s', h⟩ := hc (fun _ => 0) [] [.ctorPtr 1 0, .plain (.destroy 1)] State.new
    { live := [], cnt := fun p => if p = 0 then 0 else if p = 0 then 1 else 0, hs := [], val := fun e => if e = Slot.root 1 then some 0 else none, fresh := 1, freed := [0] } 0 rfl
    (by simp [newWith, mrun, mexec, newObj, State.new, ctorRaw, construct, addRefOpt, addRef, exec, destroySlot, read, releaseObj, release, members, bind, Except.bind]; funext p; by_cases hp : p = 0 <;> simp [hp]) (by simp)
  revert h
  simp [ctorNewWith, newWith, mrun, mexec, newObj, State.new, ctorRaw, construct, addRefOpt, addRef, exec, destroySlot, read, releaseObj, release, members, bind, Except.bind]

/-- C155, what holds, first part (missing: constructors that give up their last reference): a constructor that keeps a reference on its
object, as by `AddRef()` in its first statement, may do anything else: as long as the body does not give back by hand more than it
took after that, the object outlives it. -/
theorem C155_guarded_partial (pre body : List (MOp H)) (s t : State H) (hs : mrun arity State.new pre = .ok s)
    (h0 : 0 ≤ ledger arity State.new pre s.fresh) (ht : newWith arity s (.addRef s.fresh :: body) = .ok t)
    (hg : ∀ done rest u, body = done ++ rest → newWith arity s [.addRef s.fresh] = .ok u → 0 ≤ ledger arity u done s.fresh) :
    s.fresh ∈ t.live := by
  rw [C155_exact pre _ s t hs ht]
  rintro ⟨done, op, rest, u, u', he, hd, hm, h1, h2⟩
  obtain ⟨v, hv, -⟩ := bind_ok ht
  have hv' : newWith arity s [.addRef s.fresh] = .ok v := by show (mexec arity _ _ >>= _) = _; rw [hv]; rfl
  have one : ∀ l, ledger arity (newObj arity s).1 (.addRef s.fresh :: l) s.fresh = 1 + ledger arity v l s.fresh := by
    intro l; simp only [ledger, hv, taken, if_true]
  cases done with
  | nil =>
    injection he with e1 e2
    subst e1
    simp only [refsAfter, List.nil_append, one, ledger] at h2
    omega
  | cons a done =>
    injection he with e1 e2
    subst e1
    have := hg (done ++ [op]) rest v (by rw [e2]; simp) hv'
    simp only [refsAfter, List.cons_append, one] at h2
    omega

/-- C155, what holds, second part: a constructor that never lets a reference on its object be taken leaves it alive and unowned. -/
theorem C155_untouched_partial (pre body : List (MOp H)) (s t : State H) (hs : mrun arity State.new pre = .ok s)
    (ht : newWith arity s body = .ok t)
    (hu : ∀ done rest u, body = done ++ rest → newWith arity s done = .ok u →
      refsAfter arity (ledger arity State.new pre s.fresh) (newObj arity s).1 done u s.fresh ≤ 0) : s.fresh ∈ t.live ∧ t.cnt s.fresh = 0 := by
  refine ⟨(C155_exact pre body s t hs ht).2 ?_, ?_⟩
  · rintro ⟨done, op, rest, u, u', he, hd, hm, h1, h2⟩
    have := hu done (op :: rest) u he hd
    omega
  · have h1 := C155_ledger pre body s t hs ht s.fresh
    have h2 := hu body [] t (by simp) ht
    omega

-- Concrete cases: `T() { AddRef(); { RefPtr<T> self(this); } }` works, and gives the handle's reference besides its own; without `AddRef()` the object is gone.
example : (ctorNewWith (fun _ => 0) (State.new : State Nat) 0 [.addRef 0, .ctorPtr 1 0, .plain (.destroy 1)]).toOption.map (fun s => (s.live, s.cnt 0)) = some ([0], 2) := by
  decide +kernel
example : (newWith (fun _ => 0) (State.new : State Nat) [.ctorPtr 1 0, .plain (.destroy 1)]).toOption.map (fun s => (s.live, s.freed)) = some ([], [0]) := by
  decide +kernel
-- A constructor that stores a handle on its own object in a member: alive, owned by itself.
example : (newWith (fun _ => 1) (State.new : State Nat) [.assignPtr (.field 0 0) 0]).toOption.map (fun s => (s.live, s.cnt 0)) = some ([0], 1) := by
  decide +kernel

end Verif.RefPtr
