import Verif.RefPtr.Lemmas
/-!
# Properties C45, C46: `Refcounted`, `RefPtr`, `AlreadyRefed`
-/
namespace Verif.RefPtr
open Verif

set_option linter.unusedSimpArgs false

variable {H : Type} [DecidableEq H] {arity : Obj → Nat}

theorem Inv.balanced {s : State H} (hi : Inv arity [] [] [] s) : Balanced arity s := by
  have hr : ∀ o, refs [] s o = handlesOn s o := by
    intro o; simp [refs, handlesOn]
  refine ⟨fun o ho => by rw [← hr]; exact hi.cnt o ho, ?_, ?_, hi.fnd, hi.fiff⟩
  · intro o
    constructor
    · intro ho
      have h := hi.pos o ho (by simp)
      rw [hi.cnt o ho] at h
      obtain ⟨e, h1, -, h3⟩ := refs_pos.1 h
      exact ⟨e, h1, h3⟩
    · rintro ⟨e, h1, h3⟩
      exact hi.tgt e h1 (by simp) o h3
  · intro o i
    constructor
    · intro h
      rcases hi.own2 o i h with h' | h'
      · exact ⟨h', (hi.own o i h').1 h⟩
      · cases h'
    · rintro ⟨h1, h2⟩; exact (hi.own o i h1).2 h2

theorem run_spec : ∀ (ops : List (Op H)) (s : State H), Inv arity [] [] [] s → LegalRun arity s ops →
    ∃ s', run arity s ops = .ok s' ∧ Inv arity [] [] [] s' := by
  intro ops
  induction ops with
  | nil => intro s hi _; exact ⟨s, rfl, hi⟩
  | cons op ops ih =>
    intro s hi hl
    obtain ⟨s1, h1, hi1, -⟩ := exec_spec hi op hl.1
    obtain ⟨s2, h2, hi2⟩ := ih s1 hi1 (hl.2 s1 h1)
    exact ⟨s2, by simp only [run, h1, h2, bind, Except.bind], hi2⟩

/-- The obligations one would expect: handles exist when used, variables are not constructed twice. -/
def Plain (s : State H) : Op H → Prop
  | .ctorNull h | .ctorNew h => .root h ∉ s.hs
  | .ctorGet h e | .ctorCopy h e | .ctorMove h e => .root h ∉ s.hs ∧ e ∈ s.hs
  | .assignNull d | .assignNew d => d ∈ s.hs
  | .assignGet d e | .assignCopy d e | .assignMove d e => d ∈ s.hs ∧ e ∈ s.hs
  | .destroy h => .root h ∈ s.hs

def PlainRun (arity : Obj → Nat) (s : State H) : List (Op H) → Prop
  | [] => True
  | op :: ops => Plain s op ∧ ∀ s', exec arity s op = .ok s' → PlainRun arity s' ops

/-- C45, full statement. -/
def CountsCorrect : Prop :=
  ∀ (arity : Obj → Nat) (ops : List (Op Nat)), PlainRun arity State.new ops →
    ∃ s, run arity State.new ops = .ok s ∧ Balanced arity s

/-- `RefPtr<Node> head = new Node; RefPtr<Node> tail = new Node; head->next = tail; head = head->next;` -/
def advance : List (Op Nat) :=
  [.ctorNew 0, .ctorNew 1, .assignCopy (.field 0 0) (.root 1), .assignCopy (.root 0) (.field 0 0)]

/-- C45 is false without further obligations: advancing the only handle on a list node along the node's
own member releases the node, and with it the member, before reading it. -/
theorem C45_counts_refuted : ¬ CountsCorrect := by
  intro h
  have hbad : run (fun _ => 1) State.new advance = .error .useAfterFree := by rfl
  have hp : PlainRun (fun _ => 1) State.new advance := by
    refine ⟨by simp [Plain, State.new], fun s h1 => ?_⟩
    cases h1
    refine ⟨by simp [Plain, State.new, newObj], fun s h1 => ?_⟩
    cases h1
    refine ⟨by simp [Plain, State.new, newObj, List.range_succ], fun s h1 => ?_⟩
    cases h1
    refine ⟨by simp [Plain, State.new, newObj, List.range_succ], fun s h1 => ?_⟩
    cases h1
  obtain ⟨s, h1, -⟩ := h _ _ hp
  rw [hbad] at h1
  cases h1

/-- C45, what holds: in every legal history over any number of objects (with any number of member
handles, cyclic or not) and handles, no operation faults, and at the end counts, handles and live objects
agree: see `Balanced`. As every prefix of a legal history is one, this is so after every operation; in
particular an object is destroyed by the very operation that removes its last handle.
Missing: assignments to the only handle on an object that are self-copies, or whose operands live inside
what the old object keeps alive: those are use after free (see the refutation). -/
theorem C45_counts_partial (arity : Obj → Nat) (ops : List (Op H)) (hl : LegalRun arity State.new ops) :
    ∃ s, run arity State.new ops = .ok s ∧ Balanced arity s := by
  obtain ⟨s, h1, h2⟩ := run_spec ops State.new (inv_new (arity := arity)) hl
  exact ⟨s, h1, h2.balanced⟩

/-- C45, continued: after any legal history, the effect of one more legal operation on the handles: the
variables that exist are the expected ones, and every handle that exists holds the expected pointer. -/
theorem C45_effect_partial (arity : Obj → Nat) (ops : List (Op H)) (hl : LegalRun arity State.new ops) (s : State H)
    (hr : run arity State.new ops = .ok s) (op : Op H) (hop : Legal s op) :
    ∃ s', exec arity s op = .ok s' ∧ Balanced arity s' ∧ (∀ k, .root k ∈ s'.hs ↔ varAfter s op k) ∧
      ∀ x ∈ s'.hs, s'.val x = valAfter s op x := by
  obtain ⟨s1, h1, h2⟩ := run_spec ops State.new (inv_new (arity := arity)) hl
  rw [h1] at hr
  cases hr
  obtain ⟨s', h3, h4, h5, h6⟩ := exec_spec h2 op hop
  exact ⟨s', h3, h4.balanced, h6, h5⟩

/-- C46, full statement: in every state a legal history produces, assigning a handle to itself, or its
own raw pointer to it, works and leaves the handle as it was. -/
def SelfAssignSafe : Prop :=
  ∀ (arity : Obj → Nat) (ops : List (Op Nat)) (s : State Nat), LegalRun arity State.new ops →
    run arity State.new ops = .ok s → ∀ d ∈ s.hs, ∀ op ∈ [Op.assignCopy d d, .assignGet d d],
      ∃ s', exec arity s op = .ok s' ∧ s'.val d = s.val d

/-- C46 is false: the only handle on an object releases it before taking the new reference. -/
theorem C46_self_assign_refuted : ¬ SelfAssignSafe := by
  intro h
  obtain ⟨s', h1, -⟩ := h (fun _ => 0) [.ctorNew 0] _ ⟨by simp [Legal, State.new], fun _ _ => trivial⟩ rfl (.root 0)
    (by simp) (.assignCopy (.root 0) (.root 0)) (by simp)
  have hbad : exec (fun _ => 0) { live := [0], cnt := fun p => if p = 0 then 0 + 1 else if p = 0 then 0 else 0, hs := [.root 0], val := fun e => if e = .root 0 then some 0 else none, fresh := 1, freed := [] } (.assignCopy (.root 0) (.root (0 : Nat))) =
      .error .useAfterFree := rfl
  have : (.error .useAfterFree : Exec (State Nat)) = .ok s' := by rw [← hbad]; exact h1
  cases this

/-- C46, what holds: if the handle is null or shares its object with another handle, assigning it to
itself (by reference or through its raw pointer) leaves it holding the same live object. Self-move of a
variable never faults and leaves it null. Missing: the only handle on an object, for which it is false. -/
theorem C46_self_assign_partial (arity : Obj → Nat) (ops : List (Op H)) (hl : LegalRun arity State.new ops) (s : State H)
    (hr : run arity State.new ops = .ok s) (d : Slot H) (hd : d ∈ s.hs) :
    (Shared s d → ∀ op ∈ [Op.assignCopy d d, .assignGet d d],
      ∃ s', exec arity s op = .ok s' ∧ Balanced arity s' ∧ d ∈ s'.hs ∧ s'.val d = s.val d) ∧
    (∀ h, d = .root h → ∃ s', exec arity s (.assignMove d d) = .ok s' ∧ Balanced arity s' ∧ d ∈ s'.hs ∧ s'.val d = none) := by
  obtain ⟨s1, h1, hi⟩ := run_spec ops State.new (inv_new (arity := arity)) hl
  rw [h1] at hr
  cases hr
  constructor
  · intro hsh op hop
    simp only [List.mem_cons, List.not_mem_nil, or_false] at hop
    obtain ⟨t, ht1, ht2, htx, htd, hts⟩ := drop_spec hi hd (.inl hsh)
    obtain ⟨hhs, hlv⟩ := hts hsh
    obtain ⟨s2, h3, h4, h5, h6⟩ := bind_spec ht2 htd (s.val d) (fun o ho => hlv ▸ hi.tgt d hd (by simp) o ho) (by simp)
    have hv : t.val d = s.val d := by rw [htx.val]
    rcases hop with rfl | rfl
    · refine ⟨s2, ?_, h4.balanced, by rw [h5]; exact htd, by simp [h6]⟩
      simp only [exec, assignCopy, read, hd, htd, not_true_eq_false, if_false, bind, Except.bind, ht1, hv] at h3 ⊢
      exact h3
    · refine ⟨s2, ?_, h4.balanced, by rw [h5]; exact htd, by simp [h6]⟩
      simp only [exec, assignRaw, read, hd, htd, not_true_eq_false, if_false, bind, Except.bind, ht1, hv] at h3 ⊢
      exact h3
  · rintro h rfl
    obtain ⟨s', h3, h4, h5, h6⟩ := exec_spec hi (.assignMove (.root h) (.root h)) ⟨hd, hd, .inr ⟨trivial, trivial⟩⟩
    have hm : .root h ∈ s'.hs := (h6 h).2 hd
    exact ⟨s', h3, h4.balanced, hm, by rw [h5 _ hm]; simp [valAfter]⟩

/-! ### Non-vacuity -/

/-- A two-node list held by its head is built, the tail variable is dropped, the list is advanced the
safe way (through a temporary) and everything is destroyed. -/
def demo : List (Op Nat) :=
  [.ctorNew 0, .ctorNew 1, .assignCopy (.field 0 0) (.root 1), .destroy 1,
   .ctorMove 2 (.field 0 0), .assignMove (.root 0) (.root 2), .destroy 2, .destroy 0]

example : LegalRun (fun _ => 1) State.new demo := by
  refine ⟨by simp [Legal, State.new], fun s h1 => ?_⟩
  cases h1
  refine ⟨by simp [Legal, State.new, newObj], fun s h1 => ?_⟩
  cases h1
  refine ⟨by simp [Legal, State.new, newObj, List.range_succ, Shared], fun s h1 => ?_⟩
  cases h1
  refine ⟨by simp [Legal, State.new, newObj, List.range_succ], fun s h1 => ?_⟩
  cases h1
  refine ⟨by simp [Legal, State.new, newObj, List.range_succ], fun s h1 => ?_⟩
  cases h1
  refine ⟨by simp [Legal, State.new, newObj, List.range_succ, Stays], fun s h1 => ?_⟩
  cases h1
  refine ⟨by simp [Legal, State.new, newObj, List.range_succ], fun s h1 => ?_⟩
  cases h1
  refine ⟨by simp [Legal, State.new, newObj, List.range_succ], fun s h1 => trivial⟩

example : (run (fun _ => 1) State.new demo).toOption.map (fun s => (s.live, s.freed)) = some ([], [1, 0]) := by
  decide +kernel

end Verif.RefPtr
