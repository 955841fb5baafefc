import Verif.RefPtr.ManualExact
import Verif.RefPtr.Width
/-!
# Property C152: handles together with `AddRef()` and `Release()` called by hand
-/
namespace Verif.RefPtr
open Verif

set_option linter.unusedSectionVars false
set_option linter.unusedSimpArgs false

variable {H : Type} [DecidableEq H] {arity : Obj → Nat}

theorem Held.balanced {g : State (GH H)} {n : Nat} {due : Obj → Int} {s : State H} (hg : Held arity g n due s) : MBalanced arity due s := by
  obtain ⟨rfl, hi, -, hdue⟩ := hg
  obtain ⟨b1, b2, b3, b4, b5⟩ := hi.balanced
  refine ⟨fun o ho => ?_, fun o => ?_, fun o => ?_, fun o i => ?_, b4, b5⟩
  · rw [← hdue o]
    have h1 : g.cnt o = _ := b1 o ho
    rw [handles_hide] at h1
    show (g.cnt o : Int) = _
    omega
  · rw [← hdue o]
    refine (b2 o).trans ⟨?_, ?_⟩
    · rintro ⟨e, h1, h2⟩
      cases e with
      | field p i => exact .inl ⟨.field p i, mem_hide.2 h1, h2⟩
      | root k => cases k with
        | inl k => exact .inl ⟨.root k, mem_hide.2 h1, h2⟩
        | inr a =>
          have := hidden_pos.2 ⟨a, h1, h2⟩
          exact .inr (by omega)
    · rintro (⟨e, h1, h2⟩ | h)
      · exact ⟨up e, mem_hide.1 h1, h2⟩
      · obtain ⟨a, h1, h2⟩ := hidden_pos.1 (show 0 < hidden g o by omega)
        exact ⟨_, h1, h2⟩
  · rw [← hdue o]; omega
  · rw [mem_hide]; exact b3 o i

theorem mrun_good : ∀ (ops : List (MOp H)) (s : State H) (due : Obj → Int) (g : State (GH H)) (n : Nat), Held arity g n due s →
    MPlainRun arity s due ops → ((∃ s', mrun arity s ops = .ok s') ↔ MSoundRun arity s due ops) ∧
    ∀ s', mrun arity s ops = .ok s' → ∃ g' n', Held arity g' n' (fun o => due o + ledger arity s ops o) s' := by
  intro ops
  induction ops with
  | nil =>
    intro s due g n hg _
    refine ⟨⟨fun _ => trivial, fun _ => ⟨s, rfl⟩⟩, fun s' h => ?_⟩
    cases h
    exact ⟨g, n, by simpa [ledger] using hg⟩
  | cons op ops ih =>
    intro s due g n hg ⟨hp, hps⟩
    obtain ⟨h1, h2⟩ := mexec_good hg op hp
    cases h : mexec arity s op with
    | error f =>
      have he : mrun arity s (op :: ops) = .error f := by simp only [mrun, h, bind, Except.bind]
      refine ⟨⟨fun ⟨s', h3⟩ => (by rw [he] at h3; cases h3), fun ⟨h3, _⟩ => ?_⟩, fun s' h3 => by rw [he] at h3; cases h3⟩
      obtain ⟨s', h4⟩ := h1 h3
      rw [h] at h4
      cases h4
    | ok s1 =>
      have he : mrun arity s (op :: ops) = mrun arity s1 ops := by simp only [mrun, h, bind, Except.bind]
      obtain ⟨h3, ⟨g1, n1, hg1⟩, -⟩ := h2 s1 h
      obtain ⟨h5, h6⟩ := ih s1 _ g1 n1 hg1 (hps s1 h)
      rw [he]
      refine ⟨h5.trans ⟨fun h7 => ⟨h3, fun s' h8 => ?_⟩, fun h7 => h7.2 s1 h⟩, fun s' h7 => ?_⟩
      · rw [h] at h8
        cases h8
        exact h7
      · obtain ⟨g', n', h8⟩ := h6 s' h7
        refine ⟨g', n', h8.eq, h8.inv, h8.bound, fun o => ?_⟩
        rw [h8.due]; simp only [ledger, h]; omega

/-! ### Histories that give back what they took -/

/-- C152: a history that gives back only references it took runs without fault exactly if every statement is sound: raw pointers
that are used are not dangling, and the operands of an assignment outlive the release of the old object, taking into account the
references held by hand. -/
theorem C152_exact (arity : Obj → Nat) (ops : List (MOp H)) (hp : MPlainRun arity State.new (fun _ => 0) ops) :
    (∃ s, mrun arity State.new ops = .ok s) ↔ MSoundRun arity State.new (fun _ => 0) ops :=
  (mrun_good ops _ _ _ _ held_new hp).1

theorem held_run (arity : Obj → Nat) (ops : List (MOp H)) (hp : MPlainRun arity State.new (fun _ => 0) ops) (s : State H)
    (hr : mrun arity State.new ops = .ok s) : ∃ g n, Held arity g n (ledger arity State.new ops) s := by
  obtain ⟨g, n, h⟩ := (mrun_good ops _ _ _ _ held_new hp).2 s hr
  exact ⟨g, n, by simpa using h⟩

/-- C152: whenever it runs without fault, the count of a live object is the number of handles on it plus the number of references held
by hand, and an object lives exactly as long as there is a handle on it or a reference held by hand. -/
theorem C152_balanced (arity : Obj → Nat) (ops : List (MOp H)) (hp : MPlainRun arity State.new (fun _ => 0) ops) (s : State H)
    (hr : mrun arity State.new ops = .ok s) : MBalanced arity (ledger arity State.new ops) s := by
  obtain ⟨g, n, hg⟩ := held_run arity ops hp s hr
  exact hg.balanced

/-- C152: one more statement succeeds exactly if it is sound, has the expected effect on every handle, and destroys exactly the
objects that fall with the reference it gives up. -/
theorem C152_effect (arity : Obj → Nat) (ops : List (MOp H)) (hp : MPlainRun arity State.new (fun _ => 0) ops) (s : State H)
    (hr : mrun arity State.new ops = .ok s) (op : MOp H) (hop : MPlain s (ledger arity State.new ops) op) :
    ((∃ s', mexec arity s op = .ok s') ↔ MSound s (ledger arity State.new ops) op) ∧
    ∀ s', mexec arity s op = .ok s' → (∀ k, .root k ∈ s'.hs ↔ mvarAfter s op k) ∧ (∀ x ∈ s'.hs, s'.val x = mvalAfter s op x) ∧
      ∀ o, o ∈ s'.live ↔ (o ∈ s.live ∨ MCreates s op o) ∧ ¬ MDestroys s (ledger arity State.new ops) op o := by
  obtain ⟨g, n, hg⟩ := held_run arity ops hp s hr
  obtain ⟨h1, h2⟩ := mexec_good hg op hop
  refine ⟨⟨fun ⟨s', h⟩ => (h2 s' h).1, h1⟩, fun s' h => ?_⟩
  obtain ⟨-, -, h3, h4, h5⟩ := h2 s' h
  exact ⟨h4, h3, h5⟩

/-- C152: a reference held by hand keeps its object alive whatever happens to the handles. -/
theorem C152_kept (arity : Obj → Nat) (ops : List (MOp H)) (hp : MPlainRun arity State.new (fun _ => 0) ops) (s : State H)
    (hr : mrun arity State.new ops = .ok s) (p : Obj) (hd : 0 < ledger arity State.new ops p) : p ∈ s.live :=
  ((C152_balanced arity ops hp s hr).held p).2 (.inr hd)

/-- C152: when all handles are gone and everything was given back, nothing lives. -/
theorem C152_no_leak (arity : Obj → Nat) (ops : List (MOp H)) (hp : MPlainRun arity State.new (fun _ => 0) ops) (s : State H)
    (hr : mrun arity State.new ops = .ok s) (he : s.hs = []) (hd : ∀ p, ledger arity State.new ops p = 0) :
    s.live = [] ∧ ∀ p, p < s.fresh → p ∈ s.freed := by
  have hb := C152_balanced arity ops hp s hr
  have hl : ∀ p, p ∉ s.live := by
    intro p h
    rcases (hb.held p).1 h with ⟨e, h1, -⟩ | h1
    · rw [he] at h1; cases h1
    · rw [hd] at h1; cases h1
  exact ⟨List.eq_nil_iff_forall_not_mem.2 hl, fun p h => (hb.freedIff p).2 ⟨h, hl p⟩⟩

/-! ### All histories, also those that release too often -/

theorem wf_new (x : Obj → Prop) : Wf x (State.new : State H) :=
  ⟨.nil, by simp [State.new], by simp [State.new], by simp [State.new], by simp [State.new]⟩

theorem mrun_ledger {x : Obj → Prop} : ∀ (ops : List (MOp H)) (s s' : State H), Wf x s → mrun arity s ops = .ok s' →
    Wf x s' ∧ ∀ o, bal s' o = bal s o - ledger arity s ops o := by
  intro ops
  induction ops with
  | nil => intro s s' hw h; cases h; exact ⟨hw, fun o => by simp [ledger]⟩
  | cons op ops ih =>
    intro s s' hw h
    obtain ⟨s1, h1, h2⟩ := bind_ok h
    obtain ⟨a1, a2⟩ := mexec_step hw op h1
    obtain ⟨b1, b2⟩ := ih s1 s' a1 h2
    refine ⟨b1, fun o => ?_⟩
    rw [b2, a2.bal]
    simp only [ledger, h1]
    omega

/-- C152: in every history that has run without fault, balanced or not, the count of every object is the number of handles that point to
it plus the references taken by hand minus those given back; an object lives exactly while its count is not 0. -/
theorem C152_ledger (arity : Obj → Nat) (ops : List (MOp H)) (s : State H) (hr : mrun arity State.new ops = .ok s) (o : Obj) :
    (s.cnt o : Int) = handlesOn s o + ledger arity State.new ops o ∧ (o ∈ s.live ↔ 0 < s.cnt o) := by
  obtain ⟨hw, hb⟩ := mrun_ledger ops _ _ (wf_new Nobody) hr
  refine ⟨?_, hw.iff o⟩
  have h0 : bal (State.new : State H) o = 0 := rfl
  have := hb o
  rw [h0] at this
  simp only [bal] at this
  omega

/-- C152: the handles that point to an object that has been destroyed are exactly as many as there were releases too many. -/
theorem C152_dangling (arity : Obj → Nat) (ops : List (MOp H)) (s : State H) (hr : mrun arity State.new ops = .ok s) (o : Obj) (ho : o ∉ s.live) :
    (handlesOn s o : Int) = - ledger arity State.new ops o := by
  obtain ⟨h1, h2⟩ := C152_ledger arity ops s hr o
  rw [h2] at ho
  omega

/-- C152: a program that released an object once too often cannot give up all its handles on it without undefined behaviour or a failed
assertion. -/
theorem C152_unmatched (arity : Obj → Nat) (ops : List (MOp H)) (o : Obj) (hd : ledger arity State.new ops o < 0) (s : State H)
    (hr : mrun arity State.new ops = .ok s) : ∃ e ∈ s.hs, s.val e = some o := by
  obtain ⟨h1, -⟩ := C152_ledger arity ops s hr o
  have : 0 < handlesOn s o := by omega
  obtain ⟨e, he⟩ := List.length_pos_iff_exists_mem.1 this
  obtain ⟨h2, h3⟩ := List.mem_filter.1 he
  exact ⟨e, h2, by simpa using h3⟩

/-- C152: a program that did not give back a reference leaks the object. -/
theorem C152_leak (arity : Obj → Nat) (ops : List (MOp H)) (o : Obj) (hd : 0 < ledger arity State.new ops o) (s : State H)
    (hr : mrun arity State.new ops = .ok s) : o ∈ s.live := by
  obtain ⟨h1, h2⟩ := C152_ledger arity ops s hr o
  rw [h2]; omega

/-! ### The width of the counter -/

/-- `k` times `p->AddRef();` with a counter of `w` bits. -/
def addRefs (w : Nat) (s : State H) (p : Obj) : Nat → Exec (State H)
  | 0 => .ok s
  | k + 1 => do
    let s ← addRefW w s p
    addRefs w s p k

theorem addRefs_eq (w : Nat) (p : Obj) : ∀ (k : Nat) (s : State H), p ∈ s.live → s.cnt p < 2 ^ w →
    ∃ s', addRefs w s p k = .ok s' ∧ s'.cnt p = (s.cnt p + k) % 2 ^ w ∧ s'.live = s.live := by
  intro k
  induction k with
  | zero => intro s _ hc; exact ⟨s, rfl, by simp [Nat.mod_eq_of_lt hc], rfl⟩
  | succ k ih =>
    intro s hl hc
    have hpos : 0 < 2 ^ w := Nat.two_pow_pos w
    obtain ⟨s', h1, h2, h3⟩ := ih { s with cnt := fun q => if q = p then (s.cnt p + 1) % 2 ^ w else s.cnt q } hl (by simpa using Nat.mod_lt _ hpos)
    refine ⟨s', ?_, ?_, h3⟩
    · simp only [addRefs, addRefW, hl, not_true_eq_false, if_false, bind, Except.bind]; exact h1
    · rw [h2]
      simp only [if_true]
      rw [Nat.mod_add_mod, Nat.add_assoc, Nat.add_comm 1 k]

/-- C152: handles alone cannot overflow the counter (C146); `AddRef()` by hand can: when the references taken by hand and the handles
are a multiple of `2 ^ w`, the count of the live object is 0, and the next release of it fails the assertion. -/
theorem C152_overflow (w : Nat) (arity : Obj → Nat) (s : State H) (p : Obj) (hl : p ∈ s.live) (hc : s.cnt p < 2 ^ w) (k : Nat) :
    ∃ s', addRefs w s p k = .ok s' ∧ p ∈ s'.live ∧ s'.cnt p = (s.cnt p + k) % 2 ^ w ∧
      (2 ^ w ∣ s.cnt p + k → releaseObj arity s' p = .error .assertFail) := by
  obtain ⟨s', h1, h2, h3⟩ := addRefs_eq w p k s hl hc
  refine ⟨s', h1, h3 ▸ hl, h2, fun hd => ?_⟩
  have h0 : s'.cnt p = 0 := by rw [h2]; exact Nat.mod_eq_zero_of_dvd hd
  have hl' : ¬ p ∉ s'.live := fun h => h (h3 ▸ hl)
  rw [releaseObj, release, if_neg hl', if_pos h0]

/-! ### Examples -/

/-- `p = new T; p->AddRef(); RefPtr<T> h0(p); h0->member0 = new T; p->AddRef(); ~h0; RefPtr<T> h1(AdoptRef(p)); q = h1.forget().take();
p->Release(); p->Release();` for classes with one member. -/
def manualDemo : List (MOp Nat) :=
  [.newRef, .ctorPtr 0 0, .plain (.assignNew (.field 0 0)), .addRef 0, .plain (.destroy 0), .adopt 1 0, .take (.root 1), .addRef 1, .release 0, .release 0]

theorem manualDemo_runs : ∃ s, mrun (fun _ => 1) State.new manualDemo = .ok s ∧ s.live = [1] ∧ s.freed = [0] ∧ s.cnt 1 = 1 := by
  refine ⟨_, rfl, ?_, ?_, ?_⟩ <;> decide

instance (s : State Nat) (due : Obj → Int) (op : MOp Nat) : Decidable (MPlain s due op) := by
  cases op with
  | plain op => cases op <;> (unfold MPlain; infer_instance)
  | _ => unfold MPlain; infer_instance

theorem manualDemo_plain : MPlainRun (fun _ => 1) State.new (fun _ => 0) manualDemo := by
  refine ⟨trivial, fun s h => ?_⟩; cases h
  refine ⟨by decide +kernel, fun s h => ?_⟩; cases h
  refine ⟨by decide +kernel, fun s h => ?_⟩; cases h
  refine ⟨trivial, fun s h => ?_⟩; cases h
  refine ⟨by decide +kernel, fun s h => ?_⟩; cases h
  refine ⟨by decide +kernel, fun s h => ?_⟩; cases h
  refine ⟨by decide +kernel, fun s h => ?_⟩; cases h
  refine ⟨trivial, fun s h => ?_⟩; cases h
  refine ⟨by decide +kernel, fun s h => ?_⟩; cases h
  refine ⟨by decide +kernel, fun s h => ?_⟩; cases h
  trivial

/-- The object outlives its handles because of the reference held by hand; then it falls, with the handle it holds, but not the object
of that handle. -/
example : ledger (fun _ => 1) State.new manualDemo 0 = 0 ∧ ledger (fun _ => 1) State.new manualDemo 1 = 1 := by decide

example : MSoundRun (fun _ => 1) State.new (fun _ => 0) manualDemo :=
  (C152_exact _ _ manualDemo_plain).1 (let ⟨s, h, _⟩ := manualDemo_runs; ⟨s, h⟩)

/-- One release too many: the handle dangles, and its destruction is undefined. -/
def tooMany : List (MOp Nat) := [.plain (.ctorNew 0), .release 0]

example : ∃ s, mrun (fun _ => 0) State.new tooMany = .ok s ∧ 0 ∉ s.live ∧ handlesOn s 0 = 1 ∧ ledger (fun _ => 0) State.new tooMany 0 = -1 ∧
    mexec (fun _ => 0) s (.plain (.destroy 0)) = .error .useAfterFree := by
  refine ⟨_, rfl, ?_, ?_, ?_, ?_⟩ <;> first | decide | rfl

/-- A counter of 2 bits: three references by hand on an object with one handle. -/
example : ∃ s s', mrun (fun _ => 0) (State.new : State Nat) [.plain (.ctorNew 0)] = .ok s ∧ addRefs 2 s 0 3 = .ok s' ∧
    mexec (fun _ => 0) s' (.plain (.destroy 0)) = .error .assertFail := by
  refine ⟨_, _, rfl, rfl, ?_⟩; rfl

end Verif.RefPtr
