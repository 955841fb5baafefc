import Verif.Thread.LifeLemmas
/-!
# C147: `NewThread` neither leaks nor loses anything, whatever throws and however the threads interleave

The caller's objects are `s.live`; `srcs` are the callable and the arguments (numbered), each copied or, if given as an rvalue, moved from.
-/
namespace Verif.Thread.Life
open Verif

variable {α : Type}

/-- `NewThread` reads no object that does not exist and destroys none twice, whichever operation throws. -/
theorem C147_newThread_never_faults (p : Plan α) (hord : ∀ l, (p.order l).Perm l) (s : St α) (hw : WF s) (name : α) (srcs : List (Nat × Src))
    (hin : ∀ x ∈ srcs, x.2.id ∈ s.live) (hap : Apart srcs) : ∃ s' r, newThread p s name srcs = .ok (s', r) := by
  obtain ⟨s', r, h, -⟩ := newThread_spec p hord s hw name srcs hin hap
  exact ⟨s', r, h⟩

/-- If it throws, everything that was made is destroyed: exactly the objects and blocks exist that existed before. Those that were not given as rvalues
are unchanged; one that was may have been moved from, by a move that succeeded or one that threw. -/
theorem C147_throw_leaves_nothing_behind (p : Plan α) (hord : ∀ l, (p.order l).Perm l) (s s' : St α) (hw : WF s) (name : α) (srcs : List (Nat × Src))
    (hin : ∀ x ∈ srcs, x.2.id ∈ s.live) (hap : Apart srcs) (h : newThread p s name srcs = .ok (s', none)) :
    s'.live.Perm s.live ∧ (∀ i ∈ s.live, ¬ IsMoved srcs i → s'.val i = s.val i) ∧
      ∀ i ∈ s.live, s'.val i = s.val i ∨ s'.val i = p.moved (s.val i) ∨ s'.val i = p.torn (s.val i) := by
  obtain ⟨s1, r, h1, h2, -⟩ := newThread_spec p hord s hw name srcs hin hap
  rw [h] at h1
  cases h1
  obtain ⟨-, h3, h4⟩ := h2 rfl
  refine ⟨h3, fun i hi hm => ?_, fun i hi => (h4 i hi).imp id (·.2)⟩
  rcases h4 i hi with h | ⟨h, -⟩
  · exact h
  · exact (hm h).elim

theorem begin_inv {p : Plan α} {s s' : St α} {name : α} {srcs : List (Nat × Src)} {st : Started} (h : Succeeded p name srcs s s' st) :
    Inv st s'.val s.live (begin s' st) :=
  ⟨h.1, rfl, rfl, by have := h.2.1; simpa [begin, owned] using this, rfl⟩

/-- If the thread is started: however caller and thread interleave, no object is read that does not exist, none destroyed twice; the thread names
itself with the name given, then calls the callable on the arguments, each as it was when `NewThread` was called; when both are done, exactly the
caller's objects and the returned `std::thread` exist, those given as rvalues moved from and the others unchanged. -/
theorem C147_started_thread_in_any_schedule (p : Plan α) (hord : ∀ l, (p.order l).Perm l) (s s' : St α) (hw : WF s) (name : α) (srcs : List (Nat × Src))
    (hin : ∀ x ∈ srcs, x.2.id ∈ s.live) (hap : Apart srcs) (st : Started) (h : newThread p s name srcs = .ok (s', some st)) (as : List Actor) :
    ∃ b, run (begin s' st) as = .ok b ∧ (∃ parts, parts.Perm (srcs.map fun x => (x.1, s.val x.2.id)) ∧ b.trace <+: [.name name, .call parts] ∧
      (b.done → b.trace = [.name name, .call parts])) ∧
      (∀ i ∈ s.live, i ∈ b.s.live ∧ b.s.val i = if IsMoved srcs i then p.moved (s.val i) else s.val i) ∧
      st.thread ∈ b.s.live ∧ st.thread ∉ s.live ∧
      (b.done → b.s.live.Perm (st.thread :: s.live)) := by
  obtain ⟨s1, r, h1, -, h2⟩ := newThread_spec p hord s hw name srcs hin hap
  rw [h] at h1
  cases h1
  have hs := h2 st rfl
  obtain ⟨b, h3, hi⟩ := run_inv as (begin_inv hs)
  obtain ⟨hws, hls, hn, hb, hv⟩ := hs
  have hnd := hls.nodup_iff.1 hws.nodup
  have hth : st.thread ∉ s.live := (List.nodup_cons.1 (List.nodup_append.1 hnd).2.1).1
  refine ⟨b, h3, ⟨st.bound.map fun x => (x.1, s'.val x.2), hb, ?_, ?_⟩, fun i hi' => ⟨?_, ?_⟩, ?_, hth, ?_⟩
  · rw [hi.trace]
    cases b.pc with
    | start => exact List.nil_prefix
    | named => rw [← hn]; exact ⟨[_], rfl⟩
    | ending _ => rw [← hn]; exact List.prefix_rfl
  · intro hd
    rw [hi.trace, hd.2, ← hn]
    rfl
  · exact hi.live.mem_iff.2 (by simp [hi'])
  · rw [hi.val]; exact hv i hi'
  · exact hi.live.mem_iff.2 (by simp)
  · intro hd
    have := hi.live
    rw [hd.1, hd.2] at this
    exact this

/-- Whatever has happened so far, both can still finish. -/
theorem C147_started_thread_can_finish (p : Plan α) (hord : ∀ l, (p.order l).Perm l) (s s' : St α) (hw : WF s) (name : α) (srcs : List (Nat × Src))
    (hin : ∀ x ∈ srcs, x.2.id ∈ s.live) (hap : Apart srcs) (st : Started) (h : newThread p s name srcs = .ok (s', some st)) (as : List Actor) :
    ∃ bs b, run (begin s' st) (as ++ bs) = .ok b ∧ b.done := by
  obtain ⟨s1, r, h1, -, h2⟩ := newThread_spec p hord s hw name srcs hin hap
  rw [h] at h1
  cases h1
  obtain ⟨b1, h3, hi⟩ := run_inv as (begin_inv (h2 st rfl))
  obtain ⟨b2, h4, h5⟩ := caller_done _ hi rfl
  obtain ⟨b2', h4', hi2⟩ := run_inv (List.replicate b1.todo.length .caller) hi
  rw [h4] at h4'
  cases h4'
  obtain ⟨b3, h6, h7⟩ := child_done _ hi2 rfl h5
  refine ⟨List.replicate b1.todo.length .caller ++ List.replicate (left b2) .child, b3, ?_, h7⟩
  simp only [run_append, h3, Except.bind, h4, h6]

/-- The client of the examples: moves leave 0, a move that throws leaves 99, operation number `n` throws. -/
def examplePlan (n : Nat) : Plan Nat := { throws := fun k => k == n, moved := fun _ => 0, torn := fun _ => 99, order := List.reverse, blank := 7 }
def exampleSt : St Nat := { next := 3, live := [0, 1, 2], val := fun i => i + 10, clock := 0 }
/-- The callable is copied, the first argument moved, the second copied. -/
def exampleSrcs : List (Nat × Src) := [(0, ⟨0, false⟩), (1, ⟨1, true⟩), (2, ⟨2, false⟩)]

theorem example_ok : WF exampleSt ∧ (∀ x ∈ exampleSrcs, x.2.id ∈ exampleSt.live) ∧ Apart exampleSrcs ∧ ∀ n l, ((examplePlan n).order l).Perm l :=
  ⟨⟨by decide, by decide⟩, by decide, by simp [Apart, exampleSrcs], fun _ l => List.reverse_perm l⟩

/-- The strong guarantee does not hold: when the system refuses a thread (the last operation throws), an argument given as an rvalue is lost. -/
theorem C147_strong_guarantee_refuted : ¬ StrongGuarantee := by
  intro h
  obtain ⟨h1, h2, h3, h4⟩ := example_ok
  have key : ∃ s', newThread (examplePlan 9) exampleSt 42 exampleSrcs = .ok (s', none) ∧ s'.val 1 = 0 := ⟨_, rfl, rfl⟩
  obtain ⟨s', e, ev⟩ := key
  have := (h Nat (examplePlan 9) exampleSt s' 42 exampleSrcs (h4 9) h1 h2 h3 e).2 1 (by decide)
  rw [ev] at this
  exact absurd this (by decide)

/-- It holds if nothing is given as an rvalue. -/
theorem C147_strong_guarantee_partial (p : Plan α) (hord : ∀ l, (p.order l).Perm l) (s s' : St α) (hw : WF s) (name : α) (srcs : List (Nat × Src))
    (hin : ∀ x ∈ srcs, x.2.id ∈ s.live) (hc : AllCopied srcs) (h : newThread p s name srcs = .ok (s', none)) :
    s'.live.Perm s.live ∧ ∀ i ∈ s.live, s'.val i = s.val i := by
  have hap : Apart srcs := by
    refine List.Pairwise.imp_of_mem (R := fun _ _ => True) ?_ (List.pairwise_of_forall (fun _ _ => trivial))
    intro a b ha hb _ _
    exact ⟨hc a ha, hc b hb⟩
  obtain ⟨h1, h2, -⟩ := C147_throw_leaves_nothing_behind p hord s s' hw name srcs hin hap h
  refine ⟨h1, fun i hi => h2 i hi ?_⟩
  rintro ⟨x, hx, -, hm⟩
  rw [hc x hx] at hm
  cases hm

/-- Every operation that may throw, in turn, then none. -/
example : (List.range 11).map (fun n => match newThread (examplePlan n) exampleSt 42 exampleSrcs with
      | .ok (s', none) => some (s'.live, s'.val 0, s'.val 1, s'.val 2)
      | _ => none) =
    [some ([0, 1, 2], 10, 11, 12), some ([0, 1, 2], 10, 99, 12), some ([0, 1, 2], 10, 0, 12), some ([0, 1, 2], 10, 0, 12), some ([0, 1, 2], 10, 0, 12),
     some ([0, 1, 2], 10, 0, 12), some ([0, 1, 2], 10, 0, 12), some ([0, 1, 2], 10, 0, 12), some ([0, 1, 2], 10, 0, 12), some ([0, 1, 2], 10, 0, 12), none] := by decide +kernel

/-- A thread that is started, in an interleaving of caller and thread. -/
example : (match newThread (examplePlan 10) exampleSt 42 exampleSrcs with
      | .ok (s', some st) => match run (begin s' st) [.child, .caller, .child, .caller, .child, .child, .caller, .child, .caller, .child, .child] with
        | .ok b => some (b.s.live, b.todo, b.pc, b.trace.length, st.thread)
        | _ => none
      | _ => none) = some ([7, 0, 1, 2], [], .ending [], 2, 7) := by decide +kernel

end Verif.Thread.Life
