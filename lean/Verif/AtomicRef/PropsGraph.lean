import Verif.AtomicRef.GraphAccounts
/-!
# C133: any number of `AtomicRef`s, in objects that hold each other, under every schedule
-/
namespace Verif.AtomicRef.Graph
open Verif

set_option linter.unusedSectionVars false

variable {T F : Type} [DecidableEq T] [DecidableEq F]

/-- C133: whatever structure the threads build out of objects with `AtomicRef` members and however their steps
interleave, no step touches or deletes a destroyed object or `AtomicRef` and no assertion fails, deletions of whole
chains included, as long as no free-standing `AtomicRef` is destroyed while a thread is inside a call on it and members
are only called through a reference the thread owns. -/
theorem C133_safe (s : State T F) (h : Reachable s) (a : Act T F) (ha : Allowed s a) (f : Fault) : step s a ≠ some (.error f) := by
  intro hs
  obtain ⟨s', e, -⟩ := step_trans (inv_reachable h) ha hs
  cases e

/-- C133: each `AtomicRef` is an atomic register of its own: every `get` returned the value last assigned to the same
`AtomicRef` (null before that and after its destruction), and that value is what it holds. -/
theorem C133_register (s : State T F) (h : Reachable s) : Register s.log ∧ ∀ k, untagged (s.word k) = current k s.log :=
  ⟨(inv_reachable h).r.reg, (inv_reachable h).r.cur⟩

/-- A call of `get` or `operator=`. -/
def Frame.isCall : Frame F → Bool
  | .load .. | .cas .. | .add .. | .chk1 .. | .chk2 .. | .store .. => true
  | _ => false

/-- `get` and `operator=` are called by the client only, never from a destructor. -/
def Base (s : State T F) : Prop := ∀ t f r, s.stack t = f :: r → f.isCall = true → r = []

theorem base_trans {s s' : State T F} (hi : Inv s) (hb : Base s) (h : Trans s s') : Base s' := by
  have key : ∀ (x : State T F) (t : T) (l : List (Frame F)), x.stack = s.stack →
      (∀ f r, l = f :: r → f.isCall = true → r = []) → Base (setStack x t l) := by
    intro x t l hx hl u f r hu hf
    by_cases h : u = t
    · subst h; rw [stack_setStack] at hu; exact hl f r hu hf
    · have : (setStack x t l).stack u = s.stack u := by simp [setStack, h, hx]
      rw [this] at hu; exact hb u f r hu hf
  have rest : ∀ t f (r : List (Frame F)), s.stack t = f :: r → ∀ g r', r = g :: r' → g.isCall = true → r' = [] := by
    intro t f r hs g r' hr hg
    have := shape_rest hi hs g (by rw [hr]; exact List.mem_cons_self)
    cases g <;> simp_all [Frame.isDtor, Frame.isCall]
  cases h with
  | same => exact hb
  | @quiet t f g r hs hq =>
    refine key _ _ _ rfl ?_
    intro f' r' e hf
    injection e with e e'; subst e; subst e'
    cases hq <;> first | (exact hb t _ _ hs rfl) | (cases hf)
  | @begin t f hs hq => refine key _ _ _ rfl ?_; intro f' r' e _; injection e with _ e; exact e.symm
  | lock hs _ => refine key _ _ _ rfl ?_; intro f' r' e _; injection e with _ e; rw [← e]; exact hb _ _ _ hs rfl
  | add hs _ => refine key _ _ _ rfl ?_; intro f' r' e _; injection e with _ e; rw [← e]; exact hb _ _ _ hs rfl
  | incr => exact hb
  | got hs => exact key _ _ _ rfl (rest _ _ _ hs)
  | put hs =>
    refine key _ _ _ rfl ?_
    intro f' r' e hf
    split at e
    · exact rest _ _ _ hs f' r' e hf
    · injection e with e _; subst e; cases hf
  | rel hs =>
    refine key _ _ _ rfl ?_
    intro f' r' e hf
    split at e
    · injection e with e _; subst e; cases hf
    · exact rest _ _ _ hs f' r' e hf
  | del hs => refine key _ _ _ rfl ?_; intro f' r' e hf; injection e with e _; subst e; cases hf
  | free hs => exact key _ _ _ rfl (rest _ _ _ hs)
  | killFree hs _ _ =>
    unfold killed
    split
    · exact key _ _ _ rfl (by intro f r e; cases e)
    · exact key _ _ _ rfl (by intro f' r' e hf; injection e with e _; subst e; cases hf)
  | killField hs =>
    unfold killed
    split
    · exact key _ _ _ rfl (by intro f' r' e hf; injection e with e _; subst e; cases hf)
    · exact key _ _ _ rfl (by intro f' r' e hf; injection e with e _; subst e; cases hf)
  | make0 _ _ => exact hb
  | makeN _ _ _ => exact hb
  | send _ _ => exact hb
  | create _ _ _ _ _ => exact hb

theorem base_reachable {s : State T F} (h : Reachable s) : Base s := by
  obtain ⟨as, h⟩ := h
  induction h with
  | start => intro t f r e; cases e
  | step hr ha hs ih =>
    obtain ⟨s', e, ht⟩ := step_trans (inv_run hr) ha hs
    injection e with e
    rw [e]; exact base_trans (inv_run hr) ih ht

/-- C133: when `get` returns a non-null pointer, the object is alive (its destructor has not begun) and the caller owns
a reference to it. -/
theorem C133_get_owned (s s' : State T F) (h : Reachable s) (t : T) (k : Key F) (v : Word)
    (hs : step s (.cont t) = some (.ok s')) (hl : s'.log = (k, .got t v) :: s.log) (hv : v ≠ 0) :
    (.thread t, v) ∈ s'.tok ∧ s'.life v = .live ∧ v = current k s.log ∧ s'.stack t = [] := by
  have hi := inv_reachable h
  have hi' : Inv s' := by
    obtain ⟨s'', e, ht⟩ := step_trans hi (a := .cont t) trivial hs
    injection e with e; rw [e]; exact inv_trans hi ht
  have hreg := hi'.r.reg
  rw [hl] at hreg
  simp only [step] at hs
  have hlen : s'.log ≠ s.log := by intro e; rw [hl] at e; exact List.cons_ne_self _ _ e
  have hput : ∀ k' t' n, s'.log ≠ (k', .put t' n) :: s.log := by
    intro k' t' n e; rw [hl] at e; injection e with e _; injection e with _ e; cases e
  cases hst : s.stack t with
  | nil => rw [hst] at hs; cases hs
  | cons f r =>
    rw [hst] at hs
    simp only [Option.some.injEq] at hs
    have ho := hi.l.ok t
    rw [hst] at ho
    cases f with
    | store k' j w =>
      cases j with
      | get =>
        rw [cont, touch_ok ho.1] at hs
        injection hs with hs; subst hs
        injection hl with hl _
        injection hl with hk hl
        injection hl with _ hl
        subst hl; subst hk
        have hm : (Owner.thread t, w) ∈ s.tok := by
          refine mem_of_need hi ?_
          rw [hst]
          show 0 < _ + if w ≠ 0 ∧ w = w then 1 else 0
          rw [if_pos ⟨hv, rfl⟩]; omega
        refine ⟨hm, live_of_mem hi hm, hreg.1, ?_⟩
        rw [stack_setStack]
        exact base_reachable h t _ _ hst rfl
      | set n =>
        rw [cont, touch_ok ho.1] at hs
        injection hs with hs
        exact (hput k' t n (by rw [← hs]; rfl)).elim
    | load k' j => rw [cont, touch_ok ho] at hs; injection hs with hs; exact (hlen (by rw [← hs]; rfl)).elim
    | cas k' j old =>
      rw [cont, touch_ok ho.1] at hs
      split at hs <;> (injection hs with hs; exact (hlen (by rw [← hs]; rfl)).elim)
    | add k' j w =>
      rw [cont] at hs
      by_cases h0 : j.newval w = 0
      · rw [if_pos h0] at hs; injection hs with hs; exact (hlen (by rw [← hs]; rfl)).elim
      · rw [if_neg h0] at hs
        obtain ⟨o, hm⟩ := newval_mem hi hst h0
        rw [incr_ok _ (live_of_mem hi hm)] at hs
        injection hs with hs; exact (hlen (by rw [← hs]; rfl)).elim
    | chk1 k' j w => rw [cont, touch_ok ho.1] at hs; injection hs with hs; exact (hlen (by rw [← hs]; rfl)).elim
    | chk2 k' j w x =>
      rw [cont, touch_ok ho.1] at hs
      split at hs; cases hs
      split at hs; cases hs
      injection hs with hs; exact (hlen (by rw [← hs]; rfl)).elim
    | rel a => rw [cont] at hs; split at hs; cases hs; injection hs with hs; exact (hlen (by rw [← hs]; rfl)).elim
    | relCheck a =>
      rw [cont] at hs; split at hs; cases hs
      split at hs; cases hs
      injection hs with hs; exact (hlen (by rw [← hs]; rfl)).elim
    | relDelete a => rw [cont] at hs; split at hs; cases hs; injection hs with hs; exact (hlen (by rw [← hs]; rfl)).elim
    | dtor a fs =>
      cases fs with
      | nil => rw [cont] at hs; split at hs; cases hs; injection hs with hs; exact (hlen (by rw [← hs]; rfl)).elim
      | cons f fs =>
        rw [cont, destroy] at hs
        split at hs; cases hs
        split at hs; cases hs
        simp only [] at hs
        split at hs <;> (injection hs with hs; exact (hput (some a, f) t 0 (by rw [← hs]; rfl)).elim)

/-- C133: counts stay balanced. At every moment the count of a live object is the number of references to it, owned by
threads and held by `AtomicRef`s; everything referenced is alive; an `AtomicRef` that holds something exists; and once no
thread is inside a call or destructor, the live objects are exactly the referenced ones, and every other address is free
memory. -/
theorem C133_balanced (s : State T F) (h : Reachable s) :
    (∀ a, s.life a = .live → s.cnt a = refs s a) ∧
    (∀ o a, (o, a) ∈ s.tok → s.life a = .live) ∧
    (∀ k, untagged (s.word k) ≠ 0 → s.made k = true ∧ s.life (untagged (s.word k)) = .live) ∧
    ((∀ t, s.stack t = []) → ∀ a, (s.life a = .live ↔ 0 < refs s a) ∧ (s.life a = .free ↔ refs s a = 0)) := by
  have hi := inv_reachable h
  refine ⟨hi.o.cnt, fun o a hm => live_of_mem hi hm, ?_, ?_⟩
  · intro k hk
    refine ⟨?_, live_of_mem hi (mem_of_word hi hk rfl)⟩
    cases hm : s.made k with
    | true => rfl
    | false =>
      rw [hi.m.unmade k hm] at hk
      exact (hk (by simp [untagged])).elim
  · intro hidle a
    have hpos : 0 < refs s a → s.life a = .live := by
      intro hp
      obtain ⟨⟨o, b⟩, hm, hb⟩ := List.countP_pos_iff.1 hp
      simp only [decide_eq_true_eq] at hb
      subst hb
      exact live_of_mem hi hm
    have hlive : s.life a = .live → 0 < refs s a := by
      intro hl
      rcases Nat.eq_zero_or_pos (refs s a) with hz | hz
      · obtain ⟨t, ht⟩ := hi.o.zero a hl hz
        rw [hidle t] at ht; cases ht
      · exact hz
    have hdy : s.life a ≠ .dying := by
      intro hd
      obtain ⟨t, fs, hm⟩ := hi.m.dying a hd
      rw [hidle t] at hm; cases hm
    refine ⟨⟨hlive, hpos⟩, ?_, ?_⟩
    · intro hf
      rcases Nat.eq_zero_or_pos (refs s a) with hz | hz
      · exact hz
      · rw [hpos hz] at hf; cases hf
    · intro hz
      cases hl : s.life a with
      | free => rfl
      | live => have := hlive hl; omega
      | dying => exact (hdy hl).elim

/-- C133: nothing leaks if the structure has no cycles. Once no thread is inside a call or owns a reference and every
free-standing `AtomicRef` is null or gone, no object is left, provided that objects can be ranked so that each member
points to an object of higher rank. -/
theorem C133_no_leak (s : State T F) (h : Reachable s) (hidle : ∀ t, s.stack t = [])
    (hown : ∀ t a, (Owner.thread t, a) ∉ s.tok) (hnull : ∀ f, s.word (none, f) = 0)
    (rank : Word → Nat) (hr : ∀ a f, s.word (some a, f) ≠ 0 → rank a < rank (s.word (some a, f))) (a : Word) :
    s.life a = .free := by
  have hi := inv_reachable h
  have hb := (C133_balanced s h).2.2.2 hidle
  have key : ∀ n a, rank a = n → refs s a = 0 := by
    intro n
    induction n using Nat.strongRecOn with
    | _ n ih =>
      intro a ha
      rcases Nat.eq_zero_or_pos (refs s a) with hz | hz
      · exact hz
      · obtain ⟨⟨o, b⟩, hm, hbb⟩ := List.countP_pos_iff.1 hz
        simp only [decide_eq_true_eq] at hbb
        subst hbb
        cases o with
        | thread t => exact (hown t _ hm).elim
        | ref k =>
          have hc := hi.r.ref k b
          have hpos := List.count_pos_iff.2 hm
          have hb0 : b ≠ 0 ∧ untagged (s.word k) = b := by
            apply Classical.byContradiction
            intro hn
            rw [if_neg hn] at hc; omega
          have hu : untagged (s.word k) = s.word k := by
            apply untag_word_of_idle hi
            intro u; rw [hidle u]; rfl
          obtain ⟨o, f⟩ := k
          cases o with
          | none => rw [hu, hnull] at hb0; exact (hb0.1 hb0.2.symm).elim
          | some c =>
            have hw : s.word (some c, f) = b := by rw [← hu]; exact hb0.2
            have hlt : rank c < rank b := by
              have := hr c f (by rw [hw]; exact hb0.1)
              rwa [hw] at this
            have hrc := ih (rank c) (by rw [← ha]; exact hlt) c rfl
            have hfree : s.life c = .free := (hb c).2.2 hrc
            have hmade := hi.m.free c f hfree
            rw [hi.m.unmade _ hmade] at hw
            exact (hb0.1 hw.symm).elim
  exact (hb a).2.2 (key _ a rfl)

/-- C133: a call gives and takes exactly the references it should. Between calls, the references a thread owns to an
object are those in its own books (created, `AddRef`ed, received, less handed over and released), plus one for every
time a `get` returned the object to it. Constructing, assigning and destroying `AtomicRef`s, and deleting the objects
they are members of, leave a thread's references as they were. -/
theorem C133_accounts (as : List (Act T F)) (s : State T F) (h : Run as s) (t : T) (a : Word) (h0 : a ≠ 0) (hp : s.stack t = []) :
    (s.tok.count (.thread t, a) : Int) = booked t a as + gotten t a s.log := by
  have := accounts h t a h0
  rw [hp] at this
  simpa [topPend] using this

/-- C133: the same without ghosts. Once no thread is inside a call, an object's count is the number of references in the
books of all threads plus the number of `AtomicRef`s that hold it, and the object exists exactly if that is not 0. -/
theorem C133_count (as : List (Act T F)) (s : State T F) (h : Run as s) (ts : List T) (hn : ts.Nodup) (hall : ∀ t, t ∈ ts)
    (ks : List (Key F)) (hkn : ks.Nodup) (a : Word) (hk : ∀ k, current k s.log = a → k ∈ ks)
    (hidle : ∀ t, s.stack t = []) (h0 : a ≠ 0) :
    (s.life a = .live → (s.cnt a : Int) = (ts.map fun t => booked t a as + gotten t a s.log).sum
      + (ks.map fun k => if current k s.log = a then 1 else 0).sum) ∧
    (s.life a = .live ↔ 0 < (ts.map fun t => booked t a as + gotten t a s.log).sum
      + (ks.map fun k => if current k s.log = a then (1 : Int) else 0).sum) := by
  have hb := C133_balanced s ⟨as, h⟩
  have hi := inv_run h
  have hrk : ∀ k, ((s.tok.count (.ref k, a) : Nat) : Int) = if current k s.log = a then 1 else 0 := by
    intro k
    rw [hi.r.ref k a, hi.r.cur k]
    by_cases e : current k s.log = a
    · rw [if_pos ⟨h0, e⟩, if_pos e]; rfl
    · rw [if_neg (fun x => e x.2), if_neg e]; rfl
  have e : (refs s a : Int) = (ts.map fun t => booked t a as + gotten t a s.log).sum
      + (ks.map fun k => if current k s.log = a then (1 : Int) else 0).sum := by
    have h1 := countP_owners (ts.map Owner.thread ++ ks.map Owner.ref) ?_ a s.tok ?_
    · rw [refs, h1, List.map_append, List.sum_append, List.map_map, List.map_map]
      have e1 : (ts.map ((fun o => ((s.tok.count (o, a) : Nat) : Int)) ∘ Owner.thread)) = ts.map fun t => booked t a as + gotten t a s.log :=
        List.map_congr_left (fun t _ => C133_accounts as s h t a h0 (hidle t))
      have e2 : (ks.map ((fun o => ((s.tok.count (o, a) : Nat) : Int)) ∘ Owner.ref)) = ks.map fun k => if current k s.log = a then (1 : Int) else 0 :=
        List.map_congr_left (fun k _ => hrk k)
      rw [e1, e2]
    · rw [List.nodup_append]
      refine ⟨?_, ?_, ?_⟩
      · exact List.pairwise_map.2 (hn.imp (fun hne e => hne (by injection e)))
      · exact List.pairwise_map.2 (hkn.imp (fun hne e => hne (by injection e)))
      · intro x hx y hy e
        obtain ⟨t, -, ht⟩ := List.mem_map.1 hx
        obtain ⟨k, -, hk⟩ := List.mem_map.1 hy
        rw [← ht, ← hk] at e; cases e
    · intro o ho
      cases o with
      | thread t => exact List.mem_append.2 (.inl (List.mem_map.2 ⟨t, hall t, rfl⟩))
      | ref k =>
        refine List.mem_append.2 (.inr (List.mem_map.2 ⟨k, hk k ?_, rfl⟩))
        have := List.count_pos_iff.2 ho
        have h2 := hrk k
        apply Classical.byContradiction
        intro hne
        rw [if_neg hne] at h2; omega
  refine ⟨fun ha => ?_, ?_⟩
  · rw [← e, hb.1 a ha]
  · rw [← e, (hb.2.2.2 hidle a).1]; omega

/-- C133: a thread that is not spinning on an `AtomicRef` locked by another finishes its call on its own, whatever chain
of deletions that takes; the other threads stay where they are. In particular `Release` and destructors never wait. -/
theorem C133_ends (s : State T F) (h : Reachable s) (t : T) (hw : ¬ Waits s t) :
    ∃ n s', Alone t n s s' ∧ s'.stack t = [] ∧ ∀ u, u ≠ t → s'.stack u = s.stack u := by
  obtain ⟨n, s', h1, h2, -, h4⟩ := ends (inv_reachable h) hw
  exact ⟨n, s', h1, h2, h4⟩

/-- C133: no deadlock. From every reachable state any number of threads can be brought to the end of their calls by
steps of threads that are inside calls. -/
theorem C133_no_deadlock (s : State T F) (h : Reachable s) (ts : List T) :
    ∃ s', Steps s s' ∧ ∀ t ∈ ts, s'.stack t = [] := by
  obtain ⟨s', h1, -, h3, -⟩ := finish_all ts s (inv_reachable h)
  exact ⟨s', h1, h3⟩

/-- C133: nobody is inside a call on a member of an object whose destruction has begun or which is gone, and every call
in progress is on an `AtomicRef` that exists. -/
theorem C133_member_calls (s : State T F) (h : Reachable s) (t : T) (k : Key F) (hu : (s.stack t).any (Frame.uses k) = true) :
    s.made k = true ∧ ∀ a, k.1 = some a → s.life a = .live ∧ (Owner.thread t, a) ∈ s.tok := by
  have hi := inv_reachable h
  have htop : topUses k (s.stack t) = true := by
    have hsh := hi.m.shape t
    cases hs : s.stack t with
    | nil => rw [hs] at hu; cases hu
    | cons f r =>
      rw [hs] at hu hsh
      simp only [List.any_cons, Bool.or_eq_true, List.any_eq_true] at hu
      rcases hu with hu | ⟨g, hg, hgu⟩
      · exact hu
      · have := hsh g hg
        cases g <;> simp only [Frame.isDtor, Bool.false_eq_true] at this
        cases hgu
  refine ⟨?_, ?_⟩
  · have ho := hi.l.ok t
    cases hs : s.stack t with
    | nil => rw [hs] at htop; cases htop
    | cons f r =>
      rw [hs] at htop ho
      cases f <;> simp only [topUses, Frame.uses, decide_eq_true_eq, Bool.false_eq_true] at htop <;> subst htop
      · exact ho
      all_goals exact ho.1
  · intro a ha
    obtain ⟨o, f⟩ := k
    simp only at ha
    subst ha
    exact ⟨live_of_mem hi (user_mem hi htop), user_mem hi htop⟩

/-! A linked list of the objects at 16 and 32, `head` is the free-standing `AtomicRef` 0 and `next` the member 0. -/
instance (s : State (Fin 2) (Fin 2)) (a : Act (Fin 2) (Fin 2)) : Decidable (Allowed s a) := by
  cases a <;> simp only [Allowed] <;> infer_instance

def sched (s : State (Fin 2) (Fin 2)) : List (Act (Fin 2) (Fin 2)) → Option (State (Fin 2) (Fin 2))
  | [] => some s
  | a :: as => if Allowed s a then match step s a with
    | some (.ok s') => sched s' as
    | _ => none
    else none

theorem sched_run : ∀ (as bs : List (Act (Fin 2) (Fin 2))) (s s' : State (Fin 2) (Fin 2)), Run bs s → sched s as = some s' →
    Run (as.reverse ++ bs) s'
  | [], bs, s, s', h, he => by simp only [sched, Option.some.injEq] at he; exact he ▸ h
  | a :: as, bs, s, s', h, he => by
    simp only [sched] at he
    split at he
    · rename_i ha
      split at he
      · rename_i s1 h1
        have := sched_run as (a :: bs) s1 s' (.step h ha h1) he
        simpa using this
      · cases he
    · cases he

/-- `n` steps of thread `t`. -/
def go (t : Fin 2) (n : Nat) : List (Act (Fin 2) (Fin 2)) := List.replicate n (.cont t)

/-- Thread 0 builds the list. -/
def build : List (Act (Fin 2) (Fin 2)) :=
  [.create 0 16#64 [0], .create 0 32#64 [0, 1], .set 0 (some 16#64, 0) 32#64] ++ go 0 6 ++
  [.make 0 0 16#64, .release 0 16#64] ++ go 0 1 ++ [.release 0 32#64] ++ go 0 1

/-- Thread 1 reads `head`, and is in the middle of reading `next` when thread 0 cuts the list off. -/
def walk : List (Act (Fin 2) (Fin 2)) :=
  build ++ [.get 1 (none, 0)] ++ go 1 6 ++ [.get 1 (some 16#64, 0)] ++ go 1 2 ++ [.set 0 (none, 0) 0#64] ++ go 0 7

/-- After `build` each object has one reference, from the list. -/
example : (sched State.start build).map (fun s => decide (s.tok = [(.ref (none, 0), 16#64), (.ref (some 16#64, 0), 32#64)] ∧
    s.cnt 16#64 = 1 ∧ s.cnt 32#64 = 1 ∧ s.stack 0 = [])) = some true := by decide +kernel

/-- Destroying `head` then deletes both objects, one from inside the destructor of the other. -/
example : (sched State.start (build ++ [.destroy 1 0] ++ go 1 8)).map (fun s => decide (
      s.stack 1 = [.dtor 32#64 [0], .dtor 16#64 []])) = some true ∧
    (sched State.start (build ++ [.destroy 1 0] ++ go 1 11)).map (fun s => decide (s.stack 1 = [] ∧ s.tok = [] ∧
      s.life 16#64 = .free ∧ s.life 32#64 = .free ∧ s.made (none, 0) = false ∧ s.made (some 32#64, 1) = false)) = some true := by
  decide +kernel

/-- In the middle of `walk` thread 1 is inside a call on a member of an object only it keeps alive, with the lock. -/
example : (sched State.start walk).map (fun s => decide (s.stack 1 = [.add (some 16#64, 0) .get 32#64] ∧ s.stack 0 = [] ∧
    s.word (some 16#64, 0) = 33#64 ∧ s.cnt 16#64 = 1 ∧ s.tok = [(.thread 1, 16#64), (.ref (some 16#64, 0), 32#64)])) = some true := by
  decide +kernel

/-- It finishes, releases the first object, which is deleted and gives up the second, and thread 1 keeps that. -/
example : (sched State.start (walk ++ go 1 4 ++ [.release 1 16#64] ++ go 1 6)).map (fun s => decide (s.stack 1 = [] ∧
    s.life 16#64 = .free ∧ s.life 32#64 = .live ∧ s.cnt 32#64 = 1 ∧ s.tok = [(.thread 1, 32#64)] ∧
    gotten 1 32#64 s.log = 1)) = some true := by decide +kernel

/-- A thread that spins: thread 0 wants to assign to `next`, which thread 1 has locked. `C133_ends` is not about thread 0
then, but `C133_no_deadlock` is. -/
example : (sched State.start (build ++ [.get 0 (none, 0)] ++ go 0 6 ++ [.get 1 (none, 0)] ++ go 1 6 ++ [.get 1 (some 16#64, 0)] ++ go 1 2 ++
    [.set 0 (some 16#64, 0) 0#64] ++ go 0 1)).map (fun s => decide (s.stack 0 = [.cas (some 16#64, 0) (.set 0#64) 32#64] ∧
      s.word (some 16#64, 0) = 33#64)) = some true := by decide +kernel

/-- Cycles do leak: two objects that hold each other stay when nobody else refers to them, so `C133_no_leak` needs the ranks. -/
example : (sched State.start ([.create 0 16#64 [0], .create 0 32#64 [0], .set 0 (some 16#64, 0) 32#64] ++ go 0 6 ++
    [.set 0 (some 32#64, 0) 16#64] ++ go 0 6 ++ [.release 0 16#64] ++ go 0 1 ++ [.release 0 32#64] ++ go 0 1)).map
    (fun s => decide (s.stack 0 = [] ∧ s.stack 1 = [] ∧ s.life 16#64 = .live ∧ s.life 32#64 = .live ∧
      s.tok = [(.ref (some 32#64, 0), 16#64), (.ref (some 16#64, 0), 32#64)])) = some true := by decide +kernel

/-- The books after `walk`: thread 0 created and released, thread 1 got one object and is about to get the other. -/
example : booked 0 16#64 walk.reverse = 0 ∧ booked 0 32#64 walk.reverse = 0 ∧ booked 1 16#64 walk.reverse = 0 ∧
    (sched State.start walk).map (fun s => decide (gotten 1 16#64 s.log = 1 ∧ gotten 1 32#64 s.log = 0)) = some true := by
  decide +kernel

end Verif.AtomicRef.Graph
