import Verif.Raii.Spec
/-!
# Lemmas about the helpers of am-raii.h
-/
namespace Verif.Raii
open Verif

set_option linter.unusedSimpArgs false
set_option linter.unusedSectionVars false

section save
variable {L A : Type} [DecidableEq L]

theorem srun_append (os qs : List (SOp L A)) (s : SState L A) :
    SState.run (os ++ qs) s = (SState.run os s).bind (SState.run qs) := by
  induction os generalizing s with
  | nil => rfl
  | cons o os ih =>
    simp only [List.cons_append, SState.run, bind, Except.bind]
    cases h : s.step o with
    | error f => rfl
    | ok s1 => simp only [ih]; rfl

theorem srun_prog (p : Prog L A) (s : SState L A) :
    SState.run p.trace s = .ok { mem := fun k => (p.leaves k).getD (s.mem k), live := s.live } := by
  induction p generalizing s with
  | done => rfl
  | write l a r ih =>
    simp only [Prog.trace, SState.run, SState.step, bind, Except.bind, ih, store]
    congr 2
    funext k
    simp only [Prog.leaves]
    cases r.leaves k with
    | some x => rfl
    | none => by_cases h : k = l <;> simp [h]
  | scope l a b r ihb ihr =>
    simp only [Prog.trace, SState.run, SState.step, Guard.ctor, bind, Except.bind, srun_append, ihb, Guard.dtor, ihr, store]
    congr 2
    funext k
    simp only [Prog.leaves]
    cases r.leaves k with
    | some x => rfl
    | none => by_cases h : k = l <;> simp [h]
end save

section stack
variable {P N : Type} [DecidableEq P] [DecidableEq N]

/-- `h` is the first of the chain `l` of live objects linked on `p`. -/
def Chain (node : N → Option (Node P N)) (p : P) : Option N → List N → Prop
  | h, [] => h = none
  | h, n :: l => h = some n ∧ ∃ prev, node n = some { prevp := p, prev := prev } ∧ Chain node p prev l

structure LInv (s : LState P N) (e : Stacks P N) : Prop where
  chain : ∀ p, Chain s.node p (s.head p) (e p)
  nodup : ∀ p, (e p).Nodup
  live : ∀ n x, s.node n = some x → n ∈ e x.prevp

theorem Chain.mem {node : N → Option (Node P N)} {p : P} {h : Option N} {l : List N} (hc : Chain node p h l) {n : N} (hn : n ∈ l) :
    ∃ x, node n = some x ∧ x.prevp = p := by
  induction l generalizing h with
  | nil => cases hn
  | cons m l ih =>
    obtain ⟨-, prev, h1, h2⟩ := hc
    rcases List.mem_cons.1 hn with rfl | hn
    · exact ⟨_, h1, rfl⟩
    · exact ih h2 hn

theorem Chain.frame {node node' : N → Option (Node P N)} {p : P} {h : Option N} {l : List N} (hc : Chain node p h l)
    (hn : ∀ n ∈ l, node' n = node n) : Chain node' p h l := by
  induction l generalizing h with
  | nil => exact hc
  | cons m l ih =>
    obtain ⟨h0, prev, h1, h2⟩ := hc
    exact ⟨h0, prev, by rw [hn m (by simp)]; exact h1, ih h2 (fun n h => hn n (by simp [h]))⟩

theorem Chain.head {node : N → Option (Node P N)} {p : P} {h : Option N} {l : List N} (hc : Chain node p h l) : h = l.head? := by
  cases l with
  | nil => exact hc
  | cons m l => exact hc.1

theorem walk_chain (s : LState P N) {p : P} {h : Option N} {l : List N} (hc : Chain s.node p h l) : s.walk l.length h = some l := by
  induction l generalizing h with
  | nil => rw [show h = none from hc]; rfl
  | cons m l ih =>
    obtain ⟨h0, prev, h1, h2⟩ := hc
    rw [h0]
    simp only [List.length_cons, LState.walk, h1, ih h2, Option.map_some]

theorem LInv.disjoint {s : LState P N} {e : Stacks P N} (hi : LInv s e) {p q : P} {n : N} (hp : n ∈ e p) (hq : n ∈ e q) : p = q := by
  obtain ⟨x, h1, h2⟩ := (hi.chain p).mem hp
  obtain ⟨y, h3, h4⟩ := (hi.chain q).mem hq
  rw [h1] at h3; injection h3 with h3; rw [← h2, ← h4, h3]

theorem linv_step {s : LState P N} {e : Stacks P N} (hi : LInv s e) (o : LOp P N) (hl : LLegal e o) :
    ∃ s', s.step o = .ok s' ∧ LInv s' (lspecStep e o) := by
  cases o with
  | ctor n p =>
    have hl : ∀ q, n ∉ e q := hl
    refine ⟨s.ctor n p, rfl, ?_, ?_, ?_⟩
    · intro q
      have hfr : Chain (s.ctor n p).node q (s.head q) (e q) := (hi.chain q).frame (fun m hm => by
        have : m ≠ n := by rintro rfl; exact hl q hm
        simp [LState.ctor, this])
      by_cases hq : q = p
      · subst hq
        simp only [lspecStep, if_true]
        exact ⟨by simp [LState.ctor], s.head q, by simp [LState.ctor], hfr⟩
      · simp only [lspecStep, hq, if_false]
        have : (s.ctor n p).head q = s.head q := by simp [LState.ctor, hq]
        rw [this]; exact hfr
    · intro q
      simp only [lspecStep]
      split
      · exact List.nodup_cons.2 ⟨hl q, hi.nodup q⟩
      · exact hi.nodup q
    · intro m x hx
      simp only [LState.ctor] at hx
      split at hx
      · injection hx with hx
        subst hx
        rename_i hmn
        simp [lspecStep, hmn]
      · have := hi.live m x hx
        simp only [lspecStep]; split
        · exact List.mem_cons_of_mem _ this
        · exact this
  | dtor n =>
    obtain ⟨p, hp⟩ := hl
    obtain ⟨t, ht⟩ : ∃ t, e p = n :: t := by
      cases h : e p with
      | nil => rw [h] at hp; cases hp
      | cons m t => rw [h] at hp; injection hp with hp; rw [hp]; exact ⟨t, rfl⟩
    have hc := hi.chain p
    rw [ht] at hc
    obtain ⟨h0, prev, h1, h2⟩ := hc
    have hnt : n ∉ t := by have := hi.nodup p; rw [ht] at this; exact (List.nodup_cons.1 this).1
    have hother : ∀ q, q ≠ p → n ∉ e q := fun q hq h => hq (hi.disjoint h (by rw [ht]; simp))
    have hspec : ∀ q, lspecStep e (.dtor n) q = if q = p then t else e q := by
      intro q
      simp only [lspecStep]
      by_cases hq : q = p
      · subst hq; simp [ht]
      · have : (e q).head? ≠ some n := by
          intro h; exact hother q hq (List.mem_of_mem_head? (by rw [h]; rfl))
        simp [hq, this]
    refine ⟨{ head := fun q => if q = p then prev else s.head q, node := fun k => if k = n then none else s.node k }, ?_, ?_, ?_, ?_⟩
    · simp only [LState.step, LState.dtor, h1, h0, if_true]
    · intro q
      rw [hspec q]
      by_cases hq : q = p
      · subst hq
        simp only [if_true]
        exact h2.frame (fun m hm => by
          have : m ≠ n := by rintro rfl; exact hnt hm
          simp [this])
      · simp only [hq, if_false]
        exact (hi.chain q).frame (fun m hm => by
          have : m ≠ n := by rintro rfl; exact hother q hq hm
          simp [this])
    · intro q
      rw [hspec q]
      split
      · have := hi.nodup p; rw [ht] at this; exact (List.nodup_cons.1 this).2
      · exact hi.nodup q
    · intro m x hx
      simp only at hx
      split at hx
      · cases hx
      · rename_i hmn
        have := hi.live m x hx
        rw [hspec]
        split
        · rename_i h; rw [h, ht] at this
          exact (List.mem_cons.1 this).resolve_left hmn
        · exact this

theorem linv_run (os : List (LOp P N)) {s : LState P N} {e : Stacks P N} (hi : LInv s e) (hl : LLegalRun os e) :
    ∃ s', s.run os = .ok s' ∧ LInv s' (lspecRun os e) := by
  induction os generalizing s e with
  | nil => exact ⟨s, rfl, hi⟩
  | cons o os ih =>
    obtain ⟨s1, h1, h2⟩ := linv_step hi o hl.1
    obtain ⟨s2, h3, h4⟩ := ih h2 hl.2
    exact ⟨s2, by simp only [LState.run, h1, bind, Except.bind]; exact h3, h4⟩

theorem linv_start : LInv (LState.start : LState P N) (fun _ => []) :=
  ⟨fun _ => rfl, fun _ => List.nodup_nil, fun n x h => by cases h⟩
end stack

section guard
variable {G C : Type} [DecidableEq G]

def GRep (x : Option (SG C)) : Option (Option C) → Prop
  | none => x = none
  | some none => ∃ y, x = some y ∧ y.cancelled = true
  | some (some c) => x = some { callback := some c, cancelled := false }

structure GInv (s : GState G C) (e : GSpec G C) : Prop where
  rep : ∀ g, GRep (s.guards g) (e.owns g)
  log : s.fired = e.ran

theorem GInv.set {s : GState G C} {e : GSpec G C} (hi : GInv s e) (g : G) {x : Option (SG C)} {y : Option (Option C)} (h : GRep x y) :
    GInv (s.set g x) { e with owns := gset e.owns g y } := by
  refine ⟨fun k => ?_, hi.log⟩
  simp only [GState.set, gset]
  split
  · exact h
  · exact hi.rep k

theorem ginv_step {s : GState G C} {e : GSpec G C} (hi : GInv s e) (o : GOp G C) (hl : GLegal e o) :
    ∃ s', s.step o = .ok s' ∧ GInv s' (gspecStep e o) := by
  cases o with
  | create g c => exact ⟨_, rfl, hi.set g rfl⟩
  | move g h =>
    have hr := hi.rep h
    match ho : e.owns h with
    | none => exact (hl.2 ho).elim
    | some none =>
      rw [ho] at hr; obtain ⟨y, h1, h2⟩ := hr
      refine ⟨(s.set g (some { callback := y.callback, cancelled := y.cancelled })).set h (some { callback := none, cancelled := true }),
        by simp only [GState.step, h1], ?_⟩
      have := (hi.set g (x := some ⟨y.callback, y.cancelled⟩) (y := some none) ⟨_, rfl, h2⟩).set h (x := some ⟨none, true⟩) (y := some none) ⟨_, rfl, rfl⟩
      simpa only [gspecStep, ho] using this
    | some (some c) =>
      rw [ho] at hr
      have hr : s.guards h = some ⟨some c, false⟩ := hr
      refine ⟨(s.set g (some { callback := some c, cancelled := false })).set h (some { callback := none, cancelled := true }),
        by simp only [GState.step, hr], ?_⟩
      have := (hi.set g (x := some ⟨some c, false⟩) (y := some (some c)) rfl).set h (x := some ⟨none, true⟩) (y := some none) ⟨_, rfl, rfl⟩
      simpa only [gspecStep, ho] using this
  | cancel g =>
    have hr := hi.rep g
    obtain ⟨y, hy⟩ : ∃ y, s.guards g = some y := by
      match ho : e.owns g with
      | none => exact (hl ho).elim
      | some none => rw [ho] at hr; obtain ⟨y, h1, -⟩ := hr; exact ⟨y, h1⟩
      | some (some c) => rw [ho] at hr; exact ⟨_, hr⟩
    exact ⟨s.set g (some { y with cancelled := true }), by simp only [GState.step, hy], hi.set g ⟨_, rfl, rfl⟩⟩
  | destroy g =>
    have hr := hi.rep g
    match ho : e.owns g with
    | none => exact (hl ho).elim
    | some none =>
      rw [ho] at hr; obtain ⟨y, h1, h2⟩ := hr
      refine ⟨s.set g none, by simp only [GState.step, h1, h2]; rfl, ?_⟩
      have := hi.set g (x := none) (y := none) rfl
      simpa only [gspecStep, ho] using this
    | some (some c) =>
      rw [ho] at hr
      have hr : s.guards g = some ⟨some c, false⟩ := hr
      refine ⟨{ s.set g none with fired := c :: s.fired }, by simp only [GState.step, hr]; rfl, ?_⟩
      have := hi.set g (x := none) (y := none) rfl
      refine ⟨this.rep, ?_⟩
      simp only [gspecStep, ho, hi.log]

theorem ginv_run (os : List (GOp G C)) {s : GState G C} {e : GSpec G C} (hi : GInv s e) (hl : GLegalRun os e) :
    ∃ s', s.run os = .ok s' ∧ GInv s' (gspecRun os e) := by
  induction os generalizing s e with
  | nil => exact ⟨s, rfl, hi⟩
  | cons o os ih =>
    obtain ⟨s1, h1, h2⟩ := ginv_step hi o hl.1
    obtain ⟨s2, h3, h4⟩ := ih h2 hl.2
    exact ⟨s2, by simp only [GState.run, h1, bind, Except.bind]; exact h3, h4⟩

theorem ginv_start : GInv (GState.start : GState G C) GSpec.start := ⟨fun _ => rfl, rfl⟩

/-- Bookkeeping of the specification: callbacks run or owned are distinct and among those seen. -/
structure SInv [DecidableEq C] (e : GSpec G C) (seen : List C) : Prop where
  nodup : e.ran.Nodup
  ranSeen : ∀ c ∈ e.ran, c ∈ seen
  ownSeen : ∀ g c, e.owns g = some (some c) → c ∈ seen ∧ c ∉ e.ran
  inj : ∀ g h c, e.owns g = some (some c) → e.owns h = some (some c) → g = h

theorem sinv_step [DecidableEq C] {e : GSpec G C} {seen : List C} (hi : SInv e seen) (o : GOp G C) (hl : GLegal e o)
    (hf : ∀ g c, o = .create g c → c ∉ seen) : SInv (gspecStep e o) (created [o] ++ seen) := by
  cases o with
  | create g c =>
    have hc := hf g c rfl
    refine ⟨hi.nodup, fun d hd => List.mem_cons_of_mem _ (hi.ranSeen d hd), ?_, ?_⟩
    · intro k d hk
      simp only [gspecStep, gset] at hk
      split at hk
      · injection hk with hk; injection hk with hk; subst hk
        exact ⟨by simp [created], fun h => hc (hi.ranSeen _ h)⟩
      · exact ⟨List.mem_cons_of_mem _ (hi.ownSeen k d hk).1, (hi.ownSeen k d hk).2⟩
    · intro k k' d hk hk'
      simp only [gspecStep, gset] at hk hk'
      split at hk
      · injection hk with hk; injection hk with hk; subst hk
        split at hk'
        · simp_all
        · exact (hc (hi.ownSeen _ _ hk').1).elim
      · split at hk'
        · injection hk' with hk'; injection hk' with hk'; subst hk'
          exact (hc (hi.ownSeen _ _ hk).1).elim
        · exact hi.inj _ _ _ hk hk'
  | move g h =>
    have hgh : g ≠ h := by rintro rfl; exact hl.2 hl.1
    have key : ∀ k d, (gspecStep e (.move g h)).owns k = some (some d) → (k = g ∧ e.owns h = some (some d)) ∨ (k ≠ g ∧ k ≠ h ∧ e.owns k = some (some d)) := by
      intro k d hk
      simp only [gspecStep, gset] at hk
      split at hk
      · cases hk
      · split at hk
        · exact .inl ⟨by assumption, hk⟩
        · exact .inr ⟨by assumption, by assumption, hk⟩
    refine ⟨hi.nodup, hi.ranSeen, ?_, ?_⟩
    · intro k d hk
      rcases key k d hk with ⟨-, h1⟩ | ⟨-, -, h1⟩
      · exact hi.ownSeen _ _ h1
      · exact hi.ownSeen _ _ h1
    · intro k k' d hk hk'
      rcases key k d hk with ⟨h0, h1⟩ | ⟨h0, h0', h1⟩ <;> rcases key k' d hk' with ⟨h2, h3⟩ | ⟨h2, h2', h3⟩
      · rw [h0, h2]
      · exact (h2' (hi.inj _ _ _ h3 h1)).elim
      · exact (h0' (hi.inj _ _ _ h1 h3)).elim
      · exact hi.inj _ _ _ h1 h3
  | cancel g =>
    have key : ∀ k d, (gspecStep e (.cancel g)).owns k = some (some d) → e.owns k = some (some d) := by
      intro k d hk
      simp only [gspecStep, gset] at hk
      split at hk
      · cases hk
      · exact hk
    exact ⟨hi.nodup, hi.ranSeen, fun k d hk => hi.ownSeen k d (key k d hk), fun k k' d hk hk' => hi.inj k k' d (key k d hk) (key k' d hk')⟩
  | destroy g =>
    have key : ∀ k d, (gspecStep e (.destroy g)).owns k = some (some d) → k ≠ g ∧ e.owns k = some (some d) := by
      intro k d hk
      simp only [gspecStep, gset] at hk
      split at hk
      · cases hk
      · exact ⟨by assumption, hk⟩
    match ho : e.owns g with
    | none => exact (hl ho).elim
    | some none =>
      have hr : (gspecStep e (.destroy g)).ran = e.ran := by simp only [gspecStep, ho]
      exact ⟨by rw [hr]; exact hi.nodup, by rw [hr]; exact hi.ranSeen, fun k d hk => by rw [hr]; exact hi.ownSeen k d (key k d hk).2,
        fun k k' d hk hk' => hi.inj k k' d (key k d hk).2 (key k' d hk').2⟩
    | some (some c) =>
      have hr : (gspecStep e (.destroy g)).ran = c :: e.ran := by simp only [gspecStep, ho]
      have hc := hi.ownSeen g c ho
      refine ⟨by rw [hr]; exact List.nodup_cons.2 ⟨hc.2, hi.nodup⟩, ?_, ?_, fun k k' d hk hk' => hi.inj k k' d (key k d hk).2 (key k' d hk').2⟩
      · rw [hr]; intro d hd
        rcases List.mem_cons.1 hd with rfl | hd
        · exact hc.1
        · exact hi.ranSeen d hd
      · intro k d hk
        obtain ⟨h1, h2⟩ := key k d hk
        refine ⟨(hi.ownSeen k d h2).1, ?_⟩
        rw [hr]; intro h
        rcases List.mem_cons.1 h with rfl | h
        · exact h1 (hi.inj _ _ _ h2 ho)
        · exact (hi.ownSeen k d h2).2 h

theorem created_cons (o : GOp G C) (os : List (GOp G C)) : created (o :: os) = created [o] ++ created os := by
  cases o <;> rfl

theorem sinv_run [DecidableEq C] (os : List (GOp G C)) {e : GSpec G C} {seen : List C} (hi : SInv e seen) (hl : GLegalRun os e)
    (hn : (created os).Nodup) (hd : ∀ c ∈ created os, c ∉ seen) :
    ∃ seen', (∀ c, c ∈ seen' ↔ c ∈ created os ∨ c ∈ seen) ∧ SInv (gspecRun os e) seen' := by
  induction os generalizing e seen with
  | nil => exact ⟨seen, by simp [created], hi⟩
  | cons o os ih =>
    rw [created_cons] at hn hd
    have hs := sinv_step hi o hl.1 (by
      rintro g c rfl
      exact hd c (by simp [created]))
    obtain ⟨seen', h1, h2⟩ := ih hs hl.2 (List.nodup_append.1 hn).2.1 (by
      intro c hc hcs
      rcases List.mem_append.1 hcs with h | h
      · exact (List.nodup_append.1 hn).2.2 c h c hc rfl
      · exact hd c (by simp [hc]) h)
    refine ⟨seen', ?_, h2⟩
    intro c
    rw [h1 c, created_cons o os]
    simp only [List.mem_append]
    constructor
    · rintro (h | h | h)
      · exact .inl (.inr h)
      · exact .inl (.inl h)
      · exact .inr h
    · rintro ((h | h) | h)
      · exact .inr (.inl h)
      · exact .inl h
      · exact .inr (.inr h)

/-- Without `cancel`, every callback seen is owned or has run. -/
theorem kept_run (os : List (GOp G C)) {e : GSpec G C} (hl : GLegalRun os e) (hc : ∀ g, GOp.cancel g ∉ os) (c : C)
    (h : c ∈ created os ∨ c ∈ e.ran ∨ ∃ g, e.owns g = some (some c)) :
    c ∈ (gspecRun os e).ran ∨ ∃ g, (gspecRun os e).owns g = some (some c) := by
  induction os generalizing e with
  | nil => simpa [created, gspecRun] using h
  | cons o os ih =>
    refine ih hl.2 (fun g hg => hc g (List.mem_cons_of_mem _ hg)) ?_
    cases o with
    | create g d =>
      rcases h with h | h | ⟨k, h⟩
      · rcases List.mem_cons.1 h with rfl | h
        · exact .inr (.inr ⟨g, by simp [gspecStep, gset]⟩)
        · exact .inl h
      · exact .inr (.inl h)
      · refine .inr (.inr ⟨k, ?_⟩)
        have : k ≠ g := by rintro rfl; have := hl.1; simp only [GLegal] at this; rw [this] at h; cases h
        simp [gspecStep, gset, this, h]
    | move g k =>
      have hgk : g ≠ k := by rintro rfl; exact hl.1.2 hl.1.1
      rcases h with h | h | ⟨m, h⟩
      · exact .inl h
      · exact .inr (.inl h)
      · by_cases hm : m = k
        · subst hm
          exact .inr (.inr ⟨g, by simp [gspecStep, gset, hgk, h]⟩)
        · have : m ≠ g := by rintro rfl; rw [hl.1.1] at h; cases h
          exact .inr (.inr ⟨m, by simp [gspecStep, gset, this, hm, h]⟩)
    | cancel g => exact (hc g (by simp)).elim
    | destroy g =>
      rcases h with h | h | ⟨m, h⟩
      · exact .inl h
      · refine .inr (.inl ?_)
        simp only [gspecStep]
        split
        · exact List.mem_cons_of_mem _ h
        · exact h
      · by_cases hm : m = g
        · subst hm
          refine .inr (.inl ?_)
          simp [gspecStep, h]
        · exact .inr (.inr ⟨m, by simp [gspecStep, gset, hm, h]⟩)
end guard
end Verif.Raii
