import Verif.Raii.Lemmas
import Verif.Raii.SpecExits
/-!
# The machine of Exits.lean refines the `try ... finally` reading
-/
namespace Verif.Raii
open Verif

set_option linter.unusedSimpArgs false
set_option linter.unusedSectionVars false

section
variable {L A P E : Type} [DecidableEq L] [DecidableEq P]

structure Rel (m : Mach L A P E) (st : SSt L A P) (env : List Bool) (cbs : List (Stmt L A P E)) : Prop where
  mem : m.mem = st.mem
  next : m.next = st.next
  clock : m.clock = st.clock
  links : LInv m.links st.stacks
  lt : ∀ p, ∀ n ∈ st.stacks p, n < st.next
  len : ∀ p, (st.stacks p).length ≤ st.next
  flags : m.guards.map SG.cancelled = env
  calls : m.guards.map SG.callback = cbs.map some

/-- `c` gets to `c'`. -/
def Goes (cls : Cls A E) (c c' : Config L A P E) : Prop := ∃ j, ∀ n, exec cls (n + j) c = exec cls n c'

def Aborts (cls : Cls A E) (c : Config L A P E) : Prop := ∃ j, exec cls j c = some .aborted

variable {cls : Cls A E}

theorem Goes.refl (c : Config L A P E) : Goes cls c c := ⟨0, fun _ => rfl⟩

theorem Goes.trans {a b c : Config L A P E} (h : Goes cls a b) (h' : Goes cls b c) : Goes cls a c := by
  obtain ⟨i, hi⟩ := h
  obtain ⟨j, hj⟩ := h'
  exact ⟨j + i, fun n => by rw [← Nat.add_assoc, hi, hj]⟩

theorem Goes.step {a b c : Config L A P E} (h : a.step cls = .next b) (h' : Goes cls b c) : Goes cls a c := by
  obtain ⟨j, hj⟩ := h'
  exact ⟨j + 1, fun n => by rw [← Nat.add_assoc, exec, h]; exact hj n⟩

theorem Goes.one {a b : Config L A P E} (h : a.step cls = .next b) : Goes cls a b := .step h (.refl _)

theorem Goes.aborts {a b : Config L A P E} (h : Goes cls a b) (h' : Aborts cls b) : Aborts cls a := by
  obtain ⟨i, hi⟩ := h
  obtain ⟨j, hj⟩ := h'
  exact ⟨j + i, by rw [hi, hj]⟩

theorem Aborts.one {a : Config L A P E} (h : a.step cls = .final .aborted) : Aborts cls a := ⟨1, by simp only [exec, h]⟩

theorem exec_mono {n : Nat} {c : Config L A P E} {f : Final L A P E} (h : exec cls n c = some f) (i : Nat) : exec cls (n + i) c = some f := by
  induction n generalizing c with
  | zero => cases h
  | succ n ih =>
    rw [Nat.add_right_comm]
    simp only [exec] at h ⊢
    cases hs : c.step cls with
    | next c' => rw [hs] at h; exact ih h
    | final g => rw [hs] at h; exact h

theorem exec_unique {n n' : Nat} {c : Config L A P E} {f f' : Final L A P E} (h : exec cls n c = some f) (h' : exec cls n' c = some f') : f = f' := by
  have h1 := exec_mono h n'
  have h2 := exec_mono h' n
  rw [Nat.add_comm, h2] at h1
  injection h1 with h1
  exact h1.symm

theorem Goes.exec {a b : Config L A P E} (h : Goes cls a b) {n : Nat} {f : Final L A P E} (he : Raii.exec cls n a = some f) :
    ∃ n', n' ≤ n ∧ Raii.exec cls n' b = some f := by
  obtain ⟨j, hj⟩ := h
  by_cases hn : j ≤ n
  · refine ⟨n - j, Nat.sub_le _ _, ?_⟩
    rw [← hj, Nat.sub_add_cancel hn, he]
  · have := exec_mono he (j - n)
    rw [show n + (j - n) = 0 + j by omega, hj 0] at this
    cases this

theorem walk_more (s : LState P Nat) {p : P} {h : Option Nat} {l : List Nat} (hc : Chain s.node p h l) {k : Nat} (hk : l.length ≤ k) :
    s.walk k h = some l := by
  induction l generalizing h k with
  | nil => rw [show h = none from hc]; cases k <;> rfl
  | cons m l ih =>
    obtain ⟨h0, prev, h1, h2⟩ := hc
    cases k with
    | zero => simp at hk
    | succ k => simp only [h0, LState.walk, h1, ih h2 (by simpa using hk), Option.map_some]

theorem Rel.view {m : Mach L A P E} {st : SSt L A P} {env : List Bool} {cbs : List (Stmt L A P E)} (hr : Rel m st env cbs) : m.view = st.view := by
  simp only [Mach.view, SSt.view, View.mk.injEq]
  exact ⟨hr.mem, funext fun p => by rw [hr.next]; exact walk_more _ (hr.links.chain p) (hr.len p)⟩

theorem Rel.setMem {m : Mach L A P E} {st : SSt L A P} {env : List Bool} {cbs : List (Stmt L A P E)} (hr : Rel m st env cbs) (mem : L → A) :
    Rel { m with mem := mem } { st with mem := mem } env cbs :=
  ⟨rfl, hr.next, hr.clock, hr.links, hr.lt, hr.len, hr.flags, hr.calls⟩

theorem Rel.tick {m : Mach L A P E} {st : SSt L A P} {env : List Bool} {cbs : List (Stmt L A P E)} (hr : Rel m st env cbs) :
    Rel { m with clock := m.clock + 1 } { st with clock := st.clock + 1 } env cbs :=
  ⟨hr.mem, hr.next, by rw [← hr.clock], hr.links, hr.lt, hr.len, hr.flags, hr.calls⟩

theorem Rel.set {m : Mach L A P E} {st : SSt L A P} {env : List Bool} {cbs : List (Stmt L A P E)} (hr : Rel m st env cbs) (l : L) (a : A) :
    Rel { m with mem := store m.mem l a, clock := m.clock + 1 } (st.set l a) env cbs :=
  ⟨by simp only [SSt.set, hr.mem]; rfl, hr.next, by simp only [SSt.set, ← hr.clock], hr.links, hr.lt, hr.len, hr.flags, hr.calls⟩

theorem Rel.link {m : Mach L A P E} {st : SSt L A P} {env : List Bool} {cbs : List (Stmt L A P E)} (hr : Rel m st env cbs) (p : P) :
    Rel { m with links := m.links.ctor st.next p, next := st.next + 1 }
      { st with stacks := fun q => if q = p then st.next :: st.stacks q else st.stacks q, next := st.next + 1 } env cbs := by
  have hfresh : ∀ q, st.next ∉ st.stacks q := fun q hq => Nat.lt_irrefl _ (hr.lt q _ hq)
  obtain ⟨s1, h1, h2⟩ := linv_step hr.links (.ctor st.next p) hfresh
  simp only [LState.step, Except.ok.injEq] at h1
  subst h1
  refine ⟨hr.mem, rfl, hr.clock, h2, ?_, ?_, hr.flags, hr.calls⟩
  · intro q i hi
    simp only at hi ⊢
    split at hi
    · rcases List.mem_cons.1 hi with rfl | hi
      · exact Nat.lt_succ_self _
      · exact Nat.lt_succ_of_lt (hr.lt q i hi)
    · exact Nat.lt_succ_of_lt (hr.lt q i hi)
  · intro q
    simp only
    have := hr.len q
    split
    · simp only [List.length_cons]; omega
    · omega

theorem Rel.popGuard {m : Mach L A P E} {st : SSt L A P} {env : List Bool} {cb : Stmt L A P E} {cbs : List (Stmt L A P E)} (hr : Rel m st env (cb :: cbs))
    (cls : Cls A E) (hc : ¬ env.headD true = true) (k : List (Frame L A P E)) (o : Out E) :
    ∃ gs, Config.step cls (⟨.out o, .guard :: k, m⟩ : Config L A P E) = .next ⟨.run cb, .dtor o :: k, { m with guards := gs }⟩ ∧
      Rel { m with guards := gs } st env.tail cbs := by
  have h1 := hr.calls
  have h2 := hr.flags
  cases hgs : m.guards with
  | nil => rw [hgs] at h1; cases h1
  | cons g gs =>
    rw [hgs] at h1 h2
    subst h2
    simp only [List.map_cons, List.cons.injEq] at h1
    have hcan : g.cancelled = false := by
      cases h : g.cancelled with
      | true => exact (hc (by simp [h])).elim
      | false => rfl
    refine ⟨gs, ?_, ⟨hr.mem, hr.next, hr.clock, hr.links, hr.lt, hr.len, rfl, h1.2⟩⟩
    simp only [Config.step, Mach.finish, hgs, hcan, h1.1]
    rfl

/-- What `sim` says about a result. -/
def Sim (cls : Cls A E) (c : Config L A P E) (k : List (Frame L A P E)) (st : SSt L A P) (cbs : List (Stmt L A P E)) : Res L A P E → Prop
  | .aborted => Aborts cls c
  | .done o env' st' => ∃ m', Rel m' st' env' cbs ∧ st'.stacks = st.stacks ∧ Goes cls c ⟨.out o, k, m'⟩

theorem Sim.goes {c c' : Config L A P E} {k : List (Frame L A P E)} {st st' : SSt L A P} {cbs : List (Stmt L A P E)} {r : Res L A P E} (hg : Goes cls c c')
    (hs : st'.stacks = st.stacks) (h : Sim cls c' k st' cbs r) : Sim cls c k st cbs r := by
  cases r with
  | aborted => exact hg.aborts h
  | done o env st'' =>
    obtain ⟨m, h1, h2, h3⟩ := h
    exact ⟨m, h1, h2.trans hs, hg.trans h3⟩

theorem sim (n : Nat) (s : Stmt L A P E) (env : List Bool) (st : SSt L A P) (r : Res L A P E) (h : eval cls n s env st = some r)
    (m : Mach L A P E) (k : List (Frame L A P E)) (cbs : List (Stmt L A P E)) (hr : Rel m st env cbs) : Sim cls ⟨.run s, k, m⟩ k st cbs r := by
  induction n generalizing s env st r m k cbs with
  | zero => cases h
  | succ n ih =>
    cases s with
    | prim f =>
      simp only [eval, Option.some.injEq] at h
      subst h
      refine ⟨{ m with mem := (f st.view).1 }, hr.setMem _, rfl, .one ?_⟩
      simp only [Config.step, Mach.begin, hr.view]
    | seq a b =>
      simp only [eval, bind, Option.bind] at h
      refine Sim.goes (c' := ⟨.run a, .seq b :: k, m⟩) (.one rfl) rfl ?_
      cases ha : eval cls n a env st with
      | none => rw [ha] at h; cases h
      | some r1 =>
        rw [ha] at h
        have h1 := ih _ _ _ _ ha m (.seq b :: k) cbs hr
        cases r1 with
        | aborted => simp only [Option.some.injEq] at h; subst h; exact h1
        | done o env1 st1 =>
          obtain ⟨m1, h2, h3, h4⟩ := h1
          cases o with
          | fall => exact Sim.goes (h4.trans (.one rfl)) h3 (ih _ _ _ _ h m1 k cbs h2)
          | brk => simp only [Option.some.injEq] at h; subst h; exact ⟨m1, h2, h3, h4.trans (.one rfl)⟩
          | ret => simp only [Option.some.injEq] at h; subst h; exact ⟨m1, h2, h3, h4.trans (.one rfl)⟩
          | thrown e => simp only [Option.some.injEq] at h; subst h; exact ⟨m1, h2, h3, h4.trans (.one rfl)⟩
    | ite c a b =>
      simp only [eval] at h
      by_cases hc : c st.view = true
      · rw [if_pos hc] at h
        refine Sim.goes (c' := ⟨.run a, k, m⟩) (.one ?_) rfl (ih _ _ _ _ h m k cbs hr)
        simp only [Config.step, Mach.begin, hr.view, hc, if_true]
      · rw [if_neg hc] at h
        refine Sim.goes (c' := ⟨.run b, k, m⟩) (.one ?_) rfl (ih _ _ _ _ h m k cbs hr)
        simp only [Config.step, Mach.begin, hr.view]
        rw [if_neg hc]
    | loop b =>
      simp only [eval, bind, Option.bind] at h
      refine Sim.goes (c' := ⟨.run b, .loop b :: k, m⟩) (.one rfl) rfl ?_
      cases ha : eval cls n b env st with
      | none => rw [ha] at h; cases h
      | some r1 =>
        rw [ha] at h
        have h1 := ih _ _ _ _ ha m (.loop b :: k) cbs hr
        cases r1 with
        | aborted => simp only [Option.some.injEq] at h; subst h; exact h1
        | done o env1 st1 =>
          obtain ⟨m1, h2, h3, h4⟩ := h1
          cases o with
          | fall => exact Sim.goes (h4.trans (.one rfl)) h3 (ih _ _ _ _ h m1 k cbs h2)
          | brk => simp only [Option.some.injEq] at h; subst h; exact ⟨m1, h2, h3, h4.trans (.one rfl)⟩
          | ret => simp only [Option.some.injEq] at h; subst h; exact ⟨m1, h2, h3, h4.trans (.one rfl)⟩
          | thrown e => simp only [Option.some.injEq] at h; subst h; exact ⟨m1, h2, h3, h4.trans (.one rfl)⟩
    | call b =>
      simp only [eval, bind, Option.bind] at h
      refine Sim.goes (c' := ⟨.run b, .call :: k, m⟩) (.one rfl) rfl ?_
      cases ha : eval cls n b env st with
      | none => rw [ha] at h; cases h
      | some r1 =>
        rw [ha] at h
        have h1 := ih _ _ _ _ ha m (.call :: k) cbs hr
        cases r1 with
        | aborted => simp only [Option.some.injEq] at h; subst h; exact h1
        | done o env1 st1 =>
          obtain ⟨m1, h2, h3, h4⟩ := h1
          cases o with
          | fall => simp only [Option.some.injEq] at h; subst h; exact ⟨m1, h2, h3, h4.trans (.one rfl)⟩
          | brk => simp only [Option.some.injEq] at h; subst h; exact ⟨m1, h2, h3, h4.trans (.one rfl)⟩
          | ret => simp only [Option.some.injEq] at h; subst h; exact ⟨m1, h2, h3, h4.trans (.one rfl)⟩
          | thrown e => simp only [Option.some.injEq] at h; subst h; exact ⟨m1, h2, h3, h4.trans (.one rfl)⟩
    | tryCatch b hd =>
      simp only [eval, bind, Option.bind] at h
      refine Sim.goes (c' := ⟨.run b, .tryCatch hd :: k, m⟩) (.one rfl) rfl ?_
      cases ha : eval cls n b env st with
      | none => rw [ha] at h; cases h
      | some r1 =>
        rw [ha] at h
        have h1 := ih _ _ _ _ ha m (.tryCatch hd :: k) cbs hr
        cases r1 with
        | aborted => simp only [Option.some.injEq] at h; subst h; exact h1
        | done o env1 st1 =>
          obtain ⟨m1, h2, h3, h4⟩ := h1
          cases o with
          | fall => simp only [Option.some.injEq] at h; subst h; exact ⟨m1, h2, h3, h4.trans (.one rfl)⟩
          | brk => simp only [Option.some.injEq] at h; subst h; exact ⟨m1, h2, h3, h4.trans (.one rfl)⟩
          | ret => simp only [Option.some.injEq] at h; subst h; exact ⟨m1, h2, h3, h4.trans (.one rfl)⟩
          | thrown e => exact Sim.goes (h4.trans (.one rfl)) h3 (ih _ _ _ _ h m1 k cbs h2)
    | save l v b =>
      simp only [eval] at h
      have hv := hr.view
      have hc := hr.clock
      have hm := hr.mem
      cases h0 : cls.throws st.clock with
      | some e =>
        simp only [h0, Option.some.injEq] at h
        subst h
        exact ⟨{ m with clock := m.clock + 1 }, hr.tick, rfl, .one (by simp only [Config.step, Mach.begin, Mach.saveCtor, hc, h0])⟩
      | none =>
        cases h1 : cls.throws (st.clock + 1) with
        | some e =>
          simp only [h0, h1, Option.some.injEq] at h
          subst h
          exact ⟨_, hr.tick.set l (cls.torn (st.clock + 1) (st.mem l) (v st.view)), rfl,
            .one (by simp only [Config.step, Mach.begin, Mach.saveCtor, Mach.assign, hc, h0, h1, hm, hv])⟩
        | none =>
          simp only [h0, h1, bind, Option.bind] at h
          have hr1 := hr.tick.set l (v st.view)
          cases ha : eval cls n b env (SSt.set { st with clock := st.clock + 1 } l (v st.view)) with
          | none => rw [ha] at h; cases h
          | some r1 =>
            rw [ha] at h
            refine Sim.goes (c' := ⟨.run b, .save ⟨l, st.mem l⟩ :: k, { m with mem := store m.mem l (v st.view), clock := m.clock + 1 + 1 }⟩)
              (.one (by simp only [Config.step, Mach.begin, Mach.saveCtor, Mach.assign, hc, h0, h1, hm, hv])) (st' := SSt.set { st with clock := st.clock + 1 } l (v st.view)) rfl ?_
            have h2 := ih _ _ _ _ ha _ (.save ⟨l, st.mem l⟩ :: k) cbs hr1
            cases r1 with
            | aborted => simp only [Option.some.injEq] at h; subst h; exact h2
            | done o env1 st1 =>
              obtain ⟨m1, h3, h4, h5⟩ := h2
              cases h6 : cls.throws st1.clock with
              | some e =>
                simp only [h6, Option.some.injEq] at h
                subst h
                exact h5.aborts (.one (by simp only [Config.step, Mach.finish, Mach.assign, h3.clock, h6]))
              | none =>
                simp only [h6, Option.some.injEq] at h
                subst h
                exact ⟨_, h3.set l (st.mem l), h4, h5.trans (.one (by simp only [Config.step, Mach.finish, Mach.assign, h3.clock, h6]))⟩
    | link p b =>
      simp only [eval, bind, Option.bind] at h
      have hfresh : ∀ q, st.next ∉ st.stacks q := fun q hq => Nat.lt_irrefl _ (hr.lt q _ hq)
      have hr1 := hr.link p
      cases ha : eval cls n b env { st with stacks := fun q => if q = p then st.next :: st.stacks q else st.stacks q, next := st.next + 1 } with
      | none => rw [ha] at h; cases h
      | some r1 =>
        rw [ha] at h
        have h3 := ih _ _ _ _ ha _ (.link st.next :: k) cbs hr1
        have h4 : Goes cls (⟨.run (.link p b), k, m⟩ : Config L A P E) ⟨.run b, .link st.next :: k, { m with links := m.links.ctor st.next p, next := st.next + 1 }⟩ :=
          .one (by simp only [Config.step, Mach.begin, hr.next])
        cases r1 with
        | aborted => simp only [Option.some.injEq] at h; subst h; exact h4.aborts h3
        | done o env1 st1 =>
          simp only [Option.some.injEq] at h
          subst h
          obtain ⟨m1, h5, h6, h7⟩ := h3
          simp only at h6
          have hhd : (st1.stacks p).head? = some st.next := by rw [h6]; simp
          obtain ⟨s2, h8, h9⟩ := linv_step h5.links (.dtor st.next) ⟨p, hhd⟩
          simp only [LState.step] at h8
          have hst : (fun q => if q = p then (st1.stacks q).tail else st1.stacks q) = st.stacks := by
            funext q
            rw [h6]
            by_cases hq : q = p <;> simp [hq]
          have hsp : lspecStep st1.stacks (.dtor st.next) = st.stacks := by
            funext q
            simp only [lspecStep, h6]
            by_cases hq : q = p
            · simp [hq]
            · simp only [hq, if_false]
              rw [if_neg]
              intro hh
              exact hfresh q (List.mem_of_mem_head? (by rw [hh]; rfl))
          refine ⟨{ m1 with links := s2 }, ?_, hst, h4.trans (h7.trans (.one (by simp only [Config.step, Mach.finish, h8])))⟩
          rw [hst]
          refine ⟨h5.mem, h5.next, h5.clock, hsp ▸ h9, ?_, ?_, h5.flags, h5.calls⟩
          · intro q i hi
            refine h5.lt q i ?_
            rw [h6]
            simp only
            split
            · exact List.mem_cons_of_mem _ hi
            · exact hi
          · intro q
            refine Nat.le_trans ?_ (h5.len q)
            rw [h6]
            simp only
            split
            · simp
            · exact Nat.le_refl _
    | guard cb b =>
      simp only [eval, bind, Option.bind] at h
      have hr1 : Rel { m with guards := { callback := some cb, cancelled := false } :: m.guards } st (false :: env) (cb :: cbs) :=
        ⟨hr.mem, hr.next, hr.clock, hr.links, hr.lt, hr.len, by simp only [List.map_cons, hr.flags], by simp only [List.map_cons, hr.calls]⟩
      refine Sim.goes (c' := ⟨.run b, .guard :: k, { m with guards := { callback := some cb, cancelled := false } :: m.guards }⟩) (.one rfl) rfl ?_
      cases ha : eval cls n b (false :: env) st with
      | none => rw [ha] at h; cases h
      | some r1 =>
        rw [ha] at h
        have h3 := ih _ _ _ _ ha _ (.guard :: k) (cb :: cbs) hr1
        cases r1 with
        | aborted => simp only [Option.some.injEq] at h; subst h; exact h3
        | done o env1 st1 =>
          obtain ⟨m1, h5, h6, h7⟩ := h3
          obtain ⟨g, gs, hg, hcb, hgs⟩ : ∃ g gs, m1.guards = g :: gs ∧ g.callback = some cb ∧ gs.map SG.callback = cbs.map some := by
            have := h5.calls
            cases hgs : m1.guards with
            | nil => rw [hgs] at this; cases this
            | cons g gs =>
              rw [hgs] at this
              simp only [List.map_cons, List.cons.injEq] at this
              exact ⟨g, gs, rfl, this.1, this.2⟩
          have he : env1 = g.cancelled :: gs.map SG.cancelled := by rw [← h5.flags, hg]; rfl
          subst he
          have hr2 : Rel { m1 with guards := gs } st1 (gs.map SG.cancelled) cbs :=
            ⟨h5.mem, h5.next, h5.clock, h5.links, h5.lt, h5.len, rfl, hgs⟩
          simp only [List.tail_cons] at h
          by_cases hcan : g.cancelled = true
          · rw [if_pos (show (g.cancelled :: gs.map SG.cancelled).headD true = true from hcan)] at h
            simp only [Option.some.injEq] at h
            subst h
            exact ⟨_, hr2, h6, h7.trans (.one (by simp only [Config.step, Mach.finish, hg, hcan]; rfl))⟩
          · rw [if_neg (show ¬ (g.cancelled :: gs.map SG.cancelled).headD true = true from hcan)] at h
            have h8 : Goes cls (⟨.out o, .guard :: k, m1⟩ : Config L A P E) ⟨.run cb, .dtor o :: k, { m1 with guards := gs }⟩ :=
              .one (by simp only [Config.step, Mach.finish, hg, hcan, hcb]; rfl)
            refine Sim.goes (h7.trans h8) h6 ?_
            cases hb : eval cls n cb (gs.map SG.cancelled) st1 with
            | none => rw [hb] at h; cases h
            | some r2 =>
              rw [hb] at h
              have h9 := ih _ _ _ _ hb _ (.dtor o :: k) cbs hr2
              cases r2 with
              | aborted => simp only [Option.some.injEq] at h; subst h; exact h9
              | done o' env2 st2 =>
                obtain ⟨m2, h10, h11, h12⟩ := h9
                cases o' with
                | thrown e =>
                  simp only [Option.some.injEq] at h; subst h
                  exact h12.aborts (.one rfl)
                | fall => simp only [Option.some.injEq] at h; subst h; exact ⟨m2, h10, h11, h12.trans (.one rfl)⟩
                | brk => simp only [Option.some.injEq] at h; subst h; exact ⟨m2, h10, h11, h12.trans (.one rfl)⟩
                | ret => simp only [Option.some.injEq] at h; subst h; exact ⟨m2, h10, h11, h12.trans (.one rfl)⟩
    | cancel i =>
      simp only [eval, Option.some.injEq] at h
      subst h
      refine ⟨{ m with guards := m.guards.modify i fun g => { g with cancelled := true } }, ?_, rfl, .one rfl⟩
      refine ⟨hr.mem, hr.next, hr.clock, hr.links, hr.lt, hr.len, ?_, ?_⟩
      · simp only
        rw [← hr.flags]
        clear hr
        generalize m.guards = gs
        induction gs generalizing i with
        | nil => simp
        | cons g gs ih => cases i <;> simp [ih]
      · simp only
        rw [← hr.calls]
        clear hr
        generalize m.guards = gs
        induction gs generalizing i with
        | nil => simp
        | cons g gs ih => cases i <;> simp [ih]

theorem eval_mono {n : Nat} {s : Stmt L A P E} {env : List Bool} {st : SSt L A P} {r : Res L A P E} (h : eval cls n s env st = some r) :
    eval cls (n + 1) s env st = some r := by
  induction n generalizing s env st r with
  | zero => cases h
  | succ n ih =>
    cases s with
    | prim f => exact h
    | cancel i => exact h
    | seq a b =>
      simp only [eval, bind, Option.bind] at h
      rw [eval]
      cases ha : eval cls n a env st with
      | none => rw [ha] at h; cases h
      | some r1 =>
        rw [ha] at h
        simp only [ih ha, bind, Option.bind]
        cases r1 with
        | aborted => exact h
        | done o env1 st1 => cases o <;> first | exact h | exact ih h
    | ite c a b =>
      simp only [eval] at h
      rw [eval]
      by_cases hc : c st.view = true
      · rw [if_pos hc] at h; simp only [if_pos hc]; exact ih h
      · rw [if_neg hc] at h; simp only [if_neg hc]; exact ih h
    | loop b =>
      simp only [eval, bind, Option.bind] at h
      rw [eval]
      cases ha : eval cls n b env st with
      | none => rw [ha] at h; cases h
      | some r1 =>
        rw [ha] at h
        simp only [ih ha, bind, Option.bind]
        cases r1 with
        | aborted => exact h
        | done o env1 st1 => cases o <;> first | exact h | exact ih h
    | call b =>
      simp only [eval, bind, Option.bind] at h
      rw [eval]
      cases ha : eval cls n b env st with
      | none => rw [ha] at h; cases h
      | some r1 =>
        rw [ha] at h
        simp only [ih ha, bind, Option.bind]
        cases r1 with
        | aborted => exact h
        | done o env1 st1 => cases o <;> exact h
    | tryCatch b hd =>
      simp only [eval, bind, Option.bind] at h
      rw [eval]
      cases ha : eval cls n b env st with
      | none => rw [ha] at h; cases h
      | some r1 =>
        rw [ha] at h
        simp only [ih ha, bind, Option.bind]
        cases r1 with
        | aborted => exact h
        | done o env1 st1 => cases o <;> first | exact h | exact ih h
    | save l v b =>
      simp only [eval] at h
      rw [eval]
      cases h0 : cls.throws st.clock with
      | some e => simp only [h0] at h ⊢; exact h
      | none =>
        cases h1 : cls.throws (st.clock + 1) with
        | some e => simp only [h0, h1] at h ⊢; exact h
        | none =>
          simp only [h0, h1, bind, Option.bind] at h ⊢
          cases ha : eval cls n b env (SSt.set { st with clock := st.clock + 1 } l (v st.view)) with
          | none => rw [ha] at h; cases h
          | some r1 => rw [ha] at h; simp only [ih ha]; exact h
    | link p b =>
      simp only [eval, bind, Option.bind] at h
      rw [eval]
      cases ha : eval cls n b env { st with stacks := fun q => if q = p then st.next :: st.stacks q else st.stacks q, next := st.next + 1 } with
      | none => rw [ha] at h; cases h
      | some r1 => rw [ha] at h; simp only [ih ha, bind, Option.bind]; exact h
    | guard cb b =>
      simp only [eval, bind, Option.bind] at h
      rw [eval]
      cases ha : eval cls n b (false :: env) st with
      | none => rw [ha] at h; cases h
      | some r1 =>
        rw [ha] at h
        simp only [ih ha, bind, Option.bind]
        cases r1 with
        | aborted => exact h
        | done o env1 st1 =>
          simp only at h ⊢
          by_cases hc : env1.headD true = true
          · rw [if_pos hc] at h ⊢; exact h
          · rw [if_neg hc] at h ⊢
            cases hb : eval cls n cb env1.tail st1 with
            | none => rw [hb] at h; cases h
            | some r2 => rw [hb] at h; simp only [ih hb]; exact h

theorem eval_le {n n' : Nat} {s : Stmt L A P E} {env : List Bool} {st : SSt L A P} {r : Res L A P E} (h : eval cls n s env st = some r) (hn : n ≤ n') :
    eval cls n' s env st = some r := by
  induction hn with
  | refl => exact h
  | step _ ih => exact eval_mono ih

theorem eval_two {n n' : Nat} {s : Stmt L A P E} {env : List Bool} {st : SSt L A P} {r r' : Res L A P E} (h : eval cls n s env st = some r)
    (h' : eval cls n' s env st = some r') : r = r' := by
  have h1 := eval_le h (Nat.le_max_left n n')
  have h2 := eval_le h' (Nat.le_max_right n n')
  rw [h1] at h2
  injection h2

/-- If the machine gets to an end, so does the evaluation. -/
theorem conv (n : Nat) (s : Stmt L A P E) (k : List (Frame L A P E)) (m : Mach L A P E) (st : SSt L A P) (env : List Bool) (cbs : List (Stmt L A P E))
    (f : Final L A P E) (h : exec cls n ⟨.run s, k, m⟩ = some f) (hr : Rel m st env cbs) : ∃ n' r, eval cls n' s env st = some r := by
  induction n using Nat.strongRecOn generalizing s k m st env cbs with
  | _ n ih =>
  cases n with
  | zero => cases h
  | succ n =>
    simp only [exec, Config.step] at h
    cases s with
    | prim g => exact ⟨1, _, rfl⟩
    | cancel i => exact ⟨1, _, rfl⟩
    | seq a b =>
      obtain ⟨n1, r1, h1⟩ := ih n (Nat.lt_succ_self n) a (.seq b :: k) m st env cbs h hr
      cases r1 with
      | aborted => exact ⟨n1 + 1, .aborted, by simp only [eval, h1, bind, Option.bind]⟩
      | done o env1 st1 =>
        obtain ⟨m1, h2, -, h4⟩ := sim _ _ _ _ _ h1 m (.seq b :: k) cbs hr
        cases o with
        | fall =>
          obtain ⟨n2, hn2, h5⟩ := (h4.trans (.one rfl : Goes cls _ ⟨.run b, k, m1⟩)).exec h
          obtain ⟨n3, r3, h6⟩ := ih n2 (Nat.lt_succ_of_le hn2) b k m1 st1 env1 cbs h5 h2
          exact ⟨max n1 n3 + 1, r3, by simp only [eval, eval_le h1 (Nat.le_max_left n1 n3), bind, Option.bind]; exact eval_le h6 (Nat.le_max_right _ _)⟩
        | brk => exact ⟨n1 + 1, _, by simp only [eval, h1, bind, Option.bind]; rfl⟩
        | ret => exact ⟨n1 + 1, _, by simp only [eval, h1, bind, Option.bind]; rfl⟩
        | thrown e => exact ⟨n1 + 1, _, by simp only [eval, h1, bind, Option.bind]; rfl⟩
    | ite c a b =>
      simp only [Mach.begin, hr.view] at h
      by_cases hc : c st.view = true
      · rw [if_pos hc] at h
        obtain ⟨n1, r1, h1⟩ := ih n (Nat.lt_succ_self n) a k m st env cbs h hr
        exact ⟨n1 + 1, r1, by simp only [eval, if_pos hc]; exact h1⟩
      · rw [if_neg hc] at h
        obtain ⟨n1, r1, h1⟩ := ih n (Nat.lt_succ_self n) b k m st env cbs h hr
        exact ⟨n1 + 1, r1, by simp only [eval, if_neg hc]; exact h1⟩
    | loop b =>
      obtain ⟨n1, r1, h1⟩ := ih n (Nat.lt_succ_self n) b (.loop b :: k) m st env cbs h hr
      cases r1 with
      | aborted => exact ⟨n1 + 1, .aborted, by simp only [eval, h1, bind, Option.bind]⟩
      | done o env1 st1 =>
        obtain ⟨m1, h2, -, h4⟩ := sim _ _ _ _ _ h1 m (.loop b :: k) cbs hr
        cases o with
        | fall =>
          obtain ⟨n2, hn2, h5⟩ := (h4.trans (.one rfl : Goes cls _ ⟨.run (.loop b), k, m1⟩)).exec h
          obtain ⟨n3, r3, h6⟩ := ih n2 (Nat.lt_succ_of_le hn2) (.loop b) k m1 st1 env1 cbs h5 h2
          exact ⟨max n1 n3 + 1, r3, by simp only [eval, eval_le h1 (Nat.le_max_left n1 n3), bind, Option.bind]; exact eval_le h6 (Nat.le_max_right _ _)⟩
        | brk => exact ⟨n1 + 1, _, by simp only [eval, h1, bind, Option.bind]; rfl⟩
        | ret => exact ⟨n1 + 1, _, by simp only [eval, h1, bind, Option.bind]; rfl⟩
        | thrown e => exact ⟨n1 + 1, _, by simp only [eval, h1, bind, Option.bind]; rfl⟩
    | call b =>
      obtain ⟨n1, r1, h1⟩ := ih n (Nat.lt_succ_self n) b (.call :: k) m st env cbs h hr
      cases r1 with
      | aborted => exact ⟨n1 + 1, .aborted, by simp only [eval, h1, bind, Option.bind]⟩
      | done o env1 st1 => cases o <;> exact ⟨n1 + 1, _, by simp only [eval, h1, bind, Option.bind]; rfl⟩
    | tryCatch b hd =>
      obtain ⟨n1, r1, h1⟩ := ih n (Nat.lt_succ_self n) b (.tryCatch hd :: k) m st env cbs h hr
      cases r1 with
      | aborted => exact ⟨n1 + 1, .aborted, by simp only [eval, h1, bind, Option.bind]⟩
      | done o env1 st1 =>
        obtain ⟨m1, h2, -, h4⟩ := sim _ _ _ _ _ h1 m (.tryCatch hd :: k) cbs hr
        cases o with
        | thrown e =>
          obtain ⟨n2, hn2, h5⟩ := (h4.trans (.one rfl : Goes cls _ ⟨.run (hd e), k, m1⟩)).exec h
          obtain ⟨n3, r3, h6⟩ := ih n2 (Nat.lt_succ_of_le hn2) (hd e) k m1 st1 env1 cbs h5 h2
          exact ⟨max n1 n3 + 1, r3, by simp only [eval, eval_le h1 (Nat.le_max_left n1 n3), bind, Option.bind]; exact eval_le h6 (Nat.le_max_right _ _)⟩
        | brk => exact ⟨n1 + 1, _, by simp only [eval, h1, bind, Option.bind]; rfl⟩
        | ret => exact ⟨n1 + 1, _, by simp only [eval, h1, bind, Option.bind]; rfl⟩
        | fall => exact ⟨n1 + 1, _, by simp only [eval, h1, bind, Option.bind]; rfl⟩
    | save l v b =>
      cases h0 : cls.throws st.clock with
      | some e => exact ⟨1, _, by simp only [eval, h0]; rfl⟩
      | none =>
        cases h1 : cls.throws (st.clock + 1) with
        | some e => exact ⟨1, _, by simp only [eval, h0, h1]; rfl⟩
        | none =>
          simp only [Mach.begin, Mach.saveCtor, Mach.assign, hr.clock, h0, h1] at h
          have hr1 := hr.tick.set l (v st.view)
          simp only [hr.clock] at hr1
          rw [hr.view] at h
          obtain ⟨n1, r1, h2⟩ := ih n (Nat.lt_succ_self n) b _ _ _ env cbs h hr1
          cases r1 with
          | aborted => exact ⟨n1 + 1, .aborted, by simp only [eval, h0, h1, h2, bind, Option.bind]⟩
          | done o env1 st1 =>
            cases h3 : cls.throws st1.clock with
            | some e => exact ⟨n1 + 1, .aborted, by simp only [eval, h0, h1, h2, h3, bind, Option.bind]⟩
            | none => exact ⟨n1 + 1, _, by simp only [eval, h0, h1, h2, h3, bind, Option.bind]; rfl⟩
    | link p b =>
      simp only [Mach.begin, hr.next] at h
      have hr1 := hr.link p
      obtain ⟨n1, r1, h2⟩ := ih n (Nat.lt_succ_self n) b _ _ _ env cbs h hr1
      cases r1 with
      | aborted => exact ⟨n1 + 1, .aborted, by simp only [eval, h2, bind, Option.bind]⟩
      | done o env1 st1 => exact ⟨n1 + 1, _, by simp only [eval, h2, bind, Option.bind]; rfl⟩
    | guard cb b =>
      have hr1 : Rel { m with guards := { callback := some cb, cancelled := false } :: m.guards } st (false :: env) (cb :: cbs) :=
        ⟨hr.mem, hr.next, hr.clock, hr.links, hr.lt, hr.len, by simp only [List.map_cons, hr.flags], by simp only [List.map_cons, hr.calls]⟩
      obtain ⟨n1, r1, h1⟩ := ih n (Nat.lt_succ_self n) b _ _ _ _ _ h hr1
      cases r1 with
      | aborted => exact ⟨n1 + 1, .aborted, by simp only [eval, h1, bind, Option.bind]⟩
      | done o env1 st1 =>
        by_cases hcan : env1.headD true = true
        · exact ⟨n1 + 1, _, by simp only [eval, h1, bind, Option.bind, if_pos hcan]; rfl⟩
        · obtain ⟨m1, h5, -, h7⟩ := sim _ _ _ _ _ h1 _ (.guard :: k) (cb :: cbs) hr1
          obtain ⟨gs, h8, h9⟩ := h5.popGuard cls hcan k o
          obtain ⟨n2, hn2, h10⟩ := (h7.trans (.one h8)).exec h
          obtain ⟨n3, r3, h11⟩ := ih n2 (Nat.lt_succ_of_le hn2) cb _ _ _ _ _ h10 h9
          have ha := eval_le h1 (Nat.le_max_left n1 n3)
          have hb := eval_le h11 (Nat.le_max_right n1 n3)
          cases r3 with
          | aborted => exact ⟨max n1 n3 + 1, .aborted, by simp only [eval, ha, bind, Option.bind, if_neg hcan, hb]⟩
          | done o' env2 st2 => cases o' <;> exact ⟨max n1 n3 + 1, _, by simp only [eval, ha, bind, Option.bind, if_neg hcan, hb]; rfl⟩
end
end Verif.Raii
