import Verif.Raii.ExitsLemmas
/-!
# C144: the helpers of am-raii.h when scopes are left by exceptions, `return` or `break`
-/
namespace Verif.Raii
open Verif

section
variable {L A P E : Type} [DecidableEq L] [DecidableEq P] {cls : Cls A E}

theorem rel_start (s : Stmt L A P E) (mem : L → A) : Rel (start s mem).m (SSt.start mem) [] [] :=
  ⟨rfl, rfl, rfl, linv_start, (fun _ _ h => nomatch h), fun _ => Nat.le_refl 0, rfl, rfl⟩

theorem halts_out (cls : Cls A E) (o : Out E) (m : Mach L A P E) : exec cls 1 ⟨.out o, [], m⟩ = some (.halted o m) := rfl

/-- How a program ends, in the terms of the specification. -/
theorem ends (s : Stmt L A P E) (mem : L → A) (n : Nat) (f : Final L A P E) (h : exec cls n (start s mem) = some f) :
    (f = .aborted ∧ ∃ n', eval cls n' s [] (SSt.start mem) = some .aborted) ∨
    ∃ o m st env n', f = .halted o m ∧ Rel m st env [] ∧ st.stacks = (fun _ => []) ∧ eval cls n' s [] (SSt.start mem) = some (.done o env st) := by
  obtain ⟨n', r, h1⟩ := conv n s [] _ _ [] [] f h (rel_start s mem)
  have h2 := sim n' s [] _ r h1 _ [] [] (rel_start s mem)
  cases r with
  | aborted =>
    obtain ⟨j, hj⟩ := h2
    exact .inl ⟨exec_unique h hj, n', h1⟩
  | done o env st =>
    obtain ⟨m, h3, h4, h5⟩ := h2
    obtain ⟨n2, -, h6⟩ := h5.exec h
    exact .inr ⟨o, m, st, env, n', exec_unique h6 (halts_out cls o m), h3, h4, h1⟩

/-- C144: a program with the helpers does exactly what it would with `try ... finally` in place of each: it ends in the same way (normally, by an
exception or in `std::terminate`), with the same memory, or like it never ends. This is for every program, so for scopes left by
exceptions, `return` or `break` at any depth, exceptions thrown by callbacks while another exception is under way, and values whose copies
throw; and as the client's code may look at all of memory and all frames at any time, it sees the same at all times. -/
theorem C144_finally (cls : Cls A E) (s : Stmt L A P E) (mem : L → A) :
    (∀ o mem', (∃ n m, exec cls n (start s mem) = some (.halted o m) ∧ m.mem = mem') ↔
      ∃ n env st, eval cls n s [] (SSt.start mem) = some (.done o env st) ∧ st.mem = mem') ∧
    ((∃ n, exec cls n (start s mem) = some .aborted) ↔ ∃ n, eval cls n s [] (SSt.start mem) = some .aborted) := by
  refine ⟨fun o mem' => ⟨?_, ?_⟩, ?_, ?_⟩
  · rintro ⟨n, m, h, hm⟩
    rcases ends s mem n _ h with ⟨h1, -⟩ | ⟨o', m', st, env, n', h1, h2, -, h3⟩
    · cases h1
    · injection h1 with h1 h4
      subst h1 h4
      exact ⟨n', env, st, h3, h2.mem ▸ hm⟩
  · rintro ⟨n, env, st, h, hm⟩
    obtain ⟨m, h1, -, h2⟩ := sim n s [] _ _ h _ [] [] (rel_start s mem)
    obtain ⟨j, hj⟩ := h2
    exact ⟨1 + j, m, (hj 1).trans (halts_out cls o m), h1.mem.trans hm⟩
  · rintro ⟨n, h⟩
    rcases ends s mem n _ h with ⟨-, h1⟩ | ⟨o', m', st, env, n', h1, -⟩
    · exact h1
    · cases h1
  · rintro ⟨n, h⟩
    exact sim n s [] _ _ h _ [] [] (rel_start s mem)

/-- C144: no program fails an assertion of am-raii.h, destroys an object twice or calls a callback that is not there. -/
theorem C144_no_fault (cls : Cls A E) (s : Stmt L A P E) (mem : L → A) (n : Nat) (f : Fault) : exec cls n (start s mem) ≠ some (.fault f) := by
  intro h
  rcases ends s mem n _ h with ⟨h1, -⟩ | ⟨o', m', st, env, n', h1, -⟩ <;> cases h1

/-- C144: when a program has ended, in whichever way, every guard and every linked object it made has been destroyed and all head pointers are null again. -/
theorem C144_left_clean (cls : Cls A E) (s : Stmt L A P E) (mem : L → A) (n : Nat) (o : Out E) (m : Mach L A P E) (h : exec cls n (start s mem) = some (.halted o m)) :
    m.guards = [] ∧ (∀ p, m.links.head p = none) ∧ ∀ i, m.links.node i = none := by
  rcases ends s mem n _ h with ⟨h1, -⟩ | ⟨o', m', st, env, n', h1, h2, h3, -⟩
  · cases h1
  · injection h1 with h1 h4
    subst h1 h4
    refine ⟨?_, fun p => ?_, fun i => ?_⟩
    · have := h2.calls
      cases hg : m.guards with
      | nil => rfl
      | cons g gs => rw [hg] at this; cases this
    · have := (h2.links.chain p).head
      rw [h3] at this
      exact this
    · cases hi : m.links.node i with
      | none => rfl
      | some x =>
        have := h2.links.live i x hi
        rw [h3] at this
        cases this

/-! ## One scope, wherever it is in a program, in any state -/

theorem Reaches.trans {a b c : Config L A P E} (h : Reaches cls a b) (h' : Reaches cls b c) : Reaches cls a c := by
  induction h with
  | refl => exact h'
  | step h1 _ ih => exact .step h1 (ih h')

/-- A step above `k` leaves `k` alone, or ends the program badly. -/
theorem step_above {ctl : Ctl L A P E} {fs k : List (Frame L A P E)} {m : Mach L A P E} {c : Config L A P E}
    (h : Config.step cls ⟨ctl, fs ++ k, m⟩ = .next c) : (fs = [] ∧ ∃ o, ctl = .out o) ∨ ∃ fs', c.k = fs' ++ k := by
  cases ctl with
  | run s =>
    right
    simp only [Config.step, Next.next.injEq] at h
    subst h
    cases s with
    | prim f => exact ⟨fs, rfl⟩
    | seq a b => exact ⟨_ :: fs, rfl⟩
    | ite c a b => simp only [Mach.begin]; split <;> exact ⟨fs, rfl⟩
    | loop b => exact ⟨_ :: fs, rfl⟩
    | call b => exact ⟨_ :: fs, rfl⟩
    | tryCatch b h => exact ⟨_ :: fs, rfl⟩
    | save l v b =>
      simp only [Mach.begin]
      split
      · exact ⟨fs, rfl⟩
      · exact ⟨_ :: fs, rfl⟩
    | link p b => exact ⟨_ :: fs, rfl⟩
    | guard cb b => exact ⟨_ :: fs, rfl⟩
    | cancel i => exact ⟨fs, rfl⟩
  | out o =>
    cases fs with
    | nil => exact .inl ⟨rfl, o, rfl⟩
    | cons f fs =>
      right
      simp only [Config.step, List.cons_append] at h
      cases f <;> simp only [Mach.finish] at h <;> repeat' split at h
      all_goals first
        | (cases h; done)
        | (simp only [Next.next.injEq] at h; subst h; exact ⟨fs, rfl⟩)
        | (simp only [Next.next.injEq] at h; subst h; exact ⟨_ :: fs, rfl⟩)

/-- A program that ends takes `k` off its stack only after all that is above it is done. -/
theorem pops (n : Nat) (ctl : Ctl L A P E) (fs k : List (Frame L A P E)) (m m' : Mach L A P E) (o : Out E)
    (h : exec cls n ⟨ctl, fs ++ k, m⟩ = some (.halted o m')) :
    ∃ o1 m1 n1, Reaches cls ⟨ctl, fs ++ k, m⟩ ⟨.out o1, k, m1⟩ ∧ exec cls n1 ⟨.out o1, k, m1⟩ = some (.halted o m') := by
  induction n generalizing ctl fs m with
  | zero => cases h
  | succ n ih =>
    have h0 := h
    simp only [exec] at h
    cases hs : Config.step cls ⟨ctl, fs ++ k, m⟩ with
    | final f =>
      rw [hs] at h
      cases ctl with
      | run s => simp only [Config.step] at hs; cases hs
      | out o1 =>
        cases fs with
        | nil => exact ⟨o1, m, n + 1, .refl _, h0⟩
        | cons f fs =>
          exfalso
          simp only [Option.some.injEq] at h
          subst h
          simp only [Config.step, List.cons_append] at hs
          cases f <;> simp only [Mach.finish] at hs <;> repeat' split at hs
          all_goals cases hs
    | next c =>
      rw [hs] at h
      rcases step_above hs with ⟨rfl, o1, rfl⟩ | ⟨fs', hk⟩
      · exact ⟨o1, m, n + 1, .refl _, h0⟩
      · obtain ⟨ctl', k', m1⟩ := c
        simp only at hk
        subst hk
        obtain ⟨o1, m2, n1, h1, h2⟩ := ih ctl' fs' m1 h
        exact ⟨o1, m2, n1, .step hs h1, h2⟩

/-- C144: a `SaveAndSet` scope, wherever in a program and in whatever state it is entered, if the program ends at all: either the constructor threw — in the
copy, and nothing has changed, or in the assignment, which has left in the location whatever it leaves — or the body
has run, the scope ends as its body did, and the location has its old value again, all other memory being as the body left it. -/
theorem C144_save_restores (cls : Cls A E) (l : L) (v : View L A P → A) (b : Stmt L A P E) (k : List (Frame L A P E)) (m m' : Mach L A P E) (n : Nat) (o : Out E)
    (h : exec cls n ⟨.run (.save l v b), k, m⟩ = some (.halted o m')) :
    (∃ e m1, Reaches cls ⟨.run (.save l v b), k, m⟩ ⟨.out (.thrown e), k, m1⟩ ∧
      ((cls.throws m.clock = some e ∧ m1.mem = m.mem) ∨
        (cls.throws (m.clock + 1) = some e ∧ m1.mem = store m.mem l (cls.torn (m.clock + 1) (m.mem l) (v m.view))))) ∨
    ∃ ks m0 o1 m1 m2, Reaches cls ⟨.run (.save l v b), k, m⟩ ⟨.run b, ks, m0⟩ ∧ m0.mem = store m.mem l (v m.view) ∧
      Reaches cls ⟨.run b, ks, m0⟩ ⟨.out o1, ks, m1⟩ ∧ Reaches cls ⟨.out o1, ks, m1⟩ ⟨.out o1, k, m2⟩ ∧ m2.mem = store m1.mem l (m.mem l) := by
  cases n with
  | zero => cases h
  | succ n =>
    simp only [exec] at h
    cases h0 : cls.throws m.clock with
    | some e =>
      exact .inl ⟨e, { m with clock := m.clock + 1 }, .step (by simp only [Config.step, Mach.begin, Mach.saveCtor, h0]) (.refl _), .inl ⟨rfl, rfl⟩⟩
    | none =>
      cases h1 : cls.throws (m.clock + 1) with
      | some e =>
        refine .inl ⟨e, { m with mem := store m.mem l (cls.torn (m.clock + 1) (m.mem l) (v m.view)), clock := m.clock + 1 + 1 },
          .step (by simp only [Config.step, Mach.begin, Mach.saveCtor, Mach.assign, h0, h1]) (.refl _), .inr ⟨rfl, rfl⟩⟩
      | none =>
        right
        have hs : Config.step cls ⟨.run (.save l v b), k, m⟩ =
            .next ⟨.run b, .save ⟨l, m.mem l⟩ :: k, { m with mem := store m.mem l (v m.view), clock := m.clock + 1 + 1 }⟩ := by
          simp only [Config.step, Mach.begin, Mach.saveCtor, Mach.assign, h0, h1]
        rw [hs] at h
        obtain ⟨o1, m1, n1, h2, h3⟩ := pops n (.run b) [] (.save ⟨l, m.mem l⟩ :: k) _ _ _ h
        cases n1 with
        | zero => cases h3
        | succ n1 =>
          simp only [exec, Config.step, Mach.finish, Mach.assign] at h3
          cases h4 : cls.throws m1.clock with
          | some e => rw [h4] at h3; cases h3
          | none =>
            exact ⟨_, _, o1, m1, { m1 with mem := store m1.mem l (m.mem l), clock := m1.clock + 1 }, .step hs (.refl _), rfl, h2,
              .step (by simp only [Config.step, Mach.finish, Mach.assign, h4]) (.refl _), rfl⟩

/-! ## The specification says what the English says -/

/-- C144, guards: if the body of a guard's scope ends with `o` and the guard has not been cancelled, the callback runs once, on what the body left; if it ends in any way but by
an exception the scope ends with `o` (an exception that was under way goes on); if it throws, the program is terminated. -/
theorem C144_guard (cls : Cls A E) (n : Nat) (cb b : Stmt L A P E) (env env1 : List Bool) (st st1 : SSt L A P) (o : Out E)
    (h : eval cls n b (false :: env) st = some (.done o (false :: env1) st1)) :
    (∀ e env2 st2, eval cls n cb env1 st1 = some (.done (.thrown e) env2 st2) → eval cls (n + 1) (.guard cb b) env st = some .aborted) ∧
    (∀ o' env2 st2, eval cls n cb env1 st1 = some (.done o' env2 st2) → (∀ e, o' ≠ .thrown e) →
      eval cls (n + 1) (.guard cb b) env st = some (.done o env2 st2)) := by
  constructor
  · intro e env2 st2 h2
    simp only [eval, h, bind, Option.bind, List.headD_cons, List.tail_cons, h2]
    rfl
  · intro o' env2 st2 h2 ho
    simp only [eval, h, bind, Option.bind, List.headD_cons, List.tail_cons, h2]
    cases o' with
    | thrown e => exact (ho e rfl).elim
    | _ => rfl

/-- C144, guards: a guard cancelled by the time its scope ends does nothing. -/
theorem C144_guard_cancelled (cls : Cls A E) (n : Nat) (cb b : Stmt L A P E) (env env1 : List Bool) (st st1 : SSt L A P) (o : Out E)
    (h : eval cls n b (false :: env) st = some (.done o (true :: env1) st1)) :
    eval cls (n + 1) (.guard cb b) env st = some (.done o env1 st1) := by
  simp only [eval, h, bind, Option.bind, List.headD_cons, List.tail_cons]
  rfl

/-- C144: a callback that throws terminates the program even if its scope ends normally inside a `try` block. -/
theorem C144_callback_throws (cls : Cls A E) (s : Stmt L A P E) (e : E) (hd : E → Stmt L A P E) (mem : L → A) (n : Nat) (o : Out E) (env : List Bool) (st : SSt L A P)
    (h : eval cls n s [false] (SSt.start mem) = some (.done o (false :: env) st)) :
    ∃ n', exec cls n' (start (.tryCatch (.guard (.prim fun v => (v.mem, .thrown e)) s) hd) mem) = some .aborted := by
  refine (C144_finally cls _ mem).2.2 ⟨n + 2 + 1, ?_⟩
  have h1 := eval_mono h
  have h2 : eval cls (n + 1) (.prim fun v => (v.mem, .thrown e)) env st = some (.done (.thrown e) env st) := rfl
  have h3 := (C144_guard cls (n + 1) (.prim fun v => (v.mem, .thrown e)) s [] env _ st o h1).1 e env st h2
  rw [eval]
  simp only [h3, bind, Option.bind]
end

/-! ## Concrete programs -/
section example_
abbrev XStmt := Stmt Nat Nat Nat Nat

/-- Copies that do not throw, and a class whose third operation throws, leaving the sum. -/
def calm : Cls Nat Nat := ⟨fun _ => none, fun _ _ b => b⟩
def touchy (n : Nat) : Cls Nat Nat := ⟨fun i => if i = n then some 77 else none, fun _ a b => a + b⟩

/-- `mem[l] = f(mem)` -/
def put (l : Nat) (f : (Nat → Nat) → Nat) : XStmt := .prim fun v => (store v.mem l (f v.mem), .fall)

def throwIt (e : Nat) : XStmt := .prim fun v => (v.mem, .thrown e)

/-- Location 0 saved and set twice, two frames, a guard that counts in location 1, one that is cancelled, left by an exception that is
caught outside; the handler notes the exception, the value of location 0 and the number of frames; the code inside has noted the number of frames too. -/
def sample : XStmt :=
  .tryCatch
    (.save 0 (fun _ => 5) (.link 9 (.guard (put 1 fun m => m 1 + m 0)
      (.guard (put 1 fun _ => 1000) (.seq (.cancel 0) (.save 0 (fun v => v.mem 0 + 1) (.link 9
        (.seq (.prim fun v => (store v.mem 2 (((v.chain 9).getD []).length * 100 + v.mem 0), .fall)) (throwIt 3)))))))))
    fun e => .prim fun v => (store (store v.mem 3 (e * 1000 + v.mem 0 * 10 + ((v.chain 9).getD []).length)) 0 8, .ret)

def show4 : Option (Final Nat Nat Nat Nat) → List Nat
  | some (.halted o m) => (match o with | .fall => 0 | .brk => 1 | .ret => 2 | .thrown e => 100 + e) :: [0, 1, 2, 3].map m.mem
  | some .aborted => [999]
  | some (.fault _) => [998]
  | none => []

/-- The guard has counted the inner 5 (the inner guard on location 0 had been undone), the inside has seen two frames and 6, the handler exception 3, the old value 1 and no frame. -/
example : show4 (exec calm 100 (start sample fun _ => 1)) = [2, 8, 6, 206, 3010] := by decide +kernel

/-- A callback that throws while an exception is under way, or when there is none. -/
example : show4 (exec calm 100 (start (.tryCatch (.guard (throwIt 1) (throwIt 2)) fun _ => put 0 fun _ => 0) fun _ => 1)) = [999] := by decide +kernel
example : show4 (exec calm 100 (start (.tryCatch (.guard (throwIt 1) (put 0 fun _ => 4)) fun _ => put 0 fun _ => 0) fun _ => 1)) = [999] := by decide +kernel

/-- A copy that throws (operation 0), an assignment that throws (1; it leaves 1 + 5), and a restoring assignment that throws (2). -/
example : [0, 1, 2].map (fun n => show4 (exec (touchy n) 100 (start (.tryCatch (.save 0 (fun _ => 5) (put 1 fun m => m 0)) fun e => put 3 fun _ => e) fun _ => 1))) =
    [[0, 1, 1, 1, 77], [0, 6, 1, 1, 77], [999]] := by decide +kernel

/-- A loop left by `break` from inside two scopes, in a function left by `return` from a scope. -/
example : show4 (exec calm 200 (start (.call (.save 2 (fun _ => 40) (.seq
    (.loop (.guard (put 1 fun m => m 1 + 1) (.ite (fun v => v.mem 1 == 4) (.save 0 (fun _ => 9) (.prim fun v => (v.mem, .brk))) (put 3 fun m => m 3 * 2))))
    (.prim fun v => (store v.mem 0 (v.mem 2), .ret))))) fun _ => 1)) = [0, 40, 5, 1, 8] := by decide +kernel
end example_
end Verif.Raii
