import Verif.Raii.Exits
/-!
# Specification: the helpers of am-raii.h as `try ... finally`

What a scope with one of the helpers is to mean, written down directly on the program, without a control stack, objects or
destructors: do something, run the body, and however the body ends do something else; the scope then ends the way its body did.
-/
namespace Verif.Raii

/-- The state a program works on: memory, for each head pointer the frames of the open scopes, innermost first, the number of frames made, and the number of copies and assignments of values. -/
structure SSt (L A P : Type) where
  mem : L → A
  stacks : P → List Nat
  next : Nat
  clock : Nat

/-- A statement ends, or the program is terminated. The list has for each open scope of a guard, innermost first, whether the guard has been cancelled. -/
inductive Res (L A P E : Type) where
  | done (o : Out E) (env : List Bool) (st : SSt L A P)
  | aborted

section
variable {L A P E : Type} [DecidableEq L] [DecidableEq P]

def SSt.view (st : SSt L A P) : View L A P := { mem := st.mem, chain := fun p => some (st.stacks p) }

def SSt.set (st : SSt L A P) (l : L) (a : A) : SSt L A P := { st with mem := fun k => if k = l then a else st.mem k, clock := st.clock + 1 }

/-- What a statement does; `none` if it takes nested evaluations deeper than `n`. -/
def eval (cls : Cls A E) : Nat → Stmt L A P E → List Bool → SSt L A P → Option (Res L A P E)
  | 0, _, _, _ => none
  | n + 1, s, env, st => match s with
    | .prim f => some (.done (f st.view).2 env { st with mem := (f st.view).1 })
    | .seq a b => do
        match ← eval cls n a env st with
        | .done .fall env st => eval cls n b env st
        | r => some r
    | .ite c a b => if c st.view then eval cls n a env st else eval cls n b env st
    | .loop b => do
        match ← eval cls n b env st with
        | .done .fall env st => eval cls n (.loop b) env st
        | .done .brk env st => some (.done .fall env st)
        | r => some r
    | .call b => do
        match ← eval cls n b env st with
        | .done .ret env st => some (.done .fall env st)
        | r => some r
    | .tryCatch b h => do
        match ← eval cls n b env st with
        | .done (.thrown e) env st => eval cls n (h e) env st
        | r => some r
    | .save l v b =>
        -- copy the old value
        match cls.throws st.clock with
        | some e => some (.done (.thrown e) env { st with clock := st.clock + 1 })
        | none =>
          -- assign the new one
          match cls.throws (st.clock + 1) with
          | some e => some (.done (.thrown e) env (SSt.set { st with clock := st.clock + 1 } l (cls.torn (st.clock + 1) (st.mem l) (v st.view))))
          | none => do
            match ← eval cls n b env (SSt.set { st with clock := st.clock + 1 } l (v st.view)) with
            | .aborted => some .aborted
            | .done o env st' =>
              -- finally: assign the old one
              match cls.throws st'.clock with
              | some _ => some .aborted
              | none => some (.done o env (st'.set l (st.mem l)))
    | .link p b => do
        match ← eval cls n b env { st with stacks := fun q => if q = p then st.next :: st.stacks q else st.stacks q, next := st.next + 1 } with
        | .aborted => some .aborted
        | .done o env st' => some (.done o env { st' with stacks := fun q => if q = p then (st'.stacks q).tail else st'.stacks q })
    | .guard cb b => do
        match ← eval cls n b (false :: env) st with
        | .aborted => some .aborted
        | .done o env st =>
          -- finally: the callback, unless cancelled
          if env.headD true then some (.done o env.tail st)
          else do
            match ← eval cls n cb env.tail st with
            | .done (.thrown _) _ _ => some .aborted
            | .aborted => some .aborted
            | .done _ env st => some (.done o env st)
    | .cancel i => some (.done .fall (env.set i true) st)

/-- The state a program starts in. -/
def SSt.start (mem : L → A) : SSt L A P := { mem := mem, stacks := fun _ => [], next := 0, clock := 0 }

/-- The machine gets from one configuration to another. -/
inductive Reaches (cls : Cls A E) : Config L A P E → Config L A P E → Prop where
  | refl (c : Config L A P E) : Reaches cls c c
  | step {a b c : Config L A P E} (h : a.step cls = .next b) (h' : Reaches cls b c) : Reaches cls a c

end
end Verif.Raii
