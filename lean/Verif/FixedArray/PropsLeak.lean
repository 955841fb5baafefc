import Verif.FixedArray.Props
/-!
# C58 for all histories: what a move assignment onto a non-empty array leaks, and nothing else

`operator=(FixedArray&&)` overwrites the left side's pointer. Here every history is allowed, and the
account is exact: the arrays that were overwritten (`overwritten`, computed from the history alone) are
what is missing, buffer by buffer and element by element.
-/
namespace Verif.FixedArray
open Verif

set_option linter.unusedSimpArgs false
set_option linter.unusedSectionVars false

variable {V A : Type} [DecidableEq V]

/-- Specification: the contents of the arrays with a buffer that were on the left of a move assignment, in
order. -/
def overwritten : List (Op V A) → Env V A → List (List A)
  | [], _ => []
  | .assignMove v w :: os, e =>
    (match e v with
     | some (some l) => [l]
     | _ => []) ++ overwritten os (specStep e (.assignMove v w))
  | o :: os, e => overwritten os (specStep e o)

/-! ## The same history with the overwritten arrays parked in ghost variables -/

/-- The same call over the variables and ghosts. -/
def Op.lift : Op V A → Op (V ⊕ Nat) A
  | .ctor v => .ctor (.inl v)
  | .ctorSize v n a => .ctorSize (.inl v) n a
  | .ctorCopy v w => .ctorCopy (.inl v) (.inl w)
  | .ctorMove v w => .ctorMove (.inl v) (.inl w)
  | .ctorVector v l => .ctorVector (.inl v) l
  | .dtor v => .dtor (.inl v)
  | .write v i a => .write (.inl v) i a
  | .assignCopy v w => .assignCopy (.inl v) (.inl w)
  | .assignMove v w => .assignMove (.inl v) (.inl w)

/-- One call, preceded by parking the array it overwrites in ghost `k`. -/
def park (k : Nat) (e : Env V A) : Op V A → List (Op (V ⊕ Nat) A)
  | .assignMove v w => match e v with
    | some (some _) => [.ctorMove (.inr k) (.inl v), .assignMove (.inl v) (.inl w)]
    | _ => [.assignMove (.inl v) (.inl w)]
  | o => [o.lift]

/-- Contents of ghosts from `k` on that this call adds. -/
def parked (e : Env V A) : Op V A → List (List A)
  | .assignMove v _ => match e v with
    | some (some l) => [l]
    | _ => []
  | _ => []

def parkAll : Nat → List (Op V A) → Env V A → List (Op (V ⊕ Nat) A)
  | _, [], _ => []
  | k, o :: os, e => park k e o ++ parkAll (k + (parked e o).length) os (specStep e o)

theorem overwritten_cons (o : Op V A) (os : List (Op V A)) (e : Env V A) :
    overwritten (o :: os) e = parked e o ++ overwritten os (specStep e o) := by
  cases o <;> rfl

/-- Same memory, same arrays. -/
def Sim (s : State V A) (t : State (V ⊕ Nat) A) : Prop := t.mem = s.mem ∧ ∀ v, t.vars (.inl v) = s.vars v

/-- Results correspond, ghosts unchanged. -/
def SimR (g : Nat → Option Arr) : Exec (State V A) → Exec (State (V ⊕ Nat) A) → Prop
  | .ok s, .ok t => Sim s t ∧ ∀ k, t.vars (.inr k) = g k
  | .error f, .error f' => f = f'
  | _, _ => False

theorem Sim.lookup {s : State V A} {t : State (V ⊕ Nat) A} (h : Sim s t) (v : V) : t.lookup (.inl v) = s.lookup v := by
  simp only [State.lookup, h.2 v]

theorem simR_set {s : State V A} {t : State (V ⊕ Nat) A} (h : Sim s t) (m : Mem A) (v : V) (x : Option Arr) :
    SimR (fun k => t.vars (.inr k)) (.ok ({ s with mem := m }.set v x)) (.ok ({ t with mem := m }.set (.inl v) x)) := by
  refine ⟨⟨rfl, fun u => ?_⟩, fun k => ?_⟩
  · simp [State.set, h.2 u]
  · simp [State.set]

theorem step_sim (c : Cfg) {s : State V A} {t : State (V ⊕ Nat) A} (h : Sim s t) (o : Op V A) :
    SimR (fun k => t.vars (.inr k)) (step c s o) (step c t o.lift) := by
  obtain ⟨sv, sm⟩ := s
  obtain ⟨tv, tm⟩ := t
  obtain ⟨hm, hv⟩ := id h
  simp only at hm hv
  subst hm
  cases o with
  | ctor v => exact simR_set h tm v _
  | ctorSize v n a =>
    simp only [step, Op.lift, bind, Except.bind]
    cases allocate c tm n with
    | error f => exact rfl
    | ok r =>
      obtain ⟨x, good, m⟩ := r
      cases good with
      | false => exact simR_set h m v _
      | true =>
        simp only [if_true]
        cases fillElems m x (fun _ => a) with
        | error f => exact rfl
        | ok m' => exact simR_set h m' v _
  | ctorCopy v w =>
    simp only [step, Op.lift, bind, Except.bind, h.lookup]
    cases State.lookup _ w with
    | error f => exact rfl
    | ok y =>
      simp only
      cases allocate c tm y.size with
      | error f => exact rfl
      | ok r =>
        obtain ⟨x, good, m⟩ := r
        cases good with
        | false => exact simR_set h m v _
        | true =>
          simp only [if_true]
          cases copyElems m x y with
          | error f => exact rfl
          | ok m' => exact simR_set h m' v _
  | ctorMove v w =>
    simp only [step, Op.lift, bind, Except.bind, h.lookup]
    cases State.lookup _ w with
    | error f => exact rfl
    | ok y =>
      refine ⟨⟨rfl, fun u => ?_⟩, fun k => ?_⟩
      · simp [State.set, hv u]
      · simp [State.set]
  | ctorVector v l =>
    simp only [step, Op.lift, bind, Except.bind]
    cases allocate c tm l.length with
    | error f => exact rfl
    | ok r =>
      obtain ⟨x, good, m⟩ := r
      cases good with
      | false => exact simR_set h m v _
      | true =>
        simp only [if_true]
        generalize (List.range x.size).foldlM (fun m i => putFrom m x.data l i) m = z
        cases z with
        | error f => exact rfl
        | ok m' => exact simR_set h m' v _
  | dtor v =>
    simp only [step, Op.lift, bind, Except.bind, h.lookup]
    cases State.lookup _ v with
    | error f => exact rfl
    | ok x =>
      simp only
      cases destruct tm x with
      | error f => exact rfl
      | ok m =>
        simp only
        cases deallocate m x with
        | error f => exact rfl
        | ok m' => exact simR_set h m' v _
  | write v i a =>
    simp only [step, Op.lift, bind, Except.bind, h.lookup]
    cases State.lookup _ v with
    | error f => exact rfl
    | ok x =>
      simp only
      cases FixedArray.write tm x i a with
      | error f => exact rfl
      | ok m => exact ⟨⟨rfl, hv⟩, fun _ => rfl⟩
  | assignCopy v w =>
    simp only [step, Op.lift, bind, Except.bind, h.lookup]
    cases State.lookup _ v with
    | error f => exact rfl
    | ok x =>
      simp only
      cases State.lookup _ w with
      | error f => exact rfl
      | ok y =>
        simp only
        cases FixedArray.assignCopy c tm x y with
        | error f => exact rfl
        | ok r => exact simR_set h r.2 v _
  | assignMove v w =>
    simp only [step, Op.lift, bind, Except.bind, h.lookup]
    cases State.lookup _ v with
    | error f => exact rfl
    | ok x =>
      simp only
      cases State.lookup _ w with
      | error f => exact rfl
      | ok y =>
        refine ⟨⟨rfl, fun u => ?_⟩, fun k => ?_⟩
        · simp [State.set, hv u]
        · simp [State.set]

theorem run_append (c : Cfg) (os os' : List (Op V A)) (s : State V A) :
    run c (os ++ os') s = (run c os s).bind (run c os') := by
  induction os generalizing s with
  | nil => rfl
  | cons o os ih =>
    simp only [List.cons_append, run, bind]
    cases step c s o with
    | error f => rfl
    | ok s1 => exact ih s1

theorem specRun_append (os os' : List (Op V A)) (e : Env V A) : specRun (os ++ os') e = specRun os' (specRun os e) := by
  induction os generalizing e with
  | nil => rfl
  | cons o os ih => exact ih _

theorem legalRun_append (n : Layout) (os os' : List (Op V A)) (e : Env V A) (h : LegalRun n os e)
    (h' : LegalRun n os' (specRun os e)) : LegalRun n (os ++ os') e := by
  induction os generalizing e with
  | nil => exact h'
  | cons o os ih => exact ⟨h.1, ih _ h.2 h'⟩

/-- The parked call does the same. -/
theorem park_sim (c : Cfg) {s : State V A} {t : State (V ⊕ Nat) A} (h : Sim s t) (k : Nat) (e : Env V A) (o : Op V A) :
    match step c s o, run c (park k e o) t with
    | .ok s', .ok t' => Sim s' t'
    | .error f, .error f' => f = f'
    | _, _ => False := by
  have one : ∀ o' : Op V A, park k e o' = [o'.lift] →
      match step c s o', run c (park k e o') t with
      | .ok s', .ok t' => Sim s' t'
      | .error f, .error f' => f = f'
      | _, _ => False := by
    intro o' ho
    rw [ho]
    have := step_sim c h o'
    simp only [run, bind, Except.bind]
    cases h1 : step c s o' <;> cases h2 : step c t o'.lift <;> rw [h1, h2] at this <;>
      first | exact this | exact this.1 | exact this.elim
  cases o with
  | assignMove v w =>
    by_cases hp : ∃ l, e v = some (some l)
    · obtain ⟨l, hl⟩ := hp
      simp only [park, hl, run, step, bind, Except.bind, h.lookup]
      cases hlk : State.lookup s v with
      | error f => exact rfl
      | ok x =>
        have hvx : s.vars v = some x := by
          simp only [State.lookup] at hlk
          split at hlk
          · injection hlk with hlk; subst hlk; assumption
          · cases hlk
        simp only
        by_cases hvw : v = w
        · subst hvw
          simp only [State.lookup, hvx, State.set, if_true]
          refine ⟨h.1, fun u => ?_⟩
          simp only [State.set]
          by_cases hu : u = v
          · subst hu; simp
          · simp [hu, h.2 u]
        · have : State.lookup (State.set (State.set t (.inr k) (some x)) (.inl v) (some { size := 0, data := none }))
              (.inl w) = s.lookup w := by
            have hne : w ≠ v := fun h => hvw h.symm
            simp [State.lookup, State.set, h.2 w, hne]
          rw [this]
          simp only [State.lookup, State.set, if_true]
          cases hw : s.vars w with
          | none => exact rfl
          | some y =>
            refine ⟨h.1, fun u => ?_⟩
            simp only [State.set, Sum.inl.injEq, reduceCtorEq, if_false]
            by_cases hu : u = w
            · subst hu; simp
            · by_cases hu2 : u = v
              · subst hu2; simp [hu]
              · simp [hu, hu2, h.2 u]
    · apply one
      simp only [park, Op.lift]
      split
      · exact (hp ⟨_, by assumption⟩).elim
      · rfl
  | ctor v => exact one (.ctor v) rfl
  | ctorSize v n a => exact one (.ctorSize v n a) rfl
  | ctorCopy v w => exact one (.ctorCopy v w) rfl
  | ctorMove v w => exact one (.ctorMove v w) rfl
  | ctorVector v l => exact one (.ctorVector v l) rfl
  | dtor v => exact one (.dtor v) rfl
  | write v i a => exact one (.write v i a) rfl
  | assignCopy v w => exact one (.assignCopy v w) rfl

theorem parkAll_sim (c : Cfg) : ∀ (os : List (Op V A)) (k : Nat) (e : Env V A) (s : State V A) (t : State (V ⊕ Nat) A),
    Sim s t →
    match run c os s, run c (parkAll k os e) t with
    | .ok s', .ok t' => Sim s' t'
    | .error f, .error f' => f = f'
    | _, _ => False := by
  intro os
  induction os with
  | nil => intro k e s t h; exact h
  | cons o os ih =>
    intro k e s t h
    have h1 := park_sim c h k e o
    simp only [parkAll, run_append, run, bind]
    cases hs : step c s o with
    | error f =>
      cases ht : run c (park k e o) t with
      | error f' => rw [hs, ht] at h1; exact h1
      | ok t' => rw [hs, ht] at h1; exact h1.elim
    | ok s' =>
      cases ht : run c (park k e o) t with
      | error f' => rw [hs, ht] at h1; exact h1.elim
      | ok t' =>
        rw [hs, ht] at h1
        exact ih _ _ s' t' h1

/-- The ghosts hold exactly `G`. -/
def SimE (G : List (List A)) (e : Env V A) (e' : Env (V ⊕ Nat) A) : Prop :=
  (∀ v, e' (.inl v) = e v) ∧ ∀ k, e' (.inr k) = (G[k]?).map some

theorem simE_set {G : List (List A)} {e : Env V A} {e' : Env (V ⊕ Nat) A} (h : SimE G e e') (v : V) (x : Option (Option (List A))) :
    SimE G (e.set v x) (e'.set (.inl v) x) := by
  refine ⟨fun u => ?_, fun k => ?_⟩
  · simp [Env.set, h.1 u]
  · simp [Env.set, h.2 k]

theorem lift_simE {G : List (List A)} {e : Env V A} {e' : Env (V ⊕ Nat) A} (h : SimE G e e') (o : Op V A) :
    SimE G (specStep e o) (specStep e' o.lift) := by
  cases o <;> simp only [specStep, Op.lift, h.1] <;> first | exact simE_set h _ _ | exact simE_set (simE_set h _ _) _ _

theorem park_simE {n : Layout} {G : List (List A)} {e : Env V A} {e' : Env (V ⊕ Nat) A} (h : SimE G e e') (o : Op V A)
    (hl : MayCall n e o) :
    LegalRun n (park G.length e o) e' ∧ SimE (G ++ parked e o) (specStep e o) (specRun (park G.length e o) e') := by
  have one : ∀ o' : Op V A, park G.length e o' = [o'.lift] → parked e o' = [] → Legal n e o' →
      LegalRun n (park G.length e o') e' ∧
        SimE (G ++ parked e o') (specStep e o') (specRun (park G.length e o') e') := by
    intro o' h1 h2 h3
    rw [h1, h2, List.append_nil]
    refine ⟨⟨?_, trivial⟩, lift_simE h o'⟩
    cases o' <;> simp only [Legal, Op.lift, h.1, ne_eq, Sum.inl.injEq] at h3 ⊢ <;> exact h3
  cases o with
  | assignMove v w =>
    obtain ⟨hv, hw, hvw⟩ := hl
    cases hev : e v with
    | none => exact (hv hev).elim
    | some x => cases x with
      | none => exact one _ (by simp only [park, hev]; rfl) (by simp only [parked, hev]) ⟨hev, hw, hvw⟩
      | some l =>
        simp only [park, parked, hev]
        refine ⟨⟨⟨?_, ?_⟩, ⟨?_, ?_, ?_⟩, trivial⟩, ?_⟩
        · simp [h.2]
        · simp [h.1, hev]
        · simp [specStep, Env.set]
        · simp only [specStep, Env.set, Sum.inl.injEq, reduceCtorEq, if_false, if_neg (Ne.symm hvw), h.1]; exact hw
        · simpa using hvw
        · refine ⟨fun u => ?_, fun k => ?_⟩
          · have hwv := Ne.symm hvw
            simp only [specRun, specStep, Env.set, Sum.inl.injEq, reduceCtorEq, if_false, if_neg hwv, h.1]
            by_cases h1 : u = w
            · simp [h1]
            · by_cases h2 : u = v <;> simp [h1, h2]
          · simp only [specRun, specStep, Env.set, reduceCtorEq, if_false, Sum.inr.injEq, h.1, hev, h.2]
            by_cases hk : k = G.length
            · subst hk; simp
            · rw [if_neg hk]
              rcases Nat.lt_or_ge k G.length with hlt | hge
              · rw [List.getElem?_append_left hlt]
              · rw [List.getElem?_eq_none hge, List.getElem?_append_right hge, List.getElem?_eq_none]
                simp; omega
  | _ => exact one _ rfl rfl hl

theorem parkAll_simE {n : Layout} : ∀ (os : List (Op V A)) (G : List (List A)) (e : Env V A) (e' : Env (V ⊕ Nat) A),
    SimE G e e' → MayCallRun n os e →
    LegalRun n (parkAll G.length os e) e' ∧
      SimE (G ++ overwritten os e) (specRun os e) (specRun (parkAll G.length os e) e') := by
  intro os
  induction os with
  | nil => intro G e e' h _; exact ⟨trivial, by simpa [overwritten, parkAll, specRun] using h⟩
  | cons o os ih =>
    intro G e e' h hl
    obtain ⟨h1, h2⟩ := park_simE h o hl.1
    obtain ⟨h3, h4⟩ := ih _ _ _ h2 hl.2
    rw [List.length_append] at h3 h4
    rw [overwritten_cons, ← List.append_assoc]
    simp only [parkAll, specRun_append]
    exact ⟨legalRun_append _ _ _ _ h1 h3, h4⟩

/-! ## Sums over the ghosts -/

theorem sum_filter_ne {X : Type} (f : X → Nat) (M : List X) : (M.map f).sum = ((M.filter (fun x => decide (f x ≠ 0))).map f).sum := by
  induction M with
  | nil => rfl
  | cons x M ih =>
    by_cases h : f x = 0
    · rw [List.filter_cons_of_neg (by simp [h])]; simp [h, ih]
    · rw [List.filter_cons_of_pos (by simp [h])]; simp [ih]

theorem perm_sum {X : Type} (f : X → Nat) {M N : List X} (h : M.Perm N) : (M.map f).sum = (N.map f).sum := by
  induction h with
  | nil => rfl
  | cons x _ ih => simp [ih]
  | swap x y l => simp; omega
  | trans _ _ h1 h2 => rw [h1, h2]

theorem sum_cover {X : Type} [DecidableEq X] (f : X → Nat) (M N : List X) (hM : M.Nodup) (hN : N.Nodup)
    (h1 : ∀ x, f x ≠ 0 → x ∈ M) (h2 : ∀ x, f x ≠ 0 → x ∈ N) : (M.map f).sum = (N.map f).sum := by
  rw [sum_filter_ne f M, sum_filter_ne f N]
  apply perm_sum
  rw [List.perm_ext_iff_of_nodup (hM.filter _) (hN.filter _)]
  intro x
  simp only [List.mem_filter, decide_eq_true_eq]
  exact ⟨fun h => ⟨h2 x h.2, h.2⟩, fun h => ⟨h1 x h.2, h.2⟩⟩

theorem sum_split {X Y : Type} (f : X ⊕ Y → Nat) (M : List (X ⊕ Y)) :
    (M.map f).sum = ((M.filterMap Sum.getLeft?).map (fun x => f (.inl x))).sum +
      ((M.filterMap Sum.getRight?).map (fun x => f (.inr x))).sum := by
  induction M with
  | nil => rfl
  | cons x M ih =>
    cases x with
    | inl a =>
      have h1 : (Sum.inl a :: M).filterMap Sum.getLeft? = a :: M.filterMap Sum.getLeft? := rfl
      have h2 : (Sum.inl a :: M).filterMap Sum.getRight? = M.filterMap Sum.getRight? := rfl
      rw [h1, h2]
      simp only [List.map_cons, List.sum_cons, ih]; omega
    | inr b =>
      have h1 : (Sum.inr b :: M).filterMap Sum.getLeft? = M.filterMap Sum.getLeft? := rfl
      have h2 : (Sum.inr b :: M).filterMap Sum.getRight? = b :: M.filterMap Sum.getRight? := rfl
      rw [h1, h2]
      simp only [List.map_cons, List.sum_cons, ih]; omega

theorem sum_range {X : Type} (G : List X) (f : X → Nat) : ((List.range G.length).map (fun k => ((G[k]?).map f).getD 0)).sum = (G.map f).sum := by
  induction G with
  | nil => rfl
  | cons x G ih =>
    rw [List.length_cons, List.range_succ_eq_map]
    simp only [List.map_cons, List.map_map, List.sum_cons, List.getElem?_cons_zero, Option.map_some, Option.getD_some]
    congr 1

theorem elems_opt (x : Option (List A)) : (elems (x.map some)).length = (x.map List.length).getD 0 := by
  cases x <;> rfl

theorem nodup_filterMap {X Y : Type} {f : X → Option Y} (hinj : ∀ a b y, f a = some y → f b = some y → a = b) {M : List X}
    (h : M.Nodup) : (M.filterMap f).Nodup := by
  induction M with
  | nil => exact .nil
  | cons x M ih =>
    rw [List.nodup_cons] at h
    cases hx : f x with
    | none => rw [List.filterMap_cons_none hx]; exact ih h.2
    | some y =>
      rw [List.filterMap_cons_some hx, List.nodup_cons]
      refine ⟨?_, ih h.2⟩
      rw [List.mem_filterMap]
      rintro ⟨a, ha, hy⟩
      have := hinj _ _ _ hx hy
      subst this; exact h.1 ha

/-- C58, the exact account, for every history in which arrays are constructed once and used while they
exist (move assignment to a non-empty array included), with every allocator that succeeds or aborts: the
program aborts (only if an allocation failed), or every array shows exactly the contents assigned to it,
and there are as many leaked buffers as arrays were overwritten by move assignment: these were never freed and
belong to no array; every other buffer ever allocated was freed exactly once or belongs to exactly one array.
The elements constructed are those destroyed, those the arrays hold, and those of the overwritten arrays. -/
theorem C58_ledger (c : Cfg) (hs : 0 < c.sizeof) (hp : c.aborts = true ∨ ∀ k b, c.alloc k b = true)
    (os : List (Op V A)) (hl : MayCallRun c.toLayout os (fun _ => none)) :
    (run c os State.start = .error .abort ∧ c.aborts = true ∧ ∃ k b, c.alloc k b = false) ∨
    ∃ s, run c os State.start = .ok s ∧
      (∀ v, Shows (s.vars v) s.mem (specRun os (fun _ => none) v)) ∧
      (∃ leaked : List Nat, leaked.Nodup ∧ leaked.length = (overwritten os (fun _ => none)).length ∧
        (∀ b ∈ leaked, b < s.mem.next ∧ s.mem.freed.count b = 0 ∧ ∀ v n, s.vars v ≠ some ⟨n, some b⟩) ∧
        ∀ b, b < s.mem.next → b ∉ leaked →
          (s.mem.freed.count b = 1 ∧ ∀ v n, s.vars v ≠ some ⟨n, some b⟩) ∨
          (s.mem.freed.count b = 0 ∧ ∃ v n, s.vars v = some ⟨n, some b⟩ ∧ ∀ w k, s.vars w = some ⟨k, some b⟩ → w = v)) ∧
      ∃ L : List V, L.Nodup ∧ (∀ v, elems (specRun os (fun _ => none) v) ≠ [] → v ∈ L) ∧
        s.mem.made = s.mem.gone + (L.map (fun v => (elems (specRun os (fun _ => none) v)).length)).sum +
          ((overwritten os (fun _ => none)).map List.length).sum := by
  have hE : SimE ([] : List (List A)) (fun _ : V => none) (fun _ => none) := ⟨fun _ => rfl, fun _ => rfl⟩
  obtain ⟨hleg, hsp⟩ := parkAll_simE os [] _ _ hE hl
  have hsim := parkAll_sim c os 0 (fun _ => none) (State.start : State V A) State.start ⟨rfl, fun _ => rfl⟩
  simp only [List.length_nil, List.nil_append] at hleg hsp
  generalize hos' : parkAll 0 os (fun _ => none) = os' at *
  generalize hG : overwritten os (fun _ => none) = G at *
  rcases good_run hs hp os' (inv_start c) hleg with ⟨t, h1, hinv⟩ | ⟨h1, h2⟩
  · right
    rw [h1] at hsim
    cases hr : run c os State.start with
    | error f => rw [hr] at hsim; exact hsim.elim
    | ok s =>
      rw [hr] at hsim
      obtain ⟨hm, hv⟩ := hsim
      obtain ⟨he1, he2⟩ := hsp
      have hrep : ∀ k, ∃ b, k < G.length → t.vars (.inr k) = some ⟨((G[k]?).map List.length).getD 0, some b⟩ := by
        intro k
        by_cases hk : k < G.length
        · have := hinv.rep (.inr k)
          rw [he2 k, List.getElem?_eq_getElem hk] at this
          obtain ⟨b, hb, -⟩ := this
          refine ⟨b, fun _ => ?_⟩
          rw [hb, List.getElem?_eq_getElem hk]
          rfl
        · exact ⟨0, fun h => (hk h).elim⟩
      have hghost : ∀ k n b, t.vars (.inr k) = some ⟨n, some b⟩ → k < G.length := by
        intro k n b hk
        rcases Nat.lt_or_ge k G.length with h | h
        · exact h
        · have := hinv.rep (.inr k)
          rw [he2 k, List.getElem?_eq_none h] at this
          have : t.vars (.inr k) = none := this
          rw [hk] at this; cases this
      let buf : Nat → Nat := fun k => (hrep k).choose
      have hbuf : ∀ k, k < G.length → t.vars (.inr k) = some ⟨((G[k]?).map List.length).getD 0, some (buf k)⟩ :=
        fun k => (hrep k).choose_spec
      have hown : ∀ b v n, t.vars v = some ⟨n, some b⟩ → b < t.mem.next ∧ t.mem.freed.count b = 0 := by
        intro b v n h
        have hr := hinv.rep v
        rw [h] at hr
        rcases hy : specRun os' (fun _ => none) v with _ | _ | l <;> rw [hy] at hr
        · cases hr
        · cases hr
        · obtain ⟨b', g1, -, g3, g4, -⟩ := hr
          injection g1 with g1; injection g1 with _ g1; injection g1 with g1
          subst g1
          exact ⟨g3, List.count_eq_zero.2 g4⟩
      refine ⟨s, rfl, fun v => ?_, ?_, ?_⟩
      · have := shows_of_rep (hinv.rep (.inl v))
        rw [he1 v, hv v, hm] at this
        exact this
      · refine ⟨(List.range G.length).map buf, ?_, by simp, ?_, ?_⟩
        · rw [List.nodup_iff_pairwise_ne, List.pairwise_map]
          have hnd : (List.range G.length).Pairwise (fun a b => a < b) := List.pairwise_lt_range
          refine hnd.imp_of_mem ?_
          intro a b ha hb hlt heq
          have e1 := hbuf a (List.mem_range.1 ha)
          have e2 := hbuf b (List.mem_range.1 hb)
          rw [heq] at e1
          have := hinv.inj _ _ _ _ _ e1 e2
          injection this with this
          omega
        · intro b hb
          rw [List.mem_map] at hb
          obtain ⟨k, hk, rfl⟩ := hb
          have e1 := hbuf k (List.mem_range.1 hk)
          rw [← hm]
          refine ⟨(hown _ _ _ e1).1, (hown _ _ _ e1).2, fun v n hvn => ?_⟩
          rw [← hv v] at hvn
          have := hinv.inj _ _ _ _ _ e1 hvn
          cases this
        · intro b hb hnl
          rw [← hm] at hb ⊢
          by_cases hf : b ∈ t.mem.freed
          · left
            refine ⟨?_, fun v n hvn => ?_⟩
            · rw [hinv.nodup.count, if_pos hf]
            · rw [← hv v] at hvn
              have := (hown _ _ _ hvn).2
              rw [List.count_eq_zero] at this
              exact this hf
          · right
            refine ⟨List.count_eq_zero.2 hf, ?_⟩
            obtain ⟨v, n, hvn⟩ := (hinv.cover b hb).resolve_left (fun h => h.elim hf (nomatch ·))
            cases v with
            | inl v =>
              refine ⟨v, n, by rw [← hv v]; exact hvn, fun w k hw => ?_⟩
              rw [← hv w] at hw
              have := hinv.inj _ _ _ _ _ hw hvn
              injection this
            | inr k =>
              exfalso
              have hk := hghost _ _ _ hvn
              have := hbuf k hk
              rw [hvn] at this
              simp only [Option.some.injEq, Arr.mk.injEq] at this
              exact hnl (List.mem_map.2 ⟨k, List.mem_range.2 hk, this.2.symm⟩)
      · obtain ⟨L', hnd, hcov, hsum⟩ := hinv.num
        refine ⟨L'.filterMap Sum.getLeft?, ?_, ?_, ?_⟩
        · refine nodup_filterMap ?_ hnd
          intro a b y ha hb
          cases a <;> cases b <;> simp_all
        · intro v hne
          rw [← he1 v] at hne
          exact List.mem_filterMap.2 ⟨_, hcov _ hne, rfl⟩
        · rw [← hm, hsum, sum_split]
          simp only [he1, he2, elems_opt]
          rw [sum_cover (fun k => ((G[k]?).map List.length).getD 0) (L'.filterMap Sum.getRight?) (List.range G.length)
            (nodup_filterMap (by intro a b y ha hb; cases a <;> cases b <;> simp_all) hnd) List.nodup_range]
          · rw [sum_range]; omega
          · intro k hk
            refine List.mem_filterMap.2 ⟨.inr k, hcov _ ?_, rfl⟩
            intro h0
            apply hk
            rw [he2 k] at h0
            have := elems_opt (G[k]?)
            rw [h0] at this
            exact this.symm
          · intro k hk
            rw [List.mem_range]
            rcases Nat.lt_or_ge k G.length with h | h
            · exact h
            · rw [List.getElem?_eq_none h] at hk; exact (hk rfl).elim
  · left
    rw [h1] at hsim
    refine ⟨?_, h2⟩
    cases hr : run c os State.start with
    | error f => rw [hr] at hsim; rw [hsim]
    | ok s => rw [hr] at hsim; exact hsim.elim

/-! ### Non-vacuity: the program of the refutation leaks one buffer with two elements -/

example : MayCallRun ⟨4, 64⟩ leaky (fun _ => none) := by decide +kernel
example : overwritten leaky (fun _ => none) = [[7, 7]] := by decide +kernel

end Verif.FixedArray
