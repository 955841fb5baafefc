import Verif.Function.ThrowsLemmas
/-!
# `ke::Function` with exceptions follows its specification
-/
namespace Verif.Function
open Verif

set_option linter.unusedSimpArgs false
set_option linter.unusedSectionVars false

variable {V C : Type} [DecidableEq V]

theorem destroy_dead {f : Fn C} {m m' : Mem} (h : destroy f m = .ok m') : ∀ id ∈ m.dead, id ∈ m'.dead := by
  induction f generalizing m m' with
  | empty => simp only [destroy] at h; cases h; exact fun _ h => h
  | call i d c =>
    simp only [destroy] at h
    split at h <;> cases h
    exact fun _ h => List.mem_cons_of_mem _ h
  | wrap i d f ih =>
    simp only [destroy, bind, Except.bind] at h
    split at h
    · cases h
    split at h <;> cases h
    rename_i hr
    exact fun id h => List.mem_cons_of_mem _ (ih hr id h)

theorem assignConst_dead {f f' : Fn C} {m m' : Mem} (h : assignConst f m = .ok (f', m')) : m'.dead = m.dead := by
  induction f generalizing f' m m' with
  | empty => simp only [assignConst] at h; cases h; rfl
  | call i d c =>
    simp only [assignConst] at h
    split at h <;> cases h
    rfl
  | wrap i d f ih =>
    simp only [assignConst, bind, Except.bind] at h
    split at h
    · cases h
    split at h
    · cases h
    rename_i r hr
    cases h
    exact ih (f' := r.1) (m' := r.2) hr

theorem assignNonConst_dead {f f' : Fn C} {m m' : Mem} (h : assignNonConst f m = .ok (f', m')) : m'.dead = m.dead := by
  simp only [assignNonConst, bind, Except.bind] at h
  split at h
  · cases h
  rename_i r hr
  cases h
  exact assignConst_dead (f' := r.1) (m' := r.2) hr

theorem moveFn_dead {f f' g : Fn C} {m m' : Mem} (h : moveFn f m = .ok (f', g, m')) : ∀ id ∈ m.dead, id ∈ m'.dead := by
  induction f generalizing f' g m m' with
  | empty => simp only [moveFn] at h; cases h; exact fun _ h => h
  | call i d c =>
    cases i with
    | false => simp only [moveFn] at h; cases h; exact fun _ h => h
    | true =>
      simp only [moveFn, bind, Except.bind] at h
      split at h
      · cases h
      split at h
      · cases h
      rename_i hr
      cases h
      exact fun id h => destroy_dead hr id h
  | wrap i d f ih =>
    cases i with
    | false => simp only [moveFn] at h; cases h; exact fun _ h => h
    | true =>
      simp only [moveFn, bind, Except.bind] at h
      split at h
      · cases h
      split at h
      · cases h
      rename_i r hr
      split at h
      · cases h
      rename_i hr'
      cases h
      exact fun id h => destroy_dead hr' id (ih (f' := r.1) (g := r.2.1) (m' := r.2.2) hr id h)

theorem step_dead {size : C → Nat} {s s' : State V C} {o : Op V C} (h : step size s o = .ok s') : ∀ id ∈ s.mem.dead, id ∈ s'.mem.dead := by
  cases o with
  | ctorNull v => cases h; exact fun _ h => h
  | ctorCallable v c => cases h; exact fun _ h => h
  | ctorCopyConst v w =>
    simp only [step, bind, Except.bind] at h
    split at h
    · cases h
    split at h
    · cases h
    rename_i r hr
    cases h
    intro id hid
    show id ∈ r.2.dead
    rw [assignConst_dead (f' := r.1) (m' := r.2) hr]; exact hid
  | ctorCopy v w =>
    simp only [step, bind, Except.bind] at h
    split at h
    · cases h
    split at h
    · cases h
    rename_i r hr
    cases h
    intro id hid
    show id ∈ r.2.dead
    rw [assignNonConst_dead (f' := r.1) (m' := r.2) hr]; exact hid
  | ctorMove v w =>
    simp only [step, bind, Except.bind] at h
    split at h
    · cases h
    split at h
    · cases h
    rename_i r hr
    cases h
    exact moveFn_dead (f' := r.1) (g := r.2.1) (m' := r.2.2) hr
  | dtor v =>
    simp only [step, bind, Except.bind] at h
    split at h
    · cases h
    split at h
    · cases h
    rename_i hr
    cases h
    exact destroy_dead hr
  | assignNull v =>
    simp only [step, bind, Except.bind] at h
    split at h
    · cases h
    split at h
    · cases h
    rename_i hr
    cases h
    exact destroy_dead hr
  | assignCallable v c =>
    simp only [step, bind, Except.bind] at h
    split at h
    · cases h
    split at h
    · cases h
    rename_i hr
    cases h
    exact fun id hid => destroy_dead hr id hid
  | assignCopyConst v w =>
    simp only [step, bind, Except.bind] at h
    split at h
    · cases h
    split at h
    · cases h
    rename_i hd
    split at h
    · cases h
    split at h
    · cases h
    rename_i r hr
    cases h
    intro id hid
    show id ∈ r.2.dead
    rw [assignConst_dead (f' := r.1) (m' := r.2) hr]; exact destroy_dead hd id hid
  | assignCopy v w =>
    simp only [step, bind, Except.bind] at h
    split at h
    · cases h
    split at h
    · cases h
    rename_i hd
    split at h
    · cases h
    split at h
    · cases h
    rename_i r hr
    cases h
    intro id hid
    show id ∈ r.2.dead
    rw [assignNonConst_dead (f' := r.1) (m' := r.2) hr]; exact destroy_dead hd id hid
  | assignMove v w =>
    simp only [step, bind, Except.bind] at h
    split at h
    · cases h
    split at h
    · cases h
    rename_i hd
    split at h
    · cases h
    split at h
    · cases h
    rename_i r hr
    cases h
    exact fun id hid => moveFn_dead (f' := r.1) (g := r.2.1) (m' := r.2.2) hr id (destroy_dead hd id hid)

theorem legal_base {e : EnvT V C} {o : Op V C} (h : LegalT e o) : Legal e.base o := by
  have h0 : ∀ v, e.base v = none ↔ e v = none := by intro v; simp [EnvT.base]
  cases o <;> simp only [LegalT, Legal, ne_eq, h0] at h ⊢ <;> exact h

theorem topDead_mono {m m' : Mem} {f : Fn C} (h : f.topDead m) (hd : ∀ id ∈ m.dead, id ∈ m'.dead) : f.topDead m' := by
  cases f with
  | empty => exact h
  | call i d c => exact hd d h
  | wrap i d f => exact hd d h

theorem specN_other (size : C → Nat) (e : EnvT V C) (o : Op V C) {u : V} (h : u ∉ o.uses) : specN size e o u = e u := by
  cases o <;> simp only [Op.uses, List.mem_cons, List.not_mem_nil, or_false, not_or] at h <;> simp [specN, EnvT.set, h]

theorem specN_br (size : C → Nat) (e : EnvT V C) (o : Op V C) (hb : ∀ u ∈ o.uses, e.br u = false) {u : V} (h : u ∈ o.uses) : (specN size e o).br u = false := by
  have hc : ∀ x : Option (ValT C), (x.map ValT.copied).any ValT.isBroken = false := by
    intro x
    cases x with
    | none => rfl
    | some x => cases x <;> rfl
  have hset : ∀ (e : EnvT V C) v x, x.any ValT.isBroken = false → (u ≠ v → e.br u = false) → (e.set v x).br u = false := by
    intro e v x h1 h2
    simp only [EnvT.br, EnvT.set]
    by_cases h3 : u = v
    · rw [if_pos h3]; exact h1
    · rw [if_neg h3]; exact h2 h3
  have hu := hb u h
  have hb' : ∀ w, w ∈ o.uses → (e w).any ValT.isBroken = false := hb
  cases o with
  | ctorNull v => exact hset _ _ _ rfl (fun _ => hu)
  | assignNull v => exact hset _ _ _ rfl (fun _ => hu)
  | ctorCallable v c => exact hset _ _ _ rfl (fun _ => hu)
  | assignCallable v c => exact hset _ _ _ rfl (fun _ => hu)
  | ctorCopyConst v w => exact hset _ _ _ (hb' w (by simp [Op.uses])) (fun _ => hu)
  | assignCopyConst v w => exact hset _ _ _ (hb' w (by simp [Op.uses])) (fun _ => hu)
  | ctorCopy v w => exact hset _ _ _ (hc _) (fun _ => hu)
  | assignCopy v w => exact hset _ _ _ (hc _) (fun _ => hu)
  | ctorMove v w => exact hset _ _ _ rfl (fun _ => hset _ _ _ (hb' w (by simp [Op.uses])) (fun _ => hu))
  | assignMove v w => exact hset _ _ _ rfl (fun _ => hset _ _ _ (hb' w (by simp [Op.uses])) (fun _ => hu))
  | dtor v => exact hset _ _ _ rfl (fun _ => hu)

/-- A call that throws nothing, on objects that are not broken. -/
theorem InvX.plain {s : State V C} {e : EnvT V C} (h : InvX s e) (size : C → Nat) (o : Op V C) (hl : LegalT e o) (hb : ∀ u ∈ o.uses, e.br u = false) :
    ∃ s', step size s o = .ok s' ∧ InvX s' (specN size e o) := by
  obtain ⟨s1, h1, i1⟩ := inv_step size h.base o (legal_base hl)
  obtain ⟨h2, h3⟩ := step_frame (t := s) (s := s.blankX e) rfl (fun u hu => by simp only [State.blankX, hb u hu]; rfl) h1
  refine ⟨_, h2, ?_, step_shape h2 h.shape, ?_⟩
  · rw [base_specN]
    have : State.blankX ⟨fun u => if u ∈ o.uses then s1.vars u else s.vars u, s1.mem⟩ (specN size e o) = s1 := by
      cases s1 with
      | mk vars mem =>
        simp only [State.blankX, State.mk.injEq, and_true]
        funext u
        by_cases hu : u ∈ o.uses
        · rw [if_pos hu, specN_br size e o hb hu]; rfl
        · have h4 : (specN size e o).br u = e.br u := by simp only [EnvT.br, specN_other size e o hu]
          have h5 : vars u = _ := h3 u hu
          rw [if_neg hu, h4, h5]; rfl
    rw [this]
    exact i1
  · intro u hu
    have hn : u ∉ o.uses := by
      intro h5
      rw [specN_br size e o hb h5] at hu
      cases hu
    have h4 : e.br u = true := by
      have : (specN size e o).br u = e.br u := by simp only [EnvT.br, specN_other size e o hn]
      rw [← this]; exact hu
    obtain ⟨f, h5, h6⟩ := h.brk u h4
    exact ⟨f, by simp [hn, h5], topDead_mono h6 (step_dead h2)⟩

theorem InvX.look {s : State V C} {e : EnvT V C} (h : InvX s e) {w : V} (hw : e w ≠ none) :
    ∃ x f, e w = some x ∧ s.vars w = some f ∧ s.get w = .ok f ∧ f.HW ∧ f.inline = x.inl ∧
      (x.isBroken = true → f.topDead s.mem) ∧
      (x.isBroken = false → (s.blankX e).vars w = some f ∧ f.abs = x.base ∧ (∀ id ∈ f.ids, id ∉ s.mem.dead) ∧ f.ids.Nodup ∧ ∀ id ∈ f.ids, id < s.mem.next) := by
  obtain ⟨x, hx⟩ := Option.ne_none_iff_exists'.1 hw
  by_cases hb : x.isBroken = true
  · obtain ⟨f, h1, h2⟩ := h.brk w (by simp [EnvT.br, hx, hb])
    obtain ⟨h3, h4⟩ := h.shape w f x h1 hx
    exact ⟨x, f, hx, h1, State.get_some h1, h3, h4, fun _ => h2, fun h => absurd hb (by simp [h])⟩
  · have hb' : e.br w = false := by simp [EnvT.br, hx]; simpa using hb
    obtain ⟨f, h1, h2⟩ := h.base.present (v := w) (by simp [EnvT.base, hx])
    have h3 : s.vars w = some f := by simpa [State.blankX, hb'] using h1
    obtain ⟨h4, h5⟩ := h.shape w f x h3 hx
    refine ⟨x, f, hx, h3, State.get_some h3, h4, h5, fun h => absurd h hb, fun _ => ⟨h1, ?_, h.base.good h1⟩⟩
    simp only [EnvT.base, hx, Option.map_some, Option.some.injEq] at h2
    exact h2.symm

theorem destroy_broken {f : Fn C} {m : Mem} (h : f.topDead m) : destroy f m = .error .doubleFree := by
  cases f with
  | empty => cases h
  | call i d c => simp only [destroy]; rw [if_pos (show d ∈ m.dead from h)]
  | wrap i d f => simp only [destroy]; rw [if_pos (show d ∈ m.dead from h)]

theorem copy_broken {f : Fn C} {m : Mem} (h : f.topDead m) (x : Exc) : copyThrow x f m = .error .useAfterFree ∧ assignConst f m = .error .useAfterFree ∧
    assignNonConst f m = .error .useAfterFree := by
  cases f with
  | empty => cases h
  | call i d c => simp only [copyThrow, assignConst, assignNonConst, bind, Except.bind]; simp [show d ∈ m.dead from h]
  | wrap i d f => simp only [copyThrow, assignConst, assignNonConst, bind, Except.bind]; simp [show d ∈ m.dead from h]

theorem call_broken {f : Fn C} {m : Mem} (h : f.topDead m) : f.isSet = true ∧ call f m = .error .useAfterFree := by
  cases f with
  | empty => cases h
  | call i d c => simp only [call]; rw [if_pos (show d ∈ m.dead from h)]; exact ⟨rfl, rfl⟩
  | wrap i d f => simp only [call]; rw [if_pos (show d ∈ m.dead from h)]; exact ⟨rfl, rfl⟩

theorem move_broken {f : Fn C} {m : Mem} (h : f.topDead m) (hw : f.HW) (torn : C → C) (x : Exc) :
    (f.inline = true → moveThrow torn x f m = .error .useAfterFree ∧ moveFn f m = .error .useAfterFree) ∧
    (f.inline = false → moveThrow torn x f m = .ok none ∧ moveFn f m = .ok (f, .empty, m)) := by
  cases f with
  | empty => cases h
  | call i d c =>
    cases i with
    | false => exact ⟨(fun h => nomatch h), fun _ => ⟨rfl, rfl⟩⟩
    | true =>
      refine ⟨fun _ => ?_, fun h => nomatch h⟩
      simp only [moveThrow, moveFn]
      simp [show d ∈ m.dead from h]
  | wrap i d f =>
    obtain ⟨rfl, hw⟩ := hw
    exact ⟨(fun h => nomatch h), fun _ => ⟨rfl, rfl⟩⟩

theorem copyThrow_callable (f : Fn C) (m : Mem) (hn : ∀ id ∈ f.ids, id ∉ m.dead) :
    copyThrow .callable f m = .ok (match f.abs with | .fn _ => true | _ => false) := by
  induction f with
  | empty => rfl
  | call i d c => simp only [copyThrow]; rw [if_neg (hn d (by simp [Fn.ids]))]; rfl
  | wrap i d f ih =>
    simp only [copyThrow]
    rw [if_neg (hn d (by simp [Fn.ids])), ih (fun i hi => hn i (by simp [Fn.ids, hi]))]
    cases h : f.abs <;> simp [Fn.abs, Val.copied, h]

theorem copyThrow_ok {f : Fn C} {m : Mem} {x : ValT C} (hn : ∀ id ∈ f.ids, id ∉ m.dead) (hw : f.HW) (ha : f.abs = x.base) (hi : f.inline = x.inl) (hb : x.isBroken = false) (c : Exc) :
    copyThrow c f m = .ok (throwsCopy c (some x)) := by
  cases c with
  | callable =>
    rw [copyThrow_callable f m hn, ha]
    cases x <;> simp [ValT.base, throwsCopy]
  | alloc =>
    cases f with
    | empty => cases x <;> simp_all [Fn.abs, ValT.base, ValT.isBroken, throwsCopy, copyThrow]
    | call i d c =>
      simp only [copyThrow]; rw [if_neg (hn d (by simp [Fn.ids]))]
      cases x <;> simp_all [Fn.abs, ValT.base, ValT.isBroken, throwsCopy, Fn.inline, ValT.inl]
    | wrap i d f =>
      obtain ⟨rfl, hw⟩ := hw
      simp only [copyThrow]; rw [if_neg (hn d (by simp [Fn.ids]))]
      cases x with
      | empty => cases hf : f.abs <;> simp [Fn.abs, Val.copied, ValT.base, hf] at ha
      | fn c i => simp only [Fn.inline, ValT.inl] at hi; subst hi; rfl
      | hollow => rfl
      | broken i => cases hb

theorem throwsNC (x : ValT C) (hb : x.isBroken = false) (c : Exc) : (throwsCopy c (some x) || decide (c = .alloc)) = throwsCopyNC c (some x) := by
  cases c <;> cases x <;> simp_all [throwsCopy, throwsCopyNC, ValT.isBroken]

theorem moveThrow_ok {f : Fn C} {m : Mem} {x : ValT C} (hn : ∀ id ∈ f.ids, id ∉ m.dead) (hw : f.HW) (ha : f.abs = x.base) (hi : f.inline = x.inl) (hb : x.isBroken = false)
    (torn : C → C) (c : Exc) :
    (∃ a id, x = .fn a true ∧ c = .callable ∧ f = .call true id a ∧ moveThrow torn c f m = .ok (some (.call true id (torn a)))) ∨
    ((∀ a, x = .fn a true → c ≠ .callable) ∧ moveThrow torn c f m = .ok none) := by
  cases f with
  | empty =>
    refine .inr ⟨?_, rfl⟩
    rintro a rfl
    cases ha
  | wrap i d f =>
    obtain ⟨rfl, -⟩ := hw
    refine .inr ⟨?_, rfl⟩
    rintro a rfl
    cases hi
  | call i d a =>
    cases i with
    | false =>
      refine .inr ⟨?_, rfl⟩
      rintro a rfl
      cases hi
    | true =>
      have hd : d ∉ m.dead := hn d (by simp [Fn.ids])
      cases c with
      | alloc =>
        refine .inr ⟨fun _ _ => by simp, ?_⟩
        simp only [moveThrow]; rw [if_neg hd]
      | callable =>
        left
        cases x with
        | fn b i =>
          simp only [Fn.abs, ValT.base, Val.fn.injEq] at ha
          simp only [Fn.inline, ValT.inl] at hi
          subst ha; subst hi
          refine ⟨a, d, rfl, rfl, rfl, ?_⟩
          simp only [moveThrow]; rw [if_neg hd]
        | empty => cases ha
        | hollow => cases ha
        | broken i => cases hb

theorem blankX_set (s : State V C) (e : EnvT V C) (m : Mem) (v : V) (y : Option (Fn C)) (z : Option (ValT C)) :
    (({ s with mem := m } : State V C).set v y).blankX (e.set v z) =
      ({ s.blankX e with mem := m } : State V C).set v (if z.any ValT.isBroken then some .empty else y) := by
  simp only [State.blankX, State.set, State.mk.injEq, and_true]
  funext u
  simp only [EnvT.br, EnvT.set]
  by_cases h : u = v
  · simp [h]
  · simp [h]
    rfl

theorem set_self {s : State V C} {v : V} {f : Fn C} (h : s.vars v = some f) (m : Mem) : (({ s with mem := m } : State V C).set v (some f)) = { s with mem := m } := by
  simp only [State.set, State.mk.injEq, and_true]
  funext u
  split
  · rename_i hu; rw [hu, h]
  · rfl

/-- One variable changes. -/
theorem InvX.upd {s : State V C} {e : EnvT V C} (h : InvX s e) (v : V) (y : Fn C) (z : ValT C) (m : Mem) (k : Nat) (K : List Nat)
    (hm : m = { next := s.mem.next + k, dead := K ++ s.mem.dead })
    (hc : ∀ id, K.count id + (if z.isBroken then [] else y.ids).count id = ((s.blankX e).own v).count id + fresh s.mem.next k id)
    (ha : z.isBroken = false → y.abs = z.base) (hw : y.HW) (hi : y.inline = z.inl) (hd : z.isBroken = true → y.topDead m) :
    InvX (({ s with mem := m } : State V C).set v (some y)) (e.set v (some z)) := by
  refine ⟨?_, ?_, ?_⟩
  · rw [blankX_set, base_set]
    have := inv_set h.base v (if z.isBroken then some .empty else some y) m k K hm (by
      intro id
      refine Eq.trans ?_ (hc id)
      congr 2
      split <;> rfl)
    simp only [Option.any_some, Option.map_some]
    by_cases hb : z.isBroken = true
    · rw [if_pos hb] at this ⊢
      have hz : z.base = .empty := by cases z <;> simp_all [ValT.isBroken, ValT.base]
      rw [hz]
      exact this
    · rw [if_neg hb] at this ⊢
      rw [← ha (by simpa using hb)]
      exact this
  · intro u f x h1 h2
    simp only [State.set, EnvT.set] at h1 h2
    split at h1
    · rename_i hu
      rw [if_pos hu] at h2
      cases h1; cases h2
      exact ⟨hw, hi⟩
    · rename_i hu
      rw [if_neg hu] at h2
      exact h.shape u f x h1 h2
  · intro u hu
    simp only [EnvT.br, EnvT.set] at hu
    simp only [State.set]
    split at hu
    · rename_i hv
      exact ⟨y, by simp [hv], hd hu⟩
    · rename_i hv
      obtain ⟨f, h1, h2⟩ := h.brk u hu
      refine ⟨f, by simp [hv, h1], topDead_mono h2 ?_⟩
      intro id hid
      subst hm
      exact List.mem_append.2 (.inr hid)

/-- The left side of an assignment that throws. -/
theorem InvX.stale {s : State V C} {e : EnvT V C} (h : InvX s e) {v : V} {x : ValT C} (hx : e v = some x) (hb : x.isBroken = false) :
    ∃ f m, s.get v = .ok f ∧ destroy f s.mem = .ok m ∧ InvX { s with mem := m } (e.set v ((e v).map .stale)) := by
  obtain ⟨x', f, h1, h2, h3, h4, h5, -, h6⟩ := h.look (w := v) (by simp [hx])
  rw [hx] at h1; cases h1
  obtain ⟨h7, h8, h9, h10, h11⟩ := h6 hb
  refine ⟨f, { s.mem with dead := f.ids ++ s.mem.dead }, h3, destroy_ok f _ h9 h10, ?_⟩
  rw [hx, Option.map_some, ← set_self h2]
  refine h.upd v f x.stale _ 0 f.ids rfl ?_ ?_ h4 ?_ ?_
  · intro id
    rw [own_some h7, fresh_zero]
    cases f with
    | empty => cases x <;> simp [ValT.stale, ValT.isBroken, Fn.ids]
    | call i d c => cases x <;> simp_all [ValT.stale, ValT.isBroken, Fn.ids, Fn.abs, ValT.base]
    | wrap i d f =>
      cases x with
      | empty => cases hf : f.abs <;> simp [Fn.abs, Val.copied, ValT.base, hf] at h8
      | fn c i => simp [ValT.stale, ValT.isBroken]
      | hollow => simp [ValT.stale, ValT.isBroken]
      | broken i => cases hb
  · intro hz
    cases x with
    | empty => exact h8
    | fn c i => cases hz
    | hollow => cases hz
    | broken i => cases hb
  · rw [h5]
    cases x <;> rfl
  · intro hz
    cases f with
    | empty => cases x <;> simp_all [ValT.stale, ValT.isBroken, Fn.abs, ValT.base]
    | call i d c => simp [Fn.topDead, Fn.ids]
    | wrap i d f => simp [Fn.topDead, Fn.ids]

theorem env_set_set' (e : EnvT V C) (v : V) (x y : Option (ValT C)) : (e.set v x).set v y = e.set v y := by
  funext u; simp only [EnvT.set]; split <;> rfl

theorem env_set_same (e : EnvT V C) (v : V) : e.set v (e v) = e := by
  funext u; simp only [EnvT.set]; split
  · rename_i h; rw [h]
  · rfl

/-- A source whose callable's move constructor threw. -/
theorem InvX.torn {s : State V C} {e : EnvT V C} (h : InvX s e) {w : V} {id : Nat} {a : C} (hs : s.vars w = some (.call true id a)) (he : e w = some (.fn a true)) (b : C) :
    InvX (s.set w (some (.call true id b))) (e.set w (some (.fn b true))) := by
  have hbl : (s.blankX e).vars w = some (.call true id a) := by simp [State.blankX, EnvT.br, he, ValT.isBroken, hs]
  refine h.upd w (.call true id b) (.fn b true) s.mem 0 [] rfl (fun i => ?_) (fun _ => rfl) trivial rfl (fun h => nomatch h)
  rw [own_some hbl, fresh_zero]
  simp [ValT.isBroken, Fn.ids]

/-- Moving a broken `Function` that points to the heap. -/
theorem InvX.moveBroken {s : State V C} {e : EnvT V C} (h : InvX s e) {v w : V} {f : Fn C} (hvw : v ≠ w) (hf : s.vars w = some f) (he : e w = some (.broken false))
    (hv : (s.blankX e).own v = []) : InvX ((s.set v (some f)).set w (some .empty)) ((e.set v (some (.broken false))).set w (some .empty)) := by
  obtain ⟨h1, h2⟩ := h.shape w f _ hf he
  obtain ⟨g, h3, h4⟩ := h.brk w (by simp [EnvT.br, he, ValT.isBroken])
  rw [hf] at h3; cases h3
  have hi := h.upd v f (.broken false) s.mem 0 [] rfl (fun i => by simp [ValT.isBroken, hv, fresh_zero]) (fun h => nomatch h) h1 h2 (fun _ => h4)
  refine hi.upd w .empty .empty s.mem 0 [] rfl (fun i => ?_) (fun _ => rfl) trivial rfl (fun h => nomatch h)
  have : (State.blankX (({ s with mem := s.mem } : State V C).set v (some f)) (e.set v (some (.broken false)))).vars w = some .empty := by
    simp [State.blankX, EnvT.br, EnvT.set, State.set, hvw.symm, he, ValT.isBroken]
  rw [own_some this, fresh_zero]
  simp [ValT.isBroken, Fn.ids]

end Verif.Function
