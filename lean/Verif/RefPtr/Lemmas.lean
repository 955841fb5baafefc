import Verif.RefPtr.Spec
/-!
# Invariant: counts equal handles, also in the middle of a cascade of destructions

`ex` lists handles whose reference has been given up although they still hold the pointer; `dy` lists the
objects being destroyed; `born` the objects created and not yet referred to.
-/
namespace Verif.RefPtr
open Verif

set_option linter.unusedSectionVars false
set_option linter.unusedSimpArgs false

variable {H : Type} [DecidableEq H] {arity : Obj → Nat}

theorem filter_split {α : Type} {l : List α} (nd : l.Nodup) {d : α} (hd : d ∈ l) (p q : α → Bool)
    (hp : p d = true) (hq : q d = false) (h : ∀ x ∈ l, x ≠ d → p x = q x) :
    (l.filter p).length = (l.filter q).length + 1 := by
  obtain ⟨a, b, rfl⟩ := List.append_of_mem hd
  rw [List.nodup_append, List.nodup_cons] at nd
  obtain ⟨-, ⟨h1, -⟩, h2⟩ := nd
  have ha : a.filter p = a.filter q :=
    List.filter_congr (fun x hx => h x (by simp [hx]) (fun e => h2 x hx d (by simp) e))
  have hb : b.filter p = b.filter q :=
    List.filter_congr (fun x hx => h x (by simp [hx]) (fun e => h1 (e ▸ hx)))
  rw [List.filter_append, List.filter_append, List.filter_cons_of_pos hp,
    List.filter_cons_of_neg (by simp [hq]), ha, hb]
  simp; omega

def refs (ex : List (Slot H)) (s : State H) (o : Obj) : Nat :=
  (s.hs.filter (fun e => decide (e ∉ ex ∧ s.val e = some o))).length

theorem refs_pos {ex : List (Slot H)} {s : State H} {o : Obj} :
    0 < refs ex s o ↔ ∃ e ∈ s.hs, e ∉ ex ∧ s.val e = some o := by
  rw [refs, List.length_pos_iff_exists_mem]
  simp [List.mem_filter]

theorem refs_cons {ex : List (Slot H)} {s : State H} {o : Obj} {d : Slot H} (nd : s.hs.Nodup) (hd : d ∈ s.hs)
    (hex : d ∉ ex) (hv : s.val d = some o) : refs ex s o = refs (d :: ex) s o + 1 := by
  refine filter_split nd hd _ _ (by simp [hex, hv]) (by simp) (fun x _ hx => ?_)
  simp [hx]

theorem refs_cons_other {ex : List (Slot H)} {s : State H} {o : Obj} {d : Slot H} (hv : s.val d ≠ some o) :
    refs (d :: ex) s o = refs ex s o := by
  unfold refs
  congr 1
  refine List.filter_congr (fun x _ => ?_)
  by_cases hx : x = d
  · subst hx; simp [hv]
  · simp [hx]

structure Inv (arity : Obj → Nat) (ex : List (Slot H)) (dy born : List Obj) (s : State H) : Prop where
  nd : s.hs.Nodup
  lnd : s.live.Nodup
  tgt : ∀ e ∈ s.hs, e ∉ ex → ∀ o, s.val e = some o → o ∈ s.live
  cnt : ∀ o ∈ s.live, s.cnt o = refs ex s o
  pos : ∀ o ∈ s.live, o ∉ born → 0 < s.cnt o
  own : ∀ o i, o ∈ s.live → (.field o i ∈ s.hs ↔ i < arity o)
  own2 : ∀ o i, .field o i ∈ s.hs → o ∈ s.live ∨ o ∈ dy
  dyd : ∀ o ∈ dy, o ∉ s.live
  fnd : s.freed.Nodup
  fiff : ∀ o, o ∈ s.freed ↔ o < s.fresh ∧ o ∉ s.live
  lt : ∀ o ∈ s.live, o < s.fresh

def Kept (ex : List (Slot H)) (dy : List Obj) (s : State H) : Prop :=
  ∀ e ∈ ex, ∀ o i, e = .field o i → o ∈ dy ∨ Reach s ex o

/-- What a release may change. -/
structure Ext (ex : List (Slot H)) (dy : List Obj) (s s' : State H) : Prop where
  val : s'.val = s.val
  fresh : s'.fresh = s.fresh
  live : ∀ o ∈ s'.live, o ∈ s.live
  hs : ∀ e, e ∈ s'.hs ↔ e ∈ s.hs ∧ ∀ o i, e = .field o i → o ∈ s'.live ∨ o ∈ dy
  still : ∀ o ∈ s.live, (∀ e ∈ s.hs, e ∉ ex → s.val e ≠ some o) → o ∈ s'.live

theorem Reach.held {s : State H} {ex : List (Slot H)} {o : Obj} (h : Reach s ex o) :
    ∃ e ∈ s.hs, e ∉ ex ∧ s.val e = some o := by
  cases h with
  | root h1 h2 h3 => exact ⟨_, h1, h2, h3⟩
  | step _ h1 h2 h3 => exact ⟨_, h1, h2, h3⟩

theorem Reach.live {s : State H} {ex : List (Slot H)} {dy born : List Obj} (hi : Inv arity ex dy born s) {o : Obj}
    (h : Reach s ex o) : o ∈ s.live := by
  obtain ⟨e, h1, h2, h3⟩ := h.held
  exact hi.tgt e h1 h2 o h3

/-- Reachable objects survive. -/
theorem Reach.ext {s s' : State H} {ex ex0 : List (Slot H)} {dy born : List Obj} (hx : Ext ex0 dy s s')
    (hi : Inv arity ex dy born s') {o : Obj} (h : Reach s ex o) : Reach s' ex o := by
  induction h with
  | root h1 h2 h3 => exact .root ((hx.hs _).2 ⟨h1, fun _ _ e => by cases e⟩) h2 (by rw [hx.val]; exact h3)
  | @step p i o h0 h1 h2 h3 ih =>
    refine .step ih ((hx.hs _).2 ⟨h1, fun q j e => ?_⟩) h2 (by rw [hx.val]; exact h3)
    injection e with e1 e2
    subst e1
    exact .inl (ih.live hi)

theorem Kept.ext {s s' : State H} {ex ex0 : List (Slot H)} {dy born : List Obj} (hx : Ext ex0 dy s s')
    (hi : Inv arity ex dy born s') (h : Kept ex dy s) : Kept ex dy s' :=
  fun e he o i heq => (h e he o i heq).imp id (fun hr => hr.ext hx hi)

/-- Giving up the reference of `d` without destroying. -/
theorem inv_dec {ex : List (Slot H)} {dy born : List Obj} {s : State H} {d : Slot H} {o : Obj}
    (hi : Inv arity ex dy born s) (hd : d ∈ s.hs) (hex : d ∉ ex) (hv : s.val d = some o)
    (hpos : s.cnt o - 1 ≠ 0) :
    Inv arity (d :: ex) dy born { s with cnt := fun p => if p = o then s.cnt o - 1 else s.cnt p } := by
  have ho := hi.tgt d hd hex o hv
  refine ⟨hi.nd, hi.lnd, fun e he hne => hi.tgt e he (fun h => hne (List.mem_cons_of_mem _ h)), ?_, ?_, hi.own, hi.own2,
    hi.dyd, hi.fnd, hi.fiff, hi.lt⟩
  · intro p hp
    dsimp only at hp ⊢
    change _ = refs (d :: ex) s p
    split
    · rename_i h; subst h
      have := refs_cons hi.nd hd hex hv
      have := hi.cnt p hp
      omega
    · rename_i h
      rw [refs_cons_other (by rw [hv]; simp; exact fun e => h e.symm)]
      exact hi.cnt p hp
  · intro p hp hb
    dsimp only at hp ⊢
    split
    · omega
    · exact hi.pos p hp hb

theorem Reach.mono {s : State H} {ex : List (Slot H)} {d : Slot H} {o : Obj} (h : Reach s (d :: ex) o) :
    Reach s ex o := by
  induction h with
  | root h1 h2 h3 => exact .root h1 (fun h => h2 (List.mem_cons_of_mem _ h)) h3
  | step _ h1 h2 h3 ih => exact .step ih h1 (fun h => h2 (List.mem_cons_of_mem _ h)) h3

theorem members_spec {fuel : Nat}
    (ih : ∀ (s : State H) (ex : List (Slot H)) (dy born : List Obj) (d : Slot H) (o : Obj), Inv arity ex dy born s → d ∈ s.hs →
      d ∉ ex → s.val d = some o → Kept (d :: ex) dy s → s.live.length < fuel →
      ∃ s', release arity fuel s o = .ok s' ∧ Inv arity (d :: ex) dy born s' ∧ Kept (d :: ex) dy s' ∧ Ext ex dy s s') :
    ∀ (n : Nat) (s : State H) (ex : List (Slot H)) (dy born : List Obj) (o : Obj), Inv arity ex (o :: dy) born s → Kept ex dy s →
      (∀ i, .field o i ∈ s.hs ↔ i < n) → (∀ i, .field o i ∉ ex) → o ∉ dy → s.live.length < fuel →
      ∃ s', members (release arity fuel) o n s = .ok s' ∧ Inv arity ex dy born s' ∧ Kept ex dy s' ∧ Ext ex dy s s' := by
  intro n
  induction n with
  | zero =>
    intro s ex dy born o hi hk hf hfe hdy hfu
    have hno : ∀ i, .field o i ∉ s.hs := fun i h => by have := (hf i).1 h; omega
    refine ⟨s, rfl, ⟨hi.nd, hi.lnd, hi.tgt, hi.cnt, hi.pos, hi.own, ?_, fun p hp => hi.dyd p (by simp [hp]), hi.fnd, hi.fiff,
      hi.lt⟩, hk, rfl, rfl, fun _ h => h, ?_, fun _ h _ => h⟩
    · intro p i hp
      rcases hi.own2 p i hp with h | h
      · exact .inl h
      · rcases List.mem_cons.1 h with rfl | h
        · exact (hno i hp).elim
        · exact .inr h
    · intro e
      refine ⟨fun he => ⟨he, fun p i heq => ?_⟩, fun h => h.1⟩
      subst heq
      rcases hi.own2 p i he with h | h
      · exact .inl h
      · rcases List.mem_cons.1 h with rfl | h
        · exact (hno i he).elim
        · exact .inr h
  | succ n ihn =>
    intro s ex dy born o hi hk hf hfe hdy hfu
    have hmem : Slot.field o n ∈ s.hs := (hf n).2 (by omega)
    have holive : o ∉ s.live := hi.dyd o (by simp)
    -- the state after releasing the member
    have key : ∃ s1, (match s.val (.field o n) with
        | none => (.ok s : Exec (State H))
        | some p => release arity fuel s p) = .ok s1 ∧ Inv arity (.field o n :: ex) (o :: dy) born s1 ∧
        Ext ex (o :: dy) s s1 ∧ Kept ex dy s1 := by
      cases hv : s.val (.field o n) with
      | none =>
        refine ⟨s, rfl, ⟨hi.nd, hi.lnd, fun e he hne => hi.tgt e he (fun h => hne (List.mem_cons_of_mem _ h)), ?_, hi.pos,
          hi.own, hi.own2, hi.dyd, hi.fnd, hi.fiff, hi.lt⟩, ⟨rfl, rfl, fun _ h => h, ?_, fun _ h _ => h⟩, hk⟩
        · intro p hp; rw [refs_cons_other (by rw [hv]; simp)]; exact hi.cnt p hp
        · intro e
          exact ⟨fun he => ⟨he, fun p i heq => hi.own2 p i (heq ▸ he)⟩, fun h => h.1⟩
      | some p =>
        have hk1 : Kept (.field o n :: ex) (o :: dy) s := by
          intro e he q i heq
          rcases List.mem_cons.1 he with h | h
          · rw [h] at heq; injection heq with h1 h2; subst h1; exact .inl (by simp)
          · rcases hk e h q i heq with h' | h'
            · exact .inl (by simp [h'])
            · refine .inr ?_
              clear heq
              induction h' with
              | root h1 h2 h3 => exact .root h1 (by simp [h2]) h3
              | @step p i o' h0 h1 h2 h3 ih' =>
                refine .step ih' h1 ?_ h3
                intro hm
                rcases List.mem_cons.1 hm with hm | hm
                · injection hm with e1 e2; subst e1; exact holive (h0.live hi)
                · exact h2 hm
        obtain ⟨s1, h1, h2, h3, h4⟩ := ih s ex (o :: dy) born (.field o n) p hi hmem (hfe n) hv hk1 hfu
        refine ⟨s1, h1, h2, h4, ?_⟩
        intro e he q i heq
        rcases h3 e (List.mem_cons_of_mem _ he) q i heq with h | h
        · rcases List.mem_cons.1 h with h | h
          · subst h; rw [heq] at he; exact (hfe i he).elim
          · exact .inl h
        · exact .inr h.mono
    obtain ⟨s1, h1, hi1, hx1, hk1⟩ := key
    have ho1 : o ∉ s1.live := fun h => holive (hx1.live o h)
    let s2 : State H := { s1 with hs := s1.hs.filter (fun e => decide (e ≠ Slot.field o n)) }
    have hmem2 : ∀ e, e ∈ s2.hs ↔ e ∈ s1.hs ∧ e ≠ .field o n := by intro e; simp [s2, List.mem_filter]
    have hrefs : ∀ p, refs ex s2 p = refs (.field o n :: ex) s1 p := by
      intro p
      simp only [refs, s2, List.filter_filter]
      congr 1
      refine List.filter_congr (fun x _ => ?_)
      by_cases hx : x = .field o n <;> simp [hx]
    have hi2 : Inv arity ex (o :: dy) born s2 := by
      refine ⟨hi1.nd.filter _, hi1.lnd, ?_, fun p hp => by rw [hrefs]; exact hi1.cnt p hp, hi1.pos, ?_, ?_, hi1.dyd, hi1.fnd,
        hi1.fiff, hi1.lt⟩
      · intro e he hex p hp
        obtain ⟨he1, he2⟩ := (hmem2 e).1 he
        exact hi1.tgt e he1 (by simp [he2, hex]) p hp
      · intro p i hp
        rw [hmem2]
        have : (.field p i : Slot H) ≠ .field o n := by
          intro h; injection h with h _; subst h; exact ho1 hp
        simp only [this, ne_eq, not_false_eq_true, and_true]
        exact hi1.own p i hp
      · intro p i hp
        exact hi1.own2 p i ((hmem2 _).1 hp).1
    have hk2 : Kept ex dy s2 := by
      intro e he q i heq
      refine (hk1 e he q i heq).imp id (fun hr => ?_)
      clear heq he
      induction hr with
      | root h1 h2 h3 => exact .root ((hmem2 _).2 ⟨h1, by simp⟩) h2 h3
      | @step p i o' h0 h1 h2 h3 ih' =>
        refine .step ih' ((hmem2 _).2 ⟨h1, ?_⟩) h2 h3
        intro h; injection h with h _; subst h
        obtain ⟨e, a, b, c⟩ := h0.held
        by_cases hen : e = .field p n
        · -- the member itself points to its dying object: excluded before the release
          subst hen
          rw [hx1.val] at c
          exact holive (hi.tgt _ hmem (hfe n) p c)
        · exact ho1 (hi1.tgt e a (by simp [hen, b]) p c)
    have hf2 : ∀ i, .field o i ∈ s2.hs ↔ i < n := by
      intro i
      rw [hmem2, hx1.hs, hf]
      constructor
      · rintro ⟨⟨a, -⟩, b⟩
        have : i ≠ n := fun h => b (by rw [h])
        omega
      · intro h
        refine ⟨⟨by omega, fun p j e => ?_⟩, fun e => by injection e with _ e; omega⟩
        injection e with e1 e2
        exact .inr (by simp [e1])
    have hlen : s2.live.length < fuel := by
      refine Nat.lt_of_le_of_lt ?_ hfu
      exact List.Nodup.length_le_of_subset hi1.lnd (fun x hx => hx1.live x hx)
    obtain ⟨s3, h3, hi3, hk3, hx3⟩ := ihn s2 ex dy born o hi2 hk2 hf2 hfe hdy hlen
    refine ⟨s3, ?_, hi3, hk3, ?_⟩
    · simp only [members, destroySlot, read, hmem, not_true_eq_false, if_false, bind, Except.bind]
      cases hv : s.val (.field o n) with
      | none => rw [hv] at h1; simp only [Except.ok.injEq] at h1; subst h1; exact h3
      | some p => rw [hv] at h1; simp only at h1 ⊢; rw [h1]; exact h3
    · refine ⟨hx3.val.trans hx1.val, hx3.fresh.trans hx1.fresh, fun p hp => hx1.live p (hx3.live p hp), ?_, ?_⟩
      · intro e
        rw [hx3.hs, hmem2, hx1.hs]
        constructor
        · rintro ⟨⟨⟨a, b⟩, c⟩, d⟩; exact ⟨a, d⟩
        · rintro ⟨a, b⟩
          refine ⟨⟨⟨a, fun p i heq => ?_⟩, ?_⟩, b⟩
          · rcases b p i heq with h | h
            · exact .inl (hx3.live p h)
            · exact .inr (by simp [h])
          · rintro rfl
            rcases b o n rfl with h | h
            · exact ho1 (hx3.live o h)
            · exact hdy h
      · intro p hp hno
        refine hx3.still p (hx1.still p hp hno) (fun e he hex => ?_)
        have he1 := ((hmem2 e).1 he).1
        show s1.val e ≠ _
        rw [hx1.val]
        exact hno e ((hx1.hs e).1 he1).1 hex

theorem release_spec : ∀ (fuel : Nat) (s : State H) (ex : List (Slot H)) (dy born : List Obj) (d : Slot H) (o : Obj),
    Inv arity ex dy born s → d ∈ s.hs → d ∉ ex → s.val d = some o → Kept (d :: ex) dy s → s.live.length < fuel →
      ∃ s', release arity fuel s o = .ok s' ∧ Inv arity (d :: ex) dy born s' ∧ Kept (d :: ex) dy s' ∧ Ext ex dy s s' := by
  intro fuel
  induction fuel with
  | zero => intro s _ _ _ _ _ _ _ _ _ _ h; omega
  | succ fuel ih =>
    intro s ex dy born d o hi hd hex hv hk hfu
    have ho := hi.tgt d hd hex o hv
    have hc := hi.cnt o ho
    have hr := refs_cons hi.nd hd hex hv
    have hc0 : s.cnt o ≠ 0 := by omega
    by_cases hz : s.cnt o - 1 = 0
    · -- the object dies
      have hr0 : refs (d :: ex) s o = 0 := by omega
      have hnone : ∀ e ∈ s.hs, e ∉ d :: ex → s.val e ≠ some o := by
        intro e he hne hve
        have : 0 < refs (d :: ex) s o := refs_pos.2 ⟨e, he, hne, hve⟩
        omega
      let s2 : State H := { s with cnt := fun p => if p = o then s.cnt o - 1 else s.cnt p, live := s.live.filter (fun p => decide (p ≠ o)), freed := o :: s.freed }
      have hl2 : ∀ p, p ∈ s2.live ↔ p ∈ s.live ∧ p ≠ o := by intro p; simp [s2, List.mem_filter]
      have hody : o ∉ dy := fun h => hi.dyd o h ho
      have hi2 : Inv arity (d :: ex) (o :: dy) born s2 := by
        refine ⟨hi.nd, hi.lnd.filter _, ?_, ?_, ?_, ?_, ?_, ?_, ?_, ?_, ?_⟩
        · intro e he hne p hp
          refine (hl2 p).2 ⟨hi.tgt e he (fun h => hne (List.mem_cons_of_mem _ h)) p hp, ?_⟩
          rintro rfl
          exact hnone e he hne hp
        · intro p hp
          obtain ⟨hp1, hp2⟩ := (hl2 p).1 hp
          show (if p = o then _ else s.cnt p) = refs (d :: ex) s p
          rw [if_neg hp2, refs_cons_other (by rw [hv]; simp; exact fun e => hp2 e.symm)]
          exact hi.cnt p hp1
        · intro p hp hb
          obtain ⟨hp1, hp2⟩ := (hl2 p).1 hp
          show 0 < (if p = o then _ else s.cnt p)
          rw [if_neg hp2]
          exact hi.pos p hp1 hb
        · intro p i hp; exact hi.own p i ((hl2 p).1 hp).1
        · intro p i hp
          by_cases hpo : p = o
          · exact .inr (by simp [hpo])
          · rcases hi.own2 p i hp with h | h
            · exact .inl ((hl2 p).2 ⟨h, hpo⟩)
            · exact .inr (by simp [h])
        · intro p hp h
          obtain ⟨h1, h2⟩ := (hl2 p).1 h
          rcases List.mem_cons.1 hp with h' | h'
          · exact h2 h'
          · exact hi.dyd p h' h1
        · exact List.nodup_cons.2 ⟨fun h => ((hi.fiff o).1 h).2 ho, hi.fnd⟩
        · intro p
          show p ∈ o :: s.freed ↔ p < s.fresh ∧ _
          rw [hl2, List.mem_cons, hi.fiff]
          constructor
          · rintro (rfl | ⟨h1, h2⟩)
            · exact ⟨hi.lt _ ho, fun h => h.2 rfl⟩
            · exact ⟨h1, fun h => h2 h.1⟩
          · rintro ⟨h1, h2⟩
            by_cases hpo : p = o
            · exact .inl hpo
            · exact .inr ⟨h1, fun h => h2 ⟨h, hpo⟩⟩
        · intro p hp; exact hi.lt p ((hl2 p).1 hp).1
      have hk2 : Kept (d :: ex) dy s2 := by
        intro e he q i heq
        refine (hk e he q i heq).imp id (fun hr => ?_)
        clear heq he
        induction hr with
        | root h1 h2 h3 => exact .root h1 h2 h3
        | step _ h1 h2 h3 ih' => exact .step ih' h1 h2 h3
      have hfe : ∀ i, .field o i ∉ d :: ex := by
        intro i hm
        rcases hk _ hm o i rfl with h | h
        · exact hody h
        · obtain ⟨e, a, b, c⟩ := h.held
          exact hnone e a b c
      have hlen : s2.live.length < fuel := by
        have := filter_split hi.lnd ho (fun _ => true) (fun p => decide (p ≠ o)) rfl (by simp)
          (fun x _ hx => by simp [hx])
        have ht : s.live.filter (fun _ => true) = s.live := List.filter_eq_self.2 (fun _ _ => rfl)
        rw [ht] at this
        show (s.live.filter _).length < fuel
        omega
      obtain ⟨s', h1, h2, h3, h4⟩ := members_spec ih (arity o) s2 (d :: ex) dy born o hi2 hk2 (hi.own o · ho) hfe hody hlen
      refine ⟨s', ?_, h2, h3, h4.val, h4.fresh, fun p hp => ((hl2 p).1 (h4.live p hp)).1, h4.hs, ?_⟩
      · simp only [release, ho, not_true_eq_false, if_false, hc0, if_true, hz]
        simp only [s2, hz] at h1
        exact h1
      · intro p hp hno
        refine h4.still p ((hl2 p).2 ⟨hp, ?_⟩) (fun e he hne => hno e he (fun h => hne (List.mem_cons_of_mem _ h)))
        rintro rfl
        exact hno d hd hex hv
    · refine ⟨{ s with cnt := fun p => if p = o then s.cnt o - 1 else s.cnt p }, ?_, inv_dec hi hd hex hv hz, ?_,
        rfl, rfl, fun _ h => h, ?_, fun _ h _ => h⟩
      · simp only [release, ho, not_true_eq_false, if_false, hc0, if_true, hz]
      · intro e he q i heq
        refine (hk e he q i heq).imp id (fun hr => ?_)
        clear heq he
        induction hr with
        | root h1 h2 h3 => exact .root h1 h2 h3
        | step _ h1 h2 h3 ih' => exact .step ih' h1 h2 h3
      · intro e
        exact ⟨fun he => ⟨he, fun p i heq => hi.own2 p i (heq ▸ he)⟩, fun h => h.1⟩

/-! ### Operations -/

/-- References moved between handles. -/
theorem Inv.transfer {ex ex2 : List (Slot H)} {dy born : List Obj} {s t : State H} (hi : Inv arity ex dy born s)
    (hl : t.live = s.live) (hc : t.cnt = s.cnt) (hf : t.fresh = s.fresh) (hfr : t.freed = s.freed)
    (nd : t.hs.Nodup) (hfield : ∀ o i, .field o i ∈ t.hs ↔ .field o i ∈ s.hs)
    (hrefs : ∀ o, refs ex2 t o = refs ex s o) : Inv arity ex2 dy born t := by
  refine ⟨nd, hl ▸ hi.lnd, ?_, ?_, ?_, ?_, ?_, ?_, hfr ▸ hi.fnd, ?_, ?_⟩
  · intro e he hne o hv
    rw [hl]
    have : 0 < refs ex s o := by rw [← hrefs]; exact refs_pos.2 ⟨e, he, hne, hv⟩
    obtain ⟨e', h1, h2, h3⟩ := refs_pos.1 this
    exact hi.tgt e' h1 h2 o h3
  · intro o ho; rw [hrefs, hc]; exact hi.cnt o (hl ▸ ho)
  · intro o ho hb; rw [hc]; exact hi.pos o (hl ▸ ho) hb
  · intro o i ho; rw [hfield]; exact hi.own o i (hl ▸ ho)
  · intro o i h; rw [hl]; exact hi.own2 o i ((hfield o i).1 h)
  · intro o ho; rw [hl]; exact hi.dyd o ho
  · intro o; rw [hfr, hf, hl]; exact hi.fiff o
  · intro o ho; rw [hf]; exact hi.lt o (hl ▸ ho)

theorem shared_rel {born : List Obj} {s : State H} (hi : Inv arity [] [] born s) {d : Slot H} (hd : d ∈ s.hs)
    {o : Obj} (hv : s.val d = some o) (hsh : ∃ e ∈ s.hs, e ≠ d ∧ s.val e = s.val d) :
    releaseObj arity s o = .ok { s with cnt := fun p => if p = o then s.cnt o - 1 else s.cnt p } ∧
    Inv arity [d] [] born { s with cnt := fun p => if p = o then s.cnt o - 1 else s.cnt p } := by
  have ho := hi.tgt d hd (by simp) o hv
  have hc := hi.cnt o ho
  have hr := refs_cons hi.nd hd (ex := []) (by simp) hv
  obtain ⟨e, he, hed, hve⟩ := hsh
  have : 0 < refs [d] s o := refs_pos.2 ⟨e, he, by simp [hed], by rw [hve, hv]⟩
  have hz : s.cnt o - 1 ≠ 0 := by omega
  refine ⟨?_, inv_dec hi hd (by simp) hv hz⟩
  simp only [releaseObj, release, ho, not_true_eq_false, if_false, if_true, hz, show s.cnt o ≠ 0 by omega]

theorem inv_null {ex : List (Slot H)} {dy born : List Obj} {s : State H} (hi : Inv arity ex dy born s) {d : Slot H}
    (hv : s.val d = none) : Inv arity (d :: ex) dy born s :=
  hi.transfer rfl rfl rfl rfl hi.nd (fun _ _ => Iff.rfl) (fun o => refs_cons_other (by rw [hv]; simp))

/-- `Release()` at the start of an assignment or destructor. -/
theorem drop_spec {born : List Obj} {s : State H} (hi : Inv arity [] [] born s) {d : Slot H} (hd : d ∈ s.hs)
    (hk : Shared s d ∨ Stays s d d) :
    ∃ s1, releaseOpt arity s (s.val d) = .ok s1 ∧ Inv arity [d] [] born s1 ∧ Ext [] [] s s1 ∧ d ∈ s1.hs ∧
      (Shared s d → s1.hs = s.hs ∧ s1.live = s.live) := by
  have hself : ∀ e, e ∈ s.hs ↔ e ∈ s.hs ∧ ∀ o i, e = .field o i → o ∈ s.live ∨ o ∈ ([] : List Obj) :=
    fun e => ⟨fun he => ⟨he, fun p i heq => hi.own2 p i (heq ▸ he)⟩, fun h => h.1⟩
  cases hv : s.val d with
  | none =>
    exact ⟨s, rfl, inv_null hi hv, ⟨rfl, rfl, fun _ h => h, hself, fun _ h _ => h⟩, hd, fun _ => ⟨rfl, rfl⟩⟩
  | some o =>
    by_cases hsh : ∃ e ∈ s.hs, e ≠ d ∧ s.val e = s.val d
    · obtain ⟨h1, h2⟩ := shared_rel hi hd hv hsh
      exact ⟨_, h1, h2, ⟨rfl, rfl, fun _ h => h, hself, fun _ h _ => h⟩, hd, fun _ => ⟨rfl, rfl⟩⟩
    · have hns : ¬ Shared s d := by
        rintro (h | h)
        · rw [hv] at h; cases h
        · exact hsh h
      have hst := hk.resolve_left hns
      have hkept : Kept [d] [] s := by
        intro e he p i heq
        simp only [List.mem_singleton] at he
        subst he; subst heq
        exact .inr hst
      obtain ⟨s1, h1, h2, h3, h4⟩ := release_spec (s.live.length + 1) s [] [] born d o hi hd (by simp) hv hkept (by omega)
      refine ⟨s1, h1, h2, h4, (h4.hs d).2 ⟨hd, fun p i heq => ?_⟩, fun h => (hns h).elim⟩
      rcases h3 d (by simp) p i heq with h | h
      · cases h
      · exact .inl (h.live h2)

/-- Binding a handle (without reference) to a live object. -/
theorem bind_spec {born : List Obj} {s : State H} {d : Slot H} (hi : Inv arity [d] [] born s) (hd : d ∈ s.hs)
    (v : Option Obj) (hv : ∀ o, v = some o → o ∈ s.live) (hb : ∀ o ∈ born, v = some o) :
    ∃ s2, (do let s ← write s d v; addRefOpt s v) = .ok s2 ∧ Inv arity [] [] [] s2 ∧ s2.hs = s.hs ∧
      s2.val = (fun x => if x = d then v else s.val x) := by
  let t : State H := { s with val := fun e => if e = d then v else s.val e }
  have hw : write s d v = .ok t := by simp [write, hd, t]
  have hrefs : ∀ o, v ≠ some o → refs [] t o = refs [d] s o := by
    intro o ho
    simp only [refs, t]
    congr 1
    refine List.filter_congr (fun x _ => ?_)
    by_cases hx : x = d <;> simp [hx, ho]
  have hrefs1 : ∀ o, v = some o → refs [] t o = refs [d] s o + 1 := by
    intro o ho
    refine filter_split hi.nd hd _ _ (by simp [t, ho]) (by simp) (fun x _ hx => by simp [t, hx])
  cases v with
  | none =>
    refine ⟨t, by simp [hw, bind, Except.bind, addRefOpt], ?_, rfl, rfl⟩
    have hborn : born = [] := List.eq_nil_iff_forall_not_mem.2 (fun o ho => by have := hb o ho; cases this)
    subst hborn
    exact hi.transfer rfl rfl rfl rfl hi.nd (fun _ _ => Iff.rfl) (fun o => hrefs o (by simp))
  | some p =>
    have hp := hv p rfl
    refine ⟨{ t with cnt := fun q => if q = p then s.cnt p + 1 else s.cnt q }, ?_, ?_, rfl, rfl⟩
    · simp only [hw, bind, Except.bind, addRefOpt, addRef]
      rw [if_neg (by simpa [t] using hp)]
    · refine ⟨hi.nd, hi.lnd, ?_, ?_, ?_, hi.own, hi.own2, hi.dyd, hi.fnd, hi.fiff, hi.lt⟩
      · intro e he _ o ho
        by_cases hed : e = d
        · subst hed
          simp only [t, if_true, Option.some.injEq] at ho
          exact ho ▸ hp
        · simp only [t, if_neg hed] at ho
          exact hi.tgt e he (by simp [hed]) o ho
      · intro o ho
        show (if o = p then s.cnt p + 1 else s.cnt o) = refs [] t o
        by_cases hop : o = p
        · subst hop; rw [if_pos rfl, hrefs1 o rfl, hi.cnt o ho]
        · rw [if_neg hop, hrefs o (by simp; exact fun h => hop h.symm), hi.cnt o ho]
      · intro o ho _
        show 0 < (if o = p then s.cnt p + 1 else s.cnt o)
        split
        · omega
        · rename_i hop
          refine hi.pos o ho (fun h => ?_)
          have := hb o h
          simp at this
          exact hop this.symm

/-- Constructing a variable: it starts without a reference. -/
theorem construct_spec {born : List Obj} {s : State H} (hi : Inv arity [] [] born s) {h : H} (hh : .root h ∉ s.hs)
    (v : Option Obj) :
    construct s (.root h) v = .ok { s with hs := .root h :: s.hs, val := fun e => if e = .root h then v else s.val e } ∧
    Inv arity [.root h] [] born { s with hs := .root h :: s.hs, val := fun e => if e = .root h then v else s.val e } := by
  refine ⟨by simp [construct, hh], hi.transfer rfl rfl rfl rfl (List.nodup_cons.2 ⟨hh, hi.nd⟩) (by simp) (fun o => ?_)⟩
  simp only [refs]
  rw [List.filter_cons_of_neg (by simp)]
  congr 1
  refine List.filter_congr (fun x hx => ?_)
  have : x ≠ .root h := fun e => hh (e ▸ hx)
  simp [this]

theorem new_spec {s : State H} (hi : Inv arity [] [] [] s) :
    Inv arity [] [] [s.fresh] (newObj arity s).1 ∧ (newObj arity s).2 = s.fresh ∧
    (∀ e, e ∈ (newObj arity s).1.hs ↔ e ∈ s.hs ∨ ∃ i < arity s.fresh, e = .field s.fresh i) ∧
    (∀ i, i < arity s.fresh → (newObj arity s).1.val (.field s.fresh i) = none) ∧
    (∀ e ∈ s.hs, (newObj arity s).1.val e = s.val e) := by
  have hnl : s.fresh ∉ s.live := fun h => Nat.lt_irrefl _ (hi.lt _ h)
  have hnf : ∀ i, .field s.fresh i ∉ s.hs := by
    intro i h
    rcases hi.own2 _ _ h with h | h
    · exact hnl h
    · cases h
  have hfs : ∀ e : Slot H, e ∈ (List.range (arity s.fresh)).map (Slot.field s.fresh) ↔ ∃ i < arity s.fresh, e = .field s.fresh i := by
    intro e; simp only [List.mem_map, List.mem_range]
    exact ⟨fun ⟨i, h1, h2⟩ => ⟨i, h1, h2.symm⟩, fun ⟨i, h1, h2⟩ => ⟨i, h1, h2.symm⟩⟩
  have hmem : ∀ e, e ∈ (newObj arity s).1.hs ↔ e ∈ s.hs ∨ ∃ i < arity s.fresh, e = .field s.fresh i := by
    intro e; simp only [newObj, List.mem_append, hfs]; exact or_comm
  have hval : ∀ e ∈ s.hs, (newObj arity s).1.val e = s.val e := by
    intro e he
    simp only [newObj]
    rw [if_neg]
    intro h
    obtain ⟨i, -, rfl⟩ := (hfs e).1 h
    exact hnf i he
  have hval0 : ∀ i, i < arity s.fresh → (newObj arity s).1.val (.field s.fresh i) = none := by
    intro i h
    simp only [newObj]
    rw [if_pos ((hfs _).2 ⟨i, h, rfl⟩)]
  have hrefs : ∀ o, refs [] (newObj arity s).1 o = refs [] s o := by
    intro o
    have h1 : ((newObj arity s).1.hs.filter (fun e => decide (e ∉ ([] : List (Slot H)) ∧ (newObj arity s).1.val e = some o))) =
        s.hs.filter (fun e => decide (e ∉ ([] : List (Slot H)) ∧ s.val e = some o)) := by
      show (((List.range (arity s.fresh)).map (Slot.field s.fresh)) ++ s.hs).filter _ = _
      rw [List.filter_append, List.filter_eq_nil_iff.2, List.nil_append]
      · exact List.filter_congr (fun x hx => by rw [hval x hx])
      · intro e he
        obtain ⟨i, hi', rfl⟩ := (hfs e).1 he
        rw [hval0 i hi']; simp
    simp only [refs, h1]
  refine ⟨⟨?_, ?_, ?_, ?_, ?_, ?_, ?_, ?_, ?_, ?_, ?_⟩, rfl, hmem, hval0, hval⟩
  · simp only [newObj]
    rw [List.nodup_append]
    refine ⟨List.Pairwise.map _ (fun a b hab e => hab (by injection e)) List.nodup_range, hi.nd, ?_⟩
    intro a ha b hb hab
    subst hab
    obtain ⟨i, -, rfl⟩ := (hfs a).1 ha
    exact hnf i hb
  · exact List.nodup_cons.2 ⟨hnl, hi.lnd⟩
  · intro e he _ o ho
    rcases (hmem e).1 he with h | ⟨i, hi', rfl⟩
    · rw [hval e h] at ho
      exact List.mem_cons_of_mem _ (hi.tgt e h (by simp) o ho)
    · rw [hval0 i hi'] at ho; cases ho
  · intro o ho
    rw [hrefs]
    simp only [newObj]
    rcases List.mem_cons.1 ho with h | h
    · rw [if_pos h]
      by_cases hp : 0 < refs [] s o
      · obtain ⟨e, h1, h2, h3⟩ := refs_pos.1 hp
        exact (hnl (h ▸ hi.tgt e h1 h2 o h3)).elim
      · omega
    · have : o ≠ s.fresh := fun e => hnl (e ▸ h)
      rw [if_neg this]; exact hi.cnt o h
  · intro o ho hb
    rcases List.mem_cons.1 ho with h | h
    · exact (hb (by simp [h])).elim
    · have : o ≠ s.fresh := fun e => hnl (e ▸ h)
      simp only [newObj]
      rw [if_neg this]; exact hi.pos o h (by simp)
  · intro o i ho
    rw [hmem]
    rcases List.mem_cons.1 ho with h | h
    · subst h
      exact ⟨fun h => h.elim (fun h => (hnf i h).elim) (fun ⟨j, h1, h2⟩ => by injection h2 with _ h2; omega),
        fun h => .inr ⟨i, h, rfl⟩⟩
    · rw [← hi.own o i h]
      refine ⟨fun h' => h'.elim id (fun ⟨j, h1, h2⟩ => ?_), .inl⟩
      injection h2 with h2 _
      exact (hnl (h2 ▸ h)).elim
  · intro o i ho
    rcases (hmem _).1 ho with h | ⟨j, h1, h2⟩
    · exact (hi.own2 o i h).imp (fun h => List.mem_cons_of_mem _ h) id
    · injection h2 with h2 _; exact .inl (by simp [newObj, h2])
  · simp
  · exact hi.fnd
  · intro o
    show o ∈ s.freed ↔ o < s.fresh + 1 ∧ o ∉ s.fresh :: s.live
    rw [hi.fiff]
    simp only [List.mem_cons, not_or]
    constructor
    · rintro ⟨h1, h2⟩; exact ⟨Nat.lt_succ_of_lt h1, Nat.ne_of_lt h1, h2⟩
    · rintro ⟨h1, h2, h3⟩; exact ⟨Nat.lt_of_le_of_ne (Nat.le_of_lt_succ h1) h2, h3⟩
  · intro o ho
    show o < s.fresh + 1
    rcases List.mem_cons.1 ho with h | h
    · exact h ▸ Nat.lt_succ_self _
    · exact Nat.lt_succ_of_lt (hi.lt o h)

/-- Moving the reference of `e` into the unreferenced handle `d`. -/
theorem move_spec {s : State H} {d e : Slot H} (hi : Inv arity [d] [] [] s) (hd : d ∈ s.hs) (he : e ∈ s.hs) :
    ∃ s2, (do let s ← write s d (s.val e); write s e none) = .ok s2 ∧ Inv arity [] [] [] s2 ∧ s2.hs = s.hs ∧
      s2.val = (fun x => if x = e then none else if x = d then s.val e else s.val x) := by
  refine ⟨{ s with val := fun x => if x = e then none else if x = d then s.val e else s.val x },
    by simp [write, hd, he, bind, Except.bind], ?_, rfl, rfl⟩
  refine hi.transfer rfl rfl rfl rfl hi.nd (fun _ _ => Iff.rfl) (fun o => ?_)
  by_cases hde : e = d
  · subst hde
    simp only [refs]
    congr 1
    refine List.filter_congr (fun x _ => ?_)
    by_cases hx : x = e <;> simp [hx]
  · by_cases hv : s.val e = some o
    · have h1 := filter_split hi.nd he (fun x => decide (x ∉ [d] ∧ s.val x = some o))
        (fun x => decide (x ∉ [d, e] ∧ s.val x = some o)) (by simp [hde, hv]) (by simp) (fun x _ hx => by simp [hx])
      have h2 := filter_split hi.nd hd
        (fun x => decide (x ∉ ([] : List (Slot H)) ∧ (if x = e then none else if x = d then s.val e else s.val x) = some o))
        (fun x => decide (x ∉ [d, e] ∧ s.val x = some o)) (by simp [Ne.symm hde, hv]) (by simp) (fun x _ hx => by
          by_cases hxe : x = e <;> simp [hx, hxe])
      simp only [refs]
      rw [h1, h2]
    · simp only [refs]
      congr 1
      refine List.filter_congr (fun x _ => ?_)
      by_cases hx : x = e
      · simp [hx, hv]
      · by_cases hxd : x = d <;> simp [hx, hxd, hv, hde, Ne.symm hde]

/-- The end of a variable's lifetime. -/
theorem gone_spec {s : State H} {h : H} (hi : Inv arity [.root h] [] [] s) :
    Inv arity [] [] [] { s with hs := s.hs.filter (fun e => decide (e ≠ .root h)) } := by
  refine hi.transfer rfl rfl rfl rfl (hi.nd.filter _) (fun o i => by simp [List.mem_filter]) (fun o => ?_)
  simp only [refs, List.filter_filter]
  congr 1
  refine List.filter_congr (fun x _ => ?_)
  by_cases hx : x = .root h <;> simp [hx]

theorem inv_new : Inv arity [] [] [] (State.new : State H) := by
  refine ⟨.nil, .nil, ?_, ?_, ?_, ?_, ?_, ?_, .nil, ?_, ?_⟩ <;> simp [State.new]

theorem Stays.mem {s s1 : State H} {d e : Slot H} (hx : Ext [] [] s s1) (hi : Inv arity [d] [] born s1) (he : e ∈ s.hs)
    (h : Stays s d e) : e ∈ s1.hs := by
  refine (hx.hs e).2 ⟨he, fun o i heq => ?_⟩
  subst heq
  exact .inl ((Reach.ext hx hi h).live hi)

theorem exec_spec {s : State H} (hi : Inv arity [] [] [] s) (op : Op H) (hl : Legal s op) :
    ∃ s', exec arity s op = .ok s' ∧ Inv arity [] [] [] s' ∧ (∀ x ∈ s'.hs, s'.val x = valAfter s op x) ∧
      ∀ k, .root k ∈ s'.hs ↔ varAfter s op k := by
  have hnf : ∀ i, .field s.fresh i ∉ s.hs := by
    intro i h
    rcases hi.own2 _ _ h with h | h
    · exact Nat.lt_irrefl _ (hi.lt _ h)
    · cases h
  have hown : ∀ x ∈ s.hs, x.ownedBy s.fresh = false := by
    intro x hx
    cases x with
    | root h => rfl
    | field o i =>
      simp only [Slot.ownedBy, decide_eq_false_iff_not]
      rintro rfl
      exact hnf i hx
  cases op with
  | ctorNull h =>
    obtain ⟨h1, h2⟩ := construct_spec hi hl none
    refine ⟨_, h1, ?_, fun x _ => rfl, by simp [varAfter]⟩
    refine h2.transfer rfl rfl rfl rfl h2.nd (fun _ _ => Iff.rfl) (fun o => ?_)
    exact (refs_cons_other (by simp)).symm
  | ctorNew h =>
    obtain ⟨hi1, ho, hmem, hval0, hval⟩ := new_spec (arity := arity) hi
    have hh : .root h ∉ (newObj arity s).1.hs := by
      rw [hmem]; rintro (h | ⟨i, -, h⟩)
      · exact hl h
      · cases h
    obtain ⟨h1, h2⟩ := construct_spec hi1 hh (some s.fresh)
    obtain ⟨s2, h3, h4, h5, h6⟩ := bind_spec h2 (by simp) (some s.fresh) (by intro o ho; injection ho with ho; subst ho; simp [newObj]) (by simp)
    have hw : write { (newObj arity s).1 with hs := .root h :: (newObj arity s).1.hs, val := fun e => if e = .root h then some s.fresh else (newObj arity s).1.val e } (.root h) (some s.fresh) =
        .ok { (newObj arity s).1 with hs := .root h :: (newObj arity s).1.hs, val := fun e => if e = .root h then some s.fresh else (newObj arity s).1.val e } := by
      simp only [write, List.mem_cons, true_or, not_true_eq_false, if_false]
      congr 2
      funext e; split <;> rfl
    rw [hw] at h3
    refine ⟨s2, ?_, h4, ?_, ?_⟩
    · simp only [exec, ctorRaw, ho, h1, bind, Except.bind] at h3 ⊢
      exact h3
    · intro x hx
      rw [h5] at hx
      rw [h6]
      simp only [valAfter]
      split
      · rfl
      · rename_i hne
        rcases List.mem_cons.1 hx with hx | hx
        · exact (hne hx).elim
        · rcases (hmem x).1 hx with hx | ⟨i, hi', rfl⟩
          · simp [hown x hx, hval x hx]
          · simp [Slot.ownedBy, hval0 i hi']
    · intro k
      rw [h5]
      simp only [List.mem_cons, Slot.root.injEq, hmem, varAfter, reduceCtorEq, and_false, exists_false, or_false]
  | ctorGet h e =>
    obtain ⟨hh, he⟩ := hl
    obtain ⟨h1, h2⟩ := construct_spec hi hh (s.val e)
    obtain ⟨s2, h3, h4, h5, h6⟩ := bind_spec h2 (by simp) (s.val e) (fun o ho => hi.tgt e he (by simp) o ho) (by simp)
    simp only [write, List.mem_cons, true_or, not_true_eq_false, if_false, bind, Except.bind] at h3
    refine ⟨s2, ?_, h4, ?_, ?_⟩
    · simp only [exec, ctorRaw, read, he, not_true_eq_false, if_false, bind, Except.bind, h1]
      rw [← h3]; congr 2; funext x; split <;> rfl
    · intro x hx
      rw [h6]
      simp only [valAfter]
      split <;> simp_all
    · intro k; rw [h5]; simp [varAfter]
  | ctorCopy h e =>
    obtain ⟨hh, he⟩ := hl
    obtain ⟨h1, h2⟩ := construct_spec hi hh (s.val e)
    obtain ⟨s2, h3, h4, h5, h6⟩ := bind_spec h2 (by simp) (s.val e) (fun o ho => hi.tgt e he (by simp) o ho) (by simp)
    simp only [write, List.mem_cons, true_or, not_true_eq_false, if_false, bind, Except.bind] at h3
    refine ⟨s2, ?_, h4, ?_, ?_⟩
    · simp only [exec, ctorCopy, read, he, not_true_eq_false, if_false, bind, Except.bind, h1]
      rw [← h3]; congr 2; funext x; split <;> rfl
    · intro x hx
      rw [h6]
      simp only [valAfter]
      split <;> simp_all
    · intro k; rw [h5]; simp [varAfter]
  | ctorMove h e =>
    obtain ⟨hh, he⟩ := hl
    have hne : e ≠ .root h := fun x => hh (x ▸ he)
    obtain ⟨h1, h2⟩ := construct_spec hi hh (s.val e)
    obtain ⟨s2, h3, h4, h5, h6⟩ := move_spec (e := e) h2 (by simp) (by simp [he])
    simp only [hne, if_false] at h3 h6
    refine ⟨s2, ?_, h4, ?_, ?_⟩
    · simp only [exec, ctorMove, read, he, not_true_eq_false, if_false, bind, Except.bind, h1]
      simp only [write, List.mem_cons, true_or, not_true_eq_false, if_false, bind, Except.bind, he, or_true] at h3 ⊢
      rw [← h3]; congr 2; funext x; split
      · rfl
      · split <;> rfl
    · intro x hx
      rw [h6]
      simp only [valAfter]
      split
      · rfl
      · split <;> simp_all
    · intro k; rw [h5]; simp [varAfter]
  | assignNull d =>
    obtain ⟨hd, hk⟩ := hl
    obtain ⟨s1, h1, h2, hx, hd1, -⟩ := drop_spec hi hd hk
    obtain ⟨s2, h3, h4, h5, h6⟩ := bind_spec h2 hd1 none (by simp) (by simp)
    refine ⟨s2, ?_, h4, ?_, ?_⟩
    · simp only [exec, assignRaw, read, hd, not_true_eq_false, if_false, bind, Except.bind, h1] at h3 ⊢
      exact h3
    · intro x _; rw [h6, hx.val]; rfl
    · intro k; rw [h5, hx.hs]; simp [varAfter]
  | assignNew d =>
    obtain ⟨hd, hk⟩ := hl
    obtain ⟨hi0, ho, hmem, hval0, hval⟩ := new_spec (arity := arity) hi
    have hd0 : d ∈ (newObj arity s).1.hs := (hmem d).2 (.inl hd)
    have hk0 : Shared (newObj arity s).1 d ∨ Stays (newObj arity s).1 d d := by
      rcases hk with (h | ⟨e, h1, h2, h3⟩) | h
      · exact .inl (.inl (by rw [hval d hd]; exact h))
      · exact .inl (.inr ⟨e, (hmem e).2 (.inl h1), h2, by rw [hval d hd, hval e h1]; exact h3⟩)
      · right
        have hr : ∀ {ex o}, Reach s ex o → Reach (newObj arity s).1 ex o := by
          intro ex o h
          induction h with
          | root h1 h2 h3 => exact .root ((hmem _).2 (.inl h1)) h2 (by rw [hval _ h1]; exact h3)
          | step _ h1 h2 h3 ih => exact .step ih ((hmem _).2 (.inl h1)) h2 (by rw [hval _ h1]; exact h3)
        cases d with
        | root => trivial
        | field o i => exact hr h
    obtain ⟨s1, h1, h2, hx, hd1, -⟩ := drop_spec hi0 hd0 hk0
    have hfl : s.fresh ∈ s1.live := by
      refine hx.still _ (by simp [newObj]) (fun e he _ hve => ?_)
      rcases (hmem e).1 he with h | ⟨i, hi', rfl⟩
      · rw [hval e h] at hve
        exact Nat.lt_irrefl _ (hi.lt _ (hi.tgt e h (by simp) _ hve))
      · rw [hval0 i hi'] at hve; cases hve
    obtain ⟨s2, h3, h4, h5, h6⟩ := bind_spec h2 hd1 (some s.fresh) (by intro o h; injection h with h; exact h ▸ hfl) (by simp)
    refine ⟨s2, ?_, h4, ?_, ?_⟩
    · simp only [exec, assignRaw, read, hd0, not_true_eq_false, if_false, bind, Except.bind, h1, ho] at h3 ⊢
      exact h3
    · intro x hx'
      rw [h6, hx.val]
      simp only [valAfter]
      split
      · rfl
      · rw [h5, hx.hs, hmem] at hx'
        rcases hx'.1 with hx' | ⟨i, hi', rfl⟩
        · simp [hown x hx', hval x hx']
        · simp [Slot.ownedBy, hval0 i hi']
    · intro k; rw [h5, hx.hs, hmem]; simp [varAfter]
  | assignGet d e =>
    obtain ⟨hd, he, hk⟩ := hl
    obtain ⟨s1, h1, h2, hx, hd1, hsh⟩ := drop_spec hi hd (hk.imp id (fun h => h.1))
    obtain ⟨s2, h3, h4, h5, h6⟩ := bind_spec h2 hd1 (s.val e) (fun o ho => by
      rcases hk with h | ⟨-, h⟩
      · rw [(hsh h).2]; exact hi.tgt e he (by simp) o ho
      · exact (Reach.ext hx h2 (h o ho)).live h2) (by simp)
    refine ⟨s2, ?_, h4, ?_, ?_⟩
    · simp only [exec, assignRaw, read, hd, he, not_true_eq_false, if_false, bind, Except.bind, h1] at h3 ⊢
      exact h3
    · intro x _; rw [h6, hx.val]; rfl
    · intro k; rw [h5, hx.hs]; simp [varAfter]
  | assignCopy d e =>
    obtain ⟨hd, he, hk⟩ := hl
    obtain ⟨s1, h1, h2, hx, hd1, hsh⟩ := drop_spec hi hd (hk.imp id (fun h => h.2.1))
    have he1 : e ∈ s1.hs := by
      rcases hk with h | ⟨-, -, h⟩
      · rw [(hsh h).1]; exact he
      · exact h.mem hx h2 he
    obtain ⟨s2, h3, h4, h5, h6⟩ := bind_spec h2 hd1 (s1.val e) (fun o ho => by
      rcases hk with h | ⟨hne, -, h⟩
      · rw [(hsh h).2]; exact hi.tgt e he (by simp) o (hx.val ▸ ho)
      · exact h2.tgt e he1 (by simp [hne]) o ho) (by simp)
    refine ⟨s2, ?_, h4, ?_, ?_⟩
    · simp only [exec, assignCopy, read, hd, he1, not_true_eq_false, if_false, bind, Except.bind, h1] at h3 ⊢
      exact h3
    · intro x _; rw [h6, hx.val]; rfl
    · intro k; rw [h5, hx.hs]; simp [varAfter]
  | assignMove d e =>
    obtain ⟨hd, he, hk⟩ := hl
    obtain ⟨s1, h1, h2, hx, hd1, hsh⟩ := drop_spec hi hd (hk.imp id (fun h => h.1))
    have he1 : e ∈ s1.hs := by
      rcases hk with h | ⟨-, h⟩
      · rw [(hsh h).1]; exact he
      · exact h.mem hx h2 he
    obtain ⟨s2, h3, h4, h5, h6⟩ := move_spec h2 hd1 he1
    refine ⟨s2, ?_, h4, ?_, ?_⟩
    · simp only [exec, assignMove, read, hd, he1, not_true_eq_false, if_false, bind, Except.bind, h1] at h3 ⊢
      exact h3
    · intro x _; rw [h6, hx.val]; rfl
    · intro k; rw [h5, hx.hs]; simp [varAfter]
  | destroy h =>
    obtain ⟨s1, h1, h2, hx, hd1, -⟩ := drop_spec hi hl (.inr trivial)
    refine ⟨_, ?_, gone_spec h2, ?_, ?_⟩
    · have hl' : Slot.root h ∈ s.hs := hl
      simp only [exec, destroySlot, read, hl', not_true_eq_false, if_false, bind, Except.bind]
      cases hv : s.val (.root h) with
      | none => rw [hv] at h1; simp only [releaseOpt, Except.ok.injEq] at h1; subst h1; rfl
      | some o => rw [hv] at h1; simp only [releaseOpt] at h1; simp only [h1]
    · intro x _; exact congrFun hx.val x
    · intro k
      simp only [List.mem_filter, hx.hs, varAfter]
      simp [and_comm]

end Verif.RefPtr
