import Verif.RefPtr.SpecExact
/-!
# A release destroys exactly the objects that `Dies` says
-/
namespace Verif.RefPtr
open Verif

set_option linter.unusedSectionVars false
set_option linter.unusedSimpArgs false

variable {H : Type} [DecidableEq H] {arity : Obj → Nat}

/-- The handles given up so far are those of objects whose destruction is under way. -/
def Given (ex : List (Slot H)) (dy : List Obj) (s : State H) : Prop := ∀ e ∈ ex, ∃ o, s.val e = some o ∧ o ∈ dy

/-- The state in which `o` has lost its last reference, that of `d`. -/
def killed (s : State H) (o : Obj) : State H :=
  { s with cnt := fun p => if p = o then s.cnt o - 1 else s.cnt p, live := s.live.filter (fun p => decide (p ≠ o)), freed := o :: s.freed }

theorem mem_killed {s : State H} {o p : Obj} : p ∈ (killed s o).live ↔ p ∈ s.live ∧ p ≠ o := by simp [killed, List.mem_filter]

theorem kill_inv {ex : List (Slot H)} {dy born : List Obj} {s : State H} {d : Slot H} {o : Obj} (hi : Inv arity ex dy born s) (hd : d ∈ s.hs) (hex : d ∉ ex)
    (hv : s.val d = some o) (hz : s.cnt o - 1 = 0) :
    Inv arity (d :: ex) (o :: dy) born (killed s o) ∧ (∀ e ∈ s.hs, e ∉ d :: ex → s.val e ≠ some o) ∧ o ∉ dy ∧ (killed s o).live.length < s.live.length := by
  have ho := hi.tgt d hd hex o hv
  have hc := hi.cnt o ho
  have hr := refs_cons hi.nd hd hex hv
  have hr0 : refs (d :: ex) s o = 0 := by omega
  have hnone : ∀ e ∈ s.hs, e ∉ d :: ex → s.val e ≠ some o := by
    intro e he hne hve
    have : 0 < refs (d :: ex) s o := refs_pos.2 ⟨e, he, hne, hve⟩
    omega
  have hl2 : ∀ p, p ∈ (killed s o).live ↔ p ∈ s.live ∧ p ≠ o := fun p => mem_killed
  have hody : o ∉ dy := fun h => hi.dyd o h ho
  refine ⟨⟨hi.nd, hi.lnd.filter _, ?_, ?_, ?_, ?_, ?_, ?_, ?_, ?_, ?_⟩, hnone, hody, ?_⟩
  · intro e he hne p hp
    refine (hl2 p).2 ⟨hi.tgt e he (fun h => hne (List.mem_cons_of_mem _ h)) p hp, ?_⟩
    rintro rfl
    exact hnone e he hne hp
  · intro p hp
    obtain ⟨hp1, hp2⟩ := (hl2 p).1 hp
    show (if p = o then _ else s.cnt p) = refs (d :: ex) s p
    rw [if_neg hp2, refs_cons_other (by rw [hv]; simp; exact fun e => hp2 e.symm)]
    exact hi.cnt p hp1
  · intro p hp hb
    obtain ⟨hp1, hp2⟩ := (hl2 p).1 hp
    show 0 < (if p = o then _ else s.cnt p)
    rw [if_neg hp2]
    exact hi.pos p hp1 hb
  · intro p i hp; exact hi.own p i ((hl2 p).1 hp).1
  · intro p i hp
    by_cases hpo : p = o
    · exact .inr (by simp [hpo])
    · rcases hi.own2 p i hp with h | h
      · exact .inl ((hl2 p).2 ⟨h, hpo⟩)
      · exact .inr (by simp [h])
  · intro p hp h
    obtain ⟨h1, h2⟩ := (hl2 p).1 h
    rcases List.mem_cons.1 hp with h' | h'
    · exact h2 h'
    · exact hi.dyd p h' h1
  · exact List.nodup_cons.2 ⟨fun h => ((hi.fiff o).1 h).2 ho, hi.fnd⟩
  · intro p
    show p ∈ o :: s.freed ↔ p < s.fresh ∧ _
    rw [hl2, List.mem_cons, hi.fiff]
    constructor
    · rintro (rfl | ⟨h1, h2⟩)
      · exact ⟨hi.lt _ ho, fun h => h.2 rfl⟩
      · exact ⟨h1, fun h => h2 h.1⟩
    · rintro ⟨h1, h2⟩
      by_cases hpo : p = o
      · exact .inl hpo
      · exact .inr ⟨h1, fun h => h2 ⟨h, hpo⟩⟩
  · intro p hp; exact hi.lt p ((hl2 p).1 hp).1
  · have := filter_split hi.lnd ho (fun _ => true) (fun p => decide (p ≠ o)) rfl (by simp)
      (fun x _ hx => by simp [hx])
    have ht : s.live.filter (fun _ => true) = s.live := List.filter_eq_self.2 (fun _ _ => rfl)
    rw [ht] at this
    show (s.live.filter _).length < _
    omega

/-- The state in which a member has been destroyed. -/
def without (s : State H) (e : Slot H) : State H := { s with hs := s.hs.filter (fun x => decide (x ≠ e)) }

theorem mem_without {s : State H} {e x : Slot H} : x ∈ (without s e).hs ↔ x ∈ s.hs ∧ x ≠ e := by simp [without, List.mem_filter]

theorem without_inv {ex : List (Slot H)} {dy born : List Obj} {s : State H} {o : Obj} {n : Nat} (hi : Inv arity (.field o n :: ex) dy born s) (ho : o ∉ s.live) :
    Inv arity ex dy born (without s (.field o n)) := by
  have hrefs : ∀ p, refs ex (without s (.field o n)) p = refs (.field o n :: ex) s p := by
    intro p
    simp only [refs, without, List.filter_filter]
    congr 1
    refine List.filter_congr (fun x _ => ?_)
    by_cases hx : x = .field o n <;> by_cases h2 : x ∈ ex <;> simp [hx, h2]
  refine ⟨hi.nd.filter _, hi.lnd, ?_, fun p hp => by rw [hrefs]; exact hi.cnt p hp, hi.pos, ?_, ?_, hi.dyd, hi.fnd,
    hi.fiff, hi.lt⟩
  · intro e he hex p hp
    obtain ⟨he1, he2⟩ := mem_without.1 he
    exact hi.tgt e he1 (by simp [he2, hex]) p hp
  · intro p i hp
    rw [mem_without]
    have : (.field p i : Slot H) ≠ .field o n := by
      intro h; injection h with h _; subst h; exact ho hp
    simp only [this, ne_eq, not_false_eq_true, and_true]
    exact hi.own p i hp
  · intro p i hp
    exact hi.own2 p i (mem_without.1 hp).1

theorem ext_refl {ex : List (Slot H)} {dy born : List Obj} {s : State H} (hi : Inv arity ex dy born s) : Ext ex dy s s :=
  ⟨rfl, rfl, fun _ h => h, fun _ => ⟨fun he => ⟨he, fun p i heq => hi.own2 p i (heq ▸ he)⟩, fun h => h.1⟩, fun _ h _ => h⟩

/-- What is known after a release that succeeds, whatever the client did. -/
def Ok (arity : Obj → Nat) (fuel : Nat) (H : Type) [DecidableEq H] : Prop :=
  ∀ (s : State H) (ex : List (Slot H)) (dy born : List Obj) (d : Slot H) (o : Obj) (s' : State H), Inv arity ex dy born s → Given ex dy s → d ∈ s.hs →
    d ∉ ex → s.val d = some o → release arity fuel s o = .ok s' →
    Inv arity (d :: ex) dy born s' ∧ Ext ex dy s s' ∧ ∀ e ∈ d :: ex, e ∈ s.hs → e ∈ s'.hs

theorem Given.without {ex : List (Slot H)} {dy : List Obj} {s s1 : State H} {o : Obj} (h : Given ex (o :: dy) s) (hv : s1.val = s.val) (e : Slot H) :
    Given ex (o :: dy) (without s1 e) := fun x hx => by
  obtain ⟨p, h1, h2⟩ := h x hx
  exact ⟨p, by show s1.val x = _; rw [hv]; exact h1, h2⟩

/-- Destroying the first of the remaining members: the given up handles are not among them. -/
theorem member_ok {fuel : Nat} (ih : Ok arity fuel H) {s s1 : State H} {ex : List (Slot H)} {dy born : List Obj} {o : Obj} {n : Nat}
    (hi : Inv arity ex (o :: dy) born s) (hg : Given ex (o :: dy) s) (hmem : Slot.field o n ∈ s.hs)
    (h : (match s.val (.field o n) with
      | none => (.ok s : Exec (State H))
      | some p => release arity fuel s p) = .ok s1) :
    Slot.field o n ∉ ex ∧ Inv arity (.field o n :: ex) (o :: dy) born s1 ∧ Ext ex (o :: dy) s s1 ∧ ∀ e ∈ ex, e ∈ s.hs → e ∈ s1.hs := by
  have hne : Slot.field o n ∉ ex := by
    intro he
    obtain ⟨p, h1, h2⟩ := hg _ he
    rw [h1] at h
    have hp := hi.dyd p h2
    cases fuel with
    | zero => simp only [release] at h; cases h
    | succ fuel => simp only [release, hp, not_false_eq_true, if_true] at h; cases h
  refine ⟨hne, ?_⟩
  cases hv : s.val (.field o n) with
  | none =>
    rw [hv] at h
    simp only [Except.ok.injEq] at h
    subst h
    exact ⟨inv_null hi hv, ext_refl hi, fun _ _ h => h⟩
  | some p =>
    rw [hv] at h
    simp only at h
    obtain ⟨h1, h2, h3⟩ := ih s ex (o :: dy) born (.field o n) p s1 hi hg hmem hne hv h
    exact ⟨h1, h2, fun e he => h3 e (List.mem_cons_of_mem _ he)⟩

theorem ext_step {s s1 s3 : State H} {ex : List (Slot H)} {dy : List Obj} {o : Obj} {n : Nat} (ho1 : o ∉ s1.live) (hdy : o ∉ dy)
    (hx1 : Ext ex (o :: dy) s s1) (hx3 : Ext ex dy (without s1 (.field o n)) s3) : Ext ex dy s s3 := by
  refine ⟨hx3.val.trans hx1.val, hx3.fresh.trans hx1.fresh, fun p hp => hx1.live p (hx3.live p hp), ?_, ?_⟩
  · intro e
    rw [hx3.hs, mem_without, hx1.hs]
    constructor
    · rintro ⟨⟨⟨a, b⟩, c⟩, d⟩; exact ⟨a, d⟩
    · rintro ⟨a, b⟩
      refine ⟨⟨⟨a, fun p i heq => ?_⟩, ?_⟩, b⟩
      · rcases b p i heq with h | h
        · exact .inl (hx3.live p h)
        · exact .inr (by simp [h])
      · rintro rfl
        rcases b o n rfl with h | h
        · exact ho1 (hx3.live o h)
        · exact hdy h
  · intro p hp hno
    refine hx3.still p (hx1.still p hp hno) (fun e he hex => ?_)
    have he1 := (mem_without.1 he).1
    show s1.val e ≠ _
    rw [hx1.val]
    exact hno e ((hx1.hs e).1 he1).1 hex

theorem fields_left {s s1 : State H} {ex : List (Slot H)} {dy : List Obj} {o : Obj} {n : Nat} (hx1 : Ext ex (o :: dy) s s1)
    (hf : ∀ i, .field o i ∈ s.hs ↔ i < n + 1) (i : Nat) : .field o i ∈ (without s1 (.field o n)).hs ↔ i < n := by
  rw [mem_without, hx1.hs, hf]
  constructor
  · rintro ⟨⟨a, -⟩, b⟩
    have : i ≠ n := fun h => b (by rw [h])
    omega
  · intro h
    refine ⟨⟨by omega, fun p j e => ?_⟩, fun e => by injection e with _ e; omega⟩
    injection e with e1 e2
    exact .inr (by simp [e1])

theorem members_eq {fuel : Nat} {s : State H} {o : Obj} {n : Nat} (hmem : Slot.field o n ∈ s.hs) :
    members (release arity fuel) o (n + 1) s = ((match s.val (.field o n) with
      | none => (.ok s : Exec (State H))
      | some p => release arity fuel s p) >>= fun s1 => members (release arity fuel) o n (without s1 (.field o n))) := by
  simp only [members, destroySlot, read, hmem, not_true_eq_false, if_false, bind, Except.bind]
  cases s.val (.field o n) with
  | none => rfl
  | some p =>
    simp only
    cases release arity fuel s p <;> rfl

theorem members_ok {fuel : Nat} (ih : Ok arity fuel H) : ∀ (n : Nat) (s : State H) (ex : List (Slot H)) (dy born : List Obj) (o : Obj) (s' : State H),
    Inv arity ex (o :: dy) born s → Given ex (o :: dy) s → (∀ i, .field o i ∈ s.hs ↔ i < n) → o ∉ dy → members (release arity fuel) o n s = .ok s' →
    Inv arity ex dy born s' ∧ Ext ex dy s s' ∧ ∀ e ∈ ex, e ∈ s.hs → e ∈ s'.hs := by
  intro n
  induction n with
  | zero =>
    intro s ex dy born o s' hi hg hf hdy h
    simp only [members, Except.ok.injEq] at h
    subst h
    have hno : ∀ i, .field o i ∉ s.hs := fun i h => by have := (hf i).1 h; omega
    have hi' : Inv arity ex dy born s := by
      refine ⟨hi.nd, hi.lnd, hi.tgt, hi.cnt, hi.pos, hi.own, ?_, fun p hp => hi.dyd p (by simp [hp]), hi.fnd, hi.fiff, hi.lt⟩
      intro p i hp
      rcases hi.own2 p i hp with h | h
      · exact .inl h
      · rcases List.mem_cons.1 h with rfl | h
        · exact (hno i hp).elim
        · exact .inr h
    exact ⟨hi', ext_refl hi', fun _ _ h => h⟩
  | succ n ihn =>
    intro s ex dy born o s' hi hg hf hdy h
    have hmem : Slot.field o n ∈ s.hs := (hf n).2 (by omega)
    have holive : o ∉ s.live := hi.dyd o (by simp)
    rw [members_eq hmem] at h
    cases hm : (match s.val (.field o n) with
      | none => (.ok s : Exec (State H))
      | some p => release arity fuel s p) with
    | error f => rw [hm] at h; cases h
    | ok s1 =>
      rw [hm] at h
      obtain ⟨hne, hi1, hx1, hk1⟩ := member_ok ih hi hg hmem hm
      have ho1 : o ∉ s1.live := fun h => holive (hx1.live o h)
      obtain ⟨h3, h4, h5⟩ := ihn (without s1 (.field o n)) ex dy born o s' (without_inv hi1 ho1) (hg.without hx1.val _) (fields_left hx1 hf) hdy h
      refine ⟨h3, ext_step ho1 hdy hx1 h4, fun e he hes => h5 e he (mem_without.2 ⟨hk1 e he hes, ?_⟩)⟩
      rintro rfl
      exact hne he

theorem release_eq {fuel : Nat} {s : State H} {o : Obj} (ho : o ∈ s.live) (hc : s.cnt o ≠ 0) :
    release arity (fuel + 1) s o = if s.cnt o - 1 = 0 then members (release arity fuel) o (arity o) (killed s o)
      else .ok { s with cnt := fun p => if p = o then s.cnt o - 1 else s.cnt p } := by
  simp only [release, ho, not_true_eq_false, if_false, hc, if_true]
  rfl

theorem release_ok (fuel : Nat) : Ok arity fuel H := by
  induction fuel with
  | zero =>
    intro s ex dy born d o s' hi hg hd hex hv h
    simp only [release] at h
    cases h
  | succ fuel ih =>
    intro s ex dy born d o s' hi hg hd hex hv h
    have ho := hi.tgt d hd hex o hv
    have hc := hi.cnt o ho
    have hr := refs_cons hi.nd hd hex hv
    rw [release_eq ho (by omega)] at h
    by_cases hz : s.cnt o - 1 = 0
    · rw [if_pos hz] at h
      obtain ⟨hi2, -, hody, -⟩ := kill_inv hi hd hex hv hz
      have hg2 : Given (d :: ex) (o :: dy) (killed s o) := by
        intro e he
        rcases List.mem_cons.1 he with rfl | he
        · exact ⟨o, hv, by simp⟩
        · obtain ⟨p, h1, h2⟩ := hg e he
          exact ⟨p, h1, by simp [h2]⟩
      obtain ⟨h2, h4, h5⟩ := members_ok ih (arity o) (killed s o) (d :: ex) dy born o s' hi2 hg2 (hi.own o · ho) hody h
      refine ⟨h2, ⟨h4.val, h4.fresh, fun p hp => (mem_killed.1 (h4.live p hp)).1, h4.hs, ?_⟩, h5⟩
      intro p hp hno
      refine h4.still p (mem_killed.2 ⟨hp, ?_⟩) (fun e he hne => hno e he (fun h => hne (List.mem_cons_of_mem _ h)))
      rintro rfl
      exact hno d hd hex hv
    · rw [if_neg hz] at h
      simp only [Except.ok.injEq] at h
      subst h
      refine ⟨inv_dec hi hd hex hv hz, ⟨rfl, rfl, fun _ h => h, ?_, fun _ h _ => h⟩, fun _ _ h => h⟩
      intro e
      exact ⟨fun he => ⟨he, fun p i heq => hi.own2 p i (heq ▸ he)⟩, fun h => h.1⟩

/-! ## Success -/

/-- `K` is a set of objects that keep one another alive without the handles in `ex`. -/
def SelfKept (s : State H) (ex : List (Slot H)) (K : Obj → Prop) : Prop :=
  ∀ p, K p → ∃ e ∈ s.hs, e ∉ ex ∧ s.val e = some p ∧ ∀ q i, e = .field q i → K q

theorem SelfKept.live {s : State H} {ex : List (Slot H)} {K : Obj → Prop} (h : SelfKept s ex K) {dy born : List Obj} (hi : Inv arity ex dy born s) {p : Obj} (hp : K p) :
    p ∈ s.live := by
  obtain ⟨e, h1, h2, h3, -⟩ := h p hp
  exact hi.tgt e h1 h2 p h3

def Owned (ex : List (Slot H)) (dy : List Obj) (K : Obj → Prop) : Prop := ∀ e ∈ ex, ∀ p i, e = .field p i → p ∈ dy ∨ K p

def Tot (arity : Obj → Nat) (fuel : Nat) (H : Type) [DecidableEq H] (K : Obj → Prop) : Prop :=
  ∀ (s : State H) (ex : List (Slot H)) (dy born : List Obj) (d : Slot H) (o : Obj), Inv arity ex dy born s → Given ex dy s → d ∈ s.hs →
    d ∉ ex → s.val d = some o → s.live.length < fuel → SelfKept s (d :: ex) K → Owned (d :: ex) dy K →
    ∃ s', release arity fuel s o = .ok s' ∧ SelfKept s' (d :: ex) K

theorem SelfKept.without {s : State H} {ex : List (Slot H)} {K : Obj → Prop} {o : Obj} (h : SelfKept s ex K) (ho : ¬ K o) (n : Nat) :
    SelfKept (without s (.field o n)) ex K := by
  intro p hp
  obtain ⟨e, h1, h2, h3, h4⟩ := h p hp
  refine ⟨e, mem_without.2 ⟨h1, ?_⟩, h2, h3, h4⟩
  rintro rfl
  exact ho (h4 o n rfl)

theorem SelfKept.more {s : State H} {ex : List (Slot H)} {K : Obj → Prop} {o : Obj} (h : SelfKept s ex K) (ho : ¬ K o) (n : Nat) :
    SelfKept s (.field o n :: ex) K := by
  intro p hp
  obtain ⟨e, h1, h2, h3, h4⟩ := h p hp
  refine ⟨e, h1, ?_, h3, h4⟩
  intro he
  rcases List.mem_cons.1 he with rfl | he
  · exact ho (h4 o n rfl)
  · exact h2 he

theorem SelfKept.less {s : State H} {ex : List (Slot H)} {K : Obj → Prop} {d : Slot H} (h : SelfKept s (d :: ex) K) : SelfKept s ex K := by
  intro p hp
  obtain ⟨e, h1, h2, h3, h4⟩ := h p hp
  exact ⟨e, h1, fun he => h2 (List.mem_cons_of_mem _ he), h3, h4⟩

theorem members_tot {fuel : Nat} {K : Obj → Prop} (ih : Tot arity fuel H K) : ∀ (n : Nat) (s : State H) (ex : List (Slot H)) (dy born : List Obj) (o : Obj),
    Inv arity ex (o :: dy) born s → Given ex (o :: dy) s → (∀ i, .field o i ∈ s.hs ↔ i < n) → o ∉ dy → ¬ K o → s.live.length < fuel →
    SelfKept s ex K → Owned ex dy K →
    ∃ s', members (release arity fuel) o n s = .ok s' ∧ SelfKept s' ex K := by
  intro n
  induction n with
  | zero => intro s ex dy born o _ _ _ _ _ _ hk _; exact ⟨s, rfl, hk⟩
  | succ n ihn =>
    intro s ex dy born o hi hg hf hdy hko hfu hk ho
    have hmem : Slot.field o n ∈ s.hs := (hf n).2 (by omega)
    have holive : o ∉ s.live := hi.dyd o (by simp)
    have hne : Slot.field o n ∉ ex := by
      intro he
      rcases ho _ he o n rfl with h | h
      · exact hdy h
      · exact hko h
    have key : ∃ s1, (match s.val (.field o n) with
        | none => (.ok s : Exec (State H))
        | some p => release arity fuel s p) = .ok s1 ∧ SelfKept s1 ex K := by
      cases hv : s.val (.field o n) with
      | none => exact ⟨s, rfl, hk⟩
      | some p =>
        obtain ⟨s1, h1, h2⟩ := ih s ex (o :: dy) born (.field o n) p hi hg hmem hne hv hfu (hk.more hko n) (by
          intro e he q i heq
          rcases List.mem_cons.1 he with h | h
          · rw [h] at heq; injection heq with h1 h2; subst h1; exact .inl (by simp)
          · exact (ho e h q i heq).imp (fun h => by simp [h]) id)
        exact ⟨s1, h1, h2.less⟩
    obtain ⟨s1, h1, h2⟩ := key
    obtain ⟨-, hi1, hx1, hk1⟩ := member_ok (release_ok fuel) hi hg hmem h1
    have ho1 : o ∉ s1.live := fun h => holive (hx1.live o h)
    have hlen : (without s1 (.field o n)).live.length < fuel :=
      Nat.lt_of_le_of_lt (List.Nodup.length_le_of_subset hi1.lnd (fun x hx => hx1.live x hx)) hfu
    obtain ⟨s', h3, h4⟩ := ihn (without s1 (.field o n)) ex dy born o (without_inv hi1 ho1) (hg.without hx1.val _) (fields_left hx1 hf) hdy hko hlen
      (h2.without hko n) ho
    refine ⟨s', ?_, h4⟩
    rw [members_eq hmem, h1]
    exact h3

theorem release_tot (K : Obj → Prop) (fuel : Nat) : Tot arity fuel H K := by
  induction fuel with
  | zero => intro s ex dy born d o _ _ _ _ _ h; omega
  | succ fuel ih =>
    intro s ex dy born d o hi hg hd hex hv hfu hk ho
    have hol := hi.tgt d hd hex o hv
    have hc := hi.cnt o hol
    have hr := refs_cons hi.nd hd hex hv
    rw [release_eq hol (by omega)]
    by_cases hz : s.cnt o - 1 = 0
    · rw [if_pos hz]
      obtain ⟨hi2, hnone, hody, hlen⟩ := kill_inv hi hd hex hv hz
      have hg2 : Given (d :: ex) (o :: dy) (killed s o) := by
        intro e he
        rcases List.mem_cons.1 he with rfl | he
        · exact ⟨o, hv, by simp⟩
        · obtain ⟨p, h1, h2⟩ := hg e he
          exact ⟨p, h1, by simp [h2]⟩
      have hko : ¬ K o := by
        intro h
        obtain ⟨e, h1, h2, h3, -⟩ := hk o h
        exact hnone e h1 h2 h3
      exact members_tot ih (arity o) (killed s o) (d :: ex) dy born o hi2 hg2 (hi.own o · hol) hody hko (by omega) hk ho
    · rw [if_neg hz]
      exact ⟨_, rfl, hk⟩

/-! ## Giving up a handle -/

theorem Dies.held {s : State H} {d : Slot H} {o : Obj} (h : Dies s d o) : ∃ e ∈ s.hs, s.val e = some o := by
  cases h with
  | mk h _ _ => exact h

/-- The objects in `born` have no handles and only null members. -/
def Fresh (born : List Obj) (s : State H) : Prop := ∀ o ∈ born, (∀ e ∈ s.hs, s.val e ≠ some o) ∧ ∀ i, .field o i ∈ s.hs → s.val (.field o i) = none

theorem not_dies {born : List Obj} {s : State H} (hi : Inv arity [] [] born s) (hf : Fresh born s) (d : Slot H) :
    SelfKept s [d] (fun p => p ∈ s.live ∧ p ∉ born ∧ ¬ Dies s d p) := by
  intro p ⟨h1, h2, h3⟩
  have hpos := hi.pos p h1 h2
  rw [hi.cnt p h1] at hpos
  obtain ⟨e0, h4, -, h5⟩ := refs_pos.1 hpos
  refine Classical.byContradiction fun hc => h3 (.mk ⟨e0, h4, h5⟩ ?_ ?_)
  · intro h hh hv
    refine Classical.byContradiction fun hn => hc ⟨_, hh, by simpa using hn, hv, ?_⟩
    intro q i heq
    cases heq
  · intro q i hq hv hne
    refine Classical.byContradiction fun hn => hc ⟨_, hq, by simpa using hne, hv, ?_⟩
    intro q' i' heq
    injection heq with h6 h7
    subst h6
    refine ⟨?_, fun hb => ?_, hn⟩
    · rcases hi.own2 q i hq with h | h
      · exact h
      · cases h
    · rw [(hf q hb).2 i hq] at hv; cases hv

theorem drop_succeeds {born : List Obj} {s : State H} (hi : Inv arity [] [] born s) (hf : Fresh born s) {d : Slot H} (hd : d ∈ s.hs) (hs : Survives s d d) :
    ∃ s1, releaseOpt arity s (s.val d) = .ok s1 ∧ SelfKept s1 [d] (fun p => p ∈ s.live ∧ p ∉ born ∧ ¬ Dies s d p) := by
  have hk := not_dies hi hf d
  cases hv : s.val d with
  | none => exact ⟨s, rfl, hk⟩
  | some o =>
    refine release_tot _ (s.live.length + 1) s [] [] born d o hi (by intro e he; cases he) hd (by simp) hv (by omega) hk ?_
    intro e he p i heq
    simp only [List.mem_singleton] at he
    subst he; subst heq
    refine .inr ⟨?_, fun hb => ?_, hs⟩
    · rcases hi.own2 p i hd with h | h
      · exact h
      · cases h
    · rw [(hf p hb).2 i hd] at hv; cases hv

theorem drop_ok {born : List Obj} {s s1 : State H} (hi : Inv arity [] [] born s) (hf : Fresh born s) {d : Slot H} (hd : d ∈ s.hs)
    (h : releaseOpt arity s (s.val d) = .ok s1) :
    Survives s d d ∧ Inv arity [d] [] born s1 ∧ Ext [] [] s s1 ∧ d ∈ s1.hs ∧ ∀ p ∈ s.live, p ∈ s1.live ↔ ¬ Dies s d p := by
  have key : Inv arity [d] [] born s1 ∧ Ext [] [] s s1 ∧ d ∈ s1.hs := by
    cases hv : s.val d with
    | none =>
      rw [hv] at h
      simp only [releaseOpt, Except.ok.injEq] at h
      subst h
      exact ⟨inv_null hi hv, ext_refl hi, hd⟩
    | some o =>
      rw [hv] at h
      obtain ⟨h1, h2, h3⟩ := release_ok (s.live.length + 1) s [] [] born d o s1 hi (by intro e he; cases he) hd (by simp) hv h
      exact ⟨h1, h2, h3 d (by simp) hd⟩
  obtain ⟨hi1, hx, hd1⟩ := key
  have hdead : ∀ p, Dies s d p → p ∉ s1.live := by
    intro p hp
    induction hp with
    | @mk o h1 h2 h3 ih =>
      intro ho
      have hb : o ∉ born := by
        intro hb
        obtain ⟨e, he, hve⟩ := h1
        exact (hf o hb).1 e he hve
      have hpos := hi1.pos o ho hb
      rw [hi1.cnt o ho] at hpos
      obtain ⟨e, he, hed, hve⟩ := refs_pos.1 hpos
      simp only [List.mem_singleton] at hed
      rw [hx.val] at hve
      obtain ⟨he0, he1⟩ := (hx.hs e).1 he
      cases e with
      | root k => exact hed (h2 k he0 hve)
      | field q i =>
        rcases he1 q i rfl with h4 | h4
        · exact ih q i he0 hve hed h4
        · cases h4
  have hsd : Survives s d d := by
    cases d with
    | root k => trivial
    | field q i =>
      intro hq
      rcases ((hx.hs _).1 hd1).2 q i rfl with h4 | h4
      · exact hdead q hq h4
      · cases h4
  refine ⟨hsd, hi1, hx, hd1, fun p hp => ⟨fun h1 h2 => hdead p h2 h1, fun hn => ?_⟩⟩
  by_cases hb : p ∈ born
  · exact hx.still p hp (fun e he _ => (hf p hb).1 e he)
  · obtain ⟨s1', h1, h2⟩ := drop_succeeds hi hf hd hsd
    rw [h1] at h
    cases h
    exact h2.live hi1 ⟨hp, hb, hn⟩

/-- A handle that survives is still there, and no other. -/
theorem survives_iff {born : List Obj} {s s1 : State H} (hi : Inv arity [] [] born s) {d e : Slot H} (hx : Ext [] [] s s1)
    (hl : ∀ p ∈ s.live, p ∈ s1.live ↔ ¬ Dies s d p) (he : e ∈ s.hs) : e ∈ s1.hs ↔ Survives s d e := by
  rw [hx.hs]
  cases e with
  | root k => exact ⟨fun _ => trivial, fun _ => ⟨he, fun p i heq => by cases heq⟩⟩
  | field q i =>
    have hq : q ∈ s.live := by
      rcases hi.own2 q i he with h | h
      · exact h
      · cases h
    constructor
    · rintro ⟨-, h⟩
      rcases h q i rfl with h | h
      · exact (hl q hq).1 h
      · cases h
    · intro h
      refine ⟨he, fun p j heq => .inl ?_⟩
      injection heq with h1 h2
      subst h1
      exact (hl q hq).2 h

theorem raw_exact {born : List Obj} {s : State H} (hi : Inv arity [] [] born s) (hf : Fresh born s) {d : Slot H} (hd : d ∈ s.hs) (v : Option Obj)
    (hv : ∀ o, v = some o → o ∈ s.live) (hb : ∀ o ∈ born, v = some o) :
    ((Survives s d d ∧ ∀ o, v = some o → ¬ Dies s d o) → ∃ s', assignRaw arity s d v = .ok s') ∧
    ∀ s', assignRaw arity s d v = .ok s' → (Survives s d d ∧ ∀ o, v = some o → ¬ Dies s d o) ∧ Inv arity [] [] [] s' ∧
      s'.val = (fun x => if x = d then v else s.val x) ∧ ∃ s1, s'.hs = s1.hs ∧ Ext [] [] s s1 := by
  have heq : assignRaw arity s d v = (releaseOpt arity s (s.val d) >>= fun s => write s d v >>= fun s => addRefOpt s v) := by
    simp only [assignRaw, read, hd, not_true_eq_false, if_false, bind, Except.bind]
  constructor
  · rintro ⟨h1, h2⟩
    obtain ⟨s1, h3, -⟩ := drop_succeeds hi hf hd h1
    obtain ⟨-, hi1, hx, hd1, hl⟩ := drop_ok hi hf hd h3
    obtain ⟨s2, h4, -⟩ := bind_spec hi1 hd1 v (fun o ho => (hl o (hv o ho)).2 (h2 o ho)) hb
    exact ⟨s2, by rw [heq, h3]; exact h4⟩
  · intro s' h
    rw [heq] at h
    cases h3 : releaseOpt arity s (s.val d) with
    | error f => rw [h3] at h; cases h
    | ok s1 =>
      obtain ⟨hsd, hi1, hx, hd1, hl⟩ := drop_ok hi hf hd h3
      rw [h3] at h
      have h' : (write s1 d v >>= fun s => addRefOpt s v) = .ok s' := h
      have hv1 : ∀ o, v = some o → o ∈ s1.live := by
        intro o ho
        subst ho
        simp only [write, hd1, not_true_eq_false, if_false, bind, Except.bind, addRefOpt, addRef] at h'
        by_cases hol : o ∈ s1.live
        · exact hol
        · rw [if_pos hol] at h'; cases h'
      obtain ⟨s2, h4, h5, h6, h7⟩ := bind_spec hi1 hd1 v hv1 hb
      have : s2 = s' := by
        have := h4.symm.trans h'
        injection this
      subst this
      refine ⟨⟨hsd, fun o ho => (hl o (hv o ho)).1 (hv1 o ho)⟩, h5, by rw [h7, hx.val], s1, h6, hx⟩

/-- Creating an object first does not matter for what an assignment destroys. -/
theorem new_facts {s : State H} (hi : Inv arity [] [] [] s) {d : Slot H} (hd : d ∈ s.hs) :
    Inv arity [] [] [s.fresh] (newObj arity s).1 ∧ Fresh [s.fresh] (newObj arity s).1 ∧ d ∈ (newObj arity s).1.hs ∧
      ∀ o, Dies (newObj arity s).1 d o ↔ Dies s d o := by
  obtain ⟨hi0, ho, hmem, hval0, hval⟩ := new_spec (arity := arity) hi
  have hnf : ∀ i, .field s.fresh i ∉ s.hs := by
    intro i h
    rcases hi.own2 _ _ h with h | h
    · exact Nat.lt_irrefl _ (hi.lt _ h)
    · cases h
  have hd0 : d ∈ (newObj arity s).1.hs := (hmem d).2 (.inl hd)
  have hf0 : Fresh [s.fresh] (newObj arity s).1 := by
    intro o hoo
    simp only [List.mem_singleton] at hoo
    subst hoo
    refine ⟨fun e he hve => ?_, fun i hm => ?_⟩
    · rcases (hmem e).1 he with h | ⟨i, hi', rfl⟩
      · rw [hval e h] at hve
        exact Nat.lt_irrefl _ (hi.lt _ (hi.tgt e h (by simp) _ hve))
      · rw [hval0 i hi'] at hve; cases hve
    · rcases (hmem _).1 hm with h | ⟨j, hj, heq⟩
      · exact (hnf i h).elim
      · injection heq with _ h1; subst h1; exact hval0 i hj
  have hdies : ∀ o, Dies (newObj arity s).1 d o ↔ Dies s d o := by
    intro o
    constructor
    · intro h
      induction h with
      | @mk o h1 h2 h3 ih =>
        obtain ⟨e, he, hve⟩ := h1
        rcases (hmem e).1 he with h | ⟨i, hi', rfl⟩
        · refine .mk ⟨e, h, by rw [← hval e h]; exact hve⟩ (fun k hk hvk => h2 k ((hmem _).2 (.inl hk)) (by rw [hval _ hk]; exact hvk)) ?_
          intro p i hpi hvp hne
          exact ih p i ((hmem _).2 (.inl hpi)) (by rw [hval _ hpi]; exact hvp) hne
        · rw [hval0 i hi'] at hve; cases hve
    · intro h
      induction h with
      | @mk o h1 h2 h3 ih =>
        obtain ⟨e, he, hve⟩ := h1
        refine .mk ⟨e, (hmem _).2 (.inl he), by rw [hval e he]; exact hve⟩ (fun k hk hvk => ?_) ?_
        · rcases (hmem _).1 hk with h | ⟨i, hi', heq⟩
          · exact h2 k h (by rw [← hval _ h]; exact hvk)
          · cases heq
        · intro p i hpi hvp hne
          rcases (hmem _).1 hpi with h | ⟨j, hj, heq⟩
          · exact ih p i h (by rw [← hval _ h]; exact hvp) hne
          · rw [heq, hval0 j hj] at hvp; cases hvp
  exact ⟨hi0, hf0, hd0, hdies⟩

/-- Every operation on existing handles: it succeeds iff it is sound, and then has the expected effect. -/
theorem exec_exact {s : State H} (hi : Inv arity [] [] [] s) (op : Op H) (hp : Plain s op) :
    (Sound s op → ∃ s', exec arity s op = .ok s') ∧
    ∀ s', exec arity s op = .ok s' → Sound s op ∧ Inv arity [] [] [] s' ∧ (∀ x ∈ s'.hs, s'.val x = valAfter s op x) ∧
      ∀ k, .root k ∈ s'.hs ↔ varAfter s op k := by
  have easy : Legal s op → Sound s op → (Sound s op → ∃ s', exec arity s op = .ok s') ∧
      ∀ s', exec arity s op = .ok s' → Sound s op ∧ Inv arity [] [] [] s' ∧ (∀ x ∈ s'.hs, s'.val x = valAfter s op x) ∧
        ∀ k, .root k ∈ s'.hs ↔ varAfter s op k := by
    intro hl hs
    obtain ⟨s', h1, h2, h3, h4⟩ := exec_spec hi op hl
    refine ⟨fun _ => ⟨s', h1⟩, fun t ht => ?_⟩
    rw [h1] at ht
    cases ht
    exact ⟨hs, h2, h3, h4⟩
  have hf : Fresh [] s := by intro o ho; cases ho
  cases op with
  | ctorNull h => exact easy hp trivial
  | ctorNew h => exact easy hp trivial
  | ctorGet h e => exact easy hp trivial
  | ctorCopy h e => exact easy hp trivial
  | ctorMove h e => exact easy hp trivial
  | destroy h => exact easy hp trivial
  | assignNull d =>
    obtain ⟨h1, h2⟩ := raw_exact hi hf (d := d) hp none (by simp) (by simp)
    refine ⟨fun hs => h1 ⟨hs, by simp⟩, fun s' h => ?_⟩
    obtain ⟨⟨h3, -⟩, h4, h5, s1, h6, hx⟩ := h2 s' h
    exact ⟨h3, h4, fun x _ => by rw [h5]; rfl, fun k => by rw [h6, hx.hs]; simp [varAfter]⟩
  | assignGet d e =>
    obtain ⟨hd, he⟩ := hp
    obtain ⟨h1, h2⟩ := raw_exact hi hf (d := d) hd (s.val e) (fun o ho => hi.tgt e he (by simp) o ho) (by simp)
    have heq : exec arity s (.assignGet d e) = assignRaw arity s d (s.val e) := by
      simp only [exec, read, he, not_true_eq_false, if_false, bind, Except.bind]
    rw [heq]
    refine ⟨h1, fun s' h => ?_⟩
    obtain ⟨h3, h4, h5, s1, h6, hx⟩ := h2 s' h
    exact ⟨h3, h4, fun x _ => by rw [h5]; rfl, fun k => by rw [h6, hx.hs]; simp [varAfter]⟩
  | assignNew d =>
    obtain ⟨hi0, ho, hmem, hval0, hval⟩ := new_spec (arity := arity) hi
    have hnf : ∀ i, .field s.fresh i ∉ s.hs := by
      intro i h
      rcases hi.own2 _ _ h with h | h
      · exact Nat.lt_irrefl _ (hi.lt _ h)
      · cases h
    have hown : ∀ x ∈ s.hs, x.ownedBy s.fresh = false := by
      intro x hx
      cases x with
      | root h => rfl
      | field o i =>
        simp only [Slot.ownedBy, decide_eq_false_iff_not]
        rintro rfl
        exact hnf i hx
    have hd : d ∈ s.hs := hp
    obtain ⟨-, hf0, hd0, hdies⟩ := new_facts hi hd
    have hsurv : Survives (newObj arity s).1 d d ↔ Survives s d d := by
      cases d with
      | root k => exact Iff.rfl
      | field q i => exact not_congr (hdies q)
    obtain ⟨h1, h2⟩ := raw_exact hi0 hf0 (d := d) hd0 (some s.fresh) (by intro o h; injection h with h; subst h; simp [newObj]) (by simp)
    have hnd : ∀ o, some s.fresh = some o → ¬ Dies (newObj arity s).1 d o := by
      intro o h hdi
      injection h with h
      subst h
      obtain ⟨e, he, hve⟩ := hdi.held
      exact (hf0 _ (by simp)).1 e he hve
    have heq : exec arity s (.assignNew d) = assignRaw arity (newObj arity s).1 d (some s.fresh) := by
      simp only [exec, ho]
    rw [heq]
    refine ⟨fun hs => h1 ⟨hsurv.2 hs, hnd⟩, fun s' h => ?_⟩
    obtain ⟨⟨h3, -⟩, h4, h5, s1, h6, hx⟩ := h2 s' h
    refine ⟨hsurv.1 h3, h4, ?_, fun k => by rw [h6, hx.hs, hmem]; simp [varAfter]⟩
    intro x hx'
    rw [h5]
    simp only [valAfter]
    split
    · rfl
    · rw [h6, hx.hs, hmem] at hx'
      rcases hx'.1 with hx' | ⟨i, hi', rfl⟩
      · simp [hown x hx', hval x hx']
      · simp [Slot.ownedBy, hval0 i hi']
  | assignCopy d e =>
    obtain ⟨hd, he⟩ := hp
    obtain ⟨h1, h2⟩ := raw_exact hi hf (d := d) hd (s.val e) (fun o ho => hi.tgt e he (by simp) o ho) (by simp)
    have heq : exec arity s (.assignCopy d e) = (releaseOpt arity s (s.val d) >>= fun s => read s e >>= fun v => write s d v >>= fun s => addRefOpt s v) := by
      simp only [exec, assignCopy, read, hd, not_true_eq_false, if_false, bind, Except.bind]
    have heq2 : assignRaw arity s d (s.val e) = (releaseOpt arity s (s.val d) >>= fun t => write t d (s.val e) >>= fun s' => addRefOpt s' (s.val e)) := by
      simp only [assignRaw, read, hd, not_true_eq_false, if_false, bind, Except.bind]
    have key : ∀ s1, releaseOpt arity s (s.val d) = .ok s1 → e ∈ s1.hs → exec arity s (.assignCopy d e) = assignRaw arity s d (s.val e) := by
      intro s1 h3 he1
      obtain ⟨-, -, hx, -, -⟩ := drop_ok hi hf hd h3
      rw [heq, heq2, h3]
      simp only [bind, Except.bind, read, he1, not_true_eq_false, if_false, hx.val]
    refine ⟨fun ⟨ha, hb, hc⟩ => ?_, fun s' h => ?_⟩
    · obtain ⟨s1, h3, -⟩ := drop_succeeds hi hf hd ha
      obtain ⟨-, -, hx, -, hl⟩ := drop_ok hi hf hd h3
      rw [key s1 h3 ((survives_iff hi hx hl he).2 hb)]
      exact h1 ⟨ha, hc⟩
    · cases h3 : releaseOpt arity s (s.val d) with
      | error f => rw [heq, h3] at h; cases h
      | ok s1 =>
        obtain ⟨-, -, hx, -, hl⟩ := drop_ok hi hf hd h3
        have he1 : e ∈ s1.hs := by
          rw [heq, h3] at h
          by_cases he1 : e ∈ s1.hs
          · exact he1
          · simp only [bind, Except.bind, read, he1, not_false_eq_true, if_true] at h; cases h
        rw [key s1 h3 he1] at h
        obtain ⟨⟨h4, h5⟩, h6, h7, s2, h8, hx2⟩ := h2 s' h
        exact ⟨⟨h4, (survives_iff hi hx hl he).1 he1, h5⟩, h6, fun x _ => by rw [h7]; rfl, fun k => by rw [h8, hx2.hs]; simp [varAfter]⟩
  | assignMove d e =>
    obtain ⟨hd, he⟩ := hp
    have heq : exec arity s (.assignMove d e) = (releaseOpt arity s (s.val d) >>= fun s => read s e >>= fun v => write s d v >>= fun s => write s e none) := by
      simp only [exec, assignMove, read, hd, not_true_eq_false, if_false, bind, Except.bind]
    have key : ∀ s1, releaseOpt arity s (s.val d) = .ok s1 → e ∈ s1.hs →
        ∃ s2, exec arity s (.assignMove d e) = .ok s2 ∧ Inv arity [] [] [] s2 ∧ s2.hs = s1.hs ∧
          s2.val = (fun x => if x = e then none else if x = d then s.val e else s.val x) := by
      intro s1 h3 he1
      obtain ⟨-, hi1, hx, hd1, -⟩ := drop_ok hi hf hd h3
      obtain ⟨s2, h4, h5, h6, h7⟩ := move_spec hi1 hd1 he1
      refine ⟨s2, ?_, h5, h6, by rw [h7, hx.val]⟩
      rw [heq, h3, ← h4]
      simp only [bind, Except.bind, read, he1, not_true_eq_false, if_false]
    refine ⟨fun ⟨ha, hb⟩ => ?_, fun s' h => ?_⟩
    · obtain ⟨s1, h3, -⟩ := drop_succeeds hi hf hd ha
      obtain ⟨-, -, hx, -, hl⟩ := drop_ok hi hf hd h3
      obtain ⟨s2, h4, -⟩ := key s1 h3 ((survives_iff hi hx hl he).2 hb)
      exact ⟨s2, h4⟩
    · cases h3 : releaseOpt arity s (s.val d) with
      | error f => rw [heq, h3] at h; cases h
      | ok s1 =>
        obtain ⟨hsd, -, hx, -, hl⟩ := drop_ok hi hf hd h3
        have he1 : e ∈ s1.hs := by
          rw [heq, h3] at h
          by_cases he1 : e ∈ s1.hs
          · exact he1
          · simp only [bind, Except.bind, read, he1, not_false_eq_true, if_true] at h; cases h
        obtain ⟨s2, h4, h5, h6, h7⟩ := key s1 h3 he1
        rw [h4] at h
        cases h
        exact ⟨⟨hsd, (survives_iff hi hx hl he).1 he1⟩, h5, fun x _ => by rw [h7]; rfl, fun k => by rw [h6, hx.hs]; simp [varAfter]⟩

theorem run_exact : ∀ (ops : List (Op H)) (s : State H), Inv arity [] [] [] s → PlainRun arity s ops →
    ((∃ s', run arity s ops = .ok s') ↔ SoundRun arity s ops) ∧ ∀ s', run arity s ops = .ok s' → Inv arity [] [] [] s' := by
  intro ops
  induction ops with
  | nil =>
    intro s hi _
    exact ⟨⟨fun _ => trivial, fun _ => ⟨s, rfl⟩⟩, fun s' h => by cases h; exact hi⟩
  | cons op ops ih =>
    intro s hi ⟨hp, hps⟩
    obtain ⟨h1, h2⟩ := exec_exact hi op hp
    simp only [run, bind, Except.bind]
    cases h : exec arity s op with
    | error f =>
      refine ⟨⟨fun ⟨s', h3⟩ => (nomatch h3), fun ⟨h3, _⟩ => ?_⟩, fun s' h3 => (nomatch h3)⟩
      obtain ⟨s', h4⟩ := h1 h3
      rw [h] at h4
      cases h4
    | ok s1 =>
      obtain ⟨h3, h4, -⟩ := h2 s1 h
      obtain ⟨h5, h6⟩ := ih s1 h4 (hps s1 h)
      refine ⟨?_, h6⟩
      rw [h5]
      constructor
      · intro h7
        refine ⟨h3, fun s' h8 => ?_⟩
        rw [h] at h8
        cases h8
        exact h7
      · intro h7; exact h7.2 s1 h

end Verif.RefPtr
