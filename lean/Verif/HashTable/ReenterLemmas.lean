import Verif.HashTable.Refine
import Verif.HashTable.SpecReenter
/-! The machine of `Reenter.lean` refines `SpecReenter.lean`. -/
set_option linter.unusedSectionVars false
namespace Verif.HashTable
open Verif

variable {L P K : Type} [DecidableEq K] {c : Config} {canon : L → K} {keyOf : P → K}
  {h : K → BitVec 32} {pol : Policy L P}

/-- distinct entries hold distinct keys -/
def Uniq (keyOf : P → K) (s : List (Slot P)) : Prop :=
  ∀ (i j : Nat) (e e' : Slot P) p p', s[i]? = some e → s[j]? = some e' → e.obj = some p →
    e'.obj = some p' → keyOf p = keyOf p' → i = j

/-- entry `i` holds a payload with key `k` -/
def AtKey (keyOf : P → K) (s : List (Slot P)) (i : Nat) (k : K) : Prop :=
  ∃ e p, s[i]? = some e ∧ e.obj = some p ∧ keyOf p = k

/-- Emptying entry `i`. -/
theorem kill_holds {s : List (Slot P)} (hu : Uniq keyOf s) {i : Nat} {e a : Slot P} {p : P}
    (he : s[i]? = some e) (hp : e.obj = some p) (ha : a.obj = none) :
    Uniq keyOf (s.set i a) ∧ (∀ q, Holds (s.set i a) q ↔ Holds s q ∧ keyOf q ≠ keyOf p) := by
  constructor
  · intro j j' e1 e2 p1 p2 h1 h2 hp1 hp2 hk
    rcases get_set h1 with ⟨_, rfl⟩ | ⟨_, h1⟩
    · rw [ha] at hp1; cases hp1
    · rcases get_set h2 with ⟨_, rfl⟩ | ⟨_, h2⟩
      · rw [ha] at hp2; cases hp2
      · exact hu _ _ _ _ _ _ h1 h2 hp1 hp2 hk
  · intro q
    constructor
    · rintro ⟨j, e', hj, hq⟩
      rcases get_set hj with ⟨_, rfl⟩ | ⟨hne, hj⟩
      · rw [ha] at hq; cases hq
      · exact ⟨⟨j, e', hj, hq⟩, fun hk => hne (hu _ _ _ _ _ _ hj he hq hp hk)⟩
    · rintro ⟨⟨j, e', hj, hq⟩, hk⟩
      have hne : j ≠ i := by
        rintro rfl
        rw [he] at hj; cases hj; rw [hp] at hq; cases hq; exact hk rfl
      exact ⟨j, e', by rw [get_set_ne hne]; exact hj, hq⟩

theorem kill_repr {s s' : List (Slot P)} {m : K → Option P} (hr : Repr' keyOf s m) {p : P}
    (hh : ∀ q, Holds s' q ↔ Holds s q ∧ keyOf q ≠ keyOf p) : Repr' keyOf s' (upd m (keyOf p) none) := by
  intro k q
  rw [hh]
  unfold upd
  split
  · rename_i hk
    subst hk
    constructor
    · intro hc; cases hc
    · rintro ⟨⟨_, hne⟩, hk⟩; exact absurd hk hne
  · rename_i hk
    rw [hr]
    constructor
    · rintro ⟨hq, hk'⟩; exact ⟨⟨hq, fun hc => hk (by rw [← hk', hc])⟩, hk'⟩
    · rintro ⟨⟨hq, _⟩, hk'⟩; exact ⟨hq, hk'⟩

theorem AtKey.set {s : List (Slot P)} {i j : Nat} {k : K} {a : Slot P} (h : AtKey keyOf s j k) (hne : j ≠ i) :
    AtKey keyOf (s.set i a) j k := by
  obtain ⟨e, p, he, hp, hk⟩ := h
  exact ⟨e, p, by rw [get_set_ne hne]; exact he, hp, hk⟩

theorem AtKey.present {s : List (Slot P)} {i : Nat} {k : K} {m : K → Option P} (h : AtKey keyOf s i k)
    (hr : Repr' keyOf s m) : m k ≠ none := by
  obtain ⟨e, p, he, hp, hk⟩ := h
  rw [(hr k p).2 ⟨⟨i, e, he, hp⟩, hk⟩]; simp

/-- The running destructors: of removals, over a `clear` at entry `b` if there is one. -/
inductive Rems (keyOf : P → K) (s : List (Slot P)) (b : Option Nat) : List Frame → List (Pend K) → Prop
  | nil : b = none → Rems keyOf s b [] []
  | base (i : Nat) (k : K) : b = some i → AtKey keyOf s i k → Rems keyOf s b [.clearing i] [.clearing k]
  | cons {i k st ps} : AtKey keyOf s i k → (∀ f ∈ st, f.slot ≠ i) → Rems keyOf s b st ps →
      Rems keyOf s b (.removing i :: st) (.removing k :: ps)

theorem Rems.at {s : List (Slot P)} {b : Option Nat} {st : List Frame} {ps : List (Pend K)}
    (h : Rems keyOf s b st ps) : ∀ f ∈ st, ∃ k ∈ ps.map Pend.key, AtKey keyOf s f.slot k := by
  induction h with
  | nil _ => intro f hf; cases hf
  | base i k _ ha =>
    intro f hf
    rcases List.mem_singleton.1 hf with rfl
    exact ⟨k, by simp [Pend.key], ha⟩
  | @cons i k st ps ha _ _ ih =>
    intro f hf
    rcases List.mem_cons.1 hf with rfl | hf
    · exact ⟨k, by simp [Pend.key], ha⟩
    · obtain ⟨k', hk', ha'⟩ := ih f hf
      exact ⟨k', by simp only [List.map_cons, List.mem_cons]; exact .inr hk', ha'⟩

theorem Rems.keys {s : List (Slot P)} {b : Option Nat} {st : List Frame} {ps : List (Pend K)}
    (h : Rems keyOf s b st ps) : ∀ k ∈ ps.map Pend.key, ∃ f ∈ st, AtKey keyOf s f.slot k := by
  induction h with
  | nil _ => intro f hf; cases hf
  | base i k _ ha =>
    intro k' hk'
    simp only [List.map_cons, List.map_nil, List.mem_singleton] at hk'
    subst hk'
    exact ⟨_, List.mem_singleton.2 rfl, ha⟩
  | @cons i k st ps ha _ _ ih =>
    intro k' hk'
    simp only [List.map_cons, List.mem_cons] at hk'
    rcases hk' with rfl | hk'
    · exact ⟨.removing i, List.mem_cons_self, ha⟩
    · obtain ⟨f, hf, ha'⟩ := ih k' hk'
      exact ⟨f, List.mem_cons_of_mem _ hf, ha'⟩

theorem Rems.set {s : List (Slot P)} {b : Option Nat} {st : List Frame} {ps : List (Pend K)} {i : Nat} {a : Slot P}
    (h : Rems keyOf s b st ps) (hne : ∀ f ∈ st, f.slot ≠ i) : Rems keyOf (s.set i a) b st ps := by
  induction h with
  | nil hb => exact .nil hb
  | base j k hb ha => exact .base j k hb (ha.set (hne (.clearing j) (List.mem_singleton.2 rfl)))
  | @cons j k st ps ha hd _ ih =>
    exact .cons (ha.set (hne (.removing j) List.mem_cons_self)) hd
      (ih (fun f hf => hne f (List.mem_cons_of_mem _ hf)))

theorem Rems.noClearing {s : List (Slot P)} {st : List Frame} {ps : List (Pend K)}
    (h : Rems keyOf s none st ps) : ps.any Pend.isClearing = false := by
  generalize hb : (none : Option Nat) = b at h
  induction h with
  | nil _ => rfl
  | base i k hb' => subst hb; cases hb'
  | cons _ _ _ ih => simp only [List.any_cons, Pend.isClearing, Bool.false_or]; exact ih

theorem Rems.clearing {s : List (Slot P)} {i : Nat} {st : List Frame} {ps : List (Pend K)}
    (h : Rems keyOf s (some i) st ps) : ps.any Pend.isClearing = true := by
  generalize hb : (some i : Option Nat) = b at h
  induction h with
  | nil hb' => subst hb; cases hb'
  | base i k hb' => rfl
  | cons _ _ _ ih => simp only [List.any_cons, Pend.isClearing, Bool.false_or]; exact ih

theorem Rems.clearingFrame {s : List (Slot P)} {i : Nat} {st : List Frame} {ps : List (Pend K)}
    (h : Rems keyOf s (some i) st ps) : Frame.clearing i ∈ st := by
  generalize hb : (some i : Option Nat) = b at h
  induction h with
  | nil hb' => subst hb; cases hb'
  | base i k hb' => subst hb; cases hb'; exact List.mem_singleton.2 rfl
  | cons _ _ _ ih => exact List.mem_cons_of_mem _ ih

theorem Rems.noDestroying {s : List (Slot P)} {b : Option Nat} {st : List Frame} {ps : List (Pend K)}
    (h : Rems keyOf s b st ps) : st.all Frame.notDestroying = true := by
  induction h with
  | nil _ => rfl
  | base i k _ _ => rfl
  | cons _ _ _ ih => simp only [List.all_cons]; exact ih

/-- The table in the middle of a `clear` that has come to entry `i`. -/
structure WInv (c : Config) (keyOf : P → K) (t : Table P) (s : List (Slot P)) (i : Nat) : Prop where
  tbl : t.table = some s
  cap : t.capacity = s.length
  pow : ∃ k, k ≤ 31 ∧ s.length = 2 ^ k
  wf : ∀ (i : Nat) (e : Slot P), s[i]? = some e → e.Wf
  uniq : Uniq keyOf s
  done : ∀ (j : Nat) (e : Slot P), j < i → s[j]? = some e → e = Slot.fresh
  nle : nLive s ≤ t.nelements
  occ : nLive s + nRem s ≤ t.nelements + t.ndeleted
  load : t.nelements + t.ndeleted ≤ t.capacity / 2 + t.capacity / 4 + 1
  max : t.capacity ≤ c.kMaxCapacity
  minPow : ∃ j, t.minCapacity = 2 ^ j
  min16 : 16 ≤ t.minCapacity
  minCap : t.minCapacity ≤ t.capacity
  life : t.ctors = t.dtors + nLive s
  mem : t.mallocs = t.frees + 1

theorem Inv.toW {t : Table P} {s : List (Slot P)} (hi : Inv c keyOf h t s) : WInv c keyOf t s 0 :=
  { tbl := hi.tbl, cap := hi.cap, pow := hi.sinv.pow, wf := hi.sinv.wf, uniq := hi.sinv.uniq
    done := fun j e hj => by omega
    nle := by rw [hi.n]; exact Nat.le_refl _
    occ := by rw [hi.n, hi.d]; exact Nat.le_refl _
    load := hi.load, max := hi.max, minPow := hi.minPow, min16 := hi.min16, minCap := hi.minCap
    life := by rw [← hi.n]; exact hi.life
    mem := hi.mem }

theorem WInv.free {t : Table P} {s : List (Slot P)} {i : Nat} (hi : WInv c keyOf t s i) :
    ∃ (i : Nat) (e : Slot P), s[i]? = some e ∧ e.isFree = true := by
  apply exists_free
  have h1 := hi.load
  have h2 := hi.min16
  have h3 := hi.minCap
  have h4 := hi.occ
  have h5 := hi.cap
  omega

/-- `find` in the middle of a `clear`: what it finds is right. -/
theorem find_weak (hl : Lawful pol canon keyOf h) {t : Table P} {s : List (Slot P)} {i0 : Nat}
    (hi : WInv c keyOf t s i0) (l : L) :
    ∃ i e, find pol t l = .ok i ∧ s[i]? = some e ∧
      ((e.isLive = true ∧ ∃ p, e.obj = some p ∧ keyOf p = canon l) ∨ e.isFree = true) := by
  obtain ⟨m, e, hm, he, hhit, hb⟩ := path_stop (pol := pol) s l hi.free
  obtain ⟨k, hk31, hk⟩ := hi.pow
  refine ⟨_, e, ?_, he, ?_⟩
  · unfold find
    rw [probulatorCheck_ok (hi.cap.trans hk) hk31]
    simp only [bind, Except.bind]
    have := lookupLoop_spec pol l hi.tbl hi.cap hk hk31 hi.wf _ m hm e he hhit hb s.length 0 (by omega)
      (by omega)
    simp only [BitVec.add_zero] at this
    rw [hi.cap, this]
  · rcases hit_true hhit with hf | ⟨hlv, _, p, hp, hmt⟩
    · exact .inr hf
    · exact .inl ⟨hlv, p, hp, ((hl.match_iff l p).1 hmt).symm⟩

theorem kill_counts {s : List (Slot P)} {i : Nat} {e : Slot P} (hh : BitVec 32) (hd : hh = 0#32 ∨ hh = 1#32)
    (he : s[i]? = some e) (hlive : e.isLive = true) :
    nLive (s.set i ⟨hh, none⟩) + 1 = nLive s ∧
      nRem (s.set i ⟨hh, none⟩) = nRem s + (if hh = 1#32 then 1 else 0) := by
  have h1 := countP_set' (q := Slot.isLive) (a := ⟨hh, none⟩) he
  have h2 := countP_set' (q := Slot.removed) (a := ⟨hh, none⟩) he
  rw [hlive] at h1
  rw [live_not_removed hlive] at h2
  unfold nLive nRem
  rcases hd with rfl | rfl
  · have e1 : (⟨0#32, none⟩ : Slot P).isLive = false := rfl
    have e2 : (⟨0#32, none⟩ : Slot P).removed = false := rfl
    rw [e1] at h1; rw [e2] at h2
    simp only [if_true, Bool.false_eq_true, if_false] at h1 h2
    rw [if_neg (by decide)]
    omega
  · have e1 : (⟨1#32, none⟩ : Slot P).isLive = false := rfl
    have e2 : (⟨1#32, none⟩ : Slot P).removed = true := rfl
    rw [e1] at h1; rw [e2] at h2
    simp only [if_true, Bool.false_eq_true, if_false] at h1 h2
    rw [if_pos rfl]
    omega

theorem kill_wf {s : List (Slot P)} (hwf : ∀ (i : Nat) (e : Slot P), s[i]? = some e → e.Wf) (i : Nat) (hh : BitVec 32)
    (hd : hh = 0#32 ∨ hh = 1#32) : ∀ (j : Nat) (e : Slot P), (s.set i ⟨hh, none⟩)[j]? = some e → e.Wf := by
  intro j e hj
  rcases get_set hj with ⟨_, rfl⟩ | ⟨_, hj⟩
  · rcases hd with rfl | rfl <;> rfl
  · exact hwf j e hj

theorem WInv.live {t : Table P} {s : List (Slot P)} {i0 i : Nat} (hi : WInv c keyOf t s i0) {e : Slot P} {p : P}
    (he : s[i]? = some e) (hp : e.obj = some p) : e.isLive = true := by rw [hi.wf _ _ he, hp]; rfl

/-- The end of a removal in the middle of a `clear`. -/
theorem removeEntry_weak {t : Table P} {s : List (Slot P)} {i0 i : Nat} (hi : WInv c keyOf t s i0) {e : Slot P} {p : P}
    (he : s[i]? = some e) (hp : e.obj = some p) :
    ∃ t', removeEntry t i = .ok t' ∧ WInv c keyOf t' (s.set i ⟨kRemovedHash, none⟩) i0 ∧
      t'.nelements + t'.ndeleted = t.nelements + t.ndeleted ∧ t'.minCapacity = t.minCapacity ∧
      t'.capacity = t.capacity ∧
      (∀ q, Holds (s.set i ⟨kRemovedHash, none⟩) q ↔ Holds s q ∧ keyOf q ≠ keyOf p) := by
  have hlive := hi.live he hp
  have hilt := lt_of_get he
  have hge : i0 ≤ i := by
    rcases Nat.lt_or_ge i i0 with hlt | hge
    · rw [hi.done i e hlt he] at hp; cases hp
    · exact hge
  obtain ⟨hu', hh'⟩ := kill_holds (a := ⟨kRemovedHash, none⟩) hi.uniq he hp rfl
  obtain ⟨hn', hr'⟩ := kill_counts kRemovedHash (.inr rfl) he hlive
  rw [if_pos (show kRemovedHash = 1#32 from rfl)] at hr'
  have h1 := hi.load
  have h2 := Nat.lt_of_le_of_lt hi.max (kMax_lt c)
  have h3 := hi.nle
  have h4 := hi.occ
  have hinc : inc32 t.ndeleted = t.ndeleted + 1 := by
    unfold inc32; exact Nat.mod_eq_of_lt (by omega)
  have hdec : dec32 t.nelements = t.nelements - 1 := by
    unfold dec32; omega
  unfold removeEntry
  simp only [bind, Except.bind, load_ok hi.tbl he, hlive, if_true, Slot.setRemoved, Slot.destruct, hp]
  rw [store_ok hi.tbl hilt]
  simp only [hinc, hdec]
  refine ⟨_, rfl, ?_, ?_, rfl, rfl, hh'⟩
  · refine ⟨rfl, ?_, ?_, kill_wf hi.wf i _ (.inr rfl), hu', ?_, ?_, ?_, ?_, hi.max, hi.minPow, hi.min16, hi.minCap, ?_, hi.mem⟩
    · rw [List.length_set]; exact hi.cap
    · rw [List.length_set]; exact hi.pow
    · intro j e' hj he'
      rcases get_set he' with ⟨rfl, _⟩ | ⟨_, he'⟩
      · omega
      · exact hi.done j e' hj he'
    · show _ ≤ t.nelements - 1; omega
    · show _ ≤ t.nelements - 1 + (t.ndeleted + 1); omega
    · show t.nelements - 1 + (t.ndeleted + 1) ≤ t.capacity / 2 + t.capacity / 4 + 1; omega
    · show t.ctors = t.dtors + 1 + nLive (s.set i ⟨kRemovedHash, none⟩)
      have := hi.life; omega
  · show t.nelements - 1 + (t.ndeleted + 1) = _; omega

/-- the end of the destructor of the payload `clear` has come to -/
theorem setFree_weak {t : Table P} {s : List (Slot P)} {i : Nat} (hi : WInv c keyOf t s i) {e : Slot P} {p : P}
    (he : s[i]? = some e) (hp : e.obj = some p) :
    e.setFree = .ok (⟨kFreeHash, none⟩, 1) ∧
    t.store i ⟨kFreeHash, none⟩ = .ok { t with table := some (s.set i ⟨kFreeHash, none⟩) } ∧
    WInv c keyOf { t with table := some (s.set i ⟨kFreeHash, none⟩), dtors := t.dtors + 1 } (s.set i ⟨kFreeHash, none⟩) (i + 1) ∧
    (∀ q, Holds (s.set i ⟨kFreeHash, none⟩) q ↔ Holds s q ∧ keyOf q ≠ keyOf p) := by
  have hlive := hi.live he hp
  have hilt := lt_of_get he
  obtain ⟨hu', hh'⟩ := kill_holds (a := ⟨kFreeHash, none⟩) hi.uniq he hp rfl
  obtain ⟨hn', hr'⟩ := kill_counts kFreeHash (.inl rfl) he hlive
  rw [if_neg (by decide)] at hr'
  have h3 := hi.nle
  have h4 := hi.occ
  refine ⟨?_, store_ok hi.tbl hilt _, ?_, hh'⟩
  · simp only [Slot.setFree, Slot.destruct, hlive, if_true, hp, bind, Except.bind]
  · refine ⟨rfl, ?_, ?_, kill_wf hi.wf i _ (.inl rfl), hu', ?_, ?_, ?_, hi.load, hi.max, hi.minPow, hi.min16, hi.minCap, ?_, hi.mem⟩
    · rw [List.length_set]; exact hi.cap
    · rw [List.length_set]; exact hi.pow
    · intro j e' hj he'
      rcases get_set he' with ⟨_, rfl⟩ | ⟨hne, he'⟩
      · rfl
      · exact hi.done j e' (by omega) he'
    · show _ ≤ t.nelements; omega
    · show _ ≤ t.nelements + t.ndeleted; omega
    · show t.ctors = t.dtors + 1 + nLive (s.set i ⟨kFreeHash, none⟩)
      have := hi.life; omega

theorem noHolds_fresh {s : List (Slot P)} (hf : ∀ (j : Nat) (e : Slot P), s[j]? = some e → e = Slot.fresh) :
    ∀ q, ¬ Holds s q := by
  rintro q ⟨i, e, he, hq⟩
  rw [hf i e he] at hq; cases hq

/-- The scan of `clear` up to the next payload. -/
theorem clearScan_spec : ∀ rem i (t : Table P) (s : List (Slot P)), i + rem = s.length → WInv c keyOf t s i →
    ∃ t' s', t'.minCapacity = t.minCapacity ∧ t'.capacity = t.capacity ∧ (∀ q, Holds s' q ↔ Holds s q) ∧
      t'.nelements + t'.ndeleted ≤ t.nelements + t.ndeleted ∧
      ((∃ j k, clearScan (fun _ => false) i rem t = .ok (t', some j) ∧ WInv c keyOf t' s' j ∧ AtKey keyOf s' j k) ∨
       (clearScan (fun _ => false) i rem t = .ok (t', none) ∧ Inv c keyOf h t' s' ∧ ∀ q, ¬ Holds s' q)) := by
  intro rem
  induction rem with
  | zero =>
    intro i t s hi hw
    have hfr : ∀ (j : Nat) (e : Slot P), s[j]? = some e → e = Slot.fresh :=
      fun j e he => hw.done j e (by have := lt_of_get he; omega) he
    obtain ⟨k, hk31, hk⟩ := hw.pow
    have hs : s = List.replicate s.length Slot.fresh := by
      rw [List.eq_replicate_iff]
      refine ⟨rfl, fun e he => ?_⟩
      obtain ⟨j, hj⟩ := List.mem_iff_getElem?.1 he
      exact hfr j e hj
    obtain ⟨hs0, hh0, hn0, hr0⟩ := SInv.replicate (P := P) (keyOf := keyOf) (h := h) s.length k hk31 hk
    rw [← hs] at hs0 hh0 hn0 hr0
    refine ⟨{ t with ndeleted := 0, nelements := 0 }, s, rfl, rfl, fun _ => Iff.rfl, Nat.zero_le _, .inr ⟨rfl, ?_, hh0⟩⟩
    refine ⟨hw.tbl, hw.cap, hs0, hn0.symm, hr0.symm, Nat.zero_le _, hw.max, hw.minPow, hw.min16, hw.minCap, ?_, hw.mem⟩
    show t.ctors = t.dtors + 0
    have := hw.life; rw [hn0] at this; exact this
  | succ rem ih =>
    intro i t s hi hw
    have hilt : i < s.length := by omega
    obtain ⟨e, he⟩ : ∃ e, s[i]? = some e := ⟨_, List.getElem?_eq_getElem hilt⟩
    unfold clearScan
    simp only [bind, Except.bind, load_ok hw.tbl he]
    cases hlv : e.isLive with
    | true =>
      obtain ⟨p, hp, _⟩ := (hw.wf i e he).payload hlv
      exact ⟨t, s, rfl, rfl, fun _ => Iff.rfl, Nat.le_refl _, .inl ⟨i, keyOf p, by simp, hw, e, p, he, hp, rfl⟩⟩
    | false =>
      have hno := (hw.wf i e he).none hlv
      simp only [Bool.false_eq_true, if_false, Slot.setFree, Slot.destruct, hlv, bind, Except.bind, hno]
      rw [store_ok hw.tbl hilt]
      simp only
      have hcnt1 := countP_set' (q := Slot.isLive) (a := ⟨kFreeHash, none⟩) he
      have hcnt2 := countP_set' (q := Slot.removed) (a := ⟨kFreeHash, none⟩) he
      have e1 : (⟨kFreeHash, none⟩ : Slot P).isLive = false := rfl
      have e2 : (⟨kFreeHash, none⟩ : Slot P).removed = false := rfl
      rw [hlv, e1] at hcnt1
      rw [e2] at hcnt2
      simp only [Bool.false_eq_true, if_false, Nat.add_zero] at hcnt1 hcnt2
      have h4 := hw.occ
      have hh1 : ∀ q, Holds (s.set i ⟨kFreeHash, none⟩) q ↔ Holds s q := by
        intro q
        constructor
        · rintro ⟨j, e', hj, hq⟩
          rcases get_set hj with ⟨_, rfl⟩ | ⟨_, hj⟩
          · cases hq
          · exact ⟨j, e', hj, hq⟩
        · rintro ⟨j, e', hj, hq⟩
          have hne : j ≠ i := by rintro rfl; rw [he] at hj; cases hj; rw [hno] at hq; cases hq
          exact ⟨j, e', by rw [get_set_ne hne]; exact hj, hq⟩
      have hw' : WInv c keyOf { t with table := some (s.set i ⟨kFreeHash, none⟩) } (s.set i ⟨kFreeHash, none⟩) (i + 1) := by
        refine ⟨rfl, ?_, ?_, kill_wf hw.wf i _ (.inl rfl), ?_, ?_, ?_, ?_, hw.load, hw.max, hw.minPow, hw.min16, hw.minCap, ?_, hw.mem⟩
        · rw [List.length_set]; exact hw.cap
        · rw [List.length_set]; exact hw.pow
        · intro j j' e1 e2 p1 p2 h1 h2 hp1 hp2 hk
          rcases get_set h1 with ⟨_, rfl⟩ | ⟨_, h1⟩
          · cases hp1
          · rcases get_set h2 with ⟨_, rfl⟩ | ⟨_, h2⟩
            · cases hp2
            · exact hw.uniq _ _ _ _ _ _ h1 h2 hp1 hp2 hk
        · intro j e' hj he'
          rcases get_set he' with ⟨_, rfl⟩ | ⟨hne, he'⟩
          · rfl
          · exact hw.done j e' (by omega) he'
        · show _ ≤ t.nelements
          have := hw.nle; unfold nLive at *; omega
        · show _ ≤ t.nelements + t.ndeleted
          unfold nLive nRem at *; omega
        · show t.ctors = t.dtors + nLive (s.set i ⟨kFreeHash, none⟩)
          have := hw.life; unfold nLive at *; omega
      obtain ⟨t', s', hm, hcp, hh, hnd, hcase⟩ := ih (i + 1) _ _ (by rw [List.length_set]; omega) hw'
      refine ⟨t', s', hm, hcp, fun q => (hh q).trans (hh1 q), hnd, ?_⟩
      have hslot : ({ hash := kFreeHash, obj := none } : Slot P) = ⟨kFreeHash, none⟩ := rfl
      exact hcase

/-! ### `~HashTable` -/

/-- number of constructed payloads -/
def nObj (s : List (Slot P)) : Nat := s.countP (fun e => e.obj.isSome)

theorem nObj_eq {s : List (Slot P)} (hwf : ∀ (i : Nat) (e : Slot P), s[i]? = some e → e.Wf) : nObj s = nLive s := by
  unfold nObj nLive
  apply List.countP_congr
  intro e he
  obtain ⟨j, hj⟩ := List.mem_iff_getElem?.1 he
  have := hwf j e hj
  unfold Slot.Wf at this
  rw [this]

/-- The table in the middle of its destructor, which has come to entry `i`. -/
structure DInv (keyOf : P → K) (t : Table P) (s : List (Slot P)) (i : Nat) : Prop where
  tbl : t.table = some s
  cap : t.capacity = s.length
  uniq : Uniq keyOf s
  wf : ∀ (j : Nat) (e : Slot P), i ≤ j → s[j]? = some e → e.Wf
  done : ∀ (j : Nat) (e : Slot P), j < i → s[j]? = some e → e.obj = none
  life : t.ctors = t.dtors + nObj s
  mem : t.mallocs = t.frees + 1

theorem Inv.toD {t : Table P} {s : List (Slot P)} (hi : Inv c keyOf h t s) : DInv keyOf t s 0 :=
  { tbl := hi.tbl, cap := hi.cap, uniq := hi.sinv.uniq
    wf := fun j e _ he => hi.sinv.wf j e he
    done := fun j e hj => by omega
    life := by rw [nObj_eq hi.sinv.wf, ← hi.n]; exact hi.life
    mem := hi.mem }

/-- A table whose destructor has finished: every payload destroyed, the memory released. -/
structure Gone (t : Table P) : Prop where
  tbl : t.table = none
  life : t.ctors = t.dtors
  mem : t.mallocs = t.frees

theorem destroyScan_spec : ∀ rem i (t : Table P) (s : List (Slot P)), i + rem = s.length → DInv keyOf t s i →
    (∃ j k, destroyScan (fun _ => false) i rem t = .ok (t, some j) ∧ DInv keyOf t s j ∧ AtKey keyOf s j k) ∨
    (∃ t', destroyScan (fun _ => false) i rem t = .ok (t', none) ∧ Gone t' ∧ t'.ctors = t.ctors ∧ t'.mallocs = t.mallocs ∧
      t'.nelements = t.nelements ∧ t'.ndeleted = t.ndeleted ∧ t'.minCapacity = t.minCapacity ∧ t'.capacity = t.capacity ∧
      ∀ q, ¬ Holds s q) := by
  intro rem
  induction rem with
  | zero =>
    intro i t s hi hd
    have hall : ∀ (j : Nat) (e : Slot P), s[j]? = some e → e.obj = none :=
      fun j e he => hd.done j e (by have := lt_of_get he; omega) he
    have h0 : nObj s = 0 := by
      unfold nObj
      rw [List.countP_eq_zero]
      intro e he
      obtain ⟨j, hj⟩ := List.mem_iff_getElem?.1 he
      rw [hall j e hj]; simp
    right
    simp only [destroyScan, hd.tbl]
    refine ⟨_, rfl, ⟨rfl, ?_, hd.mem⟩, rfl, rfl, rfl, rfl, rfl, rfl, ?_⟩
    · have := hd.life; rw [h0] at this; exact this
    · rintro q ⟨j, e, he, hq⟩
      rw [hall j e he] at hq; cases hq
  | succ rem ih =>
    intro i t s hi hd
    have hilt : i < s.length := by omega
    obtain ⟨e, he⟩ : ∃ e, s[i]? = some e := ⟨_, List.getElem?_eq_getElem hilt⟩
    unfold destroyScan
    simp only [bind, Except.bind, load_ok hd.tbl he]
    cases hlv : e.isLive with
    | true =>
      obtain ⟨p, hp, _⟩ := (hd.wf i e (Nat.le_refl _) he).payload hlv
      exact .inl ⟨i, keyOf p, by simp, hd, e, p, he, hp, rfl⟩
    | false =>
      simp only [Bool.false_eq_true, if_false]
      have hno := (hd.wf i e (Nat.le_refl _) he).none hlv
      refine ih (i + 1) t s (by omega) ⟨hd.tbl, hd.cap, hd.uniq, fun j e' hj => hd.wf j e' (by omega), ?_, hd.life, hd.mem⟩
      intro j e' hj he'
      rcases Nat.lt_or_ge j i with hlt | hge
      · exact hd.done j e' hlt he'
      · have : j = i := by omega
        subst this
        rw [he] at he'; cases he'; exact hno

theorem destruct_weak {t : Table P} {s : List (Slot P)} {i : Nat} (hi : DInv keyOf t s i) {e : Slot P} {p : P}
    (he : s[i]? = some e) (hp : e.obj = some p) :
    e.destruct = .ok ({ e with obj := none }, 1) ∧
    t.store i { e with obj := none } = .ok { t with table := some (s.set i { e with obj := none }) } ∧
    DInv keyOf { t with table := some (s.set i { e with obj := none }), dtors := t.dtors + 1 } (s.set i { e with obj := none }) (i + 1) ∧
    (∀ q, Holds (s.set i { e with obj := none }) q ↔ Holds s q ∧ keyOf q ≠ keyOf p) := by
  have hlive : e.isLive = true := by rw [hi.wf i e (Nat.le_refl _) he, hp]; rfl
  have hilt := lt_of_get he
  obtain ⟨hu', hh'⟩ := kill_holds (a := { e with obj := none }) hi.uniq he hp rfl
  have hc := countP_set' (q := fun e : Slot P => e.obj.isSome) (a := { e with obj := none }) he
  simp only [hp, Option.isSome_some, Option.isSome_none, if_true, Bool.false_eq_true, if_false] at hc
  refine ⟨?_, store_ok hi.tbl hilt _, ?_, hh'⟩
  · simp only [Slot.destruct, hlive, if_true, hp]
  · refine ⟨rfl, ?_, hu', ?_, ?_, ?_, hi.mem⟩
    · rw [List.length_set]; exact hi.cap
    · intro j e' hj he'
      rcases get_set he' with ⟨rfl, _⟩ | ⟨_, he'⟩
      · omega
      · exact hi.wf j e' (by omega) he'
    · intro j e' hj he'
      rcases get_set he' with ⟨_, rfl⟩ | ⟨_, he'⟩
      · rfl
      · exact hi.done j e' (by omega) he'
    · show t.ctors = t.dtors + 1 + nObj _
      have := hi.life; unfold nObj at *; omega

/-! ### The simulation -/

/-- The abstract state of a machine. -/
inductive Rel (c : Config) (keyOf : P → K) (h : K → BitVec 32) : Mach P → AState K P → Prop
  | live {t s st m ps} : Inv c keyOf h t s → Repr' keyOf s m → Rems keyOf s none st ps → Rel c keyOf h ⟨t, st⟩ ⟨m, ps, false⟩
  | clearing {t s st m ps i} : WInv c keyOf t s i → Repr' keyOf s m → Rems keyOf s (some i) st ps →
      Rel c keyOf h ⟨t, st⟩ ⟨m, ps, false⟩
  | destroying {t s m i k} : DInv keyOf t s i → Repr' keyOf s m → AtKey keyOf s i k →
      Rel c keyOf h ⟨t, [.destroying i]⟩ ⟨m, [.destroying k], false⟩
  | gone {t m} : Gone t → (∀ k, m k = none) → Rel c keyOf h ⟨t, []⟩ ⟨m, [], true⟩

/-- An `add` that does not resize changes one entry, which was not live. -/
theorem add_same (hl : Lawful pol canon keyOf h) {t t' : Table P} {s : List (Slot P)} (hi : Inv c keyOf h t s) {l : L} {p : P}
    (hkp : keyOf p = canon l) {memOk : Bool} {o : Out P} (hrun : exec c pol t (.add l p memOk) = .ok (t', o))
    (hcap : t'.capacity = t.capacity) :
    t'.mallocs = t.mallocs ∧ (t'.table = some s ∨
      ∃ i e a, s[i]? = some e ∧ e.isLive = false ∧ t'.table = some (s.set i a)) := by
  obtain ⟨i, e, hf, he, hcase⟩ := findForAdd_spec hl hi.sinv hi.tbl hi.cap hi.free l
  simp only [exec, bind, Except.bind, hf, Table.found, load_ok hi.tbl he] at hrun
  rcases hcase with ⟨hlv, q, hq, hk⟩ | ⟨hdead, habs, hpath⟩
  · obtain ⟨q', hq', hpay⟩ := (hi.sinv.wf _ _ he).payload hlv
    simp only [hlv, if_true, deref, bind, Except.bind, load_ok hi.tbl he, hpay, Except.ok.injEq, Prod.mk.injEq] at hrun
    rw [← hrun.1]; exact ⟨rfl, .inl hi.tbl⟩
  · simp only [hdead, Bool.false_eq_true, if_false] at hrun
    have hcomp : computeHash pol l = mix (h (keyOf p)) := by rw [hash_of_lookup hl, hkp]
    rw [hcomp] at hpath hrun
    rw [← hkp] at habs
    have key : ∀ b t1 i1, add c t ⟨i, mix (h (keyOf p))⟩ p memOk = .ok (b, t1, i1) → t1.capacity = t.capacity →
        t1.mallocs = t.mallocs ∧ (t1.table = some s ∨
          ∃ i e a, s[i]? = some e ∧ e.isLive = false ∧ t1.table = some (s.set i a)) := by
      intro b t1 i1 hadd hc1
      rw [add_eq_bind] at hadd
      unfold internalAdd at hadd
      simp only [bind, Except.bind, load_ok hi.tbl he, hdead, Bool.false_eq_true, if_false] at hadd
      by_cases hr : e.removed = true
      · simp only [hr, if_true] at hadd
        have hpos : 0 < t.ndeleted := by
          rw [hi.d]; unfold nRem; rw [List.countP_pos_iff]
          exact ⟨e, List.mem_of_getElem? he, hr⟩
        have hdec : dec32 t.ndeleted = t.ndeleted - 1 := by
          have h1 := hi.load
          have h2 := hi.cap_lt
          unfold dec32
          omega
        obtain ⟨hrun', hi', hh'⟩ := addTail_spec hi p he hdead habs hpath (.inl hr) (t.ndeleted - 1) (by simp [hr])
        rw [hdec, hrun'] at hadd
        simp only at hadd
        rw [addFinish_ok t s i e _ p _ hi he hdead] at hadd
        simp only [Except.ok.injEq, Prod.mk.injEq] at hadd
        rw [← hadd.2.1]
        exact ⟨rfl, .inr ⟨i, e, _, he, hdead, rfl⟩⟩
      · have hr' : e.removed = false := by simpa using hr
        simp only [hr', Bool.false_eq_true, if_false] at hadd
        have hnk : ¬ t.nelements = c.kMaxCapacity := by
          have h1 := hi.load
          have h2 := hi.max
          have h3 := hi.cap_ge
          omega
        simp only [hnk, if_false] at hadd
        rcases checkDensity_spec hi memOk with ⟨t2, s2, hrun2, hi2, hn2, hm2, hload2, hsame, hdz, hdle, hh2⟩ |
            ⟨hrun2, ha, hcond⟩ | ⟨f, hrun2, hcond⟩
        · rw [hrun2] at hadd
          simp only [if_true] at hadd
          by_cases hc : t2.capacity = t.capacity
          · obtain ⟨rfl, rfl⟩ := hsame hc
            simp only [ne_eq, not_true_eq_false, if_false] at hadd
            obtain ⟨hrun', hi', hh'⟩ := addTail_spec hi2 p he hdead habs hpath (.inr hload2) t2.ndeleted (by simp [hr'])
            rw [show internalAddTail t2 ⟨i, mix (h (keyOf p))⟩ = _ from hrun'] at hadd
            simp only at hadd
            rw [addFinish_ok t2 s2 i e _ p _ hi2 he hdead] at hadd
            simp only [Except.ok.injEq, Prod.mk.injEq] at hadd
            rw [← hadd.2.1]
            exact ⟨rfl, .inr ⟨i, e, _, he, hdead, rfl⟩⟩
          · exfalso
            simp only [ne_eq, hc, not_false_eq_true, if_true] at hadd
            obtain ⟨k, hk31, hk⟩ := hi2.sinv.pow
            have hocc := hi2.occ_lt
            obtain ⟨m, e1, hm, he1, hel1, hb, hins⟩ := insertUnique_spec hi2.tbl hi2.cap hk hk31
              (mix (h (keyOf p))) (exists_nonlive (by omega))
            rw [hins] at hadd
            have hnr : e1.removed = false := by
              rcases hx : e1.removed with _ | _
              · rfl
              · have : 0 < nRem s2 := by
                  unfold nRem; rw [List.countP_pos_iff]; exact ⟨e1, List.mem_of_getElem? he1, hx⟩
                rw [← hi2.d, hdz hc] at this; omega
            obtain ⟨hrun', hi', hh'⟩ := addTail_spec hi2 p he1 hel1
              (fun q hq => habs q ((hh2 q).1 hq)) ⟨m, hm, rfl, fun j hj e' he' => live_not_free (hb j hj e' he')⟩
              (.inr hload2) t2.ndeleted (by simp [hnr])
            simp only at hadd
            rw [show internalAddTail t2 ⟨_, mix (h (keyOf p))⟩ = _ from hrun'] at hadd
            simp only at hadd
            rw [addFinish_ok t2 s2 _ e1 _ p _ hi2 he1 hel1] at hadd
            simp only [Except.ok.injEq, Prod.mk.injEq] at hadd
            rw [← hadd.2.1] at hc1
            exact hc hc1
        · rw [hrun2] at hadd
          simp only [Bool.false_eq_true, if_false, addFinish, Except.ok.injEq, Prod.mk.injEq] at hadd
          rw [← hadd.2.1]
          exact ⟨rfl, .inl hi.tbl⟩
        · rw [hrun2] at hadd; cases hadd
    cases hadd : add c t ⟨i, mix (h (keyOf p))⟩ p memOk with
    | error f => rw [hadd] at hrun; cases hrun
    | ok v =>
      obtain ⟨b, t1, i1⟩ := v
      rw [hadd] at hrun
      cases b with
      | false =>
        simp only [Bool.false_eq_true, if_false, Except.ok.injEq, Prod.mk.injEq] at hrun
        obtain ⟨rfl, _⟩ := hrun
        exact key _ _ _ hadd hcap
      | true =>
        simp only [if_true] at hrun
        cases hd : deref t1 i1.entry with
        | error f => rw [hd] at hrun; cases hrun
        | ok q =>
          rw [hd] at hrun
          simp only [Except.ok.injEq, Prod.mk.injEq] at hrun
          obtain ⟨rfl, _⟩ := hrun
          exact key _ _ _ hadd hcap

end Verif.HashTable
