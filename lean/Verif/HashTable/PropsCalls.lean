import Verif.HashTable.Props
import Verif.HashTable.SpecCalls
/-!
# C121: which questions a table asks its hash policy
-/
namespace Verif.HashTable
open Verif

set_option linter.unusedSectionVars false

variable {L P K : Type} [DecidableEq K] {c : Config} {canon : L → K} {keyOf : P → K}
  {h : K → BitVec 32} {pol : Policy L P}

/-! ### Hashes -/

theorem mix_alike {a b : BitVec 32} (hm : mix a = mix b) : Alike a b := by
  have hinv : ∀ x y : BitVec 32, x * 0x9E3779B9#32 = y → x = y * 0x144CBC89#32 := by
    intro x y hxy
    rw [← hxy, BitVec.mul_assoc]
    have : (0x9E3779B9#32 * 0x144CBC89#32 : BitVec 32) = 1#32 := by decide
    rw [this, BitVec.mul_one]
  have ha := hinv a _ rfl
  have hb := hinv b _ rfl
  unfold mix kFreeHash kRemovedHash at hm
  simp only at hm
  generalize a * 0x9E3779B9#32 = x at hm ha
  generalize b * 0x9E3779B9#32 = y at hm hb
  subst ha hb
  unfold Alike
  split at hm <;> split at hm
  · rename_i h1 h2
    rcases h1 with rfl | rfl <;> rcases h2 with rfl | rfl
    · exact .inl rfl
    · exact absurd hm (by decide)
    · exact absurd hm (by decide)
    · exact .inl rfl
  · rename_i h1 h2
    subst hm
    rcases h1 with rfl | rfl
    · exact .inr (.inl ⟨by decide, by decide⟩)
    · exact .inr (.inr (.inr (.inl ⟨by decide, by decide⟩)))
  · rename_i h1 h2
    subst hm
    rcases h2 with rfl | rfl
    · exact .inr (.inr (.inl ⟨by decide, by decide⟩))
    · exact .inr (.inr (.inr (.inr ⟨by decide, by decide⟩)))
  · subst hm; exact .inl rfl

/-! ### The loops -/

/-- The payloads asked about from the `j`-th entry of the path on. -/
structure Good (pol : Policy L P) (keyOf : P → K) (s : List (Slot P)) (l : L) (hash : BitVec 32) (j : Nat) (ps : List P) : Prop where
  at_ : ∀ p ∈ ps, ∃ j' e, j ≤ j' ∧ j' < s.length ∧ s[pos s.length hash j']? = some e ∧ e.hash = hash ∧ e.obj = some p
  nodup : (ps.map keyOf).Nodup
  no : ∀ p ∈ ps.dropLast, pol.isMatch l p = false

theorem Good.nil {s : List (Slot P)} {l : L} {hash : BitVec 32} {j : Nat} : Good pol keyOf s l hash j [] :=
  ⟨by simp, by simp, by simp⟩

theorem Good.later {s : List (Slot P)} {l : L} {hash : BitVec 32} {j : Nat} {ps : List P} (hg : Good pol keyOf s l hash (j + 1) ps) :
    Good pol keyOf s l hash j ps :=
  ⟨fun p hp => by obtain ⟨j', e, h1, h2⟩ := hg.at_ p hp; exact ⟨j', e, by omega, h2⟩, hg.nodup, hg.no⟩

theorem Good.single {s : List (Slot P)} {l : L} {hash : BitVec 32} {j : Nat} {e : Slot P} {p : P} (hj : j < s.length)
    (he : s[pos s.length hash j]? = some e) (hh : e.hash = hash) (hp : e.obj = some p) : Good pol keyOf s l hash j [p] :=
  ⟨fun q hq => by rw [List.mem_singleton] at hq; subst hq; exact ⟨j, e, Nat.le_refl _, hj, he, hh, hp⟩, by simp, by simp⟩

theorem Good.cons {s : List (Slot P)} (hs : SInv keyOf h s) {l : L} {hash : BitVec 32} {j : Nat} {e : Slot P} {p : P} {ps : List P}
    (hg : Good pol keyOf s l hash (j + 1) ps) (hj : j < s.length) (he : s[pos s.length hash j]? = some e) (hh : e.hash = hash) (hp : e.obj = some p)
    (hno : pol.isMatch l p = false) : Good pol keyOf s l hash j (p :: ps) := by
  refine ⟨?_, ?_, ?_⟩
  · intro q hq
    rcases List.mem_cons.1 hq with rfl | hq
    · exact ⟨j, e, Nat.le_refl _, hj, he, hh, hp⟩
    · obtain ⟨j', e', h1, h2⟩ := hg.at_ q hq; exact ⟨j', e', by omega, h2⟩
  · rw [List.map_cons, List.nodup_cons]
    refine ⟨fun hm => ?_, hg.nodup⟩
    obtain ⟨q, hq, hk⟩ := List.mem_map.1 hm
    obtain ⟨j', e', h1, h2, h3, -, h5⟩ := hg.at_ q hq
    have := pos_inj hash h2 hj (hs.uniq _ _ _ _ _ _ h3 he h5 hp hk)
    omega
  · intro q hq
    cases ps with
    | nil => cases hq
    | cons p' ps =>
      rw [List.dropLast_cons_of_ne_nil (by simp)] at hq
      rcases List.mem_cons.1 hq with rfl | hq
      · exact hno
      · exact hg.no q hq

theorem sameHash_eq {e : Slot P} {x : BitVec 32} (hs : e.sameHash x = true) : e.hash = x := by
  unfold Slot.sameHash at hs; exact eq_of_beq hs

theorem lookupLoop_calls {t : Table P} {s : List (Slot P)} (hi : Inv c keyOf h t s) (l : L) (hash : BitVec 32) : ∀ (fuel j i : Nat), j + fuel = s.length →
    lookupLoop pol t l hash (hash + BitVec.ofNat 32 j) fuel = .ok i →
    ∃ ps : List P, Good pol keyOf s l hash j ps ∧ (∀ e p, s[i]? = some e → e.obj = some p → p ∈ ps) ∧
      ∀ (S : Type) (cp : PolicyC L P S) (next : S → Call L P → S), Answers cp pol next → ∀ st : S,
        lookupLoopC cp t l hash (hash + BitVec.ofNat 32 j) st fuel = .ok (i, (ps.map (Call.isMatch l)).foldl next st) := by
  obtain ⟨k, hk31, hk⟩ := hi.sinv.pow
  intro fuel
  induction fuel with
  | zero => intro j i _ hr; cases hr
  | succ fuel ih =>
    intro j i hj hr
    have hlt := pos_lt (c := s.length) (by omega) hash j
    obtain ⟨e, he⟩ : ∃ e, s[pos s.length hash j]? = some e := ⟨_, List.getElem?_eq_getElem hlt⟩
    have hwf := hi.sinv.wf _ _ he
    unfold lookupLoop at hr
    simp only [hi.cap, probe_step hk hk31, load_ok hi.tbl he, bind, Except.bind, cur_succ] at hr
    simp only [lookupLoopC, hi.cap, probe_step hk hk31, load_ok hi.tbl he, bind, Except.bind, cur_succ]
    split at hr
    · rename_i hf
      cases hr
      refine ⟨[], Good.nil, ?_, fun S cp next ha st => by rw [if_pos hf]; rfl⟩
      intro e' p he' hp
      rw [he] at he'; cases he'
      rw [hwf.none (free_not_live hf)] at hp; cases hp
    · rename_i hf
      split at hr
      · rename_i hls
        have hls' := hls
        rw [Bool.and_eq_true] at hls'
        obtain ⟨p, hp, hpay⟩ := hwf.payload hls'.1
        have hh := sameHash_eq hls'.2
        simp only [hpay] at hr
        split at hr
        · rename_i hm
          cases hr
          refine ⟨[p], Good.single (by omega) he hh hp, ?_, fun S cp next ha st => ?_⟩
          · intro e' q he' hq
            rw [he] at he'; cases he'
            rw [hp] at hq; cases hq; simp
          · rw [if_neg hf, if_pos hls]
            simp only [hpay, ha.isMatch, hm, if_true]; rfl
        · rename_i hm
          obtain ⟨ps, hg, hmem, hrun⟩ := ih (j + 1) i (by omega) hr
          refine ⟨p :: ps, hg.cons hi.sinv (by omega) he hh hp (by simpa using hm), fun e' q h1 h2 => List.mem_cons_of_mem _ (hmem e' q h1 h2),
            fun S cp next ha st => ?_⟩
          rw [if_neg hf, if_pos hls]
          simp only [hpay, ha.isMatch, hm]
          exact hrun S cp next ha _
      · rename_i hls
        obtain ⟨ps, hg, hmem, hrun⟩ := ih (j + 1) i (by omega) hr
        refine ⟨ps, hg.later, hmem, fun S cp next ha st => ?_⟩
        rw [if_neg hf, if_neg hls]
        exact hrun S cp next ha st

theorem lookupForAddLoop_calls {t : Table P} {s : List (Slot P)} (hi : Inv c keyOf h t s) (l : L) (hash : BitVec 32) : ∀ (fuel j : Nat) (fr : Option Nat)
    (r : Nat × Option Nat), j + fuel = s.length →
    lookupForAddLoop pol t l hash (hash + BitVec.ofNat 32 j) fr fuel = .ok r →
    ∃ ps : List P, Good pol keyOf s l hash j ps ∧ (∀ e p, s[r.1]? = some e → e.obj = some p → p ∈ ps) ∧
      ∀ (S : Type) (cp : PolicyC L P S) (next : S → Call L P → S), Answers cp pol next → ∀ st : S,
        lookupForAddLoopC cp t l hash (hash + BitVec.ofNat 32 j) fr st fuel = .ok (r.1, r.2, (ps.map (Call.isMatch l)).foldl next st) := by
  obtain ⟨k, hk31, hk⟩ := hi.sinv.pow
  intro fuel
  induction fuel with
  | zero => intro j fr r _ hr; cases hr
  | succ fuel ih =>
    intro j fr r hj hr
    have hlt := pos_lt (c := s.length) (by omega) hash j
    obtain ⟨e, he⟩ : ∃ e, s[pos s.length hash j]? = some e := ⟨_, List.getElem?_eq_getElem hlt⟩
    have hwf := hi.sinv.wf _ _ he
    unfold lookupForAddLoop at hr
    simp only [hi.cap, probe_step hk hk31, load_ok hi.tbl he, bind, Except.bind, cur_succ] at hr
    simp only [lookupForAddLoopC, hi.cap, probe_step hk hk31, load_ok hi.tbl he, bind, Except.bind, cur_succ]
    split at hr
    · rename_i hf
      cases hr
      refine ⟨[], Good.nil, ?_, fun S cp next ha st => by rw [if_pos hf]; rfl⟩
      intro e' p he' hp
      rw [he] at he'; cases he'
      rw [hwf.none (free_not_live hf)] at hp; cases hp
    · rename_i hf
      split at hr
      · rename_i hrm
        obtain ⟨ps, hg, hmem, hrun⟩ := ih (j + 1) _ r (by omega) hr
        refine ⟨ps, hg.later, hmem, fun S cp next ha st => ?_⟩
        rw [if_neg hf, if_pos hrm]
        exact hrun S cp next ha st
      · rename_i hrm
        have hlive : e.isLive = true := by
          rcases slot_cases e with hx | hx | hx
          · exact absurd hx hf
          · exact absurd hx hrm
          · exact hx
        split at hr
        · rename_i hls
          obtain ⟨p, hp, hpay⟩ := hwf.payload hlive
          have hh := sameHash_eq hls
          simp only [hpay] at hr
          split at hr
          · rename_i hm
            cases hr
            refine ⟨[p], Good.single (by omega) he hh hp, ?_, fun S cp next ha st => ?_⟩
            · intro e' q he' hq
              rw [he] at he'; cases he'
              rw [hp] at hq; cases hq; simp
            · rw [if_neg hf, if_neg hrm, if_pos hls]
              simp only [hpay, ha.isMatch, hm, if_true]; rfl
          · rename_i hm
            obtain ⟨ps, hg, hmem, hrun⟩ := ih (j + 1) _ r (by omega) hr
            refine ⟨p :: ps, hg.cons hi.sinv (by omega) he hh hp (by simpa using hm), fun e' q h1 h2 => List.mem_cons_of_mem _ (hmem e' q h1 h2),
              fun S cp next ha st => ?_⟩
            rw [if_neg hf, if_neg hrm, if_pos hls]
            simp only [hpay, ha.isMatch, hm]
            exact hrun S cp next ha _
        · rename_i hls
          obtain ⟨ps, hg, hmem, hrun⟩ := ih (j + 1) _ r (by omega) hr
          refine ⟨ps, hg.later, hmem, fun S cp next ha st => ?_⟩
          rw [if_neg hf, if_neg hrm, if_neg hls]
          exact hrun S cp next ha st

/-! ### Lookups -/

theorem good_asked (hl : Lawful pol canon keyOf h) {t : Table P} {s : List (Slot P)} (hi : Inv c keyOf h t s) {m : K → Option P} (hr : Repr' keyOf s m) {l : L}
    {ps : List P} (hg : Good pol keyOf s l (computeHash pol l) 0 ps) (hmem : m (canon l) ≠ none → ∃ p ∈ ps, keyOf p = canon l) :
    AskedFor canon keyOf h m l (.hash l :: ps.map (.isMatch l)) := by
  refine ⟨ps, rfl, ?_, hg.nodup, ?_, hmem⟩
  · intro p hp
    obtain ⟨j, e, -, -, h1, h2, h3⟩ := hg.at_ p hp
    refine ⟨(hr _ _).2 ⟨⟨_, e, h1, h3⟩, rfl⟩, mix_alike ?_⟩
    rw [← hi.sinv.hashes _ _ _ h1 h3, h2, hash_of_lookup hl]
  · intro p hp hk
    have := hg.no p hp
    rw [(hl.match_iff l p).2 hk.symm] at this
    cases this

theorem computeHashC_eq {S : Type} {cp : PolicyC L P S} {next : S → Call L P → S} (ha : Answers cp pol next) (l : L) (st : S) :
    computeHashC cp l st = .ok (computeHash pol l, next st (.hash l)) := by
  simp only [computeHashC, ha.hash, bind, Except.bind, computeHash]

theorem find_calls (hl : Lawful pol canon keyOf h) {t : Table P} {s : List (Slot P)} (hi : Inv c keyOf h t s) {m : K → Option P} (hr : Repr' keyOf s m) (l : L) :
    ∃ (i : Nat) (calls : List (Call L P)), find pol t l = .ok i ∧ AskedFor canon keyOf h m l calls ∧
      ∀ (S : Type) (cp : PolicyC L P S) (next : S → Call L P → S), Answers cp pol next → ∀ st : S, findC cp t l st = .ok (i, calls.foldl next st) := by
  obtain ⟨i, e, hf, he, hcase⟩ := find_spec hl hi.sinv hi.tbl hi.cap hi.free l
  obtain ⟨k, hk31, hk⟩ := hi.sinv.pow
  have hf' := hf
  simp only [find, probulatorCheck_ok (hi.cap.trans hk) hk31, bind, Except.bind] at hf'
  have h0 : computeHash pol l + BitVec.ofNat 32 0 = computeHash pol l := by simp
  obtain ⟨ps, hg, hmem, hrun⟩ := lookupLoop_calls (pol := pol) hi l (computeHash pol l) s.length 0 i (by omega) (by rw [h0, ← hi.cap]; exact hf')
  refine ⟨i, .hash l :: ps.map (.isMatch l), hf, good_asked hl hi hr hg ?_, ?_⟩
  · intro hne
    rcases hcase with ⟨-, p, hp, hk⟩ | ⟨-, habs⟩
    · exact ⟨p, hmem e p he hp, hk⟩
    · exact absurd (repr_none hr habs) hne
  · intro S cp next ha st
    simp only [findC, computeHashC_eq ha, probulatorCheck_ok (hi.cap.trans hk) hk31, bind, Except.bind]
    have := hrun S cp next ha (next st (.hash l))
    rw [h0, ← hi.cap] at this
    exact this

theorem findForAdd_calls (hl : Lawful pol canon keyOf h) {t : Table P} {s : List (Slot P)} (hi : Inv c keyOf h t s) {m : K → Option P} (hr : Repr' keyOf s m)
    (l : L) : ∃ (i : Insert) (calls : List (Call L P)), findForAdd pol t l = .ok i ∧ AskedFor canon keyOf h m l calls ∧
      ∀ (S : Type) (cp : PolicyC L P S) (next : S → Call L P → S), Answers cp pol next → ∀ st : S, findForAddC cp t l st = .ok (i, calls.foldl next st) := by
  obtain ⟨i, e, hf, he, hcase⟩ := findForAdd_spec hl hi.sinv hi.tbl hi.cap hi.free l
  obtain ⟨k, hk31, hk⟩ := hi.sinv.pow
  have hf' := hf
  have h0 : computeHash pol l + BitVec.ofNat 32 0 = computeHash pol l := by simp
  simp only [findForAdd, probulatorCheck_ok (hi.cap.trans hk) hk31, bind, Except.bind] at hf'
  split at hf'
  · cases hf'
  · rename_i r hloop
    obtain ⟨ps, hg, hmem, hrun⟩ := lookupForAddLoop_calls (pol := pol) hi l (computeHash pol l) s.length 0 none r (by omega) (by rw [h0, ← hi.cap]; exact hloop)
    obtain ⟨r1, r2⟩ := r
    simp only at hf' hrun
    split at hf'
    · cases hf'
    · rename_i e' hload
      refine ⟨_, .hash l :: ps.map (.isMatch l), hf, good_asked hl hi hr hg ?_, ?_⟩
      · intro hne
        rcases hcase with ⟨hlv, p, hp, hkey⟩ | ⟨-, habs, -⟩
        · have : r1 = i := by
            have hload' := hload
            unfold Table.load at hload'
            simp only [hi.tbl] at hload'
            split at hf'
            · rename_i hlv' hr2
              simp only [Except.ok.injEq, Insert.mk.injEq, and_true] at hf'
              subst hf'
              -- the entry found is the first removed one, which is not live
              exfalso
              obtain ⟨mm, e0, hm0, he0, hhit, hb⟩ := path_stop (pol := pol) s l hi.free
              obtain ⟨fr', hrun', hfr'⟩ := lookupForAddLoop_spec pol l hi.tbl hi.cap hk hk31 hi.sinv.wf (computeHash pol l) mm hm0 e0 he0 hhit hb s.length 0 none
                (by omega) (by omega) (by simp)
              rw [h0, ← hi.cap, hloop] at hrun'
              simp only [Except.ok.injEq, Prod.mk.injEq] at hrun'
              obtain ⟨j', e'', -, -, hx, hrm⟩ := hfr' _ hrun'.2.symm
              rw [he] at hx; cases hx
              rw [removed_not_live hrm] at hlv; cases hlv
            · simp only [Except.ok.injEq, Insert.mk.injEq, and_true] at hf'
              exact hf'
          subst this
          exact ⟨p, hmem e p he hp, hkey⟩
        · exact absurd (repr_none hr habs) hne
      · intro S cp next ha st
        have := hrun S cp next ha (next st (.hash l))
        rw [h0, ← hi.cap] at this
        simp only [findForAddC, computeHashC_eq ha, probulatorCheck_ok (hi.cap.trans hk) hk31, bind, Except.bind, this, hload]
        rcases hlv : e'.isLive with _ | _ <;> rcases r2 with _ | f <;> simp only [hlv] at hf' <;> cases hf' <;> rfl

/-- The other hash of a pair that is not told apart. -/
def partner (w : BitVec 32) : BitVec 32 :=
  if w = 0 then 0x28997912#32 else if w = 0x28997912#32 then 0 else if w = 0x144CBC89#32 then 0x3CE6359B#32 else 0x144CBC89#32

theorem alike_two {x w : BitVec 32} (hx : Alike x w) : x = w ∨ x = partner w := by
  rcases hx with hx | ⟨rfl, rfl⟩ | ⟨rfl, rfl⟩ | ⟨rfl, rfl⟩ | ⟨rfl, rfl⟩
  · exact .inl hx
  all_goals exact .inr (by decide)

/-! ### C121 -/

theorem exec_calls (hl : Lawful pol canon keyOf h) {t : Table P} {s : List (Slot P)} (hi : Inv c keyOf h t s) {m : K → Option P} (hr : Repr' keyOf s m)
    (op : Op L P) : ∃ calls, Asked canon keyOf h m op calls ∧ ∀ (S : Type) (cp : PolicyC L P S) (next : S → Call L P → S), Answers cp pol next → ∀ st : S,
      execC c cp t st op = withState (calls.foldl next st) (exec c pol t op) := by
  cases op with
  | find l =>
    obtain ⟨i, calls, hf, hask, hrun⟩ := find_calls hl hi hr l
    refine ⟨calls, hask, fun S cp next ha st => ?_⟩
    simp only [execC, exec, hrun S cp next ha st, hf, bind, Except.bind]
    cases t.found i with
    | error f => rfl
    | ok b => cases b with
      | false => rfl
      | true => simp only [if_true]; cases deref t i <;> rfl
  | add l p memOk =>
    obtain ⟨i, calls, hf, hask, hrun⟩ := findForAdd_calls hl hi hr l
    refine ⟨calls, hask, fun S cp next ha st => ?_⟩
    simp only [execC, exec, hrun S cp next ha st, hf, bind, Except.bind]
    cases t.found i.entry with
    | error f => rfl
    | ok b => cases b with
      | true => simp only [if_true]; cases deref t i.entry <;> rfl
      | false =>
        simp only [Bool.false_eq_true, if_false]
        cases add c t i p memOk with
        | error f => rfl
        | ok v =>
          obtain ⟨b, t', i'⟩ := v
          cases b with
          | false => rfl
          | true => simp only [if_true]; cases deref t' i'.entry <;> rfl
  | assign l p =>
    obtain ⟨i, calls, hf, hask, hrun⟩ := find_calls hl hi hr l
    refine ⟨calls, hask, fun S cp next ha st => ?_⟩
    simp only [execC, exec, hrun S cp next ha st, hf, bind, Except.bind]
    cases t.found i with
    | error f => rfl
    | ok b => cases b with
      | false => rfl
      | true =>
        simp only [if_true]
        cases deref t i with
        | error f => rfl
        | ok q => simp only; cases assign t i p <;> rfl
  | removeIfExists l =>
    obtain ⟨i, calls, hf, hask, hrun⟩ := find_calls hl hi hr l
    refine ⟨calls, hask, fun S cp next ha st => ?_⟩
    simp only [execC, exec, removeIfExistsC, removeIfExists, hrun S cp next ha st, hf, bind, Except.bind]
    cases t.found i with
    | error f => rfl
    | ok b => cases b with
      | false => rfl
      | true => simp only [if_true]; cases remove t i <;> rfl
  | clear => exact ⟨[], rfl, fun S cp next ha st => by simp only [execC, exec, bind, Except.bind]; cases clear t <;> rfl⟩
  | checkDensity b =>
    exact ⟨[], rfl, fun S cp next ha st => by simp only [execC, exec, bind, Except.bind]; cases checkDensity c t b <;> rfl⟩
  | sweep pick => exact ⟨[], rfl, fun S cp next ha st => by simp only [execC, exec, bind, Except.bind]; cases sweep pick t <;> rfl⟩
  | elements => exact ⟨[], rfl, fun S cp next ha st => rfl⟩
  | move =>
    exact ⟨[], rfl, fun S cp next ha st => by simp only [execC, exec, bind, Except.bind]; cases destroy (moveFrom t).2 <;> rfl⟩

/-- **C121 (questions).** After any history, holding the map `m`, every operation makes the calls that `Asked` allows and no others, and has the result it has with a policy
that is just a pair of functions: the calls are the same for every policy object that gives the same answers, whatever it keeps in its state. -/
theorem C121_questions (hl : Lawful pol canon keyOf h) {cap : Nat} {t0 : Table P} (hst : Started c cap t0) {ops : List (Op L P)}
    (hok : ∀ op ∈ ops, op.Ok canon keyOf) {t : Table P} {outs : List (Out P)} (hrun : run c pol t0 ops = .ok (t, outs)) :
    ∃ m, Steps canon keyOf (fun _ => none) ops outs m ∧ ∀ op : Op L P, ∃ calls, Asked canon keyOf h m op calls ∧
      ∀ (S : Type) (cp : PolicyC L P S) (next : S → Call L P → S), Answers cp pol next → ∀ st : S,
        execC c cp t st op = withState (calls.foldl next st) (exec c pol t op) := by
  obtain ⟨s, m, hi, hr, hs, _⟩ := reached hl hst hok hrun
  exact ⟨m, hs, fun op => exec_calls hl hi hr op⟩

omit [DecidableEq K] in
/-- **C121 (few).** If different keys have different hashes, a lookup asks about at most two payloads; about at most one, unless the key's hash is one of four values. -/
theorem C121_few {m : K → Option P} {l : L} {calls : List (Call L P)} (hinj : ∀ a b, h a = h b → a = b)
    (hask : AskedFor canon keyOf h m l calls) :
    calls.countP Call.isQuestion ≤ 2 ∧
    (h (canon l) ∉ [0#32, 0x28997912#32, 0x144CBC89#32, 0x3CE6359B#32] → calls.countP Call.isQuestion ≤ 1) := by
  obtain ⟨ps, rfl, h1, h2, -, -⟩ := hask
  have hlen : ((Call.hash l :: ps.map (Call.isMatch l) : List (Call L P)).countP Call.isQuestion) = ps.length := by
    rw [List.countP_cons]
    have : (ps.map (Call.isMatch l : P → Call L P)).countP Call.isQuestion = ps.length := by
      rw [List.countP_map]; exact List.countP_eq_length.2 (fun _ _ => rfl)
    rw [this]; rfl
  rw [hlen]
  -- three different payloads would have three different hashes, all like that of the key
  have hal : ∀ p ∈ ps, Alike (h (keyOf p)) (h (canon l)) := fun p hp => (h1 p hp).2
  constructor
  · match ps, h2, hal with
    | [], _, _ => simp
    | [_], _, _ => simp
    | [_, _], _, _ => simp
    | p :: q :: r :: rest, h2, hal =>
      exfalso
      simp only [List.map_cons, List.nodup_cons, List.mem_cons, not_or] at h2
      have e1 : h (keyOf p) ≠ h (keyOf q) := fun he => h2.1.1 (hinj _ _ he)
      have e2 : h (keyOf p) ≠ h (keyOf r) := fun he => h2.1.2.1 (hinj _ _ he)
      have e3 : h (keyOf q) ≠ h (keyOf r) := fun he => h2.2.1.1 (hinj _ _ he)
      rcases alike_two (hal p (by simp)) with a1 | a1 <;> rcases alike_two (hal q (by simp)) with a2 | a2 <;>
        rcases alike_two (hal r (by simp)) with a3 | a3 <;>
        first | exact e1 (a1.trans a2.symm) | exact e2 (a1.trans a3.symm) | exact e3 (a2.trans a3.symm)
  · intro hn
    match ps, h2, hal with
    | [], _, _ => simp
    | [_], _, _ => simp
    | p :: q :: rest, h2, hal =>
      exfalso
      simp only [List.map_cons, List.nodup_cons, List.mem_cons, not_or] at h2
      have e1 : h (keyOf p) ≠ h (keyOf q) := fun he => h2.1.1 (hinj _ _ he)
      have a1 := hal p (by simp)
      have a2 := hal q (by simp)
      simp only [List.mem_cons, List.not_mem_nil, or_false, not_or] at hn
      obtain ⟨n1, n2, n3, n4⟩ := hn
      have key : ∀ x, Alike x (h (canon l)) → x = h (canon l) := by
        intro x hx
        rcases hx with hx | ⟨-, hx⟩ | ⟨hx, -⟩ | ⟨-, hx⟩ | ⟨hx, -⟩
        · exact hx
        · exact absurd hx n2
        · exact absurd hx n1
        · exact absurd hx n4
        · exact absurd hx n3
      exact e1 ((key _ a1).trans (key _ a2).symm)

/-! ### Non-vacuity -/

/-- A policy object that writes down what it is asked. -/
def logged (pol : Policy L P) : PolicyC L P (List (Call L P)) where
  hash l s := .ok (pol.hash l, s ++ [.hash l])
  isMatch l p s := .ok (pol.isMatch l p, s ++ [.isMatch l p])

/-- It gives the answers of the policy. -/
example (pol : Policy L P) : Answers (logged pol) pol (fun s x => s ++ [x]) := ⟨fun _ _ => rfl, fun _ _ _ => rfl⟩

/-- So what it has written down after an operation are the calls of `C121_questions`. -/
example (l : L) (ps : List P) : (Call.hash l :: ps.map (Call.isMatch l)).foldl (fun s x => s ++ [x]) ([] : List (Call L P)) =
    Call.hash l :: ps.map (Call.isMatch l) := by
  have : ∀ (xs acc : List (Call L P)), xs.foldl (fun s x => s ++ [x]) acc = acc ++ xs := by
    intro xs
    induction xs with
    | nil => simp
    | cons x xs ih => intro acc; rw [List.foldl_cons, ih]; simp
  rw [this]; rfl

/-- Five keys with one hash, one of them removed again: a lookup of the last asks about the three before it and about itself; a lookup of an absent key with the
same hash asks about all four. -/
example : (match init ⟨16, false⟩ (Table.new : Table (BitVec 32 × Nat)) 0 true with
    | .ok (_, t0) => (match run ⟨16, false⟩ collidePolicy t0 ((List.range 5).map (fun i => .add (BitVec.ofNat 32 i) (BitVec.ofNat 32 i, i) true) ++
        [.removeIfExists 1#32]) with
      | .ok (t, _) => (match execC ⟨16, false⟩ (logged collidePolicy) t [] (.find 4#32), execC ⟨16, false⟩ (logged collidePolicy) t [] (.add 9#32 (9#32, 9) true) with
        | .ok (_, _, s), .ok (_, _, s') => some (s.map (fun | .hash _ => 100 | .isMatch _ p => p.2), s'.map (fun | .hash _ => 100 | .isMatch _ p => p.2))
        | _, _ => none)
      | .error _ => none)
    | .error _ => none) = some ([100, 0, 2, 3, 4], [100, 0, 2, 3, 4]) := by decide +kernel

/-- Two keys with different hashes that the table cannot tell apart: the lookup of one asks about both. -/
example : Alike 0#32 0x28997912#32 := .inr (.inl ⟨rfl, rfl⟩)
example : (match init ⟨16, false⟩ (Table.new : Table (BitVec 32 × Nat)) 0 true with
    | .ok (_, t0) => (match run ⟨16, false⟩ { collidePolicy with hash := id } t0 [.add 0#32 (0#32, 1) true, .add 0x28997912#32 (0x28997912#32, 2) true] with
      | .ok (t, _) => (match execC ⟨16, false⟩ (logged { collidePolicy with hash := id }) t [] (.find 0x28997912#32) with
        | .ok (_, _, s) => some (s.map (fun | .hash _ => 100 | .isMatch _ p => p.2))
        | _ => none)
      | .error _ => none)
    | .error _ => none) = some [100, 1, 2] := by decide +kernel

end Verif.HashTable
