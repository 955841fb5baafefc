import Verif.AtomicRef.Spec
/-!
# Invariant of `AtomicRef`
-/
namespace Verif.AtomicRef
open Verif

set_option linter.unusedSimpArgs false
set_option linter.unusedSectionVars false

variable {T : Type} [DecidableEq T]

theorem untagged_tagged (p : Word) : untagged (tagged p) = untagged p := by
  unfold untagged tagged
  ext i hi
  simp only [BitVec.getElem_and, BitVec.getElem_or, BitVec.getElem_not]
  cases (1#64)[i] <;> simp

theorem untagged_idem (p : Word) : untagged (untagged p) = untagged p := by
  unfold untagged
  ext i hi
  simp only [BitVec.getElem_and, BitVec.getElem_or, BitVec.getElem_not]
  cases (1#64)[i] <;> simp

theorem tagged_tagged (p : Word) : tagged (tagged p) = tagged p := by
  unfold tagged
  ext i hi
  simp only [BitVec.getElem_and, BitVec.getElem_or, BitVec.getElem_not]
  cases (1#64)[i] <;> simp

theorem aligned_untagged {p : Word} (h : p &&& 7#64 = 0) : untagged p = p := by
  have h0 : p[0] = false := by
    have := congrArg (fun x : Word => x[0]) h
    simpa using this
  unfold untagged
  ext i hi
  simp only [BitVec.getElem_and, BitVec.getElem_not]
  rcases Nat.eq_zero_or_pos i with rfl | hp
  · rw [h0]; simp
  · have : (1#64)[i] = false := by simp; omega
    simp [this]

theorem tagged_ne {p q : Word} (h : untagged q = q) : tagged p ≠ q := by
  intro e
  have h1 : (tagged p)[0] = true := by simp [tagged]
  have h2 : (untagged q)[0] = false := by simp [untagged]
  rw [h, ← e, h1] at h2
  cases h2

/-- The lock is held. -/
def PC.crit : PC → Bool
  | .add .. | .chk1 .. | .chk2 .. | .store .. => true
  | _ => false

/-- The object the thread is about to delete. -/
def PC.dels : PC → Option Word
  | .relCheck a | .relDelete a => some a
  | _ => none

def Needs (s : State T) (t : T) : Job → Prop
  | .get => True
  | .set n => n = 0 ∨ (t, n) ∈ s.tok

def Ok (s : State T) (t : T) : PC → Prop
  | .idle => True
  | .load j => Needs s t j
  | .cas j old => untagged old = old ∧ Needs s t j
  | .add j v => s.word = tagged v ∧ untagged v = v ∧ Needs s t j
  | .chk1 j v => s.word = tagged v ∧ untagged v = v ∧ (j.newval v = 0 ∨ (t, j.newval v) ∈ s.tok)
  | .chk2 j v w => s.word = tagged v ∧ untagged v = v ∧ (j.newval v = 0 ∨ (t, j.newval v) ∈ s.tok) ∧ w = tagged v
  | .store j v => s.word = tagged v ∧ untagged v = v ∧ (j.newval v = 0 ∨ (t, j.newval v) ∈ s.tok)
  | .rel a => (t, a) ∈ s.tok
  | .relCheck a => s.alive a = true ∧ refs s a = 0
  | .relDelete a => s.alive a = true ∧ refs s a = 0

structure Inv (s : State T) : Prop where
  al : ∀ a, s.alive a = true → a ≠ 0 ∧ a &&& 7#64 = 0
  cnt : ∀ a, s.alive a = true → s.cnt a = refs s a
  live : ∀ a, a ≠ 0 → 0 < refs s a → s.alive a = true
  tokz : ∀ t a, (t, a) ∈ s.tok → a ≠ 0
  ok : ∀ t, Ok s t (s.pc t)
  critu : ∀ t u, (s.pc t).crit = true → (s.pc u).crit = true → t = u
  lock : (∀ t, (s.pc t).crit = false) → untagged s.word = s.word
  ends : ∀ a, s.alive a = true → refs s a = 0 → ∃ t, (s.pc t).dels = some a
  delu : ∀ t u a, (s.pc t).dels = some a → (s.pc u).dels = some a → t = u
  reg : Register s.log
  cur : untagged s.word = current s.log
  usem : ∀ t, (s.pc t).uses = true → s.made = true
  unw : s.made = false → s.word = 0

theorem refs_tok {s : State T} {t : T} {a : Word} (h : (t, a) ∈ s.tok) : 0 < refs s a := by
  have : 0 < s.tok.countP (fun p => decide (p.2 = a)) := List.countP_pos_iff.2 ⟨_, h, by simp⟩
  unfold refs; omega

theorem Inv.alive_tok {s : State T} (hi : Inv s) {t : T} {a : Word} (h : (t, a) ∈ s.tok) : s.alive a = true :=
  hi.live a (hi.tokz t a h) (refs_tok h)

theorem inv_start : Inv (State.start : State T) := by
  refine ⟨by simp [State.start], by simp [State.start], ?_, by simp [State.start], fun _ => trivial, ?_, ?_, by simp [State.start],
    ?_, trivial, ?_, by simp [State.start, PC.uses], by simp [State.start]⟩
  · intro a h0 h
    by_cases h1 : untagged 0 = a
    · exact (h0 (by rw [← h1]; simp [untagged])).elim
    · have : refs (State.start : State T) a = 0 := by
        show 0 + (if untagged 0 = a then 1 else 0) = 0
        rw [if_neg h1]
      omega
  · intro t u h; simp [State.start, PC.crit] at h
  · intro _; simp [State.start, untagged]
  · intro t u a h; simp [State.start, PC.dels] at h
  · simp [State.start, untagged, current]

theorem Ok.congr {s s' : State T} {t : T} (hw : s'.word = s.word) (ha : s'.alive = s.alive)
    (ht : s'.tok = s.tok) {p : PC} (h : Ok s t p) : Ok s' t p := by
  have hr : ∀ a, refs s' a = refs s a := by intro a; simp [refs, hw, ht]
  have hn : ∀ j, Needs s t j → Needs s' t j := by
    intro j hj; cases j with
    | get => trivial
    | set n => simpa [Needs, ht] using hj
  cases p with
  | idle => trivial
  | load j => exact hn _ h
  | cas j old => exact ⟨h.1, hn _ h.2⟩
  | add j v => exact ⟨by rw [hw]; exact h.1, h.2.1, hn _ h.2.2⟩
  | chk1 j v => exact ⟨by rw [hw]; exact h.1, h.2.1, by rw [ht]; exact h.2.2⟩
  | chk2 j v w => exact ⟨by rw [hw]; exact h.1, h.2.1, by rw [ht]; exact h.2.2.1, h.2.2.2⟩
  | store j v => exact ⟨by rw [hw]; exact h.1, h.2.1, by rw [ht]; exact h.2.2⟩
  | rel a => show (t, a) ∈ s'.tok; rw [ht]; exact h
  | relCheck a => exact ⟨by rw [ha]; exact h.1, by rw [hr]; exact h.2⟩
  | relDelete a => exact ⟨by rw [ha]; exact h.1, by rw [hr]; exact h.2⟩

/-- A step that only moves the program counter. -/
theorem inv_quiet {s : State T} (hi : Inv s) (t : T) (p : PC) (hp : Ok s t p) (hc : p.crit = (s.pc t).crit)
    (hd : p.dels = (s.pc t).dels) (hu : p.uses = true → s.made = true) : Inv (setPc s t p) := by
  have hcr : ∀ u, ((setPc s t p).pc u).crit = (s.pc u).crit := by
    intro u; simp only [setPc]; split
    · rename_i h; rw [hc, h]
    · rfl
  have hdl : ∀ u, ((setPc s t p).pc u).dels = (s.pc u).dels := by
    intro u; simp only [setPc]; split
    · rename_i h; rw [hd, h]
    · rfl
  refine ⟨hi.al, hi.cnt, hi.live, hi.tokz, ?_, ?_, ?_, ?_, ?_, hi.reg, hi.cur, ?_, hi.unw⟩
  · intro u
    refine Ok.congr (s := s) rfl rfl rfl ?_
    simp only [setPc]; split
    · rename_i h; subst h; exact hp
    · exact hi.ok u
  · intro u w h1 h2; rw [hcr] at h1 h2; exact hi.critu u w h1 h2
  · intro h; exact hi.lock (fun u => by rw [← hcr]; exact h u)
  · intro a h1 h2
    obtain ⟨u, hu⟩ := hi.ends a h1 h2
    exact ⟨u, by rw [hdl]; exact hu⟩
  · intro u w a h1 h2; rw [hdl] at h1 h2; exact hi.delu u w a h1 h2
  · intro u h
    simp only [setPc] at h
    split at h
    · exact hu h
    · exact hi.usem u h

/-- What another thread needs survives when `t` gains or loses references of its own. -/
theorem Ok.other {s s' : State T} {u : T} {p : PC} (h : Ok s u p) (hw : p.crit = true → s'.word = s.word)
    (ht : ∀ a, (u, a) ∈ s.tok → (u, a) ∈ s'.tok)
    (hd : ∀ a, p.dels = some a → s.alive a = true → refs s a = 0 → s'.alive a = true ∧ refs s' a = 0) : Ok s' u p := by
  have hn : ∀ j, Needs s u j → Needs s' u j := by
    intro j hj; cases j with
    | get => trivial
    | set n => exact hj.imp id (ht n)
  cases p with
  | idle => trivial
  | load j => exact hn _ h
  | cas j old => exact ⟨h.1, hn _ h.2⟩
  | add j v => exact ⟨by rw [hw rfl]; exact h.1, h.2.1, hn _ h.2.2⟩
  | chk1 j v => exact ⟨by rw [hw rfl]; exact h.1, h.2.1, h.2.2.imp id (ht _)⟩
  | chk2 j v w => exact ⟨by rw [hw rfl]; exact h.1, h.2.1, h.2.2.1.imp id (ht _), h.2.2.2⟩
  | store j v => exact ⟨by rw [hw rfl]; exact h.1, h.2.1, h.2.2.imp id (ht _)⟩
  | rel a => exact ht a h
  | relCheck a => exact hd a rfl h.1 h.2
  | relDelete a => exact hd a rfl h.1 h.2

theorem refs_push {s s' : State T} {t : T} {b : Word} (hw : untagged s'.word = untagged s.word) (ht : s'.tok = (t, b) :: s.tok)
    (a : Word) : refs s' a = refs s a + if b = a then 1 else 0 := by
  simp only [refs, hw, ht, List.countP_cons]
  by_cases h : b = a <;> simp [h] ; omega

theorem refs_pop {s s' : State T} {t : T} {b : Word} (hw : untagged s'.word = untagged s.word) (ht : s'.tok = s.tok.erase (t, b))
    (hm : (t, b) ∈ s.tok) (a : Word) : refs s a = refs s' a + if b = a then 1 else 0 := by
  simp only [refs, hw, ht, (List.perm_cons_erase hm).countP_eq, List.countP_cons]
  by_cases h : b = a <;> simp [h] ; omega

theorem mem_erase_other {l : List (T × Word)} {t u : T} {a b : Word} (h : (u, a) ∈ l) (hne : u ≠ t) :
    (u, a) ∈ l.erase (t, b) :=
  (List.mem_erase_of_ne (fun e => hne (by injection e))).2 h

/-- Taking a reference on an object that has one. -/
theorem inv_incr {s : State T} (hi : Inv s) (t : T) {b : Word} (hb : b ≠ 0) (hr : 0 < refs s b) :
    ∃ s', incr s t b = .ok s' ∧ Inv s' ∧ s'.pc = s.pc ∧ s'.word = s.word ∧ s'.tok = (t, b) :: s.tok := by
  have ha := hi.live b hb hr
  refine ⟨{ s with cnt := fun c => if c = b then s.cnt b + 1 else s.cnt c, tok := (t, b) :: s.tok },
    by rw [incr, if_neg (by simp [ha])], ?_, rfl, rfl, rfl⟩
  have hrf := refs_push (s := s) (s' := { s with cnt := fun c => if c = b then s.cnt b + 1 else s.cnt c, tok := (t, b) :: s.tok })
    rfl rfl
  refine ⟨hi.al, ?_, ?_, ?_, ?_, hi.critu, hi.lock, ?_, hi.delu, hi.reg, hi.cur, hi.usem, hi.unw⟩
  · intro a h
    rw [hrf]
    show (if a = b then s.cnt b + 1 else s.cnt a) = _
    by_cases hab : a = b
    · subst hab; simp [hi.cnt a h]
    · simp [hab, Ne.symm hab, hi.cnt a h]
  · intro a h0 h
    rw [hrf] at h
    by_cases hab : b = a
    · subst hab; exact ha
    · simp only [hab, if_false, Nat.add_zero] at h
      exact hi.live a h0 h
  · intro u a h
    rcases List.mem_cons.1 h with h | h
    · injection h with _ h; subst h; exact hb
    · exact hi.tokz u a h
  · intro u
    refine (hi.ok u).other (fun _ => rfl) (fun a h => List.mem_cons_of_mem _ h) ?_
    intro a _ h1 h2
    refine ⟨h1, ?_⟩
    rw [hrf, h2]
    have : b ≠ a := by rintro rfl; omega
    simp [this]
  · intro a h1 h2
    rw [hrf] at h2
    exact hi.ends a h1 (by omega)

/-- A step of `t` that changes no object and moves references without changing how many each object has. -/
theorem inv_move {s s' : State T} (hi : Inv s) (t : T) (p : PC)
    (hpc : s'.pc = fun u => if u = t then p else s.pc u) (hal : s'.alive = s.alive) (hcn : s'.cnt = s.cnt)
    (hrf : ∀ a, a ≠ 0 → refs s' a = refs s a) (htz : ∀ u a, (u, a) ∈ s'.tok → a ≠ 0)
    (hto : ∀ u a, u ≠ t → (u, a) ∈ s.tok → (u, a) ∈ s'.tok)
    (hok : Ok s' t p) (hw : ∀ u, u ≠ t → (s.pc u).crit = true → s'.word = s.word)
    (hcr : p.crit = true → ∀ u, u ≠ t → (s.pc u).crit = false)
    (hlk : p.crit = false → (∀ u, u ≠ t → (s.pc u).crit = false) → untagged s'.word = s'.word)
    (hd : p.dels = (s.pc t).dels) (hreg : Register s'.log) (hcur : untagged s'.word = current s'.log)
    (hum : ∀ u, (s'.pc u).uses = true → s'.made = true) (hun : s'.made = false → s'.word = 0) : Inv s' := by
  have hdl : ∀ u, (s'.pc u).dels = (s.pc u).dels := by
    intro u; rw [hpc]; by_cases h : u = t <;> simp [h, hd]
  have hne : ∀ u, u ≠ t → s'.pc u = s.pc u := by intro u h; rw [hpc]; simp [h]
  have heq : s'.pc t = p := by rw [hpc]; simp
  refine ⟨?_, ?_, ?_, htz, ?_, ?_, ?_, ?_, ?_, hreg, hcur, hum, hun⟩
  · intro a h; rw [hal] at h; exact hi.al a h
  · intro a h; rw [hal] at h; rw [hcn, hrf a (hi.al a h).1]; exact hi.cnt a h
  · intro a h0 h; rw [hal]; rw [hrf a h0] at h; exact hi.live a h0 h
  · intro u
    by_cases h : u = t
    · subst h; rw [heq]; exact hok
    · rw [hne u h]
      refine (hi.ok u).other (hw u h) (fun a => hto u a h) ?_
      intro a _ h1 h2
      exact ⟨by rw [hal]; exact h1, by rw [hrf a (hi.al a h1).1]; exact h2⟩
  · intro u w h1 h2
    by_cases hu : u = t
    · by_cases hw' : w = t
      · rw [hu, hw']
      · subst hu; rw [heq] at h1; rw [hne w hw'] at h2; rw [hcr h1 w hw'] at h2; cases h2
    · by_cases hw' : w = t
      · subst hw'; rw [heq] at h2; rw [hne u hu] at h1; rw [hcr h2 u hu] at h1; cases h1
      · rw [hne u hu] at h1; rw [hne w hw'] at h2; exact hi.critu u w h1 h2
  · intro h
    exact hlk (by have := h t; rwa [heq] at this) (fun u hu => by have := h u; rwa [hne u hu] at this)
  · intro a h1 h2
    rw [hal] at h1; rw [hrf a (hi.al a h1).1] at h2
    obtain ⟨u, hu⟩ := hi.ends a h1 h2
    exact ⟨u, by rw [hdl]; exact hu⟩
  · intro u w a h1 h2; rw [hdl] at h1 h2; exact hi.delu u w a h1 h2

theorem uses_set {s : State T} (hi : Inv s) {t : T} {p : PC} (hp : (s.pc t).uses = true) (u : T)
    (_ : (if u = t then p else s.pc u).uses = true) : s.made = true := hi.usem t hp

theorem unw_set {s : State T} (hi : Inv s) {t : T} (hp : (s.pc t).uses = true) {w : Word} (h : s.made = false) : w = 0 := by
  rw [hi.usem t hp] at h; cases h

theorem untagged_zero : untagged 0 = 0 := by simp [untagged]

theorem setPc_self (s : State T) (t : T) : (fun u => if u = t then s.pc t else s.pc u) = s.pc := by
  funext u; by_cases h : u = t <;> simp [h]

theorem crit_other {s : State T} (hi : Inv s) {t : T} (h : (s.pc t).crit = true) (u : T) (hu : u ≠ t) : (s.pc u).crit = false := by
  cases hc : (s.pc u).crit with
  | false => rfl
  | true => exact (hu (hi.critu u t hc h)).elim

/-- No thread is in the critical section when the word is untagged. -/
theorem no_crit {s : State T} (hi : Inv s) (h : untagged s.word = s.word) (u : T) : (s.pc u).crit = false := by
  have ho := hi.ok u
  cases hp : s.pc u <;> rw [hp] at ho <;> simp only [PC.crit] <;>
    exact (tagged_ne h ho.1.symm).elim

theorem inv_cas {s : State T} (hi : Inv s) {t : T} {j : Job} {old : Word} (hp : s.pc t = .cas j old) (hw : s.word = old) :
    Inv (setPc { s with word := tagged old } t (.add j old)) := by
  have ho := hi.ok t
  rw [hp] at ho
  have hu : untagged s.word = s.word := by rw [hw]; exact ho.1
  have hwu : untagged (tagged old) = untagged s.word := by rw [untagged_tagged, hw]
  refine inv_move hi t (.add j old) rfl rfl rfl ?_ hi.tokz (fun _ _ _ h => h) ⟨rfl, ho.1, ?_⟩ ?_ ?_ ?_ ?_ hi.reg ?_
    (uses_set hi (t := t) (by rw [hp]; rfl)) (unw_set hi (t := t) (by rw [hp]; rfl))
  · intro a _; simp [refs, setPc, hwu]
  · have := ho.2; cases j <;> exact this
  · intro u _ h; rw [no_crit hi hu u] at h; cases h
  · intro _ u _; exact no_crit hi hu u
  · intro h; simp [PC.crit] at h
  · rw [hp]; rfl
  · show untagged (tagged old) = _; rw [hwu]; exact hi.cur

theorem inv_storeGet {s : State T} (hi : Inv s) {t : T} {v : Word} (hp : s.pc t = .store .get v) :
    Inv (setPc { s with word := v, log := .got t v :: s.log } t .idle) := by
  have ho := hi.ok t
  rw [hp] at ho
  have hc : (s.pc t).crit = true := by rw [hp]; rfl
  have hwu : untagged s.word = v := by rw [ho.1, untagged_tagged]; exact ho.2.1
  refine inv_move hi t .idle rfl rfl rfl ?_ hi.tokz (fun _ _ _ h => h) trivial ?_ ?_ ?_ ?_ ?_ ?_
    (uses_set hi (t := t) (by rw [hp]; rfl)) (unw_set hi (t := t) (by rw [hp]; rfl))
  · intro a _; simp [refs, setPc, hwu, ho.2.1]
  · intro u hu h; rw [crit_other hi hc u hu] at h; cases h
  · intro h; cases h
  · intro _ _; exact ho.2.1
  · rw [hp]; rfl
  · exact ⟨by rw [← hi.cur, hwu], hi.reg⟩
  · show untagged v = current s.log; rw [← hi.cur, hwu]; exact ho.2.1

theorem newval_untagged {s : State T} (hi : Inv s) {t : T} {n : Word} (h : n = 0 ∨ (t, n) ∈ s.tok) : untagged n = n := by
  rcases h with h | h
  · rw [h]; exact untagged_zero
  · exact aligned_untagged (hi.al n (hi.alive_tok h)).2

theorem inv_storeSet {s : State T} (hi : Inv s) {t : T} {n v : Word} (hp : s.pc t = .store (.set n) v) :
    ∃ s', cont s t (.store (.set n) v) = some (.ok s') ∧ Inv s' := by
  have ho := hi.ok t
  rw [hp] at ho
  obtain ⟨h1, h2, h3⟩ := ho
  change n = 0 ∨ (t, n) ∈ s.tok at h3
  have hc : (s.pc t).crit = true := by rw [hp]; rfl
  have hwu : untagged s.word = v := by rw [h1, untagged_tagged]; exact h2
  have hnu := newval_untagged hi h3
  have hcount : ∀ a, a ≠ 0 →
      s.tok.countP (fun p => decide (p.2 = a)) = (if n = 0 then s.tok else s.tok.erase (t, n)).countP (fun p => decide (p.2 = a))
        + if n = a then 1 else 0 := by
    intro a ha
    by_cases hn : n = 0
    · have : n ≠ a := by rw [hn]; exact ha.symm
      rw [if_pos hn, if_neg this, Nat.add_zero]
    · rw [if_neg hn, (List.perm_cons_erase (h3.resolve_left hn)).countP_eq, List.countP_cons]
      by_cases h : n = a <;> simp [h]
  have hsub : ∀ u a, (u, a) ∈ (if n = 0 then s.tok else s.tok.erase (t, n)) → (u, a) ∈ s.tok := by
    intro u a h
    split at h
    · exact h
    · exact List.mem_of_mem_erase h
  have hoth : ∀ u a, u ≠ t → (u, a) ∈ s.tok → (u, a) ∈ (if n = 0 then s.tok else s.tok.erase (t, n)) := by
    intro u a hu h
    split
    · exact h
    · exact mem_erase_other h hu
  have hw : ∀ u, u ≠ t → (s.pc u).crit = true → n = s.word := by
    intro u hu h; rw [crit_other hi hc u hu] at h; cases h
  by_cases hv : v = 0
  · refine ⟨setPc { s with word := n, log := .put t n :: s.log, tok := if n = 0 then s.tok else s.tok.erase (t, n) } t .idle,
      by simp only [cont]; rw [if_pos hv], ?_⟩
    refine inv_move hi t .idle rfl rfl rfl ?_ (fun u a h => hi.tokz u a (hsub u a h)) hoth trivial hw
      (by intro h; cases h) (fun _ _ => hnu) (by rw [hp]; rfl) hi.reg hnu
      (uses_set hi (t := t) (by rw [hp]; rfl)) (unw_set hi (t := t) (by rw [hp]; rfl))
    intro a ha
    have := hcount a ha
    simp only [refs, setPc, hwu, hnu]
    rw [if_neg (show v ≠ a by rw [hv]; exact ha.symm)]
    omega
  · refine ⟨setPc { s with word := n, log := .put t n :: s.log, tok := (t, v) :: if n = 0 then s.tok else s.tok.erase (t, n) } t (.rel v),
      by simp only [cont]; rw [if_neg hv], ?_⟩
    refine inv_move hi t (.rel v) rfl rfl rfl ?_ ?_ (fun u a hu h => List.mem_cons_of_mem _ (hoth u a hu h))
      (List.mem_cons_self) hw (by intro h; cases h) (fun _ _ => hnu) (by rw [hp]; rfl) hi.reg hnu
      (uses_set hi (t := t) (by rw [hp]; rfl)) (unw_set hi (t := t) (by rw [hp]; rfl))
    · intro a ha
      have := hcount a ha
      simp only [refs, setPc, hwu, hnu, List.countP_cons]
      have hd : (if decide (v = a) = true then 1 else 0) = if v = a then 1 else 0 := by
        by_cases h : v = a <;> simp [h]
      rw [hd]; omega
    · intro u a h
      rcases List.mem_cons.1 h with h | h
      · injection h with _ h; subst h; exact hv
      · exact hi.tokz u a (hsub u a h)

theorem inv_send {s : State T} (hi : Inv s) {t u : T} {a : Word} (hp : s.pc t = .idle) (hm : (t, a) ∈ s.tok) :
    Inv { s with tok := (u, a) :: s.tok.erase (t, a) } := by
  refine inv_move hi t .idle (by rw [← hp]; exact (setPc_self s t).symm) rfl rfl ?_ ?_
    (fun w b hw h => List.mem_cons_of_mem _ (mem_erase_other h hw)) trivial (fun _ _ _ => rfl) (by intro h; cases h) ?_
    (by rw [hp]) hi.reg hi.cur hi.usem hi.unw
  · intro b _
    simp only [refs, (List.perm_cons_erase hm).countP_eq, List.countP_cons]
  · intro w b h
    rcases List.mem_cons.1 h with h | h
    · injection h with _ h; subst h; exact hi.tokz t b hm
    · exact hi.tokz w b (List.mem_of_mem_erase h)
  · intro _ h
    refine hi.lock (fun w => ?_)
    by_cases hw : w = t
    · rw [hw, hp]; rfl
    · exact h w hw

theorem inv_create {s : State T} (hi : Inv s) {t : T} {a : Word} (ha : s.alive a = false) (h0 : a ≠ 0) (hu : a &&& 7#64 = 0) :
    Inv { s with alive := fun b => if b = a then true else s.alive b, cnt := fun b => if b = a then 1 else s.cnt b, tok := (t, a) :: s.tok } := by
  have hz : refs s a = 0 := by
    rcases Nat.eq_zero_or_pos (refs s a) with h | h
    · exact h
    · rw [hi.live a h0 h] at ha; cases ha
  have hrf : ∀ b, refs { s with alive := fun b => if b = a then true else s.alive b, cnt := fun b => if b = a then 1 else s.cnt b, tok := (t, a) :: s.tok } b
      = refs s b + if a = b then 1 else 0 := refs_push rfl rfl
  refine ⟨?_, ?_, ?_, ?_, ?_, hi.critu, hi.lock, ?_, hi.delu, hi.reg, hi.cur, hi.usem, hi.unw⟩
  · intro b h
    by_cases hb : b = a
    · subst hb; exact ⟨h0, hu⟩
    · exact hi.al b (by simpa [hb] using h)
  · intro b h
    rw [hrf]
    by_cases hb : b = a
    · subst hb; simp [hz]
    · have := hi.cnt b (by simpa [hb] using h)
      simpa [hb, Ne.symm hb] using this
  · intro b hb h
    by_cases hba : b = a
    · simp [hba]
    · rw [hrf, if_neg (Ne.symm hba)] at h
      simpa [hba] using hi.live b hb h
  · intro u b h
    rcases List.mem_cons.1 h with h | h
    · injection h with _ h; subst h; exact h0
    · exact hi.tokz u b h
  · intro u
    refine (hi.ok u).other (fun _ => rfl) (fun b h => List.mem_cons_of_mem _ h) ?_
    intro b _ h1 h2
    have hb : b ≠ a := by rintro rfl; rw [h1] at ha; cases ha
    exact ⟨by simpa [hb] using h1, by rw [hrf, h2]; simp [Ne.symm hb]⟩
  · intro b h1 h2
    rw [hrf] at h2
    by_cases hb : b = a
    · subst hb; simp at h2
    · exact hi.ends b (by simpa [hb] using h1) (by omega)

theorem inv_rel {s : State T} (hi : Inv s) {t : T} {a : Word} (hp : s.pc t = .rel a) :
    ∃ s', cont s t (.rel a) = some (.ok s') ∧ Inv s' := by
  have hm : (t, a) ∈ s.tok := by have := hi.ok t; rw [hp] at this; exact this
  have ha := hi.alive_tok hm
  have hcn := hi.cnt a ha
  refine ⟨setPc { s with cnt := fun b => if b = a then s.cnt a - 1 else s.cnt b, tok := s.tok.erase (t, a) } t
        (if s.cnt a = 1 then .relCheck a else .idle), by simp only [cont]; rw [if_neg (by simp [ha])], ?_⟩
  generalize hq : (if s.cnt a = 1 then PC.relCheck a else PC.idle) = q
  generalize hs' : setPc { s with cnt := fun b => if b = a then s.cnt a - 1 else s.cnt b, tok := s.tok.erase (t, a) } t q = s'
  have e1 : s'.word = s.word := by rw [← hs']; rfl
  have e2 : s'.tok = s.tok.erase (t, a) := by rw [← hs']; rfl
  have e3 : s'.alive = s.alive := by rw [← hs']; rfl
  have e4 : s'.cnt = fun b => if b = a then s.cnt a - 1 else s.cnt b := by rw [← hs']; rfl
  have e5 : s'.pc = fun u => if u = t then q else s.pc u := by rw [← hs']; rfl
  have e6 : s'.log = s.log := by rw [← hs']; rfl
  have e7 : s'.made = s.made := by rw [← hs']; rfl
  have hrf := refs_pop (s := s) (s' := s') (t := t) (b := a) (by rw [e1]) e2 hm
  have hra : refs s a = refs s' a + 1 := by rw [hrf a]; simp
  have hne : ∀ u, u ≠ t → s'.pc u = s.pc u := by intro u h; rw [e5]; simp [h]
  have heq : s'.pc t = q := by rw [e5]; simp
  have hqc : q.crit = false := by rw [← hq]; split <;> rfl
  have hcrit : ∀ u, (s'.pc u).crit = (s.pc u).crit := by
    intro u
    by_cases h : u = t
    · rw [h, heq, hqc, hp]; rfl
    · rw [hne u h]
  have hnd : ∀ u, (s.pc u).dels ≠ some a := by
    intro u h
    have ho := hi.ok u
    cases hpu : s.pc u <;> rw [hpu] at h ho <;> simp only [PC.dels] at h <;> try cases h
    · have := ho.2; omega
    · have := ho.2; omega
  refine ⟨?_, ?_, ?_, ?_, ?_, ?_, ?_, ?_, ?_, by rw [e6]; exact hi.reg, by rw [e6, e1]; exact hi.cur, ?_,
    by rw [e7, e1]; exact hi.unw⟩
  · rw [e3]; exact hi.al
  · intro b hb
    rw [e3] at hb
    rw [e4]
    have h1 := hi.cnt b hb
    have h2 := hrf b
    show (if b = a then s.cnt a - 1 else s.cnt b) = _
    by_cases h : b = a
    · subst h; simp; omega
    · simp [Ne.symm h] at h2; simp [h]; omega
  · intro b h0 h
    rw [e3]; exact hi.live b h0 (by have := hrf b; omega)
  · intro u b h
    rw [e2] at h
    exact hi.tokz u b (List.mem_of_mem_erase h)
  · intro u
    by_cases h : u = t
    · subst h
      rw [heq, ← hq]
      split
      · rename_i h1
        exact ⟨by rw [e3]; exact ha, by omega⟩
      · trivial
    · rw [hne u h]
      refine (hi.ok u).other (fun _ => e1) (fun b hb => by rw [e2]; exact mem_erase_other hb h) ?_
      intro b hb h1 h2
      exact ⟨by rw [e3]; exact h1, by have := hrf b; omega⟩
  · intro u w h1 h2; rw [hcrit] at h1 h2; exact hi.critu u w h1 h2
  · intro h; rw [e1]; exact hi.lock (fun u => by rw [← hcrit]; exact h u)
  · intro b h1 h2
    rw [e3] at h1
    by_cases h : b = a
    · subst h
      refine ⟨t, ?_⟩
      rw [heq, ← hq, if_pos (by omega)]
      rfl
    · have h3 := hrf b
      rw [if_neg (Ne.symm h)] at h3
      obtain ⟨u, hu⟩ := hi.ends b h1 (by omega)
      refine ⟨u, ?_⟩
      have : u ≠ t := by rintro rfl; rw [hp] at hu; cases hu
      rw [hne u this]; exact hu
  · intro u w b h1 h2
    by_cases hu : u = t
    · by_cases hw : w = t
      · rw [hu, hw]
      · rw [hne w hw] at h2
        rw [hu, heq, ← hq] at h1
        split at h1
        · injection h1 with h1; subst h1; exact (hnd w h2).elim
        · cases h1
    · by_cases hw : w = t
      · rw [hne u hu] at h1
        rw [hw, heq, ← hq] at h2
        split at h2
        · injection h2 with h2; subst h2; exact (hnd u h1).elim
        · cases h2
      · rw [hne u hu] at h1; rw [hne w hw] at h2
        exact hi.delu u w b h1 h2
  · intro u h
    rw [e7]
    by_cases hu : u = t
    · rw [hu, heq, ← hq] at h; split at h <;> cases h
    · rw [hne u hu] at h; exact hi.usem u h

theorem inv_make {s : State T} (hi : Inv s) {t : T} {n : Word} (hm : s.made = false) (hn : n = 0 ∨ (t, n) ∈ s.tok) :
    ∃ s', make s t n = .ok s' ∧ Inv s' := by
  have hw0 := hi.unw hm
  have hnu : ∀ u, (s.pc u).uses = false := by
    intro u
    cases h : (s.pc u).uses with
    | false => rfl
    | true => rw [hi.usem u h] at hm; cases hm
  have hnc : ∀ u, (s.pc u).crit = false := by
    intro u; have := hnu u
    cases hp : s.pc u <;> rw [hp] at this <;> first | rfl | cases this
  by_cases h0 : n = 0
  · refine ⟨{ s with made := true, word := n, log := .put t n :: s.log }, ?_, ?_⟩
    · simp only [make]; rw [if_neg (by rw [h0]; simp), if_pos h0]
    · refine ⟨hi.al, ?_, ?_, hi.tokz, ?_, hi.critu, ?_, ?_, hi.delu, hi.reg, ?_, fun _ _ => rfl, fun h => by cases h⟩
      · intro a h; have := hi.cnt a h; simpa [refs, h0, hw0] using this
      · intro a h1 h; exact hi.live a h1 (by simpa [refs, h0, hw0] using h)
      · intro u; refine (hi.ok u).other ?_ (fun _ h => h) ?_
        · intro h; rw [hnc u] at h; cases h
        · intro a _ h1 h2; exact ⟨h1, by simpa [refs, h0, hw0] using h2⟩
      · intro _; rw [h0]; exact untagged_zero
      · intro a h1 h2; exact hi.ends a h1 (by simpa [refs, h0, hw0] using h2)
      · rw [h0]; exact untagged_zero
  · have htk := hn.resolve_left h0
    have ha := hi.alive_tok htk
    have hal := (hi.al n ha).2
    have hun := aligned_untagged hal
    refine ⟨{ s with made := true, word := n, log := .put t n :: s.log, cnt := fun b => if b = n then s.cnt n + 1 else s.cnt b }, ?_, ?_⟩
    · simp only [make]; rw [if_neg (by simp [hal]), if_neg h0, if_neg (by simp [ha])]
    · have hrf : ∀ a, a ≠ 0 → refs { s with made := true, word := n, log := .put t n :: s.log, cnt := fun b => if b = n then s.cnt n + 1 else s.cnt b } a
          = refs s a + if a = n then 1 else 0 := by
        intro a h
        have h1 : (0 : Word) ≠ a := fun e => h e.symm
        simp only [refs, hw0, hun, untagged_zero, if_neg h1, eq_comm (a := n)]
        omega
      refine ⟨hi.al, ?_, ?_, hi.tokz, ?_, hi.critu, fun _ => hun, ?_, hi.delu, hi.reg, hun, fun _ _ => rfl, fun h => by cases h⟩
      · intro a h
        rw [hrf a (hi.al a h).1]
        show (if a = n then s.cnt n + 1 else s.cnt a) = _
        have := hi.cnt a h
        by_cases e : a = n
        · subst e; simp; omega
        · simp [e]; omega
      · intro a h1 h
        rw [hrf a h1] at h
        by_cases e : a = n
        · rw [e]; exact ha
        · exact hi.live a h1 (by simpa [e] using h)
      · intro u; refine (hi.ok u).other ?_ (fun _ h => h) ?_
        · intro h; rw [hnc u] at h; cases h
        · intro a _ h1 h2
          refine ⟨h1, ?_⟩
          have e : a ≠ n := by rintro rfl; have := refs_tok htk; omega
          rw [hrf a (hi.al a h1).1, if_neg e, h2]
      · intro a h1 h2
        rw [hrf a (hi.al a h1).1] at h2
        exact hi.ends a h1 (by omega)

theorem inv_destroy {s : State T} (hi : Inv s) {t : T} (hp : s.pc t = .idle) (hnu : ∀ u, (s.pc u).uses = false) :
    ∃ s', destroy s t = .ok s' ∧ Inv s' := by
  have hnc : ∀ u, (s.pc u).crit = false := by
    intro u; have := hnu u
    cases hp : s.pc u <;> rw [hp] at this <;> first | rfl | cases this
  have hun := hi.lock hnc
  by_cases h0 : s.word = 0
  · refine ⟨{ s with made := false, word := 0, log := .put t 0 :: s.log }, ?_, ?_⟩
    · simp only [destroy]; rw [if_neg (by simp [hun]), if_pos h0]
    · refine inv_move hi t .idle (by rw [← hp]; exact (setPc_self s t).symm) rfl rfl ?_ hi.tokz (fun _ _ _ h => h) trivial ?_ ?_ ?_ ?_
        hi.reg untagged_zero ?_ ?_
      · intro a h; simp only [refs, h0]
      · intro u _ h; rw [hnc u] at h; cases h
      · intro h; cases h
      · intro _ _; exact untagged_zero
      · rw [hp]
      · intro u h; rw [hnu u] at h; cases h
      · intro _; rfl
  · refine ⟨setPc { s with made := false, word := 0, log := .put t 0 :: s.log, tok := (t, s.word) :: s.tok } t (.rel s.word), ?_, ?_⟩
    · simp only [destroy]; rw [if_neg (by simp [hun]), if_neg h0]
    · refine inv_move hi t (.rel s.word) rfl rfl rfl ?_ ?_ (fun _ _ _ h => List.mem_cons_of_mem _ h) List.mem_cons_self ?_ ?_ ?_ ?_
        hi.reg untagged_zero ?_ ?_
      · intro a h
        have h1 : (0 : Word) ≠ a := fun e => h e.symm
        simp only [refs, setPc, untagged_zero, if_neg h1, hun, List.countP_cons]
        by_cases e : s.word = a <;> simp [e]
      · intro u a h
        rcases List.mem_cons.1 h with h | h
        · injection h with _ h; subst h; exact h0
        · exact hi.tokz u a h
      · intro u _ h; rw [hnc u] at h; cases h
      · intro h; cases h
      · intro _ _; exact untagged_zero
      · rw [hp]; rfl
      · intro u h
        simp only [setPc] at h
        split at h
        · cases h
        · rw [hnu u] at h; cases h
      · intro _; rfl

theorem inv_delete {s : State T} (hi : Inv s) {t : T} {a : Word} (hp : s.pc t = .relDelete a) :
    Inv (setPc { s with alive := fun b => if b = a then false else s.alive b } t .idle) := by
  have ho := hi.ok t
  rw [hp] at ho
  obtain ⟨ha, hr⟩ := ho
  generalize hs' : setPc { s with alive := fun b => if b = a then false else s.alive b } t PC.idle = s'
  have e1 : s'.word = s.word := by rw [← hs']; rfl
  have e2 : s'.tok = s.tok := by rw [← hs']; rfl
  have e3 : s'.alive = fun b => if b = a then false else s.alive b := by rw [← hs']; rfl
  have e4 : s'.cnt = s.cnt := by rw [← hs']; rfl
  have e5 : s'.pc = fun u => if u = t then .idle else s.pc u := by rw [← hs']; rfl
  have e6 : s'.log = s.log := by rw [← hs']; rfl
  have e7 : s'.made = s.made := by rw [← hs']; rfl
  have hrf : ∀ b, refs s' b = refs s b := by intro b; simp [refs, e1, e2]
  have hne : ∀ u, u ≠ t → s'.pc u = s.pc u := by intro u h; rw [e5]; simp [h]
  have heq : s'.pc t = .idle := by rw [e5]; simp
  have hcrit : ∀ u, (s'.pc u).crit = (s.pc u).crit := by
    intro u
    by_cases h : u = t
    · rw [h, heq, hp]; rfl
    · rw [hne u h]
  have hal : ∀ b, s'.alive b = true → b ≠ a ∧ s.alive b = true := by
    intro b h; rw [e3] at h
    by_cases hb : b = a
    · simp [hb] at h
    · exact ⟨hb, by simpa [hb] using h⟩
  refine ⟨?_, ?_, ?_, ?_, ?_, ?_, ?_, ?_, ?_, by rw [e6]; exact hi.reg, by rw [e6, e1]; exact hi.cur, ?_,
    by rw [e7, e1]; exact hi.unw⟩
  · intro b h; exact hi.al b (hal b h).2
  · intro b h; rw [e4, hrf]; exact hi.cnt b (hal b h).2
  · intro b h0 h
    rw [hrf] at h
    have hb : b ≠ a := by rintro rfl; omega
    rw [e3]; simp [hb, hi.live b h0 h]
  · intro u b h; rw [e2] at h; exact hi.tokz u b h
  · intro u
    by_cases h : u = t
    · rw [h, heq]; trivial
    · rw [hne u h]
      refine (hi.ok u).other (fun _ => e1) (fun b hb => by rw [e2]; exact hb) ?_
      intro b hb h1 h2
      have hba : b ≠ a := by rintro rfl; exact h (hi.delu u t b hb (by rw [hp]; rfl))
      exact ⟨by rw [e3]; simp [hba, h1], by rw [hrf]; exact h2⟩
  · intro u w h1 h2; rw [hcrit] at h1 h2; exact hi.critu u w h1 h2
  · intro h; rw [e1]; exact hi.lock (fun u => by rw [← hcrit]; exact h u)
  · intro b h1 h2
    rw [hrf] at h2
    obtain ⟨u, hu⟩ := hi.ends b (hal b h1).2 h2
    have : u ≠ t := by rintro rfl; rw [hp] at hu; injection hu with hu; exact (hal b h1).1 hu.symm
    exact ⟨u, by rw [hne u this]; exact hu⟩
  · intro u w b h1 h2
    have hx : ∀ x, (s'.pc x).dels = some b → x ≠ t := by rintro x h rfl; rw [heq] at h; cases h
    have hu := hx u h1
    have hw := hx w h2
    rw [hne u hu] at h1; rw [hne w hw] at h2
    exact hi.delu u w b h1 h2
  · intro u h
    rw [e7]
    by_cases hu : u = t
    · rw [hu, heq] at h; cases h
    · rw [hne u hu] at h; exact hi.usem u h

/-- No step faults, and every step keeps the invariant. -/
theorem inv_step {s : State T} (hi : Inv s) {a : Act T} {r : Exec (State T)} (hal : Allowed s a)
    (h : step s a = some r) : ∃ s', r = .ok s' ∧ Inv s' := by
  cases a with
  | make t n =>
    simp only [step] at h
    split at h <;> cases h
    rename_i hp
    exact inv_make hi hp.2.1 hp.2.2
  | destroy t =>
    simp only [step] at h
    split at h <;> cases h
    rename_i hp
    exact inv_destroy hi hp.1 hal
  | get t =>
    simp only [step] at h
    split at h <;> cases h
    rename_i hp
    exact ⟨_, rfl, inv_quiet hi t _ trivial (by rw [hp.1]; rfl) (by rw [hp.1]; rfl) (fun _ => hp.2)⟩
  | set t n =>
    simp only [step] at h
    split at h <;> cases h
    rename_i hp
    exact ⟨_, rfl, inv_quiet hi t _ hp.2.2 (by rw [hp.1]; rfl) (by rw [hp.1]; rfl) (fun _ => hp.2.1)⟩
  | release t a =>
    simp only [step] at h
    split at h <;> cases h
    rename_i hp
    exact ⟨_, rfl, inv_quiet hi t _ hp.2 (by rw [hp.1]; rfl) (by rw [hp.1]; rfl) (fun h => by cases h)⟩
  | addRef t a =>
    simp only [step] at h
    split at h <;> cases h
    rename_i hp
    obtain ⟨s', h1, h2, _⟩ := inv_incr hi t (hi.tokz t a hp.2) (refs_tok hp.2)
    exact ⟨s', h1, h2⟩
  | use t a =>
    simp only [step] at h
    split at h <;> cases h
    rename_i hp
    rw [if_neg (by simp [hi.alive_tok hp.2])]
    exact ⟨s, rfl, hi⟩
  | send t u a =>
    simp only [step] at h
    split at h <;> cases h
    rename_i hp
    exact ⟨_, rfl, inv_send hi hp.1 hp.2⟩
  | create t a =>
    simp only [step] at h
    split at h <;> cases h
    rename_i hp
    exact ⟨_, rfl, inv_create hi hp.2.1 hp.2.2.1 hp.2.2.2⟩
  | stale t w =>
    simp only [step] at h
    have ho := hi.ok t
    cases hp : s.pc t <;> rw [hp] at h ho <;> simp only [stale] at h <;> try cases h
    · exact ⟨_, rfl, inv_quiet hi t _ ⟨untagged_idem _, ho⟩ (by rw [hp]; rfl) (by rw [hp]; rfl) (fun _ => hi.usem t (by rw [hp]; rfl))⟩
    · split at h <;> cases h
      exact ⟨_, rfl, inv_quiet hi t _ ho.2 (by rw [hp]; rfl) (by rw [hp]; rfl) (fun _ => hi.usem t (by rw [hp]; rfl))⟩
  | cont t =>
    simp only [step] at h
    have ho := hi.ok t
    cases hp : s.pc t with
    | idle => rw [hp] at h; cases h
    | load j =>
      rw [hp] at h ho; cases h
      exact ⟨_, rfl, inv_quiet hi t _ ⟨untagged_idem _, ho⟩ (by rw [hp]; rfl) (by rw [hp]; rfl) (fun _ => hi.usem t (by rw [hp]; rfl))⟩
    | cas j old =>
      rw [hp] at h ho; simp only [cont] at h; injection h with h; subst h
      split
      · rename_i hw; exact ⟨_, rfl, inv_cas hi hp hw⟩
      · exact ⟨_, rfl, inv_quiet hi t _ ho.2 (by rw [hp]; rfl) (by rw [hp]; rfl) (fun _ => hi.usem t (by rw [hp]; rfl))⟩
    | add j v =>
      rw [hp] at h ho; simp only [cont] at h; injection h with h; subst h
      obtain ⟨h1, h2, h3⟩ := ho
      split
      · rename_i hz
        exact ⟨_, rfl, inv_quiet hi t _ ⟨h1, h2, .inl hz⟩ (by rw [hp]; rfl) (by rw [hp]; rfl) (fun _ => hi.usem t (by rw [hp]; rfl))⟩
      · rename_i hz
        have hr : 0 < refs s (j.newval v) := by
          cases j with
          | get => simp [refs, Job.newval, h1, untagged_tagged, h2]
          | set n => exact refs_tok (h3.resolve_left hz)
        obtain ⟨s', e1, e2, e3, e4, e5⟩ := inv_incr hi t hz hr
        refine ⟨setPc s' t (.chk1 j v), by rw [e1]; rfl, inv_quiet e2 t _ ⟨by rw [e4]; exact h1, h2, .inr ?_⟩ ?_ ?_
          (fun _ => e2.usem t (by rw [e3, hp]; rfl))⟩
        · rw [e5]; exact List.mem_cons_self
        · rw [e3, hp]; rfl
        · rw [e3, hp]; rfl
    | chk1 j v =>
      rw [hp] at h ho; cases h
      exact ⟨_, rfl, inv_quiet hi t _ ⟨ho.1, ho.2.1, ho.2.2, ho.1⟩ (by rw [hp]; rfl) (by rw [hp]; rfl) (fun _ => hi.usem t (by rw [hp]; rfl))⟩
    | chk2 j v w =>
      rw [hp] at h ho; simp only [cont] at h; injection h with h; subst h
      obtain ⟨h1, h2, h3, h4⟩ := ho
      have hn : untagged (j.newval v) = j.newval v := newval_untagged hi h3
      rw [if_neg (by rw [h4, h1, tagged_tagged]; simp), if_neg (by rw [hn]; simp)]
      exact ⟨_, rfl, inv_quiet hi t _ ⟨h1, h2, h3⟩ (by rw [hp]; rfl) (by rw [hp]; rfl) (fun _ => hi.usem t (by rw [hp]; rfl))⟩
    | store j v =>
      cases j with
      | get => rw [hp] at h; cases h; exact ⟨_, rfl, inv_storeGet hi hp⟩
      | set n =>
        obtain ⟨s', e1, e2⟩ := inv_storeSet hi hp
        rw [hp, e1] at h; injection h with h
        exact ⟨s', h.symm, e2⟩
    | rel a =>
      obtain ⟨s', e1, e2⟩ := inv_rel hi hp
      rw [hp, e1] at h; injection h with h
      exact ⟨s', h.symm, e2⟩
    | relCheck a =>
      rw [hp] at h ho; simp only [cont] at h; injection h with h; subst h
      rw [if_neg (by simp [ho.1]), if_neg (by rw [hi.cnt a ho.1, ho.2]; simp)]
      exact ⟨_, rfl, inv_quiet hi t _ ho (by rw [hp]; rfl) (by rw [hp]; rfl) (fun h => by cases h)⟩
    | relDelete a =>
      rw [hp] at h ho; simp only [cont] at h; injection h with h; subst h
      rw [if_neg (by simp [ho.1])]
      exact ⟨_, rfl, inv_delete hi hp⟩

theorem inv_run {as : List (Act T)} {s : State T} (h : Run as s) : Inv s := by
  induction h with
  | start => exact inv_start
  | step _ ha hs ih =>
    obtain ⟨s', e, hi⟩ := inv_step ih ha hs
    injection e with e
    rw [e]; exact hi

theorem inv_reachable {s : State T} (h : Reachable s) : Inv s := by
  obtain ⟨as, h⟩ := h
  exact inv_run h

end Verif.AtomicRef
