import Verif.AtomicRef.GraphSpec
import Verif.AtomicRef.Lemmas
/-!
# Invariant of many `AtomicRef`s and objects that contain them
-/
namespace Verif.AtomicRef.Graph
open Verif

set_option linter.unusedSimpArgs false
set_option linter.unusedSectionVars false

variable {T F : Type} [DecidableEq T] [DecidableEq F]

/-! ### References changing hands -/

theorem refs_move {l : List (Owner T F × Word)} {o p : Owner T F} {a : Word} (h : (o, a) ∈ l) (b : Word) :
    (move l o p a).countP (fun p => decide (p.2 = b)) = l.countP (fun p => decide (p.2 = b)) := by
  rw [move, (List.perm_cons_erase h).countP_eq, List.countP_cons, List.countP_cons]

theorem count_move {l : List (Owner T F × Word)} {o p : Owner T F} {a : Word} (h : (o, a) ∈ l) (x : Owner T F × Word) :
    (move l o p a).count x + (if (o, a) = x then 1 else 0) = l.count x + (if (p, a) = x then 1 else 0) := by
  rw [move, (List.perm_cons_erase h).count_eq x, List.count_cons, List.count_cons]
  by_cases h1 : (o, a) = x <;> by_cases h2 : (p, a) = x <;> simp [h1, h2]

theorem mem_move {l : List (Owner T F × Word)} {o p : Owner T F} {a : Word} {x : Owner T F × Word} (h : x ∈ move l o p a) :
    x = (p, a) ∨ x ∈ l := by
  rcases List.mem_cons.1 h with h | h
  · exact .inl h
  · exact .inr (List.mem_of_mem_erase h)

theorem refs_erase {l : List (Owner T F × Word)} {o : Owner T F} {a : Word} (h : (o, a) ∈ l) (b : Word) :
    (l.erase (o, a)).countP (fun p => decide (p.2 = b)) + (if a = b then 1 else 0) = l.countP (fun p => decide (p.2 = b)) := by
  rw [(List.perm_cons_erase h).countP_eq, List.countP_cons]; simp

theorem count_erase' {l : List (Owner T F × Word)} {o : Owner T F} {a : Word} (h : (o, a) ∈ l) (x : Owner T F × Word) :
    (l.erase (o, a)).count x + (if (o, a) = x then 1 else 0) = l.count x := by
  rw [(List.perm_cons_erase h).count_eq x, List.count_cons]
  by_cases h1 : (o, a) = x <;> simp [h1]

theorem count_push (l : List (Owner T F × Word)) (y x : Owner T F × Word) :
    (y :: l).count x = l.count x + (if y = x then 1 else 0) := by
  rw [List.count_cons]; by_cases h : y = x <;> simp [h]

theorem refs_push' (l : List (Owner T F × Word)) (o : Owner T F) (a b : Word) :
    ((o, a) :: l).countP (fun p => decide (p.2 = b)) = l.countP (fun p => decide (p.2 = b)) + (if a = b then 1 else 0) := by
  rw [List.countP_cons]; simp

theorem refs_pos {l : List (Owner T F × Word)} {o : Owner T F} {a : Word} (h : (o, a) ∈ l) :
    0 < l.countP (fun p => decide (p.2 = a)) := List.countP_pos_iff.2 ⟨_, h, by simp⟩

/-! ### Frames -/

/-- The call holds the lock of `k`. -/
def Frame.crit (k : Key F) : Frame F → Bool
  | .add k' .. | .chk1 k' .. | .chk2 k' .. | .store k' .. => decide (k' = k)
  | _ => false

/-- The object the `Release` is about to delete. -/
def Frame.del : Frame F → Option Word
  | .relCheck a | .relDelete a => some a
  | _ => none

/-- A destructor. -/
def Frame.isDtor : Frame F → Bool
  | .dtor .. => true
  | _ => false

/-- The destructor of the object at `a`. -/
def Frame.isDtorOf (a : Word) : Frame F → Bool
  | .dtor b _ => decide (b = a)
  | _ => false

/-- The caller's own reference that a call needs until it ends. -/
def borrow (k : Key F) (j : Job) (b : Word) : Nat := if k.1 = some b ∨ (b ≠ 0 ∧ j = .set b) then 1 else 0

/-- References of the thread the frame relies on. -/
def Frame.need (b : Word) : Frame F → Nat
  | .load k j | .cas k j _ | .add k j _ => borrow k j b
  | .chk1 k j v | .chk2 k j v _ | .store k j v => borrow k j b + if b ≠ 0 ∧ j.newval v = b then 1 else 0
  | .rel a => if a = b then 1 else 0
  | _ => 0

def topCrit (k : Key F) : List (Frame F) → Bool
  | [] => false
  | f :: _ => f.crit k

def topUses (k : Key F) : List (Frame F) → Bool
  | [] => false
  | f :: _ => f.uses k

def topDel : List (Frame F) → Option Word
  | [] => none
  | f :: _ => f.del

def topNeed (b : Word) : List (Frame F) → Nat
  | [] => 0
  | f :: _ => f.need b

/-- What the frame knows about its `AtomicRef`. -/
def Ok (s : State T F) : Frame F → Prop
  | .load k _ => s.made k = true
  | .cas k _ old => s.made k = true ∧ untagged old = old
  | .add k _ v | .chk1 k _ v | .store k _ v => s.made k = true ∧ s.word k = tagged v ∧ untagged v = v
  | .chk2 k _ v w => s.made k = true ∧ s.word k = tagged v ∧ untagged v = v ∧ w = tagged v
  | _ => True

def topOk (s : State T F) : List (Frame F) → Prop
  | [] => True
  | f :: _ => Ok s f

/-- Objects and counts. -/
structure InvO (s : State T F) : Prop where
  tok : ∀ o b, (o, b) ∈ s.tok → s.life b = .live ∧ b ≠ 0 ∧ b &&& 7#64 = 0
  cnt : ∀ b, s.life b = .live → s.cnt b = refs s b
  zero : ∀ b, s.life b = .live → refs s b = 0 → ∃ t, topDel (s.stack t) = some b
  del : ∀ t b, topDel (s.stack t) = some b → s.life b = .live ∧ refs s b = 0
  delu : ∀ t u b, topDel (s.stack t) = some b → topDel (s.stack u) = some b → t = u

/-- Destructors and which `AtomicRef`s exist. -/
structure InvM (s : State T F) : Prop where
  dtor : ∀ t a fs, Frame.dtor a fs ∈ s.stack t → s.life a = .dying ∧ fs.Nodup ∧ ∀ f, s.made (some a, f) = true ↔ f ∈ fs
  dtoru : ∀ t u a fs gs, Frame.dtor a fs ∈ s.stack t → Frame.dtor a gs ∈ s.stack u → t = u
  dtor1 : ∀ t a, (s.stack t).countP (Frame.isDtorOf a) ≤ 1
  dying : ∀ a, s.life a = .dying → ∃ t fs, Frame.dtor a fs ∈ s.stack t
  live : ∀ a, s.life a = .live → (s.fields a).Nodup ∧ ∀ f, s.made (some a, f) = true ↔ f ∈ s.fields a
  free : ∀ a f, s.life a = .free → s.made (some a, f) = false
  unmade : ∀ k, s.made k = false → s.word k = 0
  shape : ∀ t, ∀ f ∈ (s.stack t).tail, f.isDtor = true

/-- Locks. -/
structure InvL (s : State T F) : Prop where
  ok : ∀ t, topOk s (s.stack t)
  critu : ∀ k t u, topCrit k (s.stack t) = true → topCrit k (s.stack u) = true → t = u
  lock : ∀ k, (∀ t, topCrit k (s.stack t) = false) → untagged (s.word k) = s.word k

/-- References of `AtomicRef`s, of threads, and the history. -/
structure InvR (s : State T F) : Prop where
  ref : ∀ k b, s.tok.count (.ref k, b) = if b ≠ 0 ∧ untagged (s.word k) = b then 1 else 0
  need : ∀ t b, topNeed b (s.stack t) ≤ s.tok.count (.thread t, b)
  reg : Register s.log
  cur : ∀ k, untagged (s.word k) = current k s.log

structure Inv (s : State T F) : Prop where
  o : InvO s
  m : InvM s
  l : InvL s
  r : InvR s

/-! ### The successful steps -/

/-- Moves inside a call that change nothing but the frame. -/
inductive Quiet (s : State T F) : Frame F → Frame F → Prop where
  | load {k j} (w : Word) : Quiet s (.load k j) (.cas k j (untagged w))
  | again {k j old} : Quiet s (.cas k j old) (.load k j)
  | null {k j v} : j.newval v = 0 → Quiet s (.add k j v) (.chk1 k j v)
  | chk1 {k j v} : Quiet s (.chk1 k j v) (.chk2 k j v (s.word k))
  | chk2 {k j v w} : Quiet s (.chk2 k j v w) (.store k j v)
  | relCheck {a} : Quiet s (.relCheck a) (.relDelete a)

/-- How a call begins. -/
inductive Begin (s : State T F) (t : T) : Frame F → Prop where
  | get {k} : reaches s t k = true → Begin s t (.load k .get)
  | set {k n} : reaches s t k = true → (n = 0 ∨ (.thread t, n) ∈ s.tok) → Begin s t (.load k (.set n))
  | release {a} : (.thread t, a) ∈ s.tok → Begin s t (.rel a)

/-- The state after `~AtomicRef()` of `k` up to the `Release`. -/
def killed (s : State T F) (t : T) (k : Key F) (rest : List (Frame F)) : State T F :=
  if s.word k = 0 then
    setStack { setWord s k 0 with made := fun k' => if k' = k then false else s.made k', log := (k, .put t 0) :: s.log } t rest
  else
    setStack { setWord s k 0 with
      made := fun k' => if k' = k then false else s.made k', log := (k, .put t 0) :: s.log
      tok := move s.tok (.ref k) (.thread t) (s.word k) } t (.rel (s.word k) :: rest)

inductive Trans (s : State T F) : State T F → Prop where
  | same : Trans s s
  | quiet {t f g r} : s.stack t = f :: r → Quiet s f g → Trans s (setStack s t (g :: r))
  | begin {t f} : s.stack t = [] → Begin s t f → Trans s (setStack s t [f])
  | lock {t k j old r} : s.stack t = .cas k j old :: r → s.word k = old →
      Trans s (setStack (setWord s k (tagged old)) t (.add k j old :: r))
  | add {t k j v r} : s.stack t = .add k j v :: r → j.newval v ≠ 0 →
      Trans s (setStack { s with cnt := fun b => if b = j.newval v then s.cnt (j.newval v) + 1 else s.cnt b,
                                 tok := (.thread t, j.newval v) :: s.tok } t (.chk1 k j v :: r))
  | incr {t a} : s.stack t = [] → (.thread t, a) ∈ s.tok →
      Trans s { s with cnt := fun b => if b = a then s.cnt a + 1 else s.cnt b, tok := (.thread t, a) :: s.tok }
  | got {t k v r} : s.stack t = .store k .get v :: r →
      Trans s (setStack { setWord s k v with log := (k, .got t v) :: s.log } t r)
  | put {t k n v r} : s.stack t = .store k (.set n) v :: r →
      Trans s (setStack { setWord s k n with
          log := (k, .put t n) :: s.log
          tok := (let tok := if n = 0 then s.tok else move s.tok (.thread t) (.ref k) n
                  if v = 0 then tok else move tok (.ref k) (.thread t) v) } t (if v = 0 then r else .rel v :: r))
  | rel {t a r} : s.stack t = .rel a :: r →
      Trans s (setStack { s with cnt := fun b => if b = a then s.cnt a - 1 else s.cnt b, tok := s.tok.erase (.thread t, a) } t
        (if s.cnt a = 1 then .relCheck a :: r else r))
  | del {t a r} : s.stack t = .relDelete a :: r →
      Trans s (setStack { s with life := fun b => if b = a then .dying else s.life b } t (.dtor a (s.fields a).reverse :: r))
  | free {t a r} : s.stack t = .dtor a [] :: r →
      Trans s (setStack { s with life := fun b => if b = a then .free else s.life b } t r)
  | killFree {t f} : s.stack t = [] → s.made (none, f) = true → (∀ u, topUses (none, f) (s.stack u) = false) →
      Trans s (killed s t (none, f) [])
  | killField {t a f fs r} : s.stack t = .dtor a (f :: fs) :: r → Trans s (killed s t (some a, f) (.dtor a fs :: r))
  | make0 {t f} : s.stack t = [] → s.made (none, f) = false →
      Trans s { setWord s (none, f) 0 with
        made := fun k' => if k' = (none, f) then true else s.made k', log := ((none, f), .put t 0) :: s.log }
  | makeN {t f n} : s.stack t = [] → s.made (none, f) = false → (.thread t, n) ∈ s.tok →
      Trans s { setWord s (none, f) n with
        made := fun k' => if k' = (none, f) then true else s.made k', log := ((none, f), .put t n) :: s.log,
        cnt := fun b => if b = n then s.cnt n + 1 else s.cnt b, tok := (.ref (none, f), n) :: s.tok }
  | send {t u a} : s.stack t = [] → (.thread t, a) ∈ s.tok →
      Trans s { s with tok := move s.tok (.thread t) (.thread u) a }
  | create {t a fs} : s.stack t = [] → s.life a = .free → a ≠ 0 → a &&& 7#64 = 0 → fs.Nodup →
      Trans s { s with
        life := fun b => if b = a then .live else s.life b
        cnt := fun b => if b = a then 1 else s.cnt b
        fields := fun b => if b = a then fs else s.fields b
        made := fun k => if k.1 = some a then decide (k.2 ∈ fs) else s.made k
        tok := (.thread t, a) :: s.tok }

/-! ### Consequences of the invariant -/

theorem mem_of_need {s : State T F} (hi : Inv s) {t : T} {b : Word} (h : 0 < topNeed b (s.stack t)) :
    (Owner.thread t, b) ∈ s.tok := by
  have := hi.r.need t b
  exact List.count_pos_iff.1 (by omega)

theorem live_of_mem {s : State T F} (hi : Inv s) {o : Owner T F} {b : Word} (h : (o, b) ∈ s.tok) : s.life b = .live :=
  (hi.o.tok o b h).1

theorem untagged_of_mem {s : State T F} (hi : Inv s) {o : Owner T F} {b : Word} (h : (o, b) ∈ s.tok) : untagged b = b :=
  aligned_untagged (hi.o.tok o b h).2.2

/-- What an `AtomicRef` holds. -/
theorem mem_of_word {s : State T F} (hi : Inv s) {k : Key F} {v : Word} (hv : v ≠ 0) (h : untagged (s.word k) = v) :
    (Owner.ref k, v) ∈ s.tok := by
  have := hi.r.ref k v
  rw [if_pos ⟨hv, h⟩] at this
  exact List.count_pos_iff.1 (by omega)

theorem newval_mem {s : State T F} (hi : Inv s) {t : T} {k : Key F} {j : Job} {v : Word} {r : List (Frame F)}
    (hs : s.stack t = .add k j v :: r) (h0 : j.newval v ≠ 0) : ∃ o, (o, j.newval v) ∈ s.tok := by
  have ho := hi.l.ok t
  rw [hs] at ho
  cases j with
  | get => exact ⟨_, mem_of_word hi h0 (by rw [ho.2.1, untagged_tagged]; exact ho.2.2)⟩
  | set n =>
    refine ⟨.thread t, mem_of_need hi ?_⟩
    rw [hs]
    simp only [Job.newval] at h0
    show 0 < borrow k (.set n) n
    rw [borrow, if_pos (.inr ⟨h0, rfl⟩)]; omega

theorem not_crit_uses {k : Key F} {st : List (Frame F)} (h : topUses k st = false) : topCrit k st = false := by
  cases st with
  | nil => rfl
  | cons f r => cases f <;> simp_all [topUses, topCrit, Frame.uses, Frame.crit]

theorem topUses_of_any {k : Key F} {st : List (Frame F)} (h : st.any (Frame.uses k) = false) : topUses k st = false := by
  cases st with
  | nil => rfl
  | cons f r => simp only [List.any_cons, Bool.or_eq_false_iff] at h; exact h.1

/-- Whoever is inside a call on a member holds a reference to the object. -/
theorem user_mem {s : State T F} (hi : Inv s) {u : T} {a : Word} {f : F} (h : topUses (some a, f) (s.stack u) = true) :
    (Owner.thread u, a) ∈ s.tok := by
  apply mem_of_need hi
  cases hs : s.stack u with
  | nil => rw [hs] at h; cases h
  | cons x r =>
    rw [hs] at h
    cases x <;> simp only [topUses, Frame.uses, decide_eq_true_eq, Bool.false_eq_true] at h
    all_goals (subst h; simp [topNeed, Frame.need, borrow] <;> omega)

theorem untag_word_of_idle {s : State T F} (hi : Inv s) {k : Key F} (h : ∀ u, topUses k (s.stack u) = false) :
    untagged (s.word k) = s.word k := hi.l.lock k (fun u => not_crit_uses (h u))

/-- While an object is being destroyed nobody is inside a call on its members. -/
theorem dying_idle {s : State T F} (hi : Inv s) {t : T} {a : Word} {fs : List F} (h : Frame.dtor a fs ∈ s.stack t)
    (f : F) (u : T) : topUses (some a, f) (s.stack u) = false := by
  cases hc : topUses (some a, f) (s.stack u) with
  | false => rfl
  | true =>
    have := live_of_mem hi (user_mem hi hc)
    rw [(hi.m.dtor t a fs h).1] at this
    cases this

/-! ### Every step is one of these, and none is a fault -/

theorem kill_ok {s : State T F} (t : T) {k : Key F} (rest : List (Frame F)) (hm : s.made k = true)
    (hw : untagged (s.word k) = s.word k) : destroy s t k rest = .ok (killed s t k rest) := by
  unfold destroy killed
  rw [if_neg (by simp [hm]), if_neg (by simp [hw])]
  simp only []
  split <;> rfl

theorem touch_ok {s : State T F} {k : Key F} (hm : s.made k = true) (r : Exec (State T F)) : touch s k r = r := by
  rw [touch, if_neg (by simp [hm])]

theorem incr_ok {s : State T F} (o : Owner T F) {a : Word} (h : s.life a = .live) :
    incr s o a = .ok { s with cnt := fun b => if b = a then s.cnt a + 1 else s.cnt b, tok := (o, a) :: s.tok } := by
  rw [incr, if_neg (by simp [h])]

theorem cont_trans {s : State T F} (hi : Inv s) {t : T} {f : Frame F} {r : List (Frame F)} (hs : s.stack t = f :: r) :
    ∃ s', cont s t f r = .ok s' ∧ Trans s s' := by
  have ho := hi.l.ok t
  have hn := fun b => hi.r.need t b
  rw [hs] at ho
  simp only [hs] at hn
  cases f with
  | load k j =>
    exact ⟨_, by rw [cont, touch_ok ho], .quiet hs (.load _)⟩
  | cas k j old =>
    rw [cont, touch_ok ho.1]
    by_cases h : s.word k = old
    · rw [if_pos h]; exact ⟨_, rfl, .lock hs h⟩
    · rw [if_neg h]; exact ⟨_, rfl, .quiet hs .again⟩
  | add k j v =>
    rw [cont]
    by_cases h : j.newval v = 0
    · rw [if_pos h]; exact ⟨_, rfl, .quiet hs (.null h)⟩
    · rw [if_neg h]
      obtain ⟨o, hm⟩ := newval_mem hi hs h
      rw [incr_ok _ (live_of_mem hi hm)]
      exact ⟨_, rfl, .add hs h⟩
  | chk1 k j v =>
    exact ⟨_, by rw [cont, touch_ok ho.1], .quiet hs .chk1⟩
  | chk2 k j v w =>
    rw [cont, touch_ok ho.1, if_neg (by rw [ho.2.2.2, ho.2.1, tagged_tagged]; simp)]
    have hu : j.newval v = untagged (j.newval v) := by
      by_cases h : j.newval v = 0
      · rw [h]; simp [untagged]
      · have := hn (j.newval v)
        simp only [topNeed, Frame.need] at this
        rw [if_pos ⟨h, trivial⟩] at this
        exact (untagged_of_mem hi (o := .thread t) (List.count_pos_iff.1 (by omega))).symm
    rw [if_neg (fun h => h hu)]
    exact ⟨_, rfl, .quiet hs .chk2⟩
  | store k j v =>
    cases j with
    | get => rw [cont, touch_ok ho.1]; exact ⟨_, rfl, .got hs⟩
    | set n => rw [cont, touch_ok ho.1]; exact ⟨_, rfl, .put hs⟩
  | rel a =>
    have := hn a
    simp only [topNeed, Frame.need, if_true] at this
    have hm : (Owner.thread t, a) ∈ s.tok := List.count_pos_iff.1 (by omega)
    rw [cont, if_neg (by simp [live_of_mem hi hm])]
    exact ⟨_, rfl, .rel hs⟩
  | relCheck a =>
    have := hi.o.del t a (by rw [hs]; rfl)
    rw [cont, if_neg (by simp [this.1]), if_neg (by rw [hi.o.cnt a this.1, this.2]; simp)]
    exact ⟨_, rfl, .quiet hs .relCheck⟩
  | relDelete a =>
    have := hi.o.del t a (by rw [hs]; rfl)
    rw [cont, if_neg (by simp [this.1])]
    exact ⟨_, rfl, .del hs⟩
  | dtor a fs =>
    have hm : Frame.dtor a fs ∈ s.stack t := by rw [hs]; exact List.mem_cons_self
    have hd := hi.m.dtor t a fs hm
    cases fs with
    | nil =>
      rw [cont, if_neg (by simp [hd.1])]
      exact ⟨_, rfl, .free hs⟩
    | cons f fs =>
      rw [cont, kill_ok t _ ((hd.2.2 f).2 List.mem_cons_self) (untag_word_of_idle hi (dying_idle hi hm f))]
      exact ⟨_, rfl, .killField hs⟩

theorem step_trans {s : State T F} (hi : Inv s) {a : Act T F} (ha : Allowed s a) {x : Exec (State T F)} (hs : step s a = some x) :
    ∃ s', x = .ok s' ∧ Trans s s' := by
  cases a with
  | make t f n =>
    simp only [step] at hs
    split at hs <;> cases hs
    rename_i h
    unfold make
    by_cases h0 : n = 0
    · subst h0
      rw [if_neg (by simp)]
      simp only [if_true]
      exact ⟨_, rfl, .make0 h.1 h.2.1⟩
    · have hm := h.2.2.resolve_left h0
      have := hi.o.tok _ _ hm
      rw [if_neg (by simp [this.2.2])]
      simp only [if_neg h0]
      exact ⟨_, incr_ok (s := { setWord s (none, f) n with
        made := fun k' => if k' = (none, f) then true else s.made k', log := ((none, f), .put t n) :: s.log }) _ this.1,
        .makeN h.1 h.2.1 hm⟩
  | destroy t f =>
    simp only [step] at hs
    split at hs <;> cases hs
    rename_i h
    have hu : ∀ u, topUses (none, f) (s.stack u) = false := fun u => topUses_of_any (ha u)
    exact ⟨_, kill_ok t [] h.2 (untag_word_of_idle hi hu), .killFree h.1 h.2 hu⟩
  | get t k =>
    simp only [step] at hs
    split at hs <;> cases hs
    rename_i h
    exact ⟨_, rfl, .begin h.1 (.get h.2)⟩
  | set t k n =>
    simp only [step] at hs
    split at hs <;> cases hs
    rename_i h
    exact ⟨_, rfl, .begin h.1 (.set h.2.1 h.2.2)⟩
  | release t b =>
    simp only [step] at hs
    split at hs <;> cases hs
    rename_i h
    exact ⟨_, rfl, .begin h.1 (.release h.2)⟩
  | addRef t b =>
    simp only [step] at hs
    split at hs <;> cases hs
    rename_i h
    exact ⟨_, incr_ok _ (live_of_mem hi h.2), .incr h.1 h.2⟩
  | use t b =>
    simp only [step] at hs
    split at hs <;> cases hs
    rename_i h
    exact ⟨_, by rw [if_neg (by simp [live_of_mem hi h.2])], .same⟩
  | send t u b =>
    simp only [step] at hs
    split at hs <;> cases hs
    rename_i h
    exact ⟨_, rfl, .send h.1 h.2⟩
  | create t b fs =>
    simp only [step] at hs
    split at hs <;> cases hs
    rename_i h
    exact ⟨_, rfl, .create h.1 h.2.1 h.2.2.1 h.2.2.2.1 h.2.2.2.2⟩
  | cont t =>
    simp only [step] at hs
    cases he : s.stack t with
    | nil => rw [he] at hs; cases hs
    | cons f r =>
      rw [he] at hs
      injection hs with hs
      subst hs
      exact cont_trans hi he
  | stale t w =>
    simp only [step] at hs
    have ho := hi.l.ok t
    cases he : s.stack t with
    | nil => rw [he] at hs; cases hs
    | cons f r =>
      rw [he] at hs ho
      cases f <;> simp only [stale, reduceCtorEq] at hs
      · injection hs with hs
        subst hs
        exact ⟨_, touch_ok ho _, .quiet he (.load _)⟩
      · split at hs <;> cases hs
        exact ⟨_, touch_ok ho.1 _, .quiet he .again⟩

end Verif.AtomicRef.Graph
