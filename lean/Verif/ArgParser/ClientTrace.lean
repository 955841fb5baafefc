import Verif.ArgParser.ClientLemmas
namespace Verif.ArgParser.Client
open Verif Verif.ArgParser

variable {α σ : Type}

/-! ## What has happened before a call -/

theorem offer_back {Q : List (Event α) → Event α → Prop} (hq : ∀ a e, e.gives = false → Q a e) {ev pre : List (Event α)} {o : α} {v : Option Str}
    (h : Offer ev pre o v) (hl : ∀ r, Q pre ⟨o, .consume v, r⟩) : ∀ a e b, ev = a ++ e :: b → Q a e := by
  intro a e b heq
  by_cases hg : e.gives = false
  · exact hq a e hg
  obtain ⟨⟨r, tail, he, ht⟩, hp⟩ := h
  rw [he] at heq
  rcases split_cases heq with ⟨c, h1, h2⟩ | ⟨c, h1, h2⟩
  · exact absurd (hp e (by rw [h1]; simp)) hg
  · cases c with
    | nil =>
      simp only [List.nil_append, List.cons.injEq] at h2
      rw [h1, ← h2.1]
      simpa using hl r
    | cons d c =>
      simp only [List.cons_append, List.cons.injEq] at h2
      exact absurd (ht e (by rw [h2.2]; simp)) hg

theorem head?_mem {l : List Str} {n : Str} (h : l.head? = some n) : n ∈ l := by
  cases l with
  | nil => cases h
  | cons a l =>
    simp only [List.head?_cons, Option.some.injEq] at h
    simp [h]

theorem loop_back {Q : List (Event α) → Event α → Prop} {cfg : Config α} (A : List Str) (hm : ∀ x a e, Q a e → Q (x ++ a) e)
    (hq : ∀ a e, e.gives = false → Q a e)
    (hl : ∀ pos arg next o pre v r, arg ∈ A → (∀ n, next = some n → n ∈ A) → RLead cfg pos arg next o pre v → Q pre ⟨o, .consume v, r⟩)
    {args skip p pos res ev} (h : Looped cfg args skip p pos res ev) :
    (∀ x ∈ args, x ∈ A) → ∀ a e b, ev = a ++ e :: b → Q a e := by
  have round : ∀ {p : PState} {pos arg rest r ev}, (∀ x ∈ arg :: rest, x ∈ A) → Rounded cfg p pos arg (List.head? rest) r ev →
      ∀ a e b, ev = a ++ e :: b → Q a e := by
    intro p pos arg rest r ev hA hr a e b heq
    rcases rounded_offer hr with hn | ⟨pre, o, v, ho, hlead⟩
    · exact hq a e (hn e (by rw [heq]; simp))
    · exact offer_back hq ho (fun r => hl _ _ _ _ _ _ r (hA arg (by simp)) (fun n hn => hA n (by simp [head?_mem hn])) hlead) a e b heq
  induction h with
  | done => intro _ a e b heq; simp at heq
  | skipped _ ih => intro hA; exact ih fun x hx => hA x (by simp [hx])
  | broken hr => intro hA; exact round hA hr
  | fail hr => intro hA; exact round hA hr
  | halt hr => intro hA; exact round hA hr
  | next hr _ ih =>
    intro hA a e b heq
    rcases split_cases heq with ⟨c, h1, h2⟩ | ⟨c, h1, h2⟩
    · exact round hA hr a e c h1
    · rw [h1]
      exact hm _ _ _ (ih (fun x hx => hA x (by simp [hx])) c e b h2)

theorem parse_back {Q : List (Event α) → Event α → Prop} {cfg : Config α} {args : List Str} (hm : ∀ x a e, Q a e → Q (x ++ a) e)
    (hq : ∀ a e, e.gives = false → Q a e)
    (hl : ∀ pos arg next o pre v r, arg ∈ args → (∀ n, next = some n → n ∈ args) → RLead cfg pos arg next o pre v → Q pre ⟨o, .consume v, r⟩)
    {p res ev} (h : Parsed cfg p args res ev) : ∀ a e b, ev = a ++ e :: b → Q a e := by
  have ends : ∀ {l : List (Event α)} {o : α} {x}, (∀ a e b, l = a ++ e :: b → Q a e) → ∀ a e b, l ++ [⟨o, .value, x⟩] = a ++ e :: b → Q a e := by
    intro l o x hl a e b heq
    rcases split_cases heq with ⟨c, h1, h2⟩ | ⟨c, h1, h2⟩
    · exact hl a e c h1
    · refine hq a e ?_
      cases c with
      | nil =>
        simp only [List.nil_append, List.cons.injEq] at h2
        rw [← h2.1]
        rfl
      | cons d c => simp at h2
  cases h with
  | broken h => exact loop_back args hm hq hl h (fun _ h => h)
  | fail h => exact loop_back args hm hq hl h (fun _ h => h)
  | missing h => exact loop_back args hm hq hl h (fun _ h => h)
  | fine h => exact loop_back args hm hq hl h (fun _ h => h)
  | helped h => exact ends (loop_back args hm hq hl h (fun _ h => h))
  | unhelped h => exact ends (loop_back args hm hq hl h (fun _ h => h))

/-! ## How many offers -/

theorem offer_filter {ev pre : List (Event α)} {o : α} {v : Option Str} (h : Offer ev pre o v) : offered ev = [o] := by
  obtain ⟨⟨r, tail, he, ht⟩, hp⟩ := h
  have h1 : pre.filter Event.gives = [] := List.filter_eq_nil_iff.2 (fun e he => by simp [hp e he])
  have h2 : tail.filter Event.gives = [] := List.filter_eq_nil_iff.2 (fun e he => by simp [ht e he])
  rw [he]
  unfold offered
  rw [List.filter_append, h1, List.filter_cons_of_pos (by rfl), h2]
  rfl

theorem quiet_filter {ev : List (Event α)} (h : ∀ e ∈ ev, e.gives = false) : offered ev = [] := by
  unfold offered
  rw [List.filter_eq_nil_iff.2 (fun e he => by simp [h e he])]
  rfl

theorem offered_append (x y : List (Event α)) : offered (x ++ y) = offered x ++ offered y := by
  simp [offered]

theorem rounded_count {cfg : Config α} {p : PState} {pos arg next r ev} (h : Rounded cfg p pos arg next r ev) : (offered ev).length ≤ 1 := by
  rcases rounded_offer h with h | ⟨_, _, _, h, _⟩
  · simp [quiet_filter h]
  · simp [offer_filter h]

theorem loop_count {cfg : Config α} {args skip p pos res ev} (h : Looped cfg args skip p pos res ev) : (offered ev).length ≤ args.length := by
  induction h with
  | done => simp [offered]
  | skipped _ ih => simp; omega
  | broken hr => have := rounded_count hr; simp; omega
  | fail hr => have := rounded_count hr; simp; omega
  | halt hr => have := rounded_count hr; simp; omega
  | next hr _ ih =>
    have := rounded_count hr
    rw [offered_append]
    simp
    omega

theorem parse_count {cfg : Config α} {p args res ev} (h : Parsed cfg p args res ev) : (offered ev).length ≤ args.length := by
  cases h with
  | broken h => exact loop_count h
  | fail h => exact loop_count h
  | missing h => exact loop_count h
  | fine h => exact loop_count h
  | helped h => rw [offered_append]; simpa [offered, Event.gives] using loop_count h
  | unhelped h => rw [offered_append]; simpa [offered, Event.gives] using loop_count h

/-! ## Positionals -/

theorem finished_pos {cfg : Config α} {p : PState} {o : α} {pos value next p' pos' took ev}
    (h : Finished cfg p o pos value next (.ok (.next p' pos' took)) ev) : pos' = pos := by
  have stopped : ∀ {took' ev}, Stopped p o pos took' (.ok (.next p' pos' took)) ev → pos' = pos := by
    intro _ _ h; cases h; rfl
  have given : ∀ {v took' ev}, Given cfg p o pos v took' (.ok (.next p' pos' took)) ev → pos' = pos := by
    intro _ _ _ h
    cases h with
    | good h => exact stopped h
    | waived h => exact stopped h
  cases h with
  | attached _ h => exact given h
  | last _ _ h => exact given h
  | bare _ _ h => exact given h
  | following _ _ h => exact given h

theorem finished_pos_halt {cfg : Config α} {p : PState} {o : α} {pos value next p' pos' ev}
    (h : Finished cfg p o pos value next (.ok (.halt p' pos')) ev) : pos' = pos := by
  have stopped : ∀ {took' ev}, Stopped p o pos took' (.ok (.halt p' pos')) ev → pos' = pos := by
    intro _ _ h; cases h; rfl
  have given : ∀ {v took' ev}, Given cfg p o pos v took' (.ok (.halt p' pos')) ev → pos' = pos := by
    intro _ _ _ h
    cases h with
    | good h => exact stopped h
    | waived h => exact stopped h
  cases h with
  | attached _ h => exact given h
  | last _ _ h => exact given h
  | bare _ _ h => exact given h
  | following _ _ h => exact given h

variable [DecidableEq α]

/-- The positionals among the objects that were offered a value. -/
def posOffered (cfg : Config α) (ev : List (Event α)) : List α := (offered ev).filter (fun o => decide (o ∈ cfg.positionals))

theorem posOffered_append (cfg : Config α) (x y : List (Event α)) : posOffered cfg (x ++ y) = posOffered cfg x ++ posOffered cfg y := by
  simp [posOffered, offered_append]

theorem round_pos {cfg : Config α} (hd : ∀ o ∈ cfg.options, o ∉ cfg.positionals) {p : PState} {pos arg next r ev}
    (h : Rounded cfg p pos arg next r ev) :
    (posOffered cfg ev = [] ∧ (∀ p' pos' took, r = .ok (.next p' pos' took) → pos' = pos) ∧ (∀ p' pos', r = .ok (.halt p' pos') → pos' = pos)) ∨
    ∃ o, cfg.positionals[pos]? = some o ∧ posOffered cfg ev = [o] ∧ (∀ p' pos' took, r = .ok (.next p' pos' took) → pos' = pos + 1) ∧
      (∀ p' pos', r = .ok (.halt p' pos') → pos' = pos + 1) := by
  have opt : ∀ {o x ev} (_ : o ∈ cfg.options) (_ : ∀ e ∈ x, Event.gives e = false) {value r} (_ : Finished cfg p o pos value next r ev),
      posOffered cfg (x ++ ev) = [] ∧ (∀ p' pos' took, r = .ok (.next p' pos' took) → pos' = pos) ∧
      (∀ p' pos', r = .ok (.halt p' pos') → pos' = pos) := by
    intro o x ev ho hx value r hf
    refine ⟨?_, fun _ _ _ hr => finished_pos (hr ▸ hf), fun _ _ hr => finished_pos_halt (hr ▸ hf)⟩
    unfold posOffered
    rw [offered_append, quiet_filter hx]
    rcases finished_offer hf with h | ⟨pre, v, h, _⟩
    · simp [quiet_filter h]
    · simp [offer_filter h, hd o ho]
  cases h with
  | skip => left; refine ⟨by simp [posOffered, offered], ?_, ?_⟩ <;> simp +contextual
  | attached ho hf =>
    rename_i o b k _
    exact Or.inl (opt (x := [⟨o, .takesNo, some b⟩, ⟨o, .willRepeat, some true⟩, ⟨o, .mustOmit, some false⟩]) ho (by simp [Event.gives]) hf)
  | plain ho hl hb hf =>
    rename_i o b value _
    exact Or.inl (opt (x := [⟨o, .takesNo, some b⟩, ⟨o, .willRepeat, some true⟩]) ho (by simp [Event.gives]) hf)
  | positional hp hf =>
    rename_i o
    refine Or.inr ⟨o, hp, ?_, fun _ _ _ hr => finished_pos (hr ▸ hf), fun _ _ hr => finished_pos_halt (hr ▸ hf)⟩
    unfold posOffered
    cases hf with
    | attached hv hg =>
      rw [offer_filter (given_offer hg)]
      simp [List.mem_of_getElem? hp]
    | broken e h | needs h | last h | broken' e h | bare h | following h => cases h
  | _ => left; refine ⟨by simp [posOffered, offered, Event.gives], ?_, ?_⟩ <;> simp

omit [DecidableEq α] in
theorem take_cons_drop {l : List α} {pos : Nat} {o : α} (h : l[pos]? = some o) (n : Nat) :
    (l.drop pos).take (n + 1) = o :: (l.drop (pos + 1)).take n := by
  obtain ⟨hlt, hget⟩ := List.getElem?_eq_some_iff.1 h
  rw [List.drop_eq_getElem_cons hlt, hget]
  rfl

theorem loop_pos {cfg : Config α} (hd : ∀ o ∈ cfg.options, o ∉ cfg.positionals) {args skip p pos res ev} (h : Looped cfg args skip p pos res ev) :
    ∃ n, posOffered cfg ev = (cfg.positionals.drop pos).take n ∧ ∀ hl pos' p', res = .ok (some (hl, pos'), p') → pos' = pos + n := by
  have single : ∀ {p : PState} {pos arg next r ev}, Rounded cfg p pos arg next r ev →
      ∃ n, posOffered cfg ev = (cfg.positionals.drop pos).take n ∧ ∀ p' pos', r = .ok (.halt p' pos') → pos' = pos + n := by
    intro p pos arg next r ev h
    rcases round_pos hd h with ⟨h1, _, h2⟩ | ⟨o, hp, h1, _, h2⟩
    · exact ⟨0, by simpa using h1, h2⟩
    · exact ⟨1, by rw [take_cons_drop hp, h1]; simp, h2⟩
  induction h with
  | done => exact ⟨0, by simp [posOffered, offered], by simp⟩
  | skipped _ ih => exact ih
  | broken hr =>
    obtain ⟨n, h, _⟩ := single hr
    exact ⟨n, h, by simp⟩
  | fail hr =>
    obtain ⟨n, h, _⟩ := single hr
    exact ⟨n, h, by simp⟩
  | halt hr =>
    obtain ⟨n, h, h'⟩ := single hr
    refine ⟨n, h, ?_⟩
    intro hl pos' p' heq
    simp only [Except.ok.injEq, Prod.mk.injEq, Option.some.injEq] at heq
    rw [← heq.1.2]
    exact h' _ _ rfl
  | next hr _ ih =>
    obtain ⟨n, h, h'⟩ := ih
    rcases round_pos hd hr with ⟨h1, h2, _⟩ | ⟨o, hp, h1, h2, _⟩
    · have := h2 _ _ _ rfl
      subst this
      exact ⟨n, by rw [posOffered_append, h1, h]; rfl, h'⟩
    · have := h2 _ _ _ rfl
      subst this
      refine ⟨n + 1, ?_, ?_⟩
      · rw [posOffered_append, h1, h, take_cons_drop hp]
        rfl
      · intro hl pos' p' heq
        have := h' hl pos' p' heq
        omega

omit [DecidableEq α]

/-! ## What happens after a call -/

/-- What must come after an event, given the result of the round. -/
def RoundR (cfg : Config α) (r : Except Fault Next) (e : Event α) (b : List (Event α)) : Prop :=
  (e.query = .halts → e.answer = some true → b = [] ∧ ∃ p pos, r = .ok (.halt p pos)) ∧
  (e.query = .willRepeat → e.answer = some false → b = [] ∧ ∃ p, r = .ok (.fail p) ∧ p.error = msgTwice (cfg.form e.obj)) ∧
  (∀ v, e.query = .consume v → e.answer = some false → ∃ ans b', b = ⟨e.obj, .canOmit, ans⟩ :: b' ∧
    (ans = some false → b' = [] ∧
      (v = none ∧ r = .error .nullDeref ∨ ∃ t p, v = some t ∧ r = .ok (.fail p) ∧ p.error = msgInvalid (cfg.form e.obj) t)))

/-- `R` holds of every event of the list and what comes after it. -/
def Ahead (R : Event α → List (Event α) → Prop) : List (Event α) → Prop
  | [] => True
  | e :: b => R e b ∧ Ahead R b

theorem ahead_split {R : Event α → List (Event α) → Prop} : ∀ {ev : List (Event α)}, Ahead R ev → ∀ a e b, ev = a ++ e :: b → R e b
  | [], _, a, e, b, h => by simp at h
  | x :: ev, h, a, e, b, heq => by
    cases a with
    | nil =>
      simp only [List.nil_append, List.cons.injEq] at heq
      rw [← heq.1, ← heq.2]
      exact h.1
    | cons y a =>
      simp only [List.cons_append, List.cons.injEq] at heq
      exact ahead_split h.2 a e b heq.2

theorem stopped_ahead {cfg : Config α} {p : PState} {o : α} {pos took r ev} (h : Stopped p o pos took r ev) : Ahead (RoundR cfg r) ev := by
  cases h <;> simp [Ahead, RoundR]

theorem given_ahead {cfg : Config α} {p : PState} {o : α} {pos v took r ev} (h : Given cfg p o pos v took r ev) : Ahead (RoundR cfg r) ev := by
  cases h with
  | broken e => simp [Ahead, RoundR]
  | broken' e => simp [Ahead, RoundR]; exact ⟨_, _, ⟨rfl, rfl⟩, by simp⟩
  | good h => exact ⟨by simp [RoundR], stopped_ahead h⟩
  | waived h => exact ⟨by simp [RoundR]; exact ⟨_, _, ⟨rfl, rfl⟩, by simp⟩, by simp [RoundR], stopped_ahead h⟩
  | rejected t hv => subst hv; simp [Ahead, RoundR]; exact ⟨_, _, ⟨rfl, rfl⟩, by simp⟩
  | crash hv => subst hv; simp [Ahead, RoundR]; exact ⟨_, _, ⟨rfl, rfl⟩, by simp⟩

theorem finished_ahead {cfg : Config α} {p : PState} {o : α} {pos value next r ev} (h : Finished cfg p o pos value next r ev) :
    Ahead (RoundR cfg r) ev := by
  cases h with
  | attached _ h => exact given_ahead h
  | broken e _ _ => simp [Ahead, RoundR]
  | needs _ _ => simp [Ahead, RoundR]
  | last _ _ h => exact ⟨by simp [RoundR], given_ahead h⟩
  | broken' e _ _ => simp [Ahead, RoundR]
  | bare _ _ h => exact ⟨by simp [RoundR], given_ahead h⟩
  | following _ _ h => exact ⟨by simp [RoundR], given_ahead h⟩

theorem rounded_ahead {cfg : Config α} {p : PState} {pos arg next r ev} (h : Rounded cfg p pos arg next r ev) : Ahead (RoundR cfg r) ev := by
  cases h with
  | attached _ h => exact ⟨by simp [RoundR], by simp [RoundR], by simp [RoundR], finished_ahead h⟩
  | plain _ _ _ h => exact ⟨by simp [RoundR], by simp [RoundR], finished_ahead h⟩
  | positional _ h => exact finished_ahead h
  | _ => simp [Ahead, RoundR]

/-- The same for the loop. -/
def LoopR (cfg : Config α) (r : Except Fault (Option (Bool × Nat) × PState)) (e : Event α) (b : List (Event α)) : Prop :=
  (e.query = .halts → e.answer = some true → b = [] ∧ ∃ p pos, r = .ok (some (true, pos), p)) ∧
  (e.query = .willRepeat → e.answer = some false → b = [] ∧ ∃ p, r = .ok (none, p) ∧ p.error = msgTwice (cfg.form e.obj)) ∧
  (∀ v, e.query = .consume v → e.answer = some false → ∃ ans b', b = ⟨e.obj, .canOmit, ans⟩ :: b' ∧
    (ans = some false → b' = [] ∧
      (v = none ∧ r = .error .nullDeref ∨ ∃ t p, v = some t ∧ r = .ok (none, p) ∧ p.error = msgInvalid (cfg.form e.obj) t)))

theorem loop_ahead {cfg : Config α} {args skip p pos res ev} (h : Looped cfg args skip p pos res ev) :
    ∀ a e b, ev = a ++ e :: b → LoopR cfg res e b := by
  induction h with
  | done => intro a e b heq; simp at heq
  | skipped _ ih => exact ih
  | broken hr =>
    intro a e b heq
    obtain ⟨h1, h2, h3⟩ := ahead_split (rounded_ahead hr) a e b heq
    refine ⟨?_, ?_, ?_⟩
    · intro hq ha
      obtain ⟨_, _, _, h⟩ := h1 hq ha
      cases h
    · intro hq ha
      obtain ⟨_, _, h, _⟩ := h2 hq ha
      cases h
    · intro v hq ha
      obtain ⟨ans, b', hb, h⟩ := h3 v hq ha
      refine ⟨ans, b', hb, fun hans => ⟨(h hans).1, ?_⟩⟩
      rcases (h hans).2 with ⟨hv, hr⟩ | ⟨_, _, _, hr, _⟩
      · left
        cases hr
        exact ⟨hv, rfl⟩
      · cases hr
  | fail hr =>
    intro a e b heq
    obtain ⟨h1, h2, h3⟩ := ahead_split (rounded_ahead hr) a e b heq
    refine ⟨?_, ?_, ?_⟩
    · intro hq ha
      obtain ⟨_, _, _, h⟩ := h1 hq ha
      cases h
    · intro hq ha
      obtain ⟨hb, p, h, hm⟩ := h2 hq ha
      cases h
      exact ⟨hb, _, rfl, hm⟩
    · intro v hq ha
      obtain ⟨ans, b', hb, h⟩ := h3 v hq ha
      refine ⟨ans, b', hb, fun hans => ⟨(h hans).1, ?_⟩⟩
      rcases (h hans).2 with ⟨hv, hr⟩ | ⟨t, p, ht, hr, hm⟩
      · cases hr
      · cases hr
        exact Or.inr ⟨t, _, ht, rfl, hm⟩
  | halt hr =>
    intro a e b heq
    obtain ⟨h1, h2, h3⟩ := ahead_split (rounded_ahead hr) a e b heq
    refine ⟨?_, ?_, ?_⟩
    · intro hq ha
      exact ⟨(h1 hq ha).1, _, _, rfl⟩
    · intro hq ha
      obtain ⟨_, _, h, _⟩ := h2 hq ha
      cases h
    · intro v hq ha
      obtain ⟨ans, b', hb, h⟩ := h3 v hq ha
      refine ⟨ans, b', hb, fun hans => ⟨(h hans).1, ?_⟩⟩
      rcases (h hans).2 with ⟨hv, hr⟩ | ⟨_, _, _, hr, _⟩ <;> cases hr
  | next hr _ ih =>
    intro a e b heq
    rcases split_cases heq with ⟨c, h1, h2⟩ | ⟨c, h1, h2⟩
    · obtain ⟨k1, k2, k3⟩ := ahead_split (rounded_ahead hr) a e c h1
      refine ⟨?_, ?_, ?_⟩
      · intro hq ha
        obtain ⟨_, _, _, h⟩ := k1 hq ha
        cases h
      · intro hq ha
        obtain ⟨_, _, h, _⟩ := k2 hq ha
        cases h
      · intro v hq ha
        obtain ⟨ans, b', hb, h⟩ := k3 v hq ha
        refine ⟨ans, b' ++ _, by rw [h2, hb]; rfl, fun hans => ?_⟩
        rcases (h hans).2 with ⟨_, hr⟩ | ⟨_, _, _, hr, _⟩ <;> cases hr
    · exact ih c e b h2

/-! ## Undefined behaviour -/

/-- The rounds end with a refused null value. -/
def EndsInCrash (ev : List (Event α)) : Prop := ∃ a o, ev = a ++ [⟨o, .consume none, some false⟩, ⟨o, .canOmit, some false⟩]

theorem EndsInCrash.after {ev : List (Event α)} (h : EndsInCrash ev) (x : List (Event α)) : EndsInCrash (x ++ ev) := by
  obtain ⟨a, o, h⟩ := h
  exact ⟨x ++ a, o, by rw [h, List.append_assoc]⟩

theorem stopped_error {p : PState} {o : α} {pos took f ev} (h : Stopped p o pos took (.error f) ev) : ∃ e ∈ ev, e.answer = none := by
  cases h
  simp

theorem given_error {cfg : Config α} {p : PState} {o : α} {pos v took f ev} (h : Given cfg p o pos v took (.error f) ev) :
    (∃ e ∈ ev, e.answer = none) ∨ (EndsInCrash ev ∧ f = .nullDeref) := by
  cases h with
  | broken e => exact Or.inl (by simp)
  | broken' e => exact Or.inl (by simp)
  | good h =>
    obtain ⟨e, he, h⟩ := stopped_error h
    exact Or.inl ⟨e, by simp [he], h⟩
  | waived h =>
    obtain ⟨e, he, h⟩ := stopped_error h
    exact Or.inl ⟨e, by simp [he], h⟩
  | crash hv => subst hv; exact Or.inr ⟨⟨[], o, rfl⟩, rfl⟩

theorem finished_error {cfg : Config α} {p : PState} {o : α} {pos value next f ev} (h : Finished cfg p o pos value next (.error f) ev) :
    (∃ e ∈ ev, e.answer = none) ∨ (EndsInCrash ev ∧ f = .nullDeref) := by
  have cons : ∀ {x : Event α} {ev}, (∃ e ∈ ev, e.answer = none) ∨ (EndsInCrash ev ∧ f = .nullDeref) →
      (∃ e ∈ x :: ev, e.answer = none) ∨ (EndsInCrash (x :: ev) ∧ f = .nullDeref) := by
    intro x ev h
    rcases h with ⟨e, he, h⟩ | ⟨h, hf⟩
    · exact Or.inl ⟨e, by simp [he], h⟩
    · exact Or.inr ⟨h.after [x], hf⟩
  cases h with
  | attached _ h => exact given_error h
  | broken e _ _ => exact Or.inl (by simp)
  | last _ _ h => exact cons (given_error h)
  | broken' e _ _ => exact Or.inl (by simp)
  | bare _ _ h => exact cons (given_error h)
  | following _ _ h => exact cons (given_error h)

theorem rounded_error {cfg : Config α} {p : PState} {pos arg next f ev} (h : Rounded cfg p pos arg next (.error f) ev) :
    (∃ e ∈ ev, e.answer = none) ∨ (EndsInCrash ev ∧ f = .nullDeref) ∨ (sNo <+: arg ∧ f = .nullDeref) := by
  have cons : ∀ {x : Event α} {ev}, (∃ e ∈ ev, e.answer = none) ∨ (EndsInCrash ev ∧ f = .nullDeref) →
      (∃ e ∈ x :: ev, e.answer = none) ∨ (EndsInCrash (x :: ev) ∧ f = .nullDeref) := by
    intro x ev h
    rcases h with ⟨e, he, h⟩ | ⟨h, hf⟩
    · exact Or.inl ⟨e, by simp [he], h⟩
    · exact Or.inr ⟨h.after [x], hf⟩
  cases h with
  | unknown h _ _ => exact Or.inr (Or.inr ⟨List.isPrefixOf_iff_prefix.1 h, rfl⟩)
  | broken o e _ => exact Or.inl (by simp)
  | broken' o e b _ => exact Or.inl (by simp)
  | broken'' o e b _ => exact Or.inl (by simp)
  | attached _ h => exact (cons (cons (cons (finished_error h)))).imp_right Or.inl
  | plain _ _ _ h => exact (cons (cons (finished_error h))).imp_right Or.inl
  | positional _ h => exact (finished_error h).imp_right Or.inl

theorem loop_error {cfg : Config α} {args skip p pos res ev} (h : Looped cfg args skip p pos res ev) : ∀ f, res = .error f →
    (∃ e ∈ ev, e.answer = none) ∨ (EndsInCrash ev ∧ f = .nullDeref) ∨ ((∃ arg ∈ args, sNo <+: arg) ∧ f = .nullDeref) := by
  induction h with
  | done => intro f h; cases h
  | skipped _ ih =>
    intro f h
    rcases ih f h with h | h | ⟨⟨arg, ha, h⟩, hf⟩
    · exact Or.inl h
    · exact Or.inr (Or.inl h)
    · exact Or.inr (Or.inr ⟨⟨arg, by simp [ha], h⟩, hf⟩)
  | broken hr =>
    intro f h
    cases h
    rcases rounded_error hr with h | h | ⟨h, hf⟩
    · exact Or.inl h
    · exact Or.inr (Or.inl h)
    · exact Or.inr (Or.inr ⟨⟨_, by simp, h⟩, hf⟩)
  | fail _ => intro f h; cases h
  | halt _ => intro f h; cases h
  | next _ _ ih =>
    intro f h
    rcases ih f h with ⟨e, he, h⟩ | ⟨h, hf⟩ | ⟨⟨arg, ha, h⟩, hf⟩
    · exact Or.inl ⟨e, by simp [he], h⟩
    · exact Or.inr (Or.inl ⟨h.after _, hf⟩)
    · exact Or.inr (Or.inr ⟨⟨arg, by simp [ha], h⟩, hf⟩)

theorem parse_error {cfg : Config α} {p args f ev} (h : Parsed cfg p args (.error f) ev) :
    (∃ e ∈ ev, e.answer = none) ∨ (EndsInCrash ev ∧ f = .nullDeref) ∨ ((∃ arg ∈ args, sNo <+: arg) ∧ f = .nullDeref) := by
  cases h with
  | broken h => exact loop_error h f rfl
  | unhelped h => exact Or.inl (by simp)

end Verif.ArgParser.Client
