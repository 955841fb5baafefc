import Verif.Str.VaLemmas
/-!
# C150: argument lists and memory in the formatting functions
-/
namespace Verif.Str.Va
open Verif

/-- **C150**, `Sprintf`. It never reads a list that was read through, never ends a list twice and frees nothing twice: its only faults are those of formatting. The caller gets one new
block exactly when it gets a buffer, also if an allocation throws. Its own list and the copy are ended exactly when it neither throws nor fails in the second formatting. -/
theorem C150_sprintf_partial (throws : Nat → Bool) (s : St) (f1 f2 : Fmt) (h : WF s) :
    (∀ e, sprintf throws s f1 f2 = .error e → Str.sprintf f1 f2 = .error e) ∧
    (∀ s' r, sprintf throws s f1 f2 = .ok (s', some r) →
      WF s' ∧ Str.sprintf f1 f2 = .ok (r.map (·.2)) ∧
      (r = none → s'.blocks = s.blocks) ∧ (∀ b m, r = some (b, m) → s'.blocks = b :: s.blocks ∧ b ∉ s.blocks) ∧
      (¬ SecondFails f1 f2 → s'.lists = s.lists) ∧ (SecondFails f1 f2 → s'.lists = (s.next + 1, true) :: s.lists)) ∧
    (∀ s', sprintf throws s f1 f2 = .ok (s', none) →
      WF s' ∧ throws s.clock = true ∧ s'.blocks = s.blocks ∧ s'.lists = (s.next + 1, false) :: (s.next, true) :: s.lists) := by
  have hc := impl_cases throws (vaStart s).1 (vaStart s).2 f1 f2 h.vaStart (by simp [vaStart])
  rw [readThrough_start h] at hc
  unfold sprintf Str.sprintf
  simp only [bind, Except.bind]
  rcases hc with ⟨e, he, hd⟩ | ⟨s1, he, ht, hb, hl, hcl, hn, _⟩ | ⟨s1, he, hd, hb, hn, hl⟩ | ⟨s1, b, m, n, he, hd, ht, hb, hnb, hl, hcl, hn, hbn, hsf⟩
  · rw [he, hd]
    refine ⟨(fun e' h' => ?_), (fun _ _ h' => ?_), (fun _ h' => ?_)⟩ <;> first | (injection h' with h'; subst h'; rfl) | nomatch h' | (simp only at h'; nomatch h')
  · rw [he]
    refine ⟨(fun _ h' => nomatch h'), (fun _ _ h' => ?_), (fun s' h' => ?_)⟩
    · simp only at h'; injection h' with h'; injection h' with _ h'; nomatch h'
    · simp only at h'; injection h' with h'; injection h' with h' _
      subst h'
      exact ⟨h.later hn (Or.inr (Or.inr (Or.inl hl))) (Or.inl hb), ht, hb, hl⟩
  · rw [he, hd]
    rcases hl with ⟨hsf, ht, hl⟩ | ⟨hsf, hl⟩
    · simp only
      rw [show (vaStart s).2 = s.next from rfl, vaEnd_own' h hl]
      refine ⟨(fun _ h' => nomatch h'), (fun s' r h' => ?_), (fun s' h' => ?_)⟩
      · simp only at h'; injection h' with h'; injection h' with h' hr; injection hr with hr
        subst h'; subst hr
        exact ⟨h.later hn (Or.inr (Or.inl rfl)) (Or.inl hb), rfl, (fun _ => hb), (fun _ _ hh => nomatch hh), (fun hh => absurd hsf hh), (fun _ => rfl)⟩
      · simp only at h'; injection h' with h'; injection h' with _ h'; nomatch h'
    · simp only
      rw [show (vaStart s).2 = s.next from rfl, vaEnd_own h hl]
      refine ⟨(fun _ h' => nomatch h'), (fun s' r h' => ?_), (fun s' h' => ?_)⟩
      · simp only at h'; injection h' with h'; injection h' with h' hr; injection hr with hr
        subst h'; subst hr
        exact ⟨h.later hn (Or.inl rfl) (Or.inl hb), rfl, (fun _ => hb), (fun _ _ hh => nomatch hh), (fun _ => rfl), (fun hh => absurd hh hsf)⟩
      · simp only at h'; injection h' with h'; injection h' with _ h'; nomatch h'
  · rw [he, hd]
    simp only
    rw [show (vaStart s).2 = s.next from rfl, vaEnd_own h hl]
    refine ⟨(fun _ h' => nomatch h'), (fun s' r h' => ?_), (fun s' h' => ?_)⟩
    · simp only at h'; injection h' with h'; injection h' with h' hr; injection hr with hr
      subst h'; subst hr
      exact ⟨h.later hn (Or.inl rfl) (Or.inr ⟨b, hb, hnb, hbn⟩), rfl, (fun hh => nomatch hh),
        (fun b' m' hh => by injection hh with hh; injection hh with hh _; subst hh; exact ⟨hb, hnb⟩), (fun _ => rfl), (fun hh => absurd hh hsf)⟩
    · simp only at h'; injection h' with h'; injection h' with _ h'; nomatch h'

/-- **C150**, `StringPrintf`: as `Sprintf`, and no block is left over however it returns. -/
theorem C150_stringPrintf_partial (throws : Nat → Bool) (s : St) (f1 f2 : Fmt) (h : WF s) :
    (∀ e, stringPrintf throws s f1 f2 = .error e → Str.stringPrintf f1 f2 = .error e) ∧
    (∀ s' t, stringPrintf throws s f1 f2 = .ok (s', some t) →
      WF s' ∧ Str.stringPrintf f1 f2 = .ok t ∧ s'.blocks = s.blocks ∧
      (¬ SecondFails f1 f2 → s'.lists = s.lists) ∧ (SecondFails f1 f2 → s'.lists = (s.next + 1, true) :: s.lists)) ∧
    (∀ s', stringPrintf throws s f1 f2 = .ok (s', none) →
      WF s' ∧ s'.blocks = s.blocks ∧
      ((throws s.clock = true ∧ s'.lists = (s.next + 1, false) :: (s.next, true) :: s.lists) ∨
       (throws s.clock = false ∧ throws (s.clock + 1) = true ∧ s'.lists = (s.next, true) :: s.lists))) := by
  have hc := impl_cases throws (vaStart s).1 (vaStart s).2 f1 f2 h.vaStart (by simp [vaStart])
  rw [readThrough_start h] at hc
  unfold stringPrintf stringPrintfVa Str.stringPrintf
  simp only [bind, Except.bind]
  rcases hc with ⟨e, he, hd⟩ | ⟨s1, he, ht, hb, hl, hcl, hn, _⟩ | ⟨s1, he, hd, hb, hn, hl⟩ | ⟨s1, b, m, n, he, hd, ht, hb, hnb, hl, hcl, hn, hbn, hsf⟩
  · rw [he, hd]
    refine ⟨(fun e' h' => ?_), (fun _ _ h' => ?_), (fun _ h' => ?_)⟩ <;> first | (injection h' with h'; subst h'; rfl) | nomatch h' | (simp only at h'; nomatch h')
  · rw [he]
    refine ⟨(fun _ h' => nomatch h'), (fun _ _ h' => ?_), (fun s' h' => ?_)⟩
    · simp only at h'; injection h' with h'; injection h' with _ h'; nomatch h'
    · simp only at h'; injection h' with h'; injection h' with h' _
      subst h'
      exact ⟨h.later hn (Or.inr (Or.inr (Or.inl hl))) (Or.inl hb), hb, Or.inl ⟨ht, hl⟩⟩
  · rw [he, hd]
    rcases hl with ⟨hsf, ht, hl⟩ | ⟨hsf, hl⟩
    · simp only
      rw [show (vaStart s).2 = s.next from rfl, vaEnd_own' h hl]
      refine ⟨(fun _ h' => nomatch h'), (fun s' r h' => ?_), (fun s' h' => ?_)⟩
      · simp only at h'; injection h' with h'; injection h' with h' hr; injection hr with hr
        subst h'; subst hr
        exact ⟨h.later hn (Or.inr (Or.inl rfl)) (Or.inl hb), rfl, hb, (fun hh => absurd hsf hh), (fun _ => rfl)⟩
      · simp only at h'; injection h' with h'; injection h' with _ h'; nomatch h'
    · simp only
      rw [show (vaStart s).2 = s.next from rfl, vaEnd_own h hl]
      refine ⟨(fun _ h' => nomatch h'), (fun s' r h' => ?_), (fun s' h' => ?_)⟩
      · simp only at h'; injection h' with h'; injection h' with h' hr; injection hr with hr
        subst h'; subst hr
        exact ⟨h.later hn (Or.inl rfl) (Or.inl hb), rfl, hb, (fun _ => rfl), (fun hh => absurd hh hsf)⟩
      · simp only at h'; injection h' with h'; injection h' with _ h'; nomatch h'
  · rw [he, hd]
    simp only
    by_cases hlen : n ≤ m.length
    · rw [if_pos hlen, if_pos hlen]
      simp only [dropUnique, hb, List.mem_cons, true_or, if_true, List.erase_cons_head]
      rw [show (vaStart s).1.clock = s.clock from rfl] at hcl
      cases hth : throws s1.clock with
      | true =>
        simp only [if_true]
        refine ⟨(fun _ h' => nomatch h'), (fun _ _ h' => ?_), (fun s' h' => ?_)⟩
        · injection h' with h'; injection h' with _ h'; nomatch h'
        · injection h' with h'; injection h' with h' _
          subst h'
          refine ⟨h.later hn ?_ (Or.inl rfl), rfl, Or.inr ⟨ht, by rw [← hcl]; exact hth, hl⟩⟩
          exact Or.inr (Or.inr (Or.inr (Or.inr hl)))
      | false =>
        simp only [Bool.false_eq_true, if_false]
        rw [show (vaStart s).2 = s.next from rfl, vaEnd_own h (by exact hl)]
        refine ⟨(fun _ h' => nomatch h'), (fun s' r h' => ?_), (fun s' h' => ?_)⟩
        · simp only at h'; injection h' with h'; injection h' with h' hr; injection hr with hr
          subst h'; subst hr
          exact ⟨h.later hn (Or.inl rfl) (Or.inl rfl), rfl, rfl, (fun _ => rfl), (fun hh => absurd hh hsf)⟩
        · simp only at h'; injection h' with h'; injection h' with _ h'; nomatch h'
    · rw [if_neg hlen, if_neg hlen]
      refine ⟨(fun e' h' => ?_), (fun _ _ h' => ?_), (fun _ h' => ?_)⟩ <;> first | (injection h' with h'; subst h'; rfl) | nomatch h' | (simp only at h'; nomatch h')

/-- **C150**: the caller of `SprintfArgs` finds its own list read through and not ended, and every other list unchanged: it may only end it (and passing it to a second call is a fault). -/
theorem C150_caller_list_partial (throws : Nat → Bool) (s s' : St) (ap : Nat) (f1 f2 : Fmt) (r : Option Buf) (h : WF s) (hap : (ap, false) ∈ s.lists)
    (hrun : sprintfArgsImpl throws s ap f1 f2 = .ok (s', r)) :
    (ap, true) ∈ s'.lists ∧ (∀ x ∈ s.lists, x.1 ≠ ap → x ∈ s'.lists) ∧
    (∀ g1 g2, sprintfArgsImpl throws s' ap g1 g2 = .error .uninitialised) := by
  have hin : (ap, true) ∈ readThrough s.lists ap := by
    unfold readThrough
    exact List.mem_map.2 ⟨_, hap, by simp⟩
  have hot : ∀ x ∈ s.lists, x.1 ≠ ap → x ∈ readThrough s.lists ap := by
    intro x hx hne
    unfold readThrough
    exact List.mem_map.2 ⟨x, hx, by simp [hne]⟩
  have hno : (ap, false) ∉ readThrough s.lists ap := by
    intro hm
    unfold readThrough at hm
    obtain ⟨x, _, hx⟩ := List.mem_map.1 hm
    by_cases he : x.1 = ap
    · rw [if_pos he] at hx; nomatch hx
    · rw [if_neg he] at hx; exact he (by rw [hx])
  have hlt : ap < s.next := h.1 _ hap
  have key : ∀ l, (s'.lists = readThrough s.lists ap ∨ s'.lists = (s.next, l) :: readThrough s.lists ap) →
      (ap, true) ∈ s'.lists ∧ (∀ x ∈ s.lists, x.1 ≠ ap → x ∈ s'.lists) ∧ (∀ g1 g2, sprintfArgsImpl throws s' ap g1 g2 = .error .uninitialised) := by
    intro l hl
    have hno' : (ap, false) ∉ s'.lists := by
      rcases hl with hl | hl <;> rw [hl]
      · exact hno
      · intro hm
        rcases List.mem_cons.1 hm with hm | hm
        · injection hm with hm _; omega
        · exact hno hm
    refine ⟨?_, ?_, ?_⟩
    · rcases hl with hl | hl <;> rw [hl]
      · exact hin
      · exact List.mem_cons_of_mem _ hin
    · intro x hx hne
      rcases hl with hl | hl <;> rw [hl]
      · exact hot x hx hne
      · exact List.mem_cons_of_mem _ (hot x hx hne)
    · intro g1 g2
      unfold sprintfArgsImpl vaCopy
      rw [if_neg hno']
      rfl
  rcases impl_cases throws s ap f1 f2 h hap with ⟨e, he, _⟩ | ⟨s1, he, _, _, hl, _⟩ | ⟨s1, he, _, _, _, hl⟩ | ⟨s1, b, m, n, he, _, _, _, _, hl, _⟩
  · rw [he] at hrun; nomatch hrun
  · rw [he] at hrun; injection hrun with hrun; injection hrun with hrun _; subst hrun
    exact key false (Or.inr hl)
  · rw [he] at hrun; injection hrun with hrun; injection hrun with hrun _; subst hrun
    rcases hl with ⟨_, _, hl⟩ | ⟨_, hl⟩
    · exact key true (Or.inr hl)
    · exact key true (Or.inl hl)
  · rw [he] at hrun; injection hrun with hrun; injection hrun with hrun _; subst hrun
    exact key true (Or.inl hl)

theorem safe_va (s : St) (f : Fmt) (buffer : List Byte) (maxlength : Nat) (h : WF s) :
    (∃ e, safeVsprintf (vaStart s).1 (vaStart s).2 f buffer maxlength = .error e ∧ Str.safeVsprintf f buffer maxlength = .error e) ∨
    ∃ s' r l, safeVsprintf (vaStart s).1 (vaStart s).2 f buffer maxlength = .ok (s', r) ∧ Str.safeVsprintf f buffer maxlength = .ok r ∧
      s' = { s with next := s.next + 1, lists := (s.next, l) :: s.lists } := by
  unfold safeVsprintf
  by_cases hz : maxlength = 0
  · rw [if_pos hz]
    exact Or.inr ⟨_, _, false, rfl, by simp only [Str.safeVsprintf, hz, if_true], rfl⟩
  · rw [if_neg hz]
    have hu : vaUse (vaStart s).1 (vaStart s).2 = .ok { s with next := s.next + 1, lists := (s.next, true) :: s.lists } := by
      have := readThrough_start h
      unfold readThrough at this
      simp only [vaUse]
      rw [if_pos (by simp [vaStart]), this]
      rfl
    simp only [hu, bind, Except.bind]
    cases hv : Str.safeVsprintf f buffer maxlength with
    | error e => exact Or.inl ⟨e, rfl, rfl⟩
    | ok r => exact Or.inr ⟨_, r, true, rfl, rfl, rfl⟩

theorem safe_end (s : St) (l : Bool) (h : WF s) :
    vaEnd { s with next := s.next + 1, lists := (s.next, l) :: s.lists } s.next = .ok { s with next := s.next + 1 } := by
  simp only [vaEnd, List.map_cons, List.mem_cons, true_or, if_true]
  rw [List.filter_cons_of_neg (by simp), filter_ne (fresh_not_mem h)]

/-- **C150**, `SafeSprintf`: always balanced, with every format, buffer and size, and no memory is taken. -/
theorem C150_safeSprintf (s : St) (f : Fmt) (buffer : List Byte) (maxlength : Nat) (h : WF s) :
    safeSprintf s f buffer maxlength = (Str.safeVsprintf f buffer maxlength).map fun r => ({ s with next := s.next + 1 }, r) := by
  unfold safeSprintf
  simp only [bind, Except.bind]
  rcases safe_va s f buffer maxlength h with ⟨e, he, hd⟩ | ⟨s', r, l, he, hd, hs⟩
  · rw [he, hd]; rfl
  · rw [he, hd]
    subst hs
    simp only
    rw [show (vaStart s).2 = s.next from rfl, safe_end s l h]
    rfl

/-- **C150**, `path::Format`: always balanced. -/
theorem C150_pathFormat (win : Bool) (s : St) (f : Fmt) (dest : List Byte) (maxlength : Nat) (h : WF s) :
    pathFormat win s f dest maxlength = (Str.pathFormat win f dest maxlength).map fun r => ({ s with next := s.next + 1 }, r) := by
  unfold pathFormat Str.pathFormat
  simp only [bind, Except.bind]
  rcases safe_va s f dest maxlength h with ⟨e, he, hd⟩ | ⟨s', ⟨m, n⟩, l, he, hd, hs⟩
  · rw [he, hd]; rfl
  · rw [he, hd]
    subst hs
    simp only
    cases slashLoop win m 0 n with
    | error e => rfl
    | ok d =>
      simp only
      rw [show (vaStart s).2 = s.next from rfl, safe_end s l h]
      rfl

/-- **C150**, `Parser::parsev`: its list is never ended. -/
theorem C150_parsev_partial (s : St) (args : List (List Byte)) : (parsev s args).1.lists = (s.next, false) :: s.lists ∧ (parsev s args).2 = args := ⟨rfl, rfl⟩

/-- **C150** is violated: if the second formatting fails, the copied list is not ended. am-string.h:122-124. -/
theorem C150_lists_refuted : ¬ ListsBalanced := by
  intro h
  let s0 : St := { next := 0, lists := [], blocks := [], clock := 0 }
  have hrun : sprintf (fun _ => false) s0 (.text [65]) (.fail 0 []) = .ok ({ next := 3, lists := [(1, true)], blocks := [], clock := 1 }, some none) := by
    rfl
  have hw : WF s0 := ⟨by simp [s0], by simp [s0], by simp [s0], by simp [s0]⟩
  have := (h (fun _ => false) s0 _ (.text [65]) (.fail 0 []) hw).1 _ hrun
  nomatch this

/-- **C150** is violated when an allocation throws, too: neither list is ended. am-string.h:115, 146-148. -/
theorem C150_throw_refuted : ¬ ∀ (throws : Nat → Bool) (s s' : St) (f1 f2 : Fmt), WF s → ¬ SecondFails f1 f2 →
    sprintf throws s f1 f2 = .ok (s', none) → s'.lists = s.lists := by
  intro h
  let s0 : St := { next := 0, lists := [], blocks := [], clock := 0 }
  have hrun : sprintf (fun _ => true) s0 (.text [65]) (.text [65]) = .ok ({ next := 2, lists := [(1, false), (0, true)], blocks := [], clock := 1 }, none) := by
    rfl
  have hw : WF s0 := ⟨by simp [s0], by simp [s0], by simp [s0], by simp [s0]⟩
  have := h (fun _ => true) s0 _ (.text [65]) (.text [65]) hw (by
    rintro ⟨_, ⟨_, _, hh⟩ | ⟨t, hh, hl⟩⟩
    · nomatch hh
    · injection hh with hh; subst hh; simp at hl) hrun
  nomatch this

/-- **C150** is violated by `parsev` on every call. am-argparser.h:609-619. -/
theorem C150_parsev_refuted (s : St) (args : List (List Byte)) : (parsev s args).1.lists ≠ s.lists := by
  intro h
  have := congrArg List.length h
  simp [parsev, vaStart] at this

/-- A run in which a block is returned to a caller that has a list and a block already. -/
example : sprintf (fun _ => false) { next := 5, lists := [(2, true)], blocks := [4], clock := 0 } (.text [65, 66]) (.text [65, 66]) =
    .ok ({ next := 8, lists := [(2, true)], blocks := [7, 4], clock := 1 }, some (some (7, [65, 66, 0]))) := by rfl

example : WF { next := 5, lists := [(2, true)], blocks := [4], clock := 0 } := by
  refine ⟨?_, ?_, ?_, ?_⟩ <;> simp

/-- `StringPrintf` with the string's constructor throwing: the buffer is freed, the list not ended. -/
example : stringPrintf (fun n => decide (n = 1)) { next := 5, lists := [(2, true)], blocks := [4], clock := 0 } (.text [65, 66]) (.text [65, 66]) =
    .ok ({ next := 8, lists := [(5, true), (2, true)], blocks := [4], clock := 2 }, none) := by rfl

end Verif.Str.Va
