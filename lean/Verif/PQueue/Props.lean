import Verif.PQueue.Lemmas
/-!
# Properties C38-C40: `PriorityQueue`
-/
namespace Verif.PQueue
open Verif

variable {T : Type} {hp : T → T → Bool}

/-- Common core: a legal history runs without fault and every answer is allowed. -/
theorem run_spec (Q : List T → Prop) (may : List T → T → Prop)
    (hadd : ∀ v x, Q v → ∃ v', add hp (v.map some) x = .ok (v'.map some) ∧ v'.Perm (x :: v) ∧ Q v')
    (hpop : ∀ v, Q v → v ≠ [] → ∃ r v', v[0]? = some r ∧ pop hp (v.map some) = .ok (r, v'.map some) ∧
      v.Perm (r :: v') ∧ Q v')
    (hmay : ∀ v S r, Q v → v.Perm S → v[0]? = some r → may S r) :
    ∀ (ops : List (Op T)) (v S : List T), Q v → v.Perm S →
      (legal S.length ops = true →
        ∃ v' outs S', run hp (v.map some) ops = .ok (v'.map some, outs) ∧ Steps may S ops outs S' ∧
          v'.Perm S' ∧ Q v') ∧
      (legal S.length ops = false → run hp (v.map some) ops = .error .assertFail) := by
  intro ops
  induction ops with
  | nil =>
    intro v S hq hperm
    exact ⟨fun _ => ⟨v, [], S, rfl, .nil S, hperm, hq⟩, fun h => by simp [legal] at h⟩
  | cons op ops ih =>
    intro v S hq hperm
    cases op with
    | add x =>
      obtain ⟨v', hv', hp', hq'⟩ := hadd v x hq
      obtain ⟨h1, h2⟩ := ih v' (x :: S) hq' (hp'.trans (.cons x hperm))
      have hex : exec hp (v.map some) (.add x) = .ok (v'.map some, .done) := by
        simp only [exec, bind, Except.bind, hv']
      simp only [legal, run, bind, Except.bind, hex]
      refine ⟨fun hl => ?_, fun hl => by rw [h2 hl]⟩
      obtain ⟨v'', outs, S', hr, hs, hpp, hqq⟩ := h1 hl
      exact ⟨v'', .done :: outs, S', by rw [hr], .cons (.add S x) hs, hpp, hqq⟩
    | empty =>
      obtain ⟨h1, h2⟩ := ih v S hq hperm
      have he : empty (v.map some) = S.isEmpty := by
        have := hperm.length_eq
        cases v <;> cases S <;> simp_all [empty]
      have hl : legal S.length (.empty :: ops) = legal S.length ops := by cases S <;> rfl
      simp only [hl, run, exec, bind, Except.bind, he]
      refine ⟨fun hl => ?_, fun hl => by rw [h2 hl]⟩
      obtain ⟨v'', outs, S', hr, hs, hpp, hqq⟩ := h1 hl
      exact ⟨v'', .flag S.isEmpty :: outs, S', by rw [hr], .cons (.empty S) hs, hpp, hqq⟩
    | pop =>
      by_cases hne : v = []
      · subst hne
        have : S = [] := hperm.symm.eq_nil
        subst this
        exact ⟨fun h => by simp [legal] at h, fun _ => rfl⟩
      · obtain ⟨r, v', h0, hv', hp', hq'⟩ := hpop v hq hne
        have hrS : r ∈ S := hperm.subset (by
          obtain ⟨hl, hr⟩ := List.getElem?_eq_some_iff.1 h0
          rw [← hr]; exact List.getElem_mem hl)
        obtain ⟨s, t, rfl⟩ := List.append_of_mem hrS
        have hS : (s ++ r :: t).Perm (r :: (s ++ t)) := List.perm_middle
        have hv'S : v'.Perm (s ++ t) := ((hp'.symm.trans hperm).trans hS).cons_inv
        obtain ⟨h1, h2⟩ := ih v' (s ++ t) hq' hv'S
        have hex : exec hp (v.map some) .pop = .ok (v'.map some, .item r) := by
          simp only [exec, bind, Except.bind, hv']
        have hleg : legal (s ++ r :: t).length (.pop :: ops) = legal (s ++ t).length ops := by
          rw [hS.length_eq]; rfl
        rw [hleg]
        simp only [run, bind, Except.bind, hex]
        refine ⟨fun hl => ?_, fun hl => by rw [h2 hl]⟩
        obtain ⟨v'', outs, S', hr, hs, hpp, hqq⟩ := h1 hl
        exact ⟨v'', .item r :: outs, S', by rw [hr], .cons (.pop hS (hmay v _ r hq hperm h0)) hs, hpp, hqq⟩
    | peek =>
      by_cases hne : v = []
      · subst hne
        have : S = [] := hperm.symm.eq_nil
        subst this
        exact ⟨fun h => by simp [legal] at h, fun _ => rfl⟩
      · obtain ⟨r, v', h0, -⟩ := hpop v hq hne
        have hrS : r ∈ S := hperm.subset (by
          obtain ⟨hl, hr⟩ := List.getElem?_eq_some_iff.1 h0
          rw [← hr]; exact List.getElem_mem hl)
        obtain ⟨h1, h2⟩ := ih v S hq hperm
        have hex : exec hp (v.map some) .peek = .ok (v.map some, .item r) := by
          have he : empty (v.map some) = false := by cases v <;> simp_all [empty]
          simp only [exec, peek, he, bind, Except.bind, get_map h0]
          rfl
        have hleg : legal S.length (.peek :: ops) = legal S.length ops := by
          cases S with
          | nil => simp at hrS
          | cons a S => rfl
        rw [hleg]
        simp only [run, bind, Except.bind, hex]
        refine ⟨fun hl => ?_, fun hl => by rw [h2 hl]⟩
        obtain ⟨v'', outs, S', hr, hs, hpp, hqq⟩ := h1 hl
        exact ⟨v'', .item r :: outs, S', by rw [hr], .cons (.peek hrS (hmay v _ r hq hperm h0)) hs, hpp, hqq⟩

/-- C39: for *any* comparison function, every legal history runs without fault (no index out of range, no
moved-out value used, no endless loop) and the queue holds exactly the items added and not popped:
`pop` removes one copy of an item it holds. An illegal history fails the assertion. -/
theorem C39_multiset (hp : T → T → Bool) (ops : List (Op T)) :
    (legal 0 ops = true →
      ∃ (v : List T) (outs : List (Out T)) (S : List T), run hp [] ops = .ok (v.map some, outs) ∧
        Steps (fun _ _ => True) [] ops outs S ∧ v.Perm S) ∧
    (legal 0 ops = false → run hp [] ops = .error .assertFail) := by
  have h := run_spec (hp := hp) (fun _ => True) (fun _ _ => True)
    (fun v x _ => by obtain ⟨v', h1, h2, _⟩ := add_spec (hp := hp) v x; exact ⟨v', h1, h2, trivial⟩)
    (fun v _ hne => by
      obtain ⟨r, v', h0, h1, h2, _⟩ := pop_spec (hp := hp) v hne; exact ⟨r, v', h0, h1, h2, trivial⟩)
    (fun _ _ _ _ _ _ => trivial) ops [] [] trivial (.refl _)
  refine ⟨fun hl => ?_, h.2⟩
  obtain ⟨v, outs, S, h1, h2, h3, _⟩ := h.1 hl
  exact ⟨v, outs, S, h1, h2, h3⟩

/-- C38: if the comparison is a strict weak order, `peek` and `pop` return an item that nothing in the
queue outranks, in every legal history. -/
theorem C38_best (hw : StrictWeak hp) (ops : List (Op T)) (hl : legal 0 ops = true) :
    ∃ (v : List T) (outs : List (Out T)) (S : List T), run hp [] ops = .ok (v.map some, outs) ∧
      Steps (Best hp) [] ops outs S ∧ v.Perm S := by
  have h := run_spec (hp := hp) (Heap hp) (Best hp)
    (fun v x hh => by obtain ⟨v', h1, h2, h3⟩ := add_spec (hp := hp) v x; exact ⟨v', h1, h2, h3 hw hh⟩)
    (fun v hh hne => by
      obtain ⟨r, v', h0, h1, h2, h3⟩ := pop_spec (hp := hp) v hne; exact ⟨r, v', h0, h1, h2, h3 hw hh⟩)
    (fun v S r hh hperm h0 y hy => by
      obtain ⟨i, hi⟩ := List.mem_iff_getElem?.1 (hperm.symm.subset hy)
      exact heap_root hw hh h0 i y hi)
    ops [] [] (fun i x y _ hx _ => by simp at hx) (.refl _)
  obtain ⟨v, outs, S, h1, h2, h3, _⟩ := h.1 hl
  exact ⟨v, outs, S, h1, h2, h3⟩

/-- `while (!q.empty()) out.push_back(q.pop());` -/
def drain (hp : T → T → Bool) (v : Vec T) : Nat → Exec (List T)
  | 0 => .error .diverge
  | fuel + 1 =>
    if empty v then .ok []
    else do
      let (x, v) ← pop hp v
      let xs ← drain hp v fuel
      .ok (x :: xs)

theorem drain_spec (hw : StrictWeak hp) : ∀ (n : Nat) (v : List T), v.length < n → Heap hp v →
    ∃ xs, drain hp (v.map some) n = .ok xs ∧ xs.Perm v ∧ xs.Pairwise (fun a b => hp b a = false) := by
  intro n
  induction n with
  | zero => intro v h; omega
  | succ n ih =>
    intro v hn hh
    unfold drain
    by_cases hne : v = []
    · subst hne; exact ⟨[], rfl, .refl _, .nil⟩
    · have he : empty (v.map some) = false := by cases v <;> simp_all [empty]
      rw [he, if_neg (by decide)]
      obtain ⟨r, v', h0, h1, h2, h3⟩ := pop_spec (hp := hp) v hne
      have hl := h2.length_eq
      simp only [List.length_cons] at hl
      obtain ⟨xs, hx, hp', hs⟩ := ih v' (by omega) (h3 hw hh)
      simp only [bind, Except.bind, h1, hx]
      refine ⟨_, rfl, (.trans (.cons r hp') h2.symm), .cons ?_ hs⟩
      intro y hy
      have hyv : y ∈ v := h2.symm.subset (List.mem_cons_of_mem _ (hp'.subset hy))
      obtain ⟨i, hi⟩ := List.mem_iff_getElem?.1 hyv
      exact heap_root hw hh h0 i y hi

/-- C40: after any legal history, popping until empty terminates and yields the remaining items in
non-increasing priority order. -/
theorem C40_drain_sorts (hw : StrictWeak hp) (ops : List (Op T)) (hl : legal 0 ops = true) :
    ∃ (v : Vec T) (outs : List (Out T)) (S xs : List T), run hp [] ops = .ok (v, outs) ∧
      Steps (Best hp) [] ops outs S ∧ drain hp v (v.length + 1) = .ok xs ∧ xs.Perm S ∧
      xs.Pairwise (fun a b => hp b a = false) := by
  have h := run_spec (hp := hp) (Heap hp) (Best hp)
    (fun v x hh => by obtain ⟨v', h1, h2, h3⟩ := add_spec (hp := hp) v x; exact ⟨v', h1, h2, h3 hw hh⟩)
    (fun v hh hne => by
      obtain ⟨r, v', h0, h1, h2, h3⟩ := pop_spec (hp := hp) v hne; exact ⟨r, v', h0, h1, h2, h3 hw hh⟩)
    (fun v S r hh hperm h0 y hy => by
      obtain ⟨i, hi⟩ := List.mem_iff_getElem?.1 (hperm.symm.subset hy)
      exact heap_root hw hh h0 i y hi)
    ops [] [] (fun i x y _ hx _ => by simp at hx) (.refl _)
  obtain ⟨v, outs, S, h1, h2, h3, hh⟩ := h.1 hl
  obtain ⟨xs, h4, h5, h6⟩ := drain_spec hw ((v.map some).length + 1) v (by simp) hh
  exact ⟨_, outs, S, xs, h1, h2, h4, h5.trans h3, h6⟩

/-! ### Non-vacuity -/

theorem natStrictWeak : StrictWeak (fun a b : Nat => decide (a < b)) :=
  ⟨fun a => by simp, fun a b c h1 h2 => by simp at *; omega, fun a b c h1 h2 => by simp at *; omega⟩

example : legal 0 [.add 3, .add 1, .add 2, .pop, .peek, .pop, .empty, Op.pop (T := Nat)] = true := by decide

example : drain (fun a b : Nat => decide (a < b)) [some 1, some 4, some 2, some 5] 5 = .ok [1, 2, 4, 5] := by
  decide +kernel

end Verif.PQueue
