import Verif.Str.Model
/-! # Lemmas about buffers, Split and Join -/
namespace Verif.Str
open Verif

theorem ld_mid (pre r : List Byte) (b : Byte) : ld (pre ++ b :: r) pre.length = .ok b := by
  simp [ld]

theorem st_mid (pre r : List Byte) (b c : Byte) : st (pre ++ b :: r) pre.length c = .ok (pre ++ c :: r) := by
  simp [st]

theorem st_at {m : List Byte} {i : Nat} (h : i < m.length) (c : Byte) :
    st m i c = .ok (m.take i ++ c :: m.drop (i + 1)) := by
  rw [st, if_pos h, List.set_eq_take_append_cons_drop, if_pos h]

theorem st_append {x y : List Byte} (h : y ≠ []) {i : Nat} (hi : i = x.length) (c : Byte) :
    st (x ++ y) i c = .ok (x ++ c :: y.drop 1) := by
  subst hi
  cases y with
  | nil => exact absurd rfl h
  | cons a y => exact st_mid x y a c

theorem strcpyLoop_spec (rest : List Byte) : ∀ (s pre ds : List Byte) (count : Nat),
    0 ∉ s → 0 < count → count ≤ ds.length →
    strcpyLoop (pre ++ (s ++ 0 :: rest)) (pre ++ ds) pre.length count =
      .ok (pre ++ (s.take (count - 1) ++ ds.drop (min s.length (count - 1))),
        pre.length + min s.length (count - 1)) := by
  intro s
  induction s with
  | nil =>
    intro pre ds count _ hc _
    obtain ⟨n, rfl⟩ : ∃ n, count = n + 1 := ⟨count - 1, by omega⟩
    simp only [strcpyLoop, List.nil_append, bind, Except.bind, ld_mid]
    simp
  | cons c s ih =>
    intro pre ds count hs hc hl
    obtain ⟨n, rfl⟩ : ∃ n, count = n + 1 := ⟨count - 1, by omega⟩
    have hc0 : c ≠ 0 := fun h => hs (by simp [h])
    simp only [strcpyLoop, List.cons_append, bind, Except.bind, ld_mid, hc0, if_false]
    by_cases hn : n = 0
    · subst hn; simp
    · rw [if_neg hn]
      cases ds with
      | nil => simp at hl
      | cons d ds =>
        rw [st_mid]
        have := ih (pre ++ [c]) ds n (fun h => hs (List.mem_cons_of_mem _ h)) (by omega)
          (by simp at hl; omega)
        simp only [List.append_assoc, List.singleton_append, List.length_append, List.length_singleton] at this
        simp only [this]
        obtain ⟨k, rfl⟩ : ∃ k, n = k + 1 := ⟨n - 1, by omega⟩
        simp only [Nat.add_sub_cancel, List.take_succ_cons, List.length_cons, Nat.succ_min_succ,
          List.drop_succ_cons, List.cons_append]
        congr 2; omega

theorem scanNul_spec (rest : List Byte) : ∀ (s pre : List Byte), 0 ∉ s →
    scanNul (pre ++ (s ++ 0 :: rest)) pre.length = .ok (pre.length + s.length) := by
  intro s
  induction s with
  | nil =>
    intro pre _
    unfold scanNul
    simp
  | cons c s ih =>
    intro pre hs
    have hc0 : c ≠ 0 := fun h => hs (by simp [h])
    unfold scanNul
    have := ih (pre ++ [c]) (fun h => hs (List.mem_cons_of_mem _ h))
    simp only [List.append_assoc, List.singleton_append, List.length_append, List.length_singleton] at this
    simp [hc0, this]
    omega

theorem strcatLoop_spec (maxlength : Nat) (rest : List Byte) : ∀ (s spre pre ds : List Byte),
    0 ∉ s → maxlength ≤ pre.length + ds.length →
    strcatLoop maxlength (spre ++ (s ++ 0 :: rest)) (pre ++ ds) pre.length spre.length =
      .ok (pre ++ (s.take (maxlength - 1 - pre.length) ++ ds.drop (min s.length (maxlength - 1 - pre.length))),
        pre.length + min s.length (maxlength - 1 - pre.length)) := by
  intro s
  induction s with
  | nil =>
    intro spre pre ds _ _
    unfold strcatLoop
    simp only [List.nil_append, bind, Except.bind, ld_mid]
    simp
  | cons c s ih =>
    intro spre pre ds hs hl
    have hc0 : c ≠ 0 := fun h => hs (by simp [h])
    unfold strcatLoop
    simp only [List.cons_append, bind, Except.bind, ld_mid, hc0, if_false]
    by_cases hn : pre.length + 1 < maxlength
    · rw [dif_pos hn]
      cases ds with
      | nil => simp at hl; omega
      | cons d ds =>
        rw [st_mid]
        have := ih (spre ++ [c]) (pre ++ [c]) ds (fun h => hs (List.mem_cons_of_mem _ h)) (by
          simp at hl ⊢; omega)
        simp only [List.append_assoc, List.singleton_append, List.length_append, List.length_singleton] at this
        simp only [this]
        obtain ⟨k, hk⟩ : ∃ k, maxlength - 1 - pre.length = k + 1 := ⟨maxlength - 2 - pre.length, by omega⟩
        have hk' : maxlength - 1 - (pre.length + 1) = k := by omega
        rw [hk, hk']
        simp only [List.take_succ_cons, List.length_cons, Nat.succ_min_succ,
          List.drop_succ_cons, List.cons_append]
        congr 2; omega
    · rw [dif_neg hn]
      have hk : maxlength - 1 - pre.length = 0 := by omega
      rw [hk]; simp

theorem strcpyNLoop_spec : ∀ (n : Nat) (pre s ds : List Byte) (count : Nat),
    n ≤ s.length → 0 < count → count ≤ ds.length →
    strcpyNLoop (pre ++ s) (pre ++ ds) pre.length n count =
      .ok (pre ++ (s.take (min n (count - 1)) ++ ds.drop (min n (count - 1))),
        pre.length + min n (count - 1)) := by
  intro n
  induction n with
  | zero =>
    intro pre s ds count _ hc _
    obtain ⟨k, rfl⟩ : ∃ k, count = k + 1 := ⟨count - 1, by omega⟩
    simp only [strcpyNLoop]
    simp
  | succ n ih =>
    intro pre s ds count hs hc hl
    obtain ⟨k, rfl⟩ : ∃ k, count = k + 1 := ⟨count - 1, by omega⟩
    simp only [strcpyNLoop]
    by_cases hk : k = 0
    · subst hk; simp
    · rw [if_neg hk]
      cases s with
      | nil => simp at hs
      | cons c s =>
        cases ds with
        | nil => simp at hl
        | cons d ds =>
          simp only [bind, Except.bind, ld_mid, st_mid]
          have := ih (pre ++ [c]) s ds k (by simpa using hs) (by omega) (by simp at hl; omega)
          simp only [List.append_assoc, List.singleton_append, List.length_append, List.length_singleton] at this
          simp only [this]
          obtain ⟨j, rfl⟩ : ∃ j, k = j + 1 := ⟨k - 1, by omega⟩
          simp only [Nat.add_sub_cancel, List.take_succ_cons, Nat.succ_min_succ,
            List.drop_succ_cons, List.cons_append]
          congr 2; omega

/-! ### strstr -/

theorem strstr_some {sep : List Byte} : ∀ {hay : List Byte} {off : Nat}, strstr hay sep = some off →
    (∃ r, hay = hay.take off ++ sep ++ r ∧ hay.drop (off + sep.length) = r) ∧ off + sep.length ≤ hay.length ∧
    ∀ i < off, ¬ sep <+: hay.drop i := by
  intro hay
  induction hay with
  | nil =>
    intro off h
    unfold strstr at h
    split at h
    · rename_i hp
      simp only [Option.some.injEq] at h; subst h
      have : sep = [] := by simpa using hp
      subst this; simp
    · simp at h
  | cons a t ih =>
    intro off h
    unfold strstr at h
    split at h
    · rename_i hp
      simp only [Option.some.injEq] at h; subst h
      obtain ⟨r, hr⟩ := List.isPrefixOf_iff_prefix.1 hp
      refine ⟨⟨r, ?_, ?_⟩, ?_, fun i hi => absurd hi (by omega)⟩
      · simp [hr]
      · rw [← hr]; simp
      · rw [← hr]; simp
    · rename_i hp
      simp only [Option.map_eq_some_iff] at h
      obtain ⟨off', h', rfl⟩ := h
      obtain ⟨⟨r, hr, hd⟩, hl, hmin⟩ := ih h'
      refine ⟨⟨r, ?_, ?_⟩, ?_, ?_⟩
      · simp only [List.take_succ_cons, List.cons_append]
        rw [← hr]
      · rw [show off' + 1 + sep.length = (off' + sep.length) + 1 by omega, List.drop_succ_cons, hd]
      · simp; omega
      · intro i hi
        cases i with
        | zero => intro hpre; exact hp (by simpa [List.isPrefixOf_iff_prefix] using hpre)
        | succ i => simpa using hmin i (by omega)

theorem strstr_none {sep : List Byte} : ∀ {hay : List Byte}, strstr hay sep = none → ¬ sep <:+: hay := by
  intro hay
  induction hay with
  | nil =>
    intro h hinf
    unfold strstr at h
    have : sep = [] := by simpa using hinf
    subst this; simp at h
  | cons a t ih =>
    intro h hinf
    unfold strstr at h
    split at h
    · simp at h
    · rename_i hp
      simp only [Option.map_eq_none_iff] at h
      rcases List.infix_cons_iff.1 hinf with hpre | hin
      · exact hp (List.isPrefixOf_iff_prefix.2 hpre)
      · exact ih h hin

/-- The concatenation of `ps` with `sep` between consecutive pieces. -/
def glue (sep : List Byte) : List (List Byte) → List Byte
  | [] => []
  | [p] => p
  | p :: q :: ps => p ++ sep ++ glue sep (q :: ps)

theorem splitLoop_ne_nil (sep : List Byte) (hsep : sep ≠ []) (cursor : List Byte) (b : Bool)
    (h : cursor ≠ [] ∨ b = true) : splitLoop sep hsep cursor b ≠ [] := by
  unfold splitLoop
  split
  · rename_i hc
    rcases h with h | h
    · exact absurd hc h
    · simp [h]
  · split <;> simp

theorem glue_cons {sep p : List Byte} {ps : List (List Byte)} (h : ps ≠ []) :
    glue sep (p :: ps) = p ++ sep ++ glue sep ps := by
  cases ps with
  | nil => exact absurd rfl h
  | cons q qs => rfl

theorem glue_splitLoop (sep : List Byte) (hsep : sep ≠ []) (cursor : List Byte) (b : Bool) :
    glue sep (splitLoop sep hsep cursor b) = cursor := by
  induction hn : cursor.length using Nat.strongRecOn generalizing cursor b with
  | ind n ih =>
    unfold splitLoop
    split
    · rename_i hc; subst hc; cases b <;> rfl
    · rename_i hc
      split
      · rfl
      · rename_i off hoff
        obtain ⟨⟨r, hr, hd⟩, hl, _⟩ := strstr_some hoff
        have h2 : 0 < sep.length := List.length_pos_iff.2 hsep
        rw [glue_cons (splitLoop_ne_nil _ _ _ _ (.inr rfl)), ih _ ?_ _ true rfl, hd]
        · exact hr.symm
        · simp only [List.length_drop]; omega

theorem memcpy_mid (pre bs mid post : List Byte) (h : bs.length = mid.length) :
    memcpy (pre ++ (mid ++ post)) pre.length bs = .ok (pre ++ (bs ++ post)) := by
  unfold memcpy
  rw [if_pos (by simp; omega)]
  simp [h, List.drop_append]

theorem joinLoop_spec (sep : List Byte) : ∀ (ps : List (List Byte)) (pre free post : List Byte),
    free.length = (glue sep ps).length →
    joinLoop sep (pre ++ (free ++ post)) pre.length ps =
      .ok (pre ++ (glue sep ps ++ post), pre.length + (glue sep ps).length) := by
  intro ps
  induction ps with
  | nil =>
    intro pre free post h
    have : free = [] := by simpa [glue] using h
    subst this; simp [joinLoop, glue]
  | cons p ps ih =>
    intro pre free post h
    by_cases hps : ps = []
    · subst hps
      simp only [glue] at h
      simp only [joinLoop, bind, Except.bind, memcpy_mid _ _ _ _ h.symm]
      simp [glue]
    · rw [glue_cons hps] at h ⊢
      obtain ⟨f1, f2, f3, rfl, h1, h2, h3⟩ : ∃ f1 f2 f3, free = f1 ++ (f2 ++ f3) ∧ p.length = f1.length ∧
          sep.length = f2.length ∧ f3.length = (glue sep ps).length := by
        refine ⟨free.take p.length, (free.drop p.length).take sep.length, (free.drop p.length).drop sep.length,
          by rw [List.take_append_drop, List.take_append_drop], ?_, ?_, ?_⟩ <;> simp at h ⊢ <;> omega
      simp only [joinLoop, bind, Except.bind]
      rw [List.append_assoc f1, memcpy_mid _ _ _ _ h1]
      simp only [ne_eq, hps, not_false_eq_true, if_true]
      have e1 := memcpy_mid (pre ++ p) sep f2 (f3 ++ post) h2
      simp only [List.append_assoc, List.length_append] at e1
      simp only [List.append_assoc, e1]
      have e2 := ih (pre ++ p ++ sep) f3 post h3
      simp only [List.append_assoc, List.length_append] at e2
      have : pre.length + p.length + sep.length = pre.length + (p.length + sep.length) := by omega
      rw [this, e2]
      simp only [List.length_append]
      congr 2; omega

theorem glue_length (sep : List Byte) : ∀ ps : List (List Byte),
    (glue sep ps).length = (ps.map List.length).sum + sep.length * (ps.length - 1) := by
  intro ps
  induction ps with
  | nil => rfl
  | cons p ps ih =>
    by_cases hps : ps = []
    · subst hps; simp [glue]
    · rw [glue_cons hps]
      have : 0 < ps.length := List.length_pos_iff.2 hps
      obtain ⟨k, hk⟩ : ∃ k, ps.length = k + 1 := ⟨ps.length - 1, by omega⟩
      simp only [List.length_append, ih, List.map_cons, List.sum_cons, List.length_cons, hk]
      simp only [Nat.add_sub_cancel, Nat.mul_add, Nat.mul_one]
      omega

theorem foldl_len_mod : ∀ (ps : List (List Byte)) (n : Nat),
    ps.foldl (fun n p => (n + p.length) % 2 ^ 64) (n % 2 ^ 64) = (n + (ps.map List.length).sum) % 2 ^ 64 := by
  intro ps
  induction ps with
  | nil => intro n; simp
  | cons p ps ih =>
    intro n
    simp only [List.foldl_cons, List.map_cons, List.sum_cons]
    rw [show (n % 2 ^ 64 + p.length) % 2 ^ 64 = (n + p.length) % 2 ^ 64 by omega, ih, Nat.add_assoc]

theorem joinLen_eq (ps : List (List Byte)) (sep : List Byte) :
    joinLen ps sep = (glue sep ps).length % 2 ^ 64 := by
  have h := foldl_len_mod ps 0
  simp only [Nat.zero_mod, Nat.zero_add] at h
  unfold joinLen
  rw [glue_length]
  simp only [h]
  split
  · rename_i he
    have : ps = [] := by simpa using he
    subst this; simp
  · omega

end Verif.Str
