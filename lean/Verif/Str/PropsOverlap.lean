import Verif.Str.Overlap
import Verif.Str.Props
/-!
# C115: source and destination in one buffer
-/
namespace Verif.Str
open Verif

/-- The C string at offset `s` is `t`. -/
def StrAt (m : List Byte) (s : Nat) (t : List Byte) : Prop := 0 ∉ t ∧ ∃ rest, m.drop s = t ++ 0 :: rest

/-- `m` with the bytes from offset `d` on replaced by `bs`. -/
def patched (m : List Byte) (d : Nat) (bs : List Byte) : List Byte := m.take d ++ overwritten (m.drop d) bs

/-- `u` over and over, `n` bytes of it. -/
def repeated (u : List Byte) (n : Nat) : List Byte := (List.range n).map fun i => u.getD (i % u.length) 0

/-! ### The copy loop, for both functions -/

/-- `while (*src && room--) *iter++ = *src++;` -/
def copyLoop (m : List Byte) (dp sp : Nat) : Nat → Exec (List Byte × Nat)
  | 0 => do
    let _ ← ld m sp
    .ok (m, dp)
  | room + 1 => do
    let c ← ld m sp
    if c = 0 then .ok (m, dp)
    else do
      let m ← st m dp c
      copyLoop m (dp + 1) (sp + 1) room

theorem strcpyInLoop_eq (d s : Nat) : ∀ (count : Nat) (m : List Byte) (i : Nat),
    strcpyInLoop d s m i (count + 1) = (match copyLoop m (d + i) (s + i) count with
      | .error f => .error f
      | .ok (m', e) => .ok (m', e - d)) := by
  intro count
  induction count with
  | zero =>
    intro m i
    unfold strcpyInLoop copyLoop
    simp only [bind, Except.bind]
    cases ld m (s + i) with
    | error f => rfl
    | ok c => simp
  | succ count ih =>
    intro m i
    unfold strcpyInLoop copyLoop
    simp only [bind, Except.bind]
    cases ld m (s + i) with
    | error f => rfl
    | ok c =>
      simp only [Nat.succ_ne_zero, if_false]
      by_cases hc : c = 0
      · simp [hc]
      · simp only [hc, if_false]
        cases st m (d + i) c with
        | error f => rfl
        | ok m' => simp only [ih, Nat.add_assoc]

theorem strcatInLoop_eq (d max s : Nat) : ∀ (room : Nat) (m : List Byte) (i j : Nat), room = max - 1 - i →
    strcatInLoop d max s m i j = (match copyLoop m (d + i) (s + j) room with
      | .error f => .error f
      | .ok (m', e) => .ok (m', e - d)) := by
  intro room
  induction room with
  | zero =>
    intro m i j hr
    unfold strcatInLoop copyLoop
    simp only [bind, Except.bind]
    cases ld m (s + j) with
    | error f => rfl
    | ok c =>
      simp only [show ¬ i + 1 < max by omega, dif_neg, not_false_eq_true]
      split <;> simp
  | succ room ih =>
    intro m i j hr
    unfold strcatInLoop copyLoop
    simp only [bind, Except.bind]
    cases ld m (s + j) with
    | error f => rfl
    | ok c =>
      by_cases hc : c = 0
      · simp [hc]
      · simp only [hc, if_false, show i + 1 < max by omega, dif_pos]
        cases st m (d + i) c with
        | error f => rfl
        | ok m' => simp only [ih m' (i + 1) (j + 1) (by omega), Nat.add_assoc]

/-- When the source does not lie below the destination, or ends before it, the copy is that of the text as it was. -/
theorem copyLoop_plain : ∀ (room : Nat) (t : List Byte) (m : List Byte) (dp sp : Nat), 0 ∉ t → (∀ j, j < t.length → m[sp + j]? = t[j]?) →
    m[sp + t.length]? = some 0 → (dp ≤ sp ∨ sp + t.length < dp) → dp + room < m.length →
    ∃ m', copyLoop m dp sp room = .ok (m', dp + min t.length room) ∧ m'.length = m.length ∧
      ∀ j, m'[j]? = if dp ≤ j ∧ j < dp + min t.length room then t[j - dp]? else m[j]? := by
  intro room
  induction room with
  | zero =>
    intro t m dp sp h0 ht hz hd hroom
    refine ⟨m, ?_, rfl, fun j => ?_⟩
    · unfold copyLoop ld
      cases t with
      | nil => simp only [List.length_nil, Nat.add_zero] at hz; simp [hz, bind, Except.bind]
      | cons c t => have := ht 0 (by simp); simp at this; simp [this, bind, Except.bind]
    · rw [if_neg (by omega)]
  | succ room ih =>
    intro t m dp sp h0 ht hz hd hroom
    cases t with
    | nil =>
      refine ⟨m, ?_, rfl, fun j => ?_⟩
      · unfold copyLoop ld
        simp only [List.length_nil, Nat.add_zero] at hz
        simp [hz, bind, Except.bind]
      · rw [if_neg (by simp)]
    | cons c t =>
      have hc : m[sp]? = some c := by simpa using ht 0 (by simp)
      have hc0 : c ≠ 0 := by rintro rfl; exact h0 (by simp)
      have hget : ∀ j, (m.set dp c)[j]? = if j = dp then some c else m[j]? := by
        intro j
        rw [List.getElem?_set]
        by_cases hj : j = dp
        · subst hj; simp [show j < m.length by omega]
        · simp [hj, Ne.symm hj]
      simp only [List.length_cons] at hz hd
      obtain ⟨m', hrun, hlen, hm'⟩ := ih t (m.set dp c) (dp + 1) (sp + 1) (fun h => h0 (by simp [h])) (fun j hj => by
          have := ht (j + 1) (by simp; omega)
          simp only [List.getElem?_cons_succ] at this
          rw [hget, if_neg (by omega), ← this]; congr 1; omega)
        (by rw [hget, if_neg (by omega), ← hz]; congr 1; omega) (by omega) (by simp; omega)
      refine ⟨m', ?_, by rw [hlen]; simp, fun j => ?_⟩
      · unfold copyLoop ld
        simp only [hc, bind, Except.bind, hc0, if_false, st, show dp < m.length by omega, if_true, hrun,
          List.length_cons]
        congr 2; omega
      · rw [hm' j, hget]
        simp only [List.length_cons]
        by_cases h1 : j = dp
        · subst h1
          rw [if_neg (by omega), if_pos rfl, if_pos (by omega)]; simp
        · by_cases h2 : dp ≤ j ∧ j < dp + min (t.length + 1) (room + 1)
          · rw [if_pos (by omega), if_pos h2, show j - dp = (j - (dp + 1)) + 1 by omega, List.getElem?_cons_succ]
          · rw [if_neg (by omega), if_neg h2, if_neg h1]

/-- When the destination starts `k` bytes above the source and no terminator lies in between, the bytes in between are repeated for as long as
there is room. -/
theorem copyLoop_up (k : Nat) (hk : 0 < k) : ∀ (room : Nat) (m : List Byte) (sp : Nat), (∀ j, j < k → ∃ c, m[sp + j]? = some c ∧ c ≠ 0) →
    sp + k + room < m.length →
    ∃ m', copyLoop m (sp + k) sp room = .ok (m', sp + k + room) ∧ m'.length = m.length ∧
      ∀ j, m'[j]? = if sp + k ≤ j ∧ j < sp + k + room then m[sp + (j - (sp + k)) % k]? else m[j]? := by
  intro room
  induction room with
  | zero =>
    intro m sp hw hroom
    obtain ⟨c, hc, hc0⟩ := hw 0 hk
    exact ⟨m, by unfold copyLoop ld; simp only [Nat.add_zero] at hc; simp [hc, bind, Except.bind], rfl, fun j => by rw [if_neg (by omega)]⟩
  | succ room ih =>
    intro m sp hw hroom
    obtain ⟨c, hc, hc0⟩ := hw 0 hk
    simp only [Nat.add_zero] at hc
    have hget : ∀ j, (m.set (sp + k) c)[j]? = if j = sp + k then some c else m[j]? := by
      intro j
      rw [List.getElem?_set]
      by_cases hj : j = sp + k
      · subst hj; simp [show sp + k < m.length by omega]
      · simp [hj, Ne.symm hj]
    obtain ⟨m', hrun, hlen, hm'⟩ := ih (m.set (sp + k) c) (sp + 1) (fun j hj => by
        by_cases h : j + 1 = k
        · exact ⟨c, by rw [hget, if_pos (by omega)], hc0⟩
        · obtain ⟨x, hx, hx0⟩ := hw (j + 1) (by omega)
          exact ⟨x, by rw [hget, if_neg (by omega), ← hx]; congr 1; omega, hx0⟩) (by simp; omega)
    refine ⟨m', ?_, by rw [hlen]; simp, fun j => ?_⟩
    · unfold copyLoop ld
      rw [show sp + 1 + k = sp + k + 1 by omega] at hrun
      simp only [hc, bind, Except.bind, hc0, if_false, st, show sp + k < m.length by omega, if_true, hrun]
      congr 2; omega
    · rw [hm' j]
      by_cases h1 : j = sp + k
      · subst h1
        rw [if_neg (by omega), if_pos (by omega), hget, if_pos rfl]
        simp [hc]
      · by_cases h2 : sp + k ≤ j ∧ j < sp + k + (room + 1)
        · rw [if_pos (by omega), if_pos h2, hget]
          have hmod := Nat.mod_lt (j - (sp + 1 + k)) hk
          have hs : j - (sp + k) = (j - (sp + 1 + k)) + 1 := by omega
          rw [hs]
          by_cases h3 : (j - (sp + 1 + k)) % k = k - 1
          · rw [if_pos (by omega)]
            have : ((j - (sp + 1 + k)) + 1) % k = 0 := by
              rw [Nat.add_mod, h3]
              by_cases hk1 : k = 1
              · subst hk1; simp
              · rw [Nat.mod_eq_of_lt (show 1 < k by omega), show k - 1 + 1 = k by omega, Nat.mod_self]
            rw [this, Nat.add_zero, hc]
          · rw [if_neg (by omega)]
            have : ((j - (sp + 1 + k)) + 1) % k = (j - (sp + 1 + k)) % k + 1 := by
              rw [Nat.add_mod]
              by_cases hk1 : k = 1
              · subst hk1; exact absurd (Nat.mod_one _) (by simpa using h3)
              · rw [Nat.mod_eq_of_lt (show 1 < k by omega)]
                exact Nat.mod_eq_of_lt (by omega)
            rw [this]; congr 1; omega
        · rw [if_neg (by omega), if_neg h2, hget, if_neg h1]

/-! ### Putting the terminator down -/

theorem StrAt.get {m : List Byte} {s : Nat} {t : List Byte} (h : StrAt m s t) :
    (∀ j, j < t.length → m[s + j]? = t[j]?) ∧ m[s + t.length]? = some 0 := by
  obtain ⟨_, rest, h⟩ := h
  have hg : ∀ j, m[s + j]? = (t ++ 0 :: rest)[j]? := fun j => by rw [← h, List.getElem?_drop]
  exact ⟨fun j hj => by rw [hg, List.getElem?_append_left hj], by rw [hg, List.getElem?_append_right (Nat.le_refl _)]; simp⟩

theorem getElem?_lt {m : List Byte} {i : Nat} {c : Byte} (h : m[i]? = some c) : i < m.length := by
  obtain ⟨h, _⟩ := List.getElem?_eq_some_iff.mp h; exact h

theorem terminate {m m' : List Byte} {dp : Nat} (w : List Byte) (hlen : m'.length = m.length) (hb : dp + w.length < m.length)
    (hm : ∀ j, m'[j]? = if dp ≤ j ∧ j < dp + w.length then w[j - dp]? else m[j]?) :
    st m' (dp + w.length) 0 = .ok (patched m dp (w ++ [0])) := by
  rw [st, if_pos (by omega)]
  congr 1
  apply List.ext_getElem?
  intro j
  have hp : (m.take dp).length = dp := by rw [List.length_take]; omega
  rw [List.getElem?_set, hm]
  unfold patched overwritten
  by_cases h1 : j < dp
  · rw [if_neg (by omega), if_neg (by omega), List.getElem?_append_left (by omega), List.getElem?_take, if_pos h1]
  · rw [List.getElem?_append_right (by omega), hp]
    by_cases h2 : j < dp + w.length
    · rw [if_neg (by omega), if_pos (by omega), List.append_assoc, List.getElem?_append_left (by omega)]
    · by_cases h3 : j = dp + w.length
      · subst h3
        rw [if_pos rfl, if_pos (by omega), List.getElem?_append_left (by simp),
          List.getElem?_append_right (by omega)]
        simp
      · rw [if_neg (by omega), if_neg (by omega), List.getElem?_append_right (by simp; omega), List.getElem?_drop, List.getElem?_drop]
        congr 1; simp; omega

theorem repeated_get (u : List Byte) (n i : Nat) (h : i < n) (hu : 0 < u.length) : (repeated u n)[i]? = u[i % u.length]? := by
  unfold repeated
  rw [List.getElem?_map, List.getElem?_range h]
  have := Nat.mod_lt i hu
  simp [List.getD, List.getElem?_eq_getElem this]

theorem strcpyIn_eq (m : List Byte) (d max s : Nat) (hmax : 0 < max) : strcpyIn m d max s =
    (match copyLoop m d s (max - 1) with
      | .error f => .error f
      | .ok (m', e) => (match st m' (d + (e - d)) 0 with | .error f => .error f | .ok m'' => .ok (m'', e - d))) := by
  unfold strcpyIn
  rw [if_neg (by omega)]
  obtain ⟨c, rfl⟩ : ∃ c, max = c + 1 := ⟨max - 1, by omega⟩
  rw [strcpyInLoop_eq]
  simp only [Nat.add_zero, Nat.add_sub_cancel, bind, Except.bind]
  cases copyLoop m d s c with
  | error f => rfl
  | ok p => obtain ⟨m', e⟩ := p; simp only []; cases st m' (d + (e - d)) 0 <;> rfl

theorem scanNul_at {m : List Byte} {d : Nat} {a : List Byte} (h : StrAt m d a) : scanNul m d = .ok (d + a.length) := by
  obtain ⟨h0, rest, hr⟩ := h
  have hd : d ≤ m.length := by
    have := congrArg List.length hr
    simp at this; omega
  have := scanNul_spec rest a (m.take d) h0
  rw [← hr, List.take_append_drop, List.length_take, Nat.min_eq_left hd] at this
  exact this

theorem strcatIn_eq {m : List Byte} {d : Nat} {a : List Byte} (max s : Nat) (h : StrAt m d a) : strcatIn m d max s =
    (match copyLoop m (d + a.length) s (max - 1 - a.length) with
      | .error f => .error f
      | .ok (m', e) => (match st m' (d + (e - d)) 0 with | .error f => .error f | .ok m'' => .ok (m'', e - d))) := by
  unfold strcatIn
  rw [scanNul_at h]
  simp only [bind, Except.bind]
  rw [strcatInLoop_eq d max s (max - 1 - (d + a.length - d)) m _ 0 rfl, show d + a.length - d = a.length by omega]
  simp only [Nat.add_zero]
  cases copyLoop m (d + a.length) s (max - 1 - a.length) with
  | error f => rfl
  | ok p => obtain ⟨m', e⟩ := p; simp only []; cases st m' (d + (e - d)) 0 <;> rfl

theorem plain_run {room : Nat} {t m : List Byte} {dp sp : Nat} (hs : StrAt m sp t) (hd : dp ≤ sp ∨ sp + t.length < dp)
    (hroom : dp + room < m.length) : ∃ m', copyLoop m dp sp room = .ok (m', dp + min t.length room) ∧
      st m' (dp + min t.length room) 0 = .ok (patched m dp (t.take room ++ [0])) := by
  obtain ⟨m', hrun, hlen, hm⟩ := copyLoop_plain room t m dp sp hs.1 hs.get.1 hs.get.2 hd hroom
  refine ⟨m', hrun, ?_⟩
  have hl : (t.take room).length = min t.length room := by rw [List.length_take, Nat.min_comm]
  rw [← hl]
  refine terminate _ hlen (by omega) (fun j => ?_)
  rw [hm, hl]
  split
  · rw [List.getElem?_take, if_pos (by omega)]
  · rfl

theorem up_run {room : Nat} {t m : List Byte} {sp k : Nat} (hs : StrAt m sp t) (hk : 0 < k) (hkt : k ≤ t.length)
    (hroom : sp + k + room < m.length) : ∃ m', copyLoop m (sp + k) sp room = .ok (m', sp + k + room) ∧
      st m' (sp + k + room) 0 = .ok (patched m (sp + k) (repeated (t.take k) room ++ [0])) := by
  obtain ⟨m', hrun, hlen, hm⟩ := copyLoop_up k hk room m sp (fun j hj => by
    have h := hs.get.1 j (by omega)
    have ht : j < t.length := by omega
    exact ⟨t[j], by rw [h, List.getElem?_eq_getElem ht], fun h0 => hs.1 (h0 ▸ List.getElem_mem _)⟩) hroom
  refine ⟨m', hrun, ?_⟩
  have hl : (repeated (t.take k) room).length = room := by simp [repeated]
  have hlk : (t.take k).length = k := by rw [List.length_take]; omega
  have := terminate (m := m) (m' := m') (dp := sp + k) (repeated (t.take k) room) hlen (by omega) (fun j => by
    rw [hm, hl]
    split
    · rw [repeated_get _ _ _ (by omega) (by omega), hlk]
      have := Nat.mod_lt (j - (sp + k)) hk
      rw [hs.get.1 _ (by omega), List.getElem?_take, if_pos this]
    · rfl)
  rwa [hl] at this

/-! ### `SafeStrcpyN` -/

theorem set_get {m : List Byte} {dp : Nat} {c : Byte} (h : dp < m.length) (j : Nat) : (m.set dp c)[j]? = if j = dp then some c else m[j]? := by
  rw [List.getElem?_set]
  by_cases hj : j = dp
  · subst hj; simp [h]
  · simp [hj, Ne.symm hj]

/-- `n` bytes copied one at a time. -/
def copyN (m : List Byte) (dp sp : Nat) : Nat → Exec (List Byte × Nat)
  | 0 => .ok (m, dp)
  | n + 1 => do
    let c ← ld m sp
    let m ← st m dp c
    copyN m (dp + 1) (sp + 1) n

theorem strcpyNInLoop_eq (d s : Nat) : ∀ (count : Nat) (m : List Byte) (i n : Nat),
    strcpyNInLoop d s m i n (count + 1) = (match copyN m (d + i) (s + i) (min n count) with
      | .error f => .error f
      | .ok (m', e) => .ok (m', e - d)) := by
  intro count
  induction count with
  | zero => intro m i n; unfold strcpyNInLoop copyN; simp
  | succ count ih =>
    intro m i n
    unfold strcpyNInLoop
    simp only [Nat.succ_ne_zero, if_false]
    cases n with
    | zero => simp [copyN]
    | succ n =>
      rw [show min (n + 1) (count + 1) = min n count + 1 by omega]
      unfold copyN
      simp only [bind, Except.bind]
      cases ld m (s + i) with
      | error f => rfl
      | ok c =>
        simp only
        cases st m (d + i) c with
        | error f => rfl
        | ok m' => simp only [ih, Nat.add_assoc]

theorem copyN_plain : ∀ (n : Nat) (m : List Byte) (dp sp : Nat), (dp ≤ sp ∨ sp + n ≤ dp) → dp + n ≤ m.length → sp + n ≤ m.length →
    ∃ m', copyN m dp sp n = .ok (m', dp + n) ∧ m'.length = m.length ∧
      ∀ j, m'[j]? = if dp ≤ j ∧ j < dp + n then m[sp + (j - dp)]? else m[j]? := by
  intro n
  induction n with
  | zero => intro m dp sp _ _ _; exact ⟨m, rfl, rfl, fun j => by rw [if_neg (by omega)]⟩
  | succ n ih =>
    intro m dp sp hov hd hs
    have hc : m[sp]? = some m[sp] := List.getElem?_eq_getElem (by omega)
    generalize hcc : m[sp] = c at hc
    have hget := set_get (m := m) (dp := dp) (c := c) (by omega)
    obtain ⟨m', hrun, hlen, hm⟩ := ih (m.set dp c) (dp + 1) (sp + 1) (by omega) (by simp; omega) (by simp; omega)
    refine ⟨m', ?_, by rw [hlen]; simp, fun j => ?_⟩
    · unfold copyN ld
      simp only [hc, bind, Except.bind, st, show dp < m.length by omega, if_true, hrun]
      congr 2; omega
    · rw [hm j, hget, hget]
      by_cases h1 : j = dp
      · subst h1
        rw [if_neg (by omega), if_pos rfl, if_pos (by omega), Nat.sub_self, Nat.add_zero, hc]
      · by_cases h2 : dp ≤ j ∧ j < dp + (n + 1)
        · rw [if_pos (by omega), if_pos h2, if_neg (by omega)]; congr 1; omega
        · rw [if_neg (by omega), if_neg h2, if_neg h1]

theorem copyN_up (k : Nat) (hk : 0 < k) : ∀ (n : Nat) (m : List Byte) (sp : Nat), sp + k + n ≤ m.length →
    ∃ m', copyN m (sp + k) sp n = .ok (m', sp + k + n) ∧ m'.length = m.length ∧
      ∀ j, m'[j]? = if sp + k ≤ j ∧ j < sp + k + n then m[sp + (j - (sp + k)) % k]? else m[j]? := by
  intro n
  induction n with
  | zero => intro m sp _; exact ⟨m, rfl, rfl, fun j => by rw [if_neg (by omega)]⟩
  | succ n ih =>
    intro m sp hroom
    have hc : m[sp]? = some m[sp] := List.getElem?_eq_getElem (by omega)
    generalize hcc : m[sp] = c at hc
    have hget := set_get (m := m) (dp := sp + k) (c := c) (by omega)
    obtain ⟨m', hrun, hlen, hm⟩ := ih (m.set (sp + k) c) (sp + 1) (by simp; omega)
    refine ⟨m', ?_, by rw [hlen]; simp, fun j => ?_⟩
    · unfold copyN ld
      rw [show sp + 1 + k = sp + k + 1 by omega] at hrun
      simp only [hc, bind, Except.bind, st, show sp + k < m.length by omega, if_true, hrun]
      congr 2; omega
    · rw [hm j]
      by_cases h1 : j = sp + k
      · subst h1
        rw [if_neg (by omega), if_pos (by omega), hget, if_pos rfl]
        simp [hc]
      · by_cases h2 : sp + k ≤ j ∧ j < sp + k + (n + 1)
        · rw [if_pos (by omega), if_pos h2, hget]
          have hmod := Nat.mod_lt (j - (sp + 1 + k)) hk
          rw [show j - (sp + k) = (j - (sp + 1 + k)) + 1 by omega]
          by_cases h3 : (j - (sp + 1 + k)) % k = k - 1
          · rw [if_pos (by omega)]
            have : ((j - (sp + 1 + k)) + 1) % k = 0 := by
              rw [Nat.add_mod, h3]
              by_cases hk1 : k = 1
              · subst hk1; simp
              · rw [Nat.mod_eq_of_lt (show 1 < k by omega), show k - 1 + 1 = k by omega, Nat.mod_self]
            rw [this, Nat.add_zero, hc]
          · rw [if_neg (by omega)]
            have : ((j - (sp + 1 + k)) + 1) % k = (j - (sp + 1 + k)) % k + 1 := by
              rw [Nat.add_mod]
              by_cases hk1 : k = 1
              · subst hk1; exact absurd (Nat.mod_one _) (by simpa using h3)
              · rw [Nat.mod_eq_of_lt (show 1 < k by omega)]
                exact Nat.mod_eq_of_lt (by omega)
            rw [this]; congr 1; omega
        · rw [if_neg (by omega), if_neg h2, hget, if_neg h1]

theorem strcpyNIn_eq (m : List Byte) (d max s n : Nat) (hmax : 0 < max) (hn : 0 < n) : strcpyNIn m d max s n =
    (match copyN m d s (min n (max - 1)) with
      | .error f => .error f
      | .ok (m', e) => (match st m' (d + (e - d)) 0 with | .error f => .error f | .ok m'' => .ok (m'', e - d))) := by
  unfold strcpyNIn
  rw [if_neg (by omega), if_neg (by omega)]
  obtain ⟨c, rfl⟩ : ∃ c, max = c + 1 := ⟨max - 1, by omega⟩
  rw [strcpyNInLoop_eq]
  simp only [Nat.add_zero, Nat.add_sub_cancel, bind, Except.bind]
  cases copyN m d s (min n c) with
  | error f => rfl
  | ok p => obtain ⟨m', e⟩ := p; simp only []; cases st m' (d + (e - d)) 0 <;> rfl

/-! ### C115 -/

/-- What one would expect of `SafeStrcpy` inside one buffer: the string that was at the source. -/
def StrcpyInCorrect : Prop := ∀ (m : List Byte) (d max s : Nat) (t : List Byte), StrAt m s t → 0 < max → d + max ≤ m.length →
  strcpyIn m d max s = .ok (patched m d (t.take (max - 1) ++ [0]), min t.length (max - 1))

/-- **C115 (`SafeStrcpy`, destination not inside the source string).** The string moves to the destination as it was, cut to `max - 1` bytes, even
if the destination's bytes overlap the source from below; nothing outside those bytes changes. -/
theorem C115_strcpy_partial (m : List Byte) (d max s : Nat) (t : List Byte) (hs : StrAt m s t) (hmax : 0 < max) (hd : d + max ≤ m.length)
    (hov : d ≤ s ∨ s + t.length < d) :
    strcpyIn m d max s = .ok (patched m d (t.take (max - 1) ++ [0]), min t.length (max - 1)) := by
  obtain ⟨m', h1, h2⟩ := plain_run (room := max - 1) (dp := d) hs hov (by omega)
  rw [strcpyIn_eq _ _ _ _ hmax, h1]
  simp only [show d + min t.length (max - 1) - d = min t.length (max - 1) by omega, h2]

/-- **C115 (`SafeStrcpy`, destination inside the source string).** With the destination `k` bytes into the source string, the first `k` bytes are
repeated until the buffer is full, whatever the length of the source. -/
theorem C115_strcpy_into_itself_partial (m : List Byte) (s k max : Nat) (t : List Byte) (hs : StrAt m s t) (hk : 0 < k) (hkt : k ≤ t.length)
    (hmax : 0 < max) (hd : s + k + max ≤ m.length) :
    strcpyIn m (s + k) max s = .ok (patched m (s + k) (repeated (t.take k) (max - 1) ++ [0]), max - 1) := by
  obtain ⟨m', h1, h2⟩ := up_run (room := max - 1) hs hk hkt (by omega)
  rw [strcpyIn_eq _ _ _ _ hmax, h1]
  simp only [show s + k + (max - 1) - (s + k) = max - 1 by omega, h2]

/-- **C115, `SafeStrcpy` refuted.** Copying `"abc"` one byte up in its own buffer gives `"aaaaa"`. -/
theorem C115_strcpy_refuted : ¬ StrcpyInCorrect := by
  intro h
  have := h [97, 98, 99, 0, 0, 0, 0] 1 6 0 [97, 98, 99] ⟨by decide, [0, 0, 0], rfl⟩ (by decide) (by decide)
  revert this
  decide +kernel

/-- What one would expect of `SafeStrcat` inside one buffer: the string at the destination, then the one that was at the source. -/
def StrcatInCorrect : Prop := ∀ (m : List Byte) (d max s : Nat) (a t : List Byte), StrAt m d a → StrAt m s t → a.length < max →
  d + max ≤ m.length →
  strcatIn m d max s = .ok (patched m (d + a.length) (t.take (max - 1 - a.length) ++ [0]), a.length + min t.length (max - 1 - a.length))

/-- **C115 (`SafeStrcat`, the two strings do not end at the same place).** -/
theorem C115_strcat_partial (m : List Byte) (d max s : Nat) (a t : List Byte) (ha : StrAt m d a) (hs : StrAt m s t) (hmax : a.length < max)
    (hd : d + max ≤ m.length) (hne : s + t.length ≠ d + a.length ∨ t = []) :
    strcatIn m d max s = .ok (patched m (d + a.length) (t.take (max - 1 - a.length) ++ [0]), a.length + min t.length (max - 1 - a.length)) := by
  have hov : d + a.length ≤ s ∨ s + t.length < d + a.length := by
    rcases hne with hne | rfl
    · by_cases h : d + a.length ≤ s
      · exact .inl h
      · refine .inr ?_
        by_cases h2 : s + t.length < d + a.length
        · exact h2
        · exfalso
          have h3 := hs.get.1 (d + a.length - s) (by omega)
          rw [show s + (d + a.length - s) = d + a.length by omega, ha.get.2] at h3
          exact hs.1 (List.mem_of_getElem? h3.symm)
    · simp only [List.length_nil]; omega
  obtain ⟨m', h1, h2⟩ := plain_run (room := max - 1 - a.length) (dp := d + a.length) hs hov (by omega)
  rw [strcatIn_eq max s ha, h1]
  simp only [show d + a.length + min t.length (max - 1 - a.length) - d = a.length + min t.length (max - 1 - a.length) by omega,
    ← Nat.add_assoc, h2]

/-- **C115 (`SafeStrcat`, the source is a tail of the destination, or contains it).** The source string is repeated until the buffer is full. -/
theorem C115_strcat_tail_partial (m : List Byte) (d max s : Nat) (a t : List Byte) (ha : StrAt m d a) (hs : StrAt m s t) (hmax : a.length < max)
    (hd : d + max ≤ m.length) (he : s + t.length = d + a.length) (ht : t ≠ []) :
    strcatIn m d max s = .ok (patched m (d + a.length) (repeated t (max - 1 - a.length) ++ [0]), max - 1) := by
  have htl : 0 < t.length := List.length_pos_iff.mpr ht
  obtain ⟨m', h1, h2⟩ := up_run (room := max - 1 - a.length) hs htl (Nat.le_refl _) (by omega)
  rw [strcatIn_eq max s ha, ← he, h1]
  simp only [show d + (s + t.length + (max - 1 - a.length) - d) = s + t.length + (max - 1 - a.length) by omega, h2, List.take_length]
  congr 2; omega

/-- **C115 (a string appended to itself).** `SafeStrcat(buf, n, buf)` does not double the string; it repeats it until the buffer is full. -/
theorem C115_self_append_partial (m : List Byte) (d max : Nat) (a : List Byte) (ha : StrAt m d a) (hne : a ≠ []) (hmax : a.length < max)
    (hd : d + max ≤ m.length) :
    strcatIn m d max d = .ok (patched m (d + a.length) (repeated a (max - 1 - a.length) ++ [0]), max - 1) :=
  C115_strcat_tail_partial m d max d a a ha ha hmax hd rfl hne

/-- **C115, `SafeStrcat` refuted.** `"ab"` appended to itself in a buffer of eight gives `"abababa"`. -/
theorem C115_strcat_refuted : ¬ StrcatInCorrect := by
  intro h
  have := h [97, 98, 0, 0, 0, 0, 0, 0] 0 8 0 [97, 98] [97, 98] ⟨by decide, [0, 0, 0, 0, 0], rfl⟩ ⟨by decide, [0, 0, 0, 0, 0], rfl⟩
    (by decide) (by decide)
  revert this
  decide +kernel

/-- What one would expect of `SafeStrcpyN` inside one buffer: the bytes that were at the source. -/
def StrcpyNInCorrect : Prop := ∀ (m : List Byte) (d max s n : Nat), 0 < max → 0 < n → d + max ≤ m.length → s + min n (max - 1) ≤ m.length →
  strcpyNIn m d max s n = .ok (patched m d ((m.drop s).take (min n (max - 1)) ++ [0]), min n (max - 1))

/-- **C115 (`SafeStrcpyN`, destination not inside the bytes copied).** -/
theorem C115_strcpyN_partial (m : List Byte) (d max s n : Nat) (hmax : 0 < max) (hn : 0 < n) (hd : d + max ≤ m.length)
    (hs : s + min n (max - 1) ≤ m.length) (hov : d ≤ s ∨ s + min n (max - 1) ≤ d) :
    strcpyNIn m d max s n = .ok (patched m d ((m.drop s).take (min n (max - 1)) ++ [0]), min n (max - 1)) := by
  obtain ⟨m', h1, hlen, hm⟩ := copyN_plain (min n (max - 1)) m d s hov (by omega) hs
  have hl : ((m.drop s).take (min n (max - 1))).length = min n (max - 1) := by rw [List.length_take, List.length_drop]; omega
  have h2 := terminate (m := m) (m' := m') (dp := d) ((m.drop s).take (min n (max - 1))) hlen (by omega) (fun j => by
    rw [hm, hl]
    split
    · rw [List.getElem?_take, if_pos (by omega), List.getElem?_drop]
    · rfl)
  rw [hl] at h2
  rw [strcpyNIn_eq _ _ _ _ _ hmax hn, h1]
  simp only [show d + min n (max - 1) - d = min n (max - 1) by omega, h2]

/-- **C115 (`SafeStrcpyN`, destination `k` bytes into the bytes copied).** The first `k` of them are repeated. -/
theorem C115_strcpyN_into_itself_partial (m : List Byte) (s k max n : Nat) (hk : 0 < k) (hmax : 0 < max) (hn : 0 < n)
    (hd : s + k + max ≤ m.length) :
    strcpyNIn m (s + k) max s n = .ok (patched m (s + k) (repeated ((m.drop s).take k) (min n (max - 1)) ++ [0]), min n (max - 1)) := by
  obtain ⟨m', h1, hlen, hm⟩ := copyN_up k hk (min n (max - 1)) m s (by omega)
  have hlk : ((m.drop s).take k).length = k := by rw [List.length_take, List.length_drop]; omega
  have hl : (repeated ((m.drop s).take k) (min n (max - 1))).length = min n (max - 1) := by simp [repeated]
  have h2 := terminate (m := m) (m' := m') (dp := s + k) (repeated ((m.drop s).take k) (min n (max - 1))) hlen (by omega) (fun j => by
    rw [hm, hl]
    split
    · rw [repeated_get _ _ _ (by omega) (by omega), hlk]
      have := Nat.mod_lt (j - (s + k)) hk
      rw [List.getElem?_take, if_pos this, List.getElem?_drop]
    · rfl)
  rw [hl] at h2
  rw [strcpyNIn_eq _ _ _ _ _ hmax hn, h1]
  simp only [show s + k + min n (max - 1) - (s + k) = min n (max - 1) by omega, h2]

/-- **C115, `SafeStrcpyN` refuted.** -/
theorem C115_strcpyN_refuted : ¬ StrcpyNInCorrect := by
  intro h
  have := h [97, 98, 99, 0, 0, 0, 0] 1 6 0 3 (by decide) (by decide) (by decide) (by decide)
  revert this
  decide +kernel

/-- **C115 (bounds).** Whatever the overlap, `SafeStrcpy` of a string writes at most `max` bytes from the destination on, ends them with a NUL, returns
the length of what it wrote, and changes nothing else. -/
theorem C115_bounded (m : List Byte) (d max s : Nat) (t : List Byte) (hs : StrAt m s t) (hmax : 0 < max) (hd : d + max ≤ m.length) :
    ∃ w, 0 ∉ w ∧ w.length < max ∧ strcpyIn m d max s = .ok (patched m d (w ++ [0]), w.length) := by
  by_cases hov : d ≤ s ∨ s + t.length < d
  · refine ⟨t.take (max - 1), fun h => hs.1 (List.mem_of_mem_take h), by rw [List.length_take]; omega, ?_⟩
    rw [C115_strcpy_partial m d max s t hs hmax hd hov, List.length_take, Nat.min_comm]
  · obtain ⟨k, rfl⟩ : ∃ k, d = s + k := ⟨d - s, by omega⟩
    refine ⟨repeated (t.take k) (max - 1), fun h => ?_, by simp [repeated]; omega, ?_⟩
    · obtain ⟨i, hi, h⟩ := List.mem_map.mp h
      have hlk : (t.take k).length = k := by rw [List.length_take]; omega
      have := Nat.mod_lt i (show 0 < (t.take k).length by omega)
      simp only [List.getD, List.getElem?_eq_getElem this, Option.getD_some] at h
      exact hs.1 (List.mem_of_mem_take (h ▸ List.getElem_mem _))
    · rw [C115_strcpy_into_itself_partial m s k max t hs (by omega) (by omega) hmax hd]
      simp [repeated]

/-- **C115 (bounds, `SafeStrcat`).** -/
theorem C115_strcat_bounded (m : List Byte) (d max s : Nat) (a t : List Byte) (ha : StrAt m d a) (hs : StrAt m s t) (hmax : a.length < max)
    (hd : d + max ≤ m.length) :
    ∃ w, 0 ∉ w ∧ a.length + w.length < max ∧ strcatIn m d max s = .ok (patched m (d + a.length) (w ++ [0]), a.length + w.length) := by
  by_cases hne : s + t.length ≠ d + a.length ∨ t = []
  · refine ⟨t.take (max - 1 - a.length), fun h => hs.1 (List.mem_of_mem_take h), by rw [List.length_take]; omega, ?_⟩
    rw [C115_strcat_partial m d max s a t ha hs hmax hd hne, List.length_take, Nat.min_comm]
  · simp only [not_or, Decidable.not_not] at hne
    have htl : 0 < t.length := List.length_pos_iff.mpr hne.2
    refine ⟨repeated t (max - 1 - a.length), fun h => ?_, by simp [repeated]; omega, ?_⟩
    · obtain ⟨i, hi, h⟩ := List.mem_map.mp h
      have := Nat.mod_lt i htl
      simp only [List.getD, List.getElem?_eq_getElem this, Option.getD_some] at h
      exact hs.1 (h ▸ List.getElem_mem _)
    · rw [C115_strcat_tail_partial m d max s a t ha hs hmax hd hne.1 hne.2]
      simp [repeated]; omega

/-- A string moved down two bytes over itself. -/
example : strcpyIn [120, 120, 97, 98, 99, 0, 7] 0 7 2 = .ok ([97, 98, 99, 0, 99, 0, 7], 3) :=
  C115_strcpy_partial [120, 120, 97, 98, 99, 0, 7] 0 7 2 [97, 98, 99] ⟨by decide, [7], rfl⟩ (by decide) (by decide) (.inl (by decide))

/-- A string copied one byte up over itself. -/
example : strcpyIn [97, 98, 99, 0, 7, 7, 7] 2 4 0 = .ok ([97, 98, 97, 98, 97, 0, 7], 3) :=
  C115_strcpy_into_itself_partial [97, 98, 99, 0, 7, 7, 7] 0 2 4 [97, 98, 99] ⟨by decide, [7, 7, 7], rfl⟩ (by decide) (by decide) (by decide) (by decide)

/-- `SafeStrcat(buf, 8, buf + 4)` with the source after the destination's terminator. -/
example : strcatIn [97, 98, 0, 7, 99, 100, 0, 7] 0 8 4 = .ok ([97, 98, 99, 100, 0, 100, 0, 7], 4) :=
  C115_strcat_partial [97, 98, 0, 7, 99, 100, 0, 7] 0 8 4 [97, 98] [99, 100] ⟨by decide, [7, 99, 100, 0, 7], rfl⟩ ⟨by decide, [7], rfl⟩
    (by decide) (by decide) (.inl (by decide))

/-- `SafeStrcat(buf, 6, buf)`. -/
example : strcatIn [97, 98, 0, 7, 7, 7, 7] 0 6 0 = .ok ([97, 98, 97, 98, 97, 0, 7], 5) :=
  C115_self_append_partial [97, 98, 0, 7, 7, 7, 7] 0 6 [97, 98] ⟨by decide, [7, 7, 7, 7], rfl⟩ (by decide) (by decide) (by decide)

/-- `SafeStrcpyN(buf + 1, 6, buf, 3)`. -/
example : strcpyNIn [97, 98, 99, 0, 7, 7, 7] 1 6 0 3 = .ok ([97, 97, 97, 97, 0, 7, 7], 3) :=
  C115_strcpyN_into_itself_partial [97, 98, 99, 0, 7, 7, 7] 0 1 6 3 (by decide) (by decide) (by decide) (by decide)

/-- `SafeStrcpyN(buf, 7, buf + 1, 2)`. -/
example : strcpyNIn [97, 98, 99, 0, 7, 7, 7] 0 7 1 2 = .ok ([98, 99, 0, 0, 7, 7, 7], 2) :=
  C115_strcpyN_partial [97, 98, 99, 0, 7, 7, 7] 0 7 1 2 (by decide) (by decide) (by decide) (by decide) (.inl (by decide))

end Verif.Str
