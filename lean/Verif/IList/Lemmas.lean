import Verif.IList.Spec
/-!
# Invariant and step lemmas for `InlineList`
-/
namespace Verif.IList
open Verif

set_option linter.unusedSectionVars false
set_option linter.unusedSimpArgs false

variable {L N : Type} [DecidableEq L] [DecidableEq N]

/-- Adjacent addresses point to each other. -/
def Linked (m : Addr L N → Links L N) : List (Addr L N) → Prop
  | a :: b :: t => (m a).next = some b ∧ (m b).prev = some a ∧ Linked m (b :: t)
  | _ => True

theorem linked_mid {m : Addr L N → Links L N} {p q : Addr L N} {Q : List (Addr L N)} :
    ∀ {P : List (Addr L N)}, Linked m (P ++ p :: q :: Q) ↔
      Linked m (P ++ [p]) ∧ (m p).next = some q ∧ (m q).prev = some p ∧ Linked m (q :: Q)
  | [] => by simp [Linked]
  | [a] => by simp [Linked, and_assoc]
  | a :: b :: P => by
    have := linked_mid (m := m) (p := p) (q := q) (Q := Q) (P := b :: P)
    simp only [List.cons_append, Linked] at this ⊢
    rw [this]; simp only [and_assoc]

theorem linked_frame {m m' : Addr L N → Links L N} : ∀ {c : List (Addr L N)}, Linked m c →
    (∀ a ∈ c.dropLast, (m' a).next = (m a).next) → (∀ a ∈ c.tail, (m' a).prev = (m a).prev) → Linked m' c
  | [], _, _, _ => trivial
  | [_], _, _, _ => trivial
  | a :: b :: t, ⟨h1, h2, h3⟩, hn, hp => by
    refine ⟨by rw [hn a (by simp), h1], by rw [hp b (by simp), h2], ?_⟩
    exact linked_frame h3 (fun x hx => hn x (by simp only [List.dropLast_cons_cons]; exact List.mem_cons_of_mem _ hx))
      (fun x hx => hp x (by simp only [List.tail_cons] at hx ⊢; exact List.mem_cons_of_mem _ hx))

/-- The addresses of list `l` in order, sentinel at both ends. -/
def ring (l : L) (ns : List N) : List (Addr L N) := .head l :: (ns.map Addr.node ++ [.head l])

structure Inv (debug lens : Bool) (S : Seqs L N) (s : State L N) : Prop where
  linked : ∀ l, Linked s.mem (ring l (S l))
  nodup : ∀ l, (S l).Nodup
  disj : ∀ l k n, n ∈ S l → n ∈ S k → l = k
  nulls : debug = true → ∀ n, (∀ l, n ∉ S l) →
    (s.mem (.node n)).next = none ∧ (s.mem (.node n)).prev = none
  lens : lens = true → ∀ l, s.len l = BitVec.ofNat 64 (S l).length

theorem inv_new (debug lens : Bool) : Inv debug lens (fun _ => []) (State.new : State L N) :=
  ⟨fun l => ⟨rfl, rfl, trivial⟩, fun _ => .nil, fun _ _ _ h => by simp at h, fun _ n _ => ⟨rfl, rfl⟩,
    fun _ _ => rfl⟩

/-- Two pieces, the boundary cells rewritten. -/
theorem linked_join {m m' : Addr L N → Links L N} {P Q : List (Addr L N)} {p q : Addr L N}
    (h1 : Linked m (P ++ [p])) (h2 : Linked m (q :: Q))
    (hp : (m' p).next = some q) (hq : (m' q).prev = some p)
    (hn : ∀ a, a ∈ P ∨ a ∈ (q :: Q).dropLast → (m' a).next = (m a).next)
    (hv : ∀ a, a ∈ (P ++ [p]).tail ∨ a ∈ Q → (m' a).prev = (m a).prev) : Linked m' (P ++ p :: q :: Q) := by
  rw [linked_mid]
  refine ⟨linked_frame h1 (fun a ha => hn a (.inl (by simpa using ha))) (fun a ha => hv a (.inl ha)), hp, hq,
    linked_frame h2 (fun a ha => hn a (.inr ha)) (fun a ha => hv a (.inr ha))⟩

theorem snoc_of_cons {α : Type} (a : α) (l : List α) : ∃ P p, a :: l = P ++ [p] :=
  ⟨(a :: l).dropLast, (a :: l).getLast (by simp), (List.dropLast_concat_getLast (by simp)).symm⟩

theorem cons_of_snoc {α : Type} (l : List α) (a : α) : ∃ q Q, l ++ [a] = q :: Q := by
  cases l with
  | nil => exact ⟨a, [], rfl⟩
  | cons x l => exact ⟨x, l ++ [a], rfl⟩

theorem ring_split (l : L) (xs ys : List N) :
    ∃ (P Q : List (Addr L N)) (p q : Addr L N), Addr.head l :: xs.map Addr.node = P ++ [p] ∧
      ys.map Addr.node ++ [Addr.head l] = q :: Q ∧ ring l (xs ++ ys) = P ++ p :: q :: Q ∧
      ∀ n : N, ring l (xs ++ n :: ys) = P ++ p :: Addr.node n :: q :: Q := by
  obtain ⟨P, p, hP⟩ := snoc_of_cons (Addr.head l) (xs.map (Addr.node (L := L)))
  obtain ⟨q, Q, hQ⟩ := cons_of_snoc (ys.map (Addr.node (L := L))) (Addr.head l)
  refine ⟨P, Q, p, q, hP, hQ, ?_, fun n => ?_⟩
  · unfold ring
    rw [List.map_append, List.append_assoc, hQ, ← List.cons_append, hP]; simp
  · unfold ring
    rw [List.map_append, List.map_cons, List.append_assoc, List.cons_append, hQ, ← List.cons_append, hP]; simp

theorem head_nodup (l : L) {xs : List N} (h : xs.Nodup) : (Addr.head l :: xs.map Addr.node).Nodup := by
  refine List.nodup_cons.2 ⟨by simp, ?_⟩
  exact List.Pairwise.map _ (fun _ _ hne e => hne (by injection e)) h

theorem tail_nodup (l : L) {xs : List N} (h : xs.Nodup) : (xs.map Addr.node ++ [Addr.head l]).Nodup := by
  refine List.nodup_append.2 ⟨List.Pairwise.map _ (fun _ _ hne e => hne (by injection e)) h, by simp, ?_⟩
  intro a ha b hb
  simp only [List.mem_singleton] at hb
  subst hb
  rintro rfl
  simp at ha

/-- What unlinking a node of a list does. -/
theorem unlink_spec {s : State L N} {l : L} {xs ys : List N} {n : N}
    (hl : Linked s.mem (ring l (xs ++ n :: ys))) (hnd : (xs ++ n :: ys).Nodup) :
    ∃ p q, (s.mem (.node n)).prev = some p ∧ (s.mem (.node n)).next = some q ∧
      unlink s (.node n) = .ok (setPrev (setNext s p (some q)) q (some p)) ∧
      p ∈ Addr.head l :: xs.map Addr.node ∧ q ∈ ys.map Addr.node ++ [Addr.head l] ∧
      (ys.map Addr.node ++ [Addr.head l]).head? = some q ∧
      (Addr.head l :: xs.map Addr.node).getLast? = some p ∧
      Linked (setPrev (setNext s p (some q)) q (some p)).mem (ring l (xs ++ ys)) := by
  obtain ⟨P, Q, p, q, hP, hQ, hr, hrn⟩ := ring_split l xs ys
  have hnd' := hnd
  rw [List.nodup_append] at hnd
  obtain ⟨hxs, hnys, hd⟩ := hnd
  obtain ⟨hny, hys⟩ := List.nodup_cons.1 hnys
  rw [hrn n, linked_mid] at hl
  obtain ⟨h1, hpn, hnp, h2⟩ := hl
  have h2' : Linked s.mem ([] ++ Addr.node n :: q :: Q) := h2
  rw [linked_mid] at h2'
  obtain ⟨-, hnq, hqn, h3⟩ := h2'
  have hpm : p ∈ Addr.head l :: xs.map Addr.node := by rw [hP]; simp
  have hqm : q ∈ ys.map Addr.node ++ [Addr.head l] := by rw [hQ]; simp
  have hpn' : p ≠ .node n := by
    rintro rfl
    simp only [List.mem_cons, List.mem_map, reduceCtorEq, Addr.node.injEq, false_or] at hpm
    obtain ⟨a, ha, rfl⟩ := hpm
    exact hd a ha a (by simp) rfl
  refine ⟨p, q, hnp, hnq, ?_, hpm, hqm, by rw [hQ]; rfl, by rw [hP]; simp, ?_⟩
  · simp only [unlink, nonNull, hnp, hnq, bind, Except.bind, setNext, if_neg (Ne.symm hpn')]
  · have ndP := head_nodup l hxs
    have ndQ := tail_nodup l hys
    rw [hP] at ndP
    rw [hQ] at ndQ
    obtain ⟨-, -, ndP'⟩ := List.nodup_append.1 ndP
    have ndQ' := (List.nodup_cons.1 ndQ).1
    have hpQ : p ∉ (q :: Q).dropLast := by
      rw [← hQ, List.dropLast_concat]
      intro hm
      rw [List.mem_map] at hm
      obtain ⟨a, ha, rfl⟩ := hm
      simp only [List.mem_cons, List.mem_map, reduceCtorEq, Addr.node.injEq, false_or] at hpm
      obtain ⟨b, hb, rfl⟩ := hpm
      exact hd b hb b (by simp [ha]) rfl
    have hqP : q ∉ (P ++ [p]).tail := by
      rw [← hP, List.tail_cons]
      intro hm
      rw [List.mem_map] at hm
      obtain ⟨a, ha, rfl⟩ := hm
      simp only [List.mem_append, List.mem_map, List.mem_singleton, reduceCtorEq, Addr.node.injEq, or_false] at hqm
      obtain ⟨b, hb, rfl⟩ := hqm
      exact hd b ha b (by simp [hb]) rfl
    rw [hr]
    refine linked_join h1 h3 ?_ ?_ ?_ ?_
    · simp only [setPrev, setNext]; split <;> simp
    · simp [setPrev, setNext]
    · intro a ha
      have : a ≠ p := by
        rintro rfl
        rcases ha with ha | ha
        · exact ndP' a ha a (by simp) rfl
        · exact hpQ ha
      simp only [setPrev, setNext]
      split <;> simp [this]
    · intro a ha
      have : a ≠ q := by
        rintro rfl
        rcases ha with ha | ha
        · exact hqP ha
        · exact ndQ' ha
      simp only [setPrev, setNext]
      rw [if_neg this]
      split <;> simp

omit [DecidableEq L] in
theorem filter_ne_eq {xs ys : List N} {n : N} (hnd : (xs ++ n :: ys).Nodup) :
    (xs ++ n :: ys).filter (fun m => decide (m ≠ n)) = xs ++ ys := by
  rw [List.nodup_append, List.nodup_cons] at hnd
  obtain ⟨-, ⟨h1, -⟩, h2⟩ := hnd
  rw [List.filter_append, List.filter_cons_of_neg (by simp)]
  rw [List.filter_eq_self.2, List.filter_eq_self.2]
  · intro a ha; simp; rintro rfl; exact h1 ha
  · intro a ha; simp; rintro rfl; exact h2 a ha a (by simp) rfl

theorem unlinked_other {s : State L N} {p q b : Addr L N} (hp : b ≠ p) (hq : b ≠ q) :
    (setPrev (setNext s p (some q)) q (some p)).mem b = s.mem b := by
  simp [setPrev, setNext, hp, hq]

theorem mem_ring {l : L} {ns : List N} {a : Addr L N} :
    a ∈ ring l ns ↔ a = .head l ∨ ∃ n ∈ ns, a = .node n := by
  simp only [ring, List.mem_cons, List.mem_append, List.mem_map, List.not_mem_nil, or_false]
  constructor
  · rintro (h | ⟨n, h, rfl⟩ | h)
    · exact .inl h
    · exact .inr ⟨n, h, rfl⟩
    · exact .inl h
  · rintro (h | ⟨n, h, rfl⟩)
    · exact .inl h
    · exact .inr (.inl ⟨n, h, rfl⟩)

theorem linked_frame' {m m' : Addr L N → Links L N} {c : List (Addr L N)} (h : Linked m c)
    (hf : ∀ a ∈ c, m' a = m a) : Linked m' c :=
  linked_frame h (fun a ha => by rw [hf a (List.dropLast_subset _ ha)])
    (fun a ha => by rw [hf a (List.mem_of_mem_tail ha)])

/-- Unlinking and (if required) nulling a node keeps the invariant except for lengths. -/
theorem unlinked_inv {debug lens : Bool} {S : Seqs L N} {s : State L N} (hi : Inv debug lens S s) {l : L}
    {n : N} (hn : n ∈ S l) (nul : Bool) (hnul : debug = true → nul = true) :
    ∃ p q s', (s.mem (.node n)).prev = some p ∧ (s.mem (.node n)).next = some q ∧
      unlink s (.node n) = .ok s' ∧ s'.len = s.len ∧
      Inv debug false (S.set l ((S l).filter (fun m => decide (m ≠ n)))) (if nul then nullify s' (.node n) else s') := by
  obtain ⟨xs, ys, hS⟩ := List.append_of_mem hn
  have hnd := hi.nodup l
  have hL := hi.linked l
  rw [hS] at hnd hL
  obtain ⟨p, q, hp, hq, hu, hpm, hqm, -, -, hlk⟩ := unlink_spec hL hnd
  have hpm' : p ∈ ring l (S l) := by
    rw [mem_ring, hS]
    simp only [List.mem_cons, List.mem_map] at hpm
    rcases hpm with h | ⟨a, ha, rfl⟩
    · exact .inl h
    · exact .inr ⟨a, by simp [ha], rfl⟩
  have hqm' : q ∈ ring l (S l) := by
    rw [mem_ring, hS]
    simp only [List.mem_append, List.mem_map, List.mem_singleton] at hqm
    rcases hqm with ⟨a, ha, rfl⟩ | h
    · exact .inr ⟨a, by simp [ha], rfl⟩
    · exact .inl h
  have hother : ∀ k, k ≠ l → ∀ a ∈ ring k (S k), a ≠ p ∧ a ≠ q ∧ a ≠ .node n := by
    intro k hk a ha
    have key : ∀ b, b ∈ ring l (S l) → a ≠ b := by
      rintro b hb rfl
      rw [mem_ring] at ha hb
      rcases ha with rfl | ⟨x, hx, rfl⟩
      · rcases hb with h | ⟨y, hy, h⟩
        · injection h with h; exact hk h
        · cases h
      · rcases hb with h | ⟨y, hy, h⟩
        · cases h
        · injection h with h; subst h; exact hk (hi.disj _ _ _ hx hy)
    exact ⟨key p hpm', key q hqm', key _ (mem_ring.2 (.inr ⟨n, hn, rfl⟩))⟩
  have hnulf : ∀ (t : State L N) b, b ≠ Addr.node n → (if nul then nullify t (.node n) else t).mem b = t.mem b := by
    intro t b hb
    split
    · simp [nullify, setPrev, setNext, hb]
    · rfl
  have hfil := filter_ne_eq hnd
  rw [← hS] at hfil
  refine ⟨p, q, _, hp, hq, hu, rfl, ?_, ?_, ?_, ?_, by simp⟩
  · intro k
    by_cases hk : k = l
    · subst hk
      simp only [Seqs.set, if_true, hfil]
      refine linked_frame' hlk (fun a ha => hnulf _ _ ?_)
      rintro rfl
      rw [mem_ring] at ha
      rcases ha with h | ⟨y, hy, h⟩
      · cases h
      · injection h with h
        subst h
        have : (n ∈ (S k).filter (fun m => decide (m ≠ n))) := by rw [hfil]; exact hy
        simp at this
    · simp only [Seqs.set, if_neg hk]
      refine linked_frame' (hi.linked k) (fun a ha => ?_)
      obtain ⟨h1, h2, h3⟩ := hother k hk a ha
      rw [hnulf _ _ h3, unlinked_other h1 h2]
  · intro k
    simp only [Seqs.set]
    split
    · exact (hi.nodup l).filter _
    · exact hi.nodup k
  · intro k k' m hm hm'
    have aux : ∀ k, m ∈ (S.set l ((S l).filter (fun m => decide (m ≠ n)))) k → m ∈ S k := by
      intro k
      simp only [Seqs.set]
      split
      · rename_i h; subst h; exact fun h => (List.mem_filter.1 h).1
      · exact id
    exact hi.disj k k' m (aux k hm) (aux k' hm')
  · intro hd m hm
    by_cases hmn : m = n
    · subst hmn
      rw [if_pos (hnul hd)]
      simp [nullify, setPrev, setNext]
    · have hmS : ∀ k, m ∉ S k := by
        intro k hk
        have := hm k
        simp only [Seqs.set] at this
        split at this
        · rename_i h; subst h
          exact this (List.mem_filter.2 ⟨hk, by simpa using hmn⟩)
        · exact this hk
      have hne : ∀ b, b ∈ ring l (S l) → Addr.node m ≠ b := by
        rintro b hb rfl
        rw [mem_ring] at hb
        rcases hb with h | ⟨y, hy, h⟩
        · cases h
        · injection h with h; subst h; exact hmS l hy
      rw [hnulf _ _ (fun h => hmn (by injection h)), unlinked_other (hne p hpm') (hne q hqm')]
      exact hi.nulls hd m hmS

theorem Inv.relen {debug : Bool} {S : Seqs L N} {s t : State L N} (hi : Inv debug false S s)
    (hm : t.mem = s.mem) (lens : Bool) (hl : lens = true → ∀ l, t.len l = BitVec.ofNat 64 (S l).length) :
    Inv debug lens S t :=
  ⟨fun l => hm ▸ hi.linked l, hi.nodup, hi.disj, fun hd n hn => hm ▸ hi.nulls hd n hn, hl⟩

theorem Inv.weaken {debug lens : Bool} {S : Seqs L N} {s : State L N} (hi : Inv debug lens S s) :
    Inv debug false S s := ⟨hi.linked, hi.nodup, hi.disj, hi.nulls, by simp⟩

omit [DecidableEq L] in
theorem filter_ne_length {xs : List N} {n : N} (hn : n ∈ xs) (hnd : xs.Nodup) :
    xs.length = (xs.filter (fun m => decide (m ≠ n))).length + 1 := by
  obtain ⟨a, b, rfl⟩ := List.append_of_mem hn
  rw [filter_ne_eq hnd]; simp; omega

theorem remove_spec {debug lens : Bool} {S : Seqs L N} {s : State L N} (hi : Inv debug lens S s) {l : L}
    {n : N} (hn : n ∈ S l) :
    ∃ s', remove debug s l (.node n) = .ok s' ∧
      Inv debug lens (S.set l ((S l).filter (fun m => decide (m ≠ n)))) s' := by
  obtain ⟨p, q, s', -, -, hu, hlen, hinv⟩ := unlinked_inv hi hn debug id
  have hln := filter_ne_length hn (hi.nodup l)
  cases debug with
  | true =>
    refine ⟨_, by simp only [remove, hu, bind, Except.bind]; rfl, ?_⟩
    refine hinv.relen ?_ lens (fun h k => ?_)
    · rfl
    have := hi.lens h
    simp only [nullify, setPrev, setNext, setLen, hlen, Seqs.set, if_true]
    split
    · rw [this l, hln]; exact BitVec.eq_of_toNat_eq (by simp [BitVec.toNat_sub]; omega)
    · exact this k
  | false =>
    refine ⟨_, by simp only [remove, hu, bind, Except.bind]; rfl, ?_⟩
    refine hinv.relen ?_ lens (fun h k => ?_)
    · rfl
    have := hi.lens h
    simp only [setLen, hlen, Seqs.set, Bool.false_eq_true, if_false]
    split
    · rw [this l, hln]; exact BitVec.eq_of_toNat_eq (by simp [BitVec.toNat_sub]; omega)
    · exact this k

theorem removeFromParentList_spec {debug lens : Bool} {S : Seqs L N} {s : State L N} (hi : Inv debug lens S s)
    {l : L} {n : N} (hn : n ∈ S l) :
    ∃ s', removeFromParentList s n = .ok s' ∧
      Inv debug false (fun k => (S k).filter (fun m => decide (m ≠ n))) s' := by
  obtain ⟨p, q, s', -, -, hu, hlen, hinv⟩ := unlinked_inv hi hn true (fun _ => rfl)
  refine ⟨_, by simp only [removeFromParentList, hu, bind, Except.bind]; rfl, ?_⟩
  rw [if_pos rfl] at hinv
  have : (fun k => (S k).filter (fun m => decide (m ≠ n))) =
      S.set l ((S l).filter (fun m => decide (m ≠ n))) := by
    funext k
    simp only [Seqs.set]
    split
    · rename_i h; rw [h]
    · rename_i h
      refine List.filter_eq_self.2 (fun a ha => ?_)
      simp only [decide_eq_true_eq]
      rintro rfl
      exact h (hi.disj _ _ _ ha hn)
  rw [this]; exact hinv

theorem append_spec {debug lens : Bool} {S : Seqs L N} {s : State L N} (hi : Inv debug lens S s) (l : L)
    {n : N} (hn : ∀ k, n ∉ S k) :
    ∃ s', append debug s l n = .ok s' ∧ Inv debug lens (S.set l (S l ++ [n])) s' := by
  obtain ⟨P, Q, p, q, hP, hQ, hr, hrn⟩ := ring_split l (S l) ([] : List N)
  simp only [List.map_nil, List.nil_append, List.cons.injEq] at hQ
  obtain ⟨rfl, rfl⟩ := hQ
  rw [List.append_nil] at hr
  have hL := hi.linked l
  rw [hr, linked_mid] at hL
  obtain ⟨h1, hpn, hhp, -⟩ := hL
  have hpm : p ∈ Addr.head l :: (S l).map Addr.node := by rw [hP]; simp
  have hpn' : p ≠ .node n := by
    rintro rfl
    simp only [List.mem_cons, List.mem_map, reduceCtorEq, Addr.node.injEq, false_or] at hpm
    obtain ⟨a, ha, rfl⟩ := hpm
    exact hn l ha
  have hc1 : ¬ (debug = true ∧ (s.mem (.node n)).next.isSome = true) := by
    rintro ⟨hd, h⟩; rw [(hi.nulls hd n hn).1] at h; cases h
  have hc2 : ¬ (debug = true ∧ (s.mem (.node n)).prev.isSome = true) := by
    rintro ⟨hd, h⟩; rw [(hi.nulls hd n hn).2] at h; cases h
  let s' : State L N := setLen (setPrev (setNext (setNext (setPrev s (.node n) (some p)) (.node n)
    (some (.head l))) p (some (.node n))) (.head l) (some (.node n))) l (s.len l + 1)
  refine ⟨s', ?_, ?_, ?_, ?_, ?_, ?_⟩
  · rw [append, if_neg hc1, if_neg hc2]
    simp only [bind, Except.bind, hhp, nonNull, setPrev, setNext, reduceCtorEq, if_false]
    rfl
  · intro k
    by_cases hk : k = l
    · subst hk
      simp only [Seqs.set, if_true]
      rw [hrn n]
      have ndP := head_nodup k (hi.nodup k)
      rw [hP] at ndP
      obtain ⟨-, -, ndP'⟩ := List.nodup_append.1 ndP
      have hnP : Addr.node n ∉ P ++ [p] := by
        rw [← hP]
        simp only [List.mem_cons, List.mem_map, reduceCtorEq, Addr.node.injEq, false_or]
        rintro ⟨a, ha, rfl⟩
        exact hn k ha
      have hhP : Addr.head k ∉ (P ++ [p]).tail := by rw [← hP]; simp
      rw [linked_mid]
      refine ⟨linked_frame h1 ?_ ?_, ?_, ?_, ?_, ?_, trivial⟩
      · intro a ha
        rw [List.dropLast_concat] at ha
        have h1 : a ≠ p := fun h => ndP' a ha p (by simp) h
        have h2 : a ≠ .node n := by rintro rfl; exact hnP (by simp [ha])
        simp only [s', setLen, setPrev, setNext, if_neg h1, if_neg h2]
        split <;> rfl
      · intro a ha
        have h1 : a ≠ .head k := by rintro rfl; exact hhP ha
        have h2 : a ≠ .node n := by rintro rfl; exact hnP (List.mem_of_mem_tail ha)
        simp only [s', setLen, setPrev, setNext, if_neg h1, if_neg h2]
        split <;> rfl
      · simp only [s', setLen, setPrev, setNext, if_true]
        split <;> rfl
      · simp only [s', setLen, setPrev, setNext, if_true, reduceCtorEq, if_false, if_neg (Ne.symm hpn')]
      · simp only [s', setLen, setPrev, setNext, if_true, reduceCtorEq, if_false, if_neg (Ne.symm hpn')]
      · simp only [s', setLen, setPrev, setNext, if_true, reduceCtorEq, if_false]
    · simp only [Seqs.set, if_neg hk]
      refine linked_frame' (hi.linked k) (fun a ha => ?_)
      rw [mem_ring] at ha
      have hal : a ≠ .head l := by
        rintro rfl
        rcases ha with h | ⟨y, hy, h⟩
        · injection h with h; exact hk h.symm
        · cases h
      have h2 : a ≠ .node n := by
        rintro rfl
        rcases ha with h | ⟨y, hy, h⟩
        · cases h
        · injection h with h; subst h; exact hn k hy
      have h3 : a ≠ p := by
        rintro rfl
        simp only [List.mem_cons, List.mem_map] at hpm
        rcases hpm with h | ⟨b, hb, rfl⟩
        · exact hal h
        · rcases ha with h | ⟨y, hy, h⟩
          · cases h
          · injection h with h; subst h; exact hk (hi.disj _ _ _ hy hb)
      simp only [s', setLen, setPrev, setNext, if_neg hal, if_neg h2, if_neg h3]
  · intro k
    simp only [Seqs.set]
    split
    · rw [List.nodup_append]
      refine ⟨hi.nodup l, by simp, ?_⟩
      intro a ha b hb
      simp only [List.mem_singleton] at hb
      subst hb; rintro rfl; exact hn l ha
    · exact hi.nodup k
  · intro k k' m hm hm'
    have aux : ∀ k, m ∈ (S.set l (S l ++ [n])) k → m ∈ S k ∨ (m = n ∧ k = l) := by
      intro k
      simp only [Seqs.set]
      split
      · rename_i h; subst h
        simp only [List.mem_append, List.mem_singleton]
        rintro (h | h)
        · exact .inl h
        · exact .inr ⟨h, trivial⟩
      · exact .inl
    rcases aux k hm with h | ⟨rfl, rfl⟩ <;> rcases aux k' hm' with h' | ⟨h1, h2⟩
    · exact hi.disj _ _ _ h h'
    · subst h1; exact (hn k h).elim
    · exact (hn _ h').elim
    · exact h2.symm
  · intro hd m hm
    have hmS : ∀ k, m ∉ S k := by
      intro k hk
      have := hm k
      simp only [Seqs.set] at this
      split at this
      · rename_i h; subst h; exact this (by simp [hk])
      · exact this hk
    have hmn : m ≠ n := by
      rintro rfl
      exact hm l (by simp [Seqs.set])
    have h2 : (Addr.node m : Addr L N) ≠ .node n := fun h => hmn (by injection h)
    have h3 : Addr.node m ≠ p := by
      rintro rfl
      simp only [List.mem_cons, List.mem_map, reduceCtorEq, Addr.node.injEq, false_or] at hpm
      obtain ⟨a, ha, rfl⟩ := hpm
      exact hmS l ha
    simp only [s', setLen, setPrev, setNext, if_neg h2, if_neg h3, reduceCtorEq, if_false]
    exact hi.nulls hd m hmS
  · intro h k
    have := hi.lens h
    simp only [s', setLen, setPrev, setNext, Seqs.set]
    split
    · rw [this l]; exact BitVec.eq_of_toNat_eq (by simp)
    · exact this k

/-! ### Traversal -/

theorem set_set (S : Seqs L N) (l : L) (a b : List N) : (S.set l a).set l b = S.set l b := by
  funext k; simp only [Seqs.set]; split <;> rfl

theorem set_self (S : Seqs L N) (l : L) : S.set l (S l) = S := by
  funext k; simp only [Seqs.set]; split
  · rename_i h; rw [h]
  · rfl

theorem set_get (S : Seqs L N) (l : L) (a : List N) : (S.set l a) l = a := by simp [Seqs.set]

/-- A property of the memory that survives removals of nodes from the lists they are in. -/
def Survives (debug lens : Bool) (J : Seqs L N → State L N → Prop) : Prop :=
  ∀ (S : Seqs L N) (s s' : State L N) (l : L) (n : N), Inv debug lens S s → n ∈ S l → J S s →
    remove debug s l (.node n) = .ok s' → J (S.set l ((S l).filter (fun m => decide (m ≠ n)))) s'

theorem sweep_fwd {debug lens : Bool} {J : Seqs L N → State L N → Prop} (hJ : Survives debug lens J) (pick : N → Bool) (l : L) : ∀ (rest kept : List N) (S : Seqs L N)
    (s : State L N) (fuel : Nat), Inv debug lens S s → J S s → S l = kept ++ rest → rest.length < fuel →
    ∃ s', sweepLoop debug false pick l s ((rest.map Addr.node ++ [Addr.head l]).head?) fuel = .ok (s', rest) ∧
      Inv debug lens (S.set l (kept ++ rest.filter (fun m => !pick m))) s' ∧
      J (S.set l (kept ++ rest.filter (fun m => !pick m))) s' := by
  intro rest
  induction rest with
  | nil =>
    intro kept S s fuel hi hj hS hf
    obtain ⟨f, rfl⟩ : ∃ f, fuel = f + 1 := ⟨fuel - 1, by simp at hf; omega⟩
    refine ⟨s, by simp [sweepLoop], ?_⟩
    simp only [List.filter_nil]
    rw [← hS, set_self]; exact ⟨hi, hj⟩
  | cons n rest ih =>
    intro kept S s fuel hi hj hS hf
    obtain ⟨f, rfl⟩ : ∃ f, fuel = f + 1 := ⟨fuel - 1, by simp at hf; omega⟩
    have hnd := hi.nodup l
    have hL := hi.linked l
    rw [hS] at hnd hL
    obtain ⟨p, q, hp, hq, hu, hpm, hqm, hqh, hpl, -⟩ := unlink_spec hL hnd
    have hnm : n ∈ S l := by rw [hS]; simp
    simp only [List.map_cons, List.cons_append, List.head?_cons]
    by_cases hpk : pick n = true
    · obtain ⟨s1, h1, hi1⟩ := remove_spec hi hnm
      have hS1 : S.set l ((S l).filter (fun m => decide (m ≠ n))) = S.set l (kept ++ rest) := by
        rw [hS, filter_ne_eq hnd]
      have hj1 := hJ _ _ _ _ _ hi hnm hj h1
      rw [hS1] at hi1 hj1
      obtain ⟨s', h2, hi2, hj2⟩ := ih kept _ s1 f hi1 hj1 (set_get _ _ _) (by simp at hf; omega)
      refine ⟨s', ?_, ?_⟩
      · rw [hqh] at h2
        simp only [sweepLoop, Option.some.injEq, reduceCtorEq, if_false, hpk, if_true, erase, nextIt, nonNull, bind,
          Except.bind, h1, hq, Bool.false_eq_true, h2]
      · rw [set_set] at hi2 hj2
        rw [List.filter_cons_of_neg (by simp [hpk])]; exact ⟨hi2, hj2⟩
    · obtain ⟨s', h2, hi2, hj2⟩ := ih (kept ++ [n]) S s f hi hj (by rw [hS]; simp) (by simp at hf; omega)
      refine ⟨s', ?_, ?_⟩
      · rw [hqh] at h2
        simp only [sweepLoop, Option.some.injEq, reduceCtorEq, if_false, hpk, nextIt, nonNull, bind,
          Except.bind, hq, Bool.false_eq_true, h2]
      · rw [List.filter_cons_of_pos (by simp [hpk])]
        rw [List.append_assoc] at hi2 hj2; exact ⟨hi2, hj2⟩

theorem sweep_rev {debug lens : Bool} {J : Seqs L N → State L N → Prop} (hJ : Survives debug lens J) (pick : N → Bool) (l : L) : ∀ (rest kept : List N) (S : Seqs L N)
    (s : State L N) (fuel : Nat), Inv debug lens S s → J S s → S l = rest.reverse ++ kept → rest.length < fuel →
    ∃ s', sweepLoop debug true pick l s ((Addr.head l :: rest.reverse.map Addr.node).getLast?) fuel = .ok (s', rest) ∧
      Inv debug lens (S.set l (rest.reverse.filter (fun m => !pick m) ++ kept)) s' ∧
      J (S.set l (rest.reverse.filter (fun m => !pick m) ++ kept)) s' := by
  intro rest
  induction rest with
  | nil =>
    intro kept S s fuel hi hj hS hf
    obtain ⟨f, rfl⟩ : ∃ f, fuel = f + 1 := ⟨fuel - 1, by simp at hf; omega⟩
    refine ⟨s, by simp [sweepLoop], ?_⟩
    simp only [List.reverse_nil, List.filter_nil]
    rw [← List.reverse_nil, ← hS, set_self]; exact ⟨hi, hj⟩
  | cons n rest ih =>
    intro kept S s fuel hi hj hS hf
    obtain ⟨f, rfl⟩ : ∃ f, fuel = f + 1 := ⟨fuel - 1, by simp at hf; omega⟩
    have hnd := hi.nodup l
    have hL := hi.linked l
    have hS' : S l = rest.reverse ++ n :: kept := by rw [hS]; simp
    rw [hS'] at hnd hL
    obtain ⟨p, q, hp, hq, hu, hpm, hqm, hqh, hpl, -⟩ := unlink_spec hL hnd
    have hnm : n ∈ S l := by rw [hS']; simp
    have hlast : (Addr.head l :: (n :: rest).reverse.map Addr.node).getLast? = some (Addr.node n) := by
      rw [List.reverse_cons, List.map_append, ← List.cons_append, List.map_singleton, List.getLast?_concat]
    rw [hlast]
    by_cases hpk : pick n = true
    · obtain ⟨s1, h1, hi1⟩ := remove_spec hi hnm
      have hS1 : S.set l ((S l).filter (fun m => decide (m ≠ n))) = S.set l (rest.reverse ++ kept) := by
        rw [hS', filter_ne_eq hnd]
      have hj1 := hJ _ _ _ _ _ hi hnm hj h1
      rw [hS1] at hi1 hj1
      obtain ⟨s', h2, hi2, hj2⟩ := ih kept _ s1 f hi1 hj1 (set_get _ _ _) (by simp at hf; omega)
      refine ⟨s', ?_, ?_⟩
      · rw [hpl] at h2
        simp only [sweepLoop, Option.some.injEq, reduceCtorEq, if_false, hpk, if_true, erase, nextIt, nonNull, bind,
          Except.bind, h1, hp, h2]
      · rw [set_set] at hi2 hj2
        rw [List.reverse_cons, List.filter_append, List.filter_cons_of_neg (by simp [hpk])]; simpa using And.intro hi2 hj2
    · obtain ⟨s', h2, hi2, hj2⟩ := ih (n :: kept) S s f hi hj hS' (by simp at hf; omega)
      refine ⟨s', ?_, ?_⟩
      · rw [hpl] at h2
        simp only [sweepLoop, Option.some.injEq, reduceCtorEq, if_false, hpk, nextIt, nonNull, bind,
          Except.bind, hp, Bool.false_eq_true, h2, if_true]
      · rw [List.reverse_cons, List.filter_append, List.filter_cons_of_pos (by simp [hpk])]
        simpa using And.intro hi2 hj2

theorem first_of_linked {s : State L N} {l : L} {ns : List N} (h : Linked s.mem (ring l ns)) :
    (s.mem (.head l)).next = (ns.map Addr.node ++ [Addr.head l]).head? ∧
    (s.mem (.head l)).prev = (Addr.head l :: ns.map Addr.node).getLast? := by
  obtain ⟨P, Q, p, q, hP, hQ, hr, -⟩ := ring_split l ([] : List N) ns
  obtain ⟨P', Q', p', q', hP', hQ', hr', -⟩ := ring_split l ns ([] : List N)
  simp only [List.map_nil, List.nil_append, List.append_nil, List.cons.injEq] at hP hQ' hr hr'
  constructor
  · rw [hr, linked_mid] at h
    have : P = [] ∧ p = Addr.head l := by
      cases P with
      | nil => simp at hP; exact ⟨rfl, hP.symm⟩
      | cons a P => simp at hP
    rw [hQ, List.head?_cons, ← this.2]; exact h.2.1
  · rw [hr', linked_mid] at h
    rw [hP', List.getLast?_concat, hQ'.1]; exact h.2.2.1

theorem empty_spec {debug lens : Bool} {S : Seqs L N} {s : State L N} (hi : Inv debug lens S s) (l : L) :
    empty s l = (S l).isEmpty := by
  rw [empty, (first_of_linked (hi.linked l)).1]
  cases S l <;> simp

theorem sweep_spec_J {debug lens : Bool} {J : Seqs L N → State L N → Prop} (hJ : Survives debug lens J) {S : Seqs L N} {s : State L N} (hi : Inv debug lens S s) (hj : J S s) (rev : Bool)
    (pick : N → Bool) (l : L) (fuel : Nat) (hf : (S l).length < fuel) :
    ∃ s', sweepLoop debug rev pick l s (beginIt rev s l) fuel =
        .ok (s', if rev then (S l).reverse else S l) ∧
      Inv debug lens (S.set l ((S l).filter (fun m => !pick m))) s' ∧
      J (S.set l ((S l).filter (fun m => !pick m))) s' := by
  cases rev with
  | false =>
    have := sweep_fwd hJ pick l (S l) [] S s fuel hi hj (by simp) hf
    simp only [beginIt, Bool.false_eq_true, if_false, (first_of_linked (hi.linked l)).1]
    simpa using this
  | true =>
    have := sweep_rev hJ pick l (S l).reverse [] S s fuel hi hj (by simp) (by simpa using hf)
    simp only [beginIt, if_true, (first_of_linked (hi.linked l)).2]
    simpa using this

theorem sweep_spec {debug lens : Bool} {S : Seqs L N} {s : State L N} (hi : Inv debug lens S s) (rev : Bool)
    (pick : N → Bool) (l : L) (fuel : Nat) (hf : (S l).length < fuel) :
    ∃ s', sweepLoop debug rev pick l s (beginIt rev s l) fuel =
        .ok (s', if rev then (S l).reverse else S l) ∧
      Inv debug lens (S.set l ((S l).filter (fun m => !pick m))) s' := by
  obtain ⟨s', h1, h2, -⟩ := sweep_spec_J (J := fun _ _ => True) (fun _ _ _ _ _ _ _ _ _ => trivial) hi trivial rev pick
    l fuel hf
  exact ⟨s', h1, h2⟩

theorem destroy_spec {lens : Bool} (l : L) : ∀ (fuel : Nat) (S : Seqs L N) (s : State L N), Inv true lens S s →
    (S l).length < fuel → ∃ s', destroyLoop s l fuel = .ok s' ∧ Inv true lens (S.set l []) s' := by
  intro fuel
  induction fuel with
  | zero => intro S s _ h; omega
  | succ fuel ih =>
    intro S s hi hf
    have h1 := (first_of_linked (hi.linked l)).1
    cases hS : S l with
    | nil =>
      rw [hS] at h1
      refine ⟨s, by simp [destroyLoop, h1], ?_⟩
      rw [← hS, set_self]; exact hi
    | cons n ns =>
      rw [hS] at h1
      simp only [List.map_cons, List.cons_append, List.head?_cons] at h1
      have hnm : n ∈ S l := by simp [hS]
      obtain ⟨s1, h2, hi1⟩ := remove_spec hi hnm
      have hln := filter_ne_length hnm (hi.nodup l)
      obtain ⟨s', h3, hi2⟩ := ih _ s1 hi1 (by rw [set_get]; omega)
      refine ⟨s', ?_, by rw [set_set] at hi2; exact hi2⟩
      simp only [destroyLoop, h1, Option.some.injEq, reduceCtorEq, if_false, nonNull, bind, Except.bind, h2, h3]

theorem recreate_spec {debug lens : Bool} {S : Seqs L N} {s : State L N} (hi : Inv debug lens S s) (l : L)
    (fuel : Nat) (hf : (S l).length < fuel) :
    ∃ s', recreate debug s l fuel = .ok s' ∧ Inv debug lens (S.set l []) s' := by
  have key : ∀ t : State L N, (debug = true → Inv true lens (S.set l []) t) → (debug = false → t = s) →
      Inv debug lens (S.set l [])
        (setLen (setPrev (setNext t (.head l) (some (.head l))) (.head l) (some (.head l))) l 0) := by
    intro t ht hs
    have hmem : ∀ b, b ≠ .head l → (setLen (setPrev (setNext t (.head l) (some (.head l))) (.head l)
        (some (.head l))) l 0).mem b = t.mem b := by
      intro b hb; simp [setLen, setPrev, setNext, hb]
    have hfr : ∀ k, k ≠ l → Linked t.mem (ring k (S k)) := by
      intro k hk
      cases debug with
      | true => have := (ht rfl).linked k; simpa [Seqs.set, hk] using this
      | false => rw [hs rfl]; exact hi.linked k
    refine ⟨?_, ?_, ?_, ?_, ?_⟩
    · intro k
      by_cases hk : k = l
      · subst hk
        simp [set_get, ring, Linked, setLen, setPrev, setNext]
      · simp only [Seqs.set, if_neg hk]
        refine linked_frame' (hfr k hk) (fun a ha => hmem a ?_)
        rintro rfl
        rw [mem_ring] at ha
        rcases ha with h | ⟨y, hy, h⟩
        · injection h with h; exact hk h.symm
        · cases h
    · intro k
      simp only [Seqs.set]
      split
      · exact .nil
      · exact hi.nodup k
    · intro k k' m hm hm'
      have aux : ∀ k, m ∈ (S.set l []) k → m ∈ S k := by
        intro k; simp only [Seqs.set]; split
        · simp
        · exact id
      exact hi.disj _ _ _ (aux k hm) (aux k' hm')
    · intro hd n hn
      rw [hmem _ (by simp)]
      exact (ht hd).nulls rfl n hn
    · intro h k
      simp only [setLen, setPrev, setNext, Seqs.set]
      split
      · rfl
      · rename_i hk
        cases debug with
        | true => have := (ht rfl).lens h k; simpa [Seqs.set, hk] using this
        | false => rw [hs rfl]; exact hi.lens h k
  cases debug with
  | true =>
    obtain ⟨t, h1, h2⟩ := destroy_spec l fuel S s hi hf
    exact ⟨_, by simp only [recreate, if_true, bind, Except.bind, h1], key t (fun _ => h2) (by simp)⟩
  | false =>
    exact ⟨_, by simp only [recreate, Bool.false_eq_true, if_false, bind, Except.bind], key s (by simp) (fun _ => rfl)⟩

theorem isInList_spec {debug lens : Bool} {S : Seqs L N} {s : State L N} (hi : Inv debug lens S s) (n : N) :
    ((∃ l, n ∈ S l) → isInList debug s n = .ok true) ∧
    (debug = true → (∀ l, n ∉ S l) → isInList debug s n = .ok false) := by
  constructor
  · rintro ⟨l, hn⟩
    obtain ⟨p, q, -, hp, hq, -⟩ := unlinked_inv hi hn true (fun _ => rfl)
    simp [isInList, hp, hq]
  · intro hd hn
    obtain ⟨h1, h2⟩ := hi.nulls hd n hn
    simp [isInList, h1, h2]

end Verif.IList
