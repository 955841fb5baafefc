import Verif.ArgParser.Steps
/-! # Lemmas for `am-argparser.h`: what a chain of items amounts to -/
namespace Verif.ArgParser
open Verif

@[simp] theorem setCell_hasPass (st : State) (r : Ref) (c : Cell) : (st.setCell r c).hasPass = st.hasPass := rfl
@[simp] theorem setCell_error (st : State) (r : Ref) (c : Cell) : (st.setCell r c).error = st.error := rfl
@[simp] theorem setCell_extra (st : State) (r : Ref) (c : Cell) : (st.setCell r c).extra = st.extra := rfl
@[simp] theorem setCell_pass (st : State) (r : Ref) (c : Cell) : (st.setCell r c).pass = st.pass := rfl

theorem setCell_same (st : State) (r : Ref) (c : Cell) : (st.setCell r c).cells r = c := by simp [State.setCell]
theorem setCell_other (st : State) {r r' : Ref} (c : Cell) (h : r' ≠ r) : (st.setCell r c).cells r' = st.cells r' := by simp [State.setCell, h]

/-- Items that give a value are no part of anything else. -/
theorem gives_spec {it : Item} {i : Nat} {x : Val} (h : it.gives = some (i, x)) :
    it.plain = none ∧ it.positionalPair = none ∧ it.extraArg = none ∧ it.passed = none ∧ it.inTail = false ∧ (∀ a, it ≠ .pass a) := by
  cases it <;> simp [Item.gives, Item.plain, Item.positionalPair, Item.extraArg, Item.passed, Item.inTail] at h ⊢

theorem void_spec {it : Item} (h : it.void = true) :
    it.gives = none ∧ it.plain = none ∧ it.positionalPair = none ∧ it.extraArg = none ∧ it.passed = none ∧ it.inTail = false ∧ (∀ a, it ≠ .pass a) := by
  cases it <;> simp [Item.void, Item.gives, Item.plain, Item.positionalPair, Item.extraArg, Item.passed, Item.inTail] at h ⊢

theorem givenTo_cons (it : Item) (items : List Item) (i : Nat) :
    givenTo (it :: items) i = (match it.gives with | some (j, x) => if j = i then [x] else [] | none => []) ++ givenTo items i := by
  unfold givenTo
  rw [List.filterMap_cons]
  cases it.gives with
  | none => rfl
  | some p =>
    obtain ⟨j, x⟩ := p
    by_cases h : j = i <;> simp [h]

variable {w : Nat} {cfg : Config}

theorem chain_error {st st' : State} {pos pos' : Nat} {items : List Item} (h : Chain w cfg st pos items st' pos') : st'.error = st.error := by
  induction h with
  | nil => rfl
  | cons hd _ ih => rw [ih]; cases hd <;> rfl

theorem chain_extra {st st' : State} {pos pos' : Nat} {items : List Item} (h : Chain w cfg st pos items st' pos') :
    st'.extra = st.extra ++ items.filterMap Item.extraArg ∧ st'.pass = st.pass ++ items.filterMap Item.passed := by
  induction h with
  | nil => simp
  | cons hd _ ih =>
    rw [ih.1, ih.2, List.filterMap_cons, List.filterMap_cons]
    cases hd with
    | dashes _ => simp [Item.extraArg, Item.passed]
    | pass a _ _ => simp [Item.extraArg, Item.passed]
    | give it i o x _ _ hg _ _ => obtain ⟨_, _, h3, h4, _⟩ := gives_spec hg; simp [h3, h4]
    | ignore it _ _ hv => obtain ⟨_, _, _, h3, h4, _⟩ := void_spec hv; simp [h3, h4]
    | positional a x o => simp [Item.extraArg, Item.passed]
    | extra a => simp [Item.extraArg, Item.passed]

theorem chain_opt {st st' : State} {pos pos' : Nat} {items : List Item} (h : Chain w cfg st pos items st' pos') (i : Nat) (o : Opt)
    (ho : cfg.options[i]? = some o) : st'.cells (.opt i) = (givenTo items i).foldl (put o) (st.cells (.opt i)) := by
  induction h with
  | nil => rfl
  | cons hd _ ih =>
    rw [ih, givenTo_cons, List.foldl_append]
    congr 1
    cases hd with
    | dashes _ => rfl
    | pass a _ _ => rfl
    | give it j q x _ _ hg hq _ =>
      rw [hg]
      by_cases hj : j = i
      · subst hj
        rw [ho] at hq; cases hq
        simp [setCell_same]
      · simp only [hj, if_false, List.foldl_nil]
        rw [setCell_other]; simp [Ne.symm hj]
    | ignore it _ _ hv => rw [(void_spec hv).1]; rfl
    | positional a x o => simp only [Item.gives, List.foldl_nil]; rw [setCell_other]; simp
    | extra a => rfl

theorem chain_pos {st st' : State} {pos pos' : Nat} {items : List Item} (h : Chain w cfg st pos items st' pos') :
    pos' = pos + (items.filterMap Item.positionalPair).length ∧ (pos ≤ cfg.positionals.length → pos' ≤ cfg.positionals.length) ∧
    (∀ (k : Nat) (a : Str) (x : Val), (items.filterMap Item.positionalPair)[k]? = some (a, x) →
      ∃ o : Opt, cfg.positionals[pos + k]? = some o ∧ Reads (codeNum w) o.kind a x) := by
  induction h with
  | nil => simp
  | @cons st st1 st2 pos pos1 pos2 it items hd _ ih =>
    obtain ⟨h1, h2, h3⟩ := ih
    have same : it.positionalPair = none → pos1 = pos →
        pos2 = pos + ((it :: items).filterMap Item.positionalPair).length ∧ (pos ≤ cfg.positionals.length → pos2 ≤ cfg.positionals.length) ∧
        (∀ (k : Nat) (a : Str) (x : Val), ((it :: items).filterMap Item.positionalPair)[k]? = some (a, x) →
          ∃ o : Opt, cfg.positionals[pos + k]? = some o ∧ Reads (codeNum w) o.kind a x) := fun hn hp => by
      subst hp
      refine ⟨?_, h2, ?_⟩
      · rw [List.filterMap_cons, hn]; exact h1
      · rw [List.filterMap_cons, hn]; exact h3
    cases hd with
    | dashes _ => exact same rfl rfl
    | pass a _ _ => exact same rfl rfl
    | give it j q x _ _ hg hq _ => exact same (gives_spec hg).2.1 rfl
    | ignore it _ _ hv => exact same (void_spec hv).2.2.1 rfl
    | extra a => exact same rfl rfl
    | positional a x o _ _ hp hr =>
      have hlt : pos < cfg.positionals.length := by
        rcases Nat.lt_or_ge pos cfg.positionals.length with h | h
        · exact h
        · rw [List.getElem?_eq_none h] at hp; cases hp
      have e : (Item.positional a x :: items).filterMap Item.positionalPair = (a, x) :: items.filterMap Item.positionalPair := rfl
      rw [e]
      refine ⟨by rw [h1, List.length_cons]; omega, fun _ => h2 (by omega), ?_⟩
      intro k a' x' hk
      cases k with
      | zero => simp at hk; obtain ⟨rfl, rfl⟩ := hk; exact ⟨o, hp, hr⟩
      | succ k =>
        obtain ⟨o', h4, h5⟩ := h3 k a' x' (by simpa using hk)
        exact ⟨o', by rw [← h4]; congr 1; omega, h5⟩

theorem chain_posCells {st st' : State} {pos pos' : Nat} {items : List Item} (h : Chain w cfg st pos items st' pos') (k : Nat) :
    st'.cells (.pos k) = if k < pos then st.cells (.pos k) else
      match (items.filterMap Item.positionalPair)[k - pos]?, cfg.positionals[k]? with
      | some (_, x), some o => put o (st.cells (.pos k)) x
      | _, _ => st.cells (.pos k) := by
  induction h with
  | nil => simp
  | @cons st st1 st2 pos pos1 pos2 it items hd hc ih =>
    have same : it.positionalPair = none → pos1 = pos → st1.cells (.pos k) = st.cells (.pos k) →
        st2.cells (.pos k) = if k < pos then st.cells (.pos k) else
          match ((it :: items).filterMap Item.positionalPair)[k - pos]?, cfg.positionals[k]? with
          | some (_, x), some o => put o (st.cells (.pos k)) x
          | _, _ => st.cells (.pos k) := fun hn hp hcell => by
      subst hp
      rw [ih, hcell, List.filterMap_cons, hn]
    cases hd with
    | dashes _ => exact same rfl rfl rfl
    | pass a _ _ => exact same rfl rfl rfl
    | give it j q x _ _ hg hq _ => exact same (gives_spec hg).2.1 rfl (setCell_other _ _ (by simp))
    | ignore it _ _ hv => exact same (void_spec hv).2.2.1 rfl rfl
    | extra a => exact same rfl rfl rfl
    | positional a x o _ _ hp hr =>
      have e : (Item.positional a x :: items).filterMap Item.positionalPair = (a, x) :: items.filterMap Item.positionalPair := rfl
      rw [e, ih]
      by_cases h1 : k < pos
      · rw [if_pos (by omega), if_pos h1, setCell_other]; simp; omega
      · by_cases h2 : k = pos
        · subst h2
          rw [if_pos (by omega), if_neg (by omega), setCell_same, Nat.sub_self, hp]; rfl
        · rw [if_neg (by omega), if_neg h1, setCell_other _ _ (by simp; omega)]
          rw [show k - pos = (k - (pos + 1)) + 1 by omega, List.getElem?_cons_succ]

theorem chain_tail {st st' : State} {pos pos' : Nat} {items : List Item} (h : Chain w cfg st pos items st' pos') :
    (st.hasPass = true → ∀ it ∈ items, it.inTail = true) ∧ items.Pairwise (fun a b => a.inTail = true → b.inTail = true) ∧
    (st.hasPass = false → ∀ a l r, items = l ++ .pass a :: r → .dashes ∈ l) := by
  induction h with
  | nil => simp
  | @cons st st1 st2 pos pos1 pos2 it items hd hc ih =>
    obtain ⟨h1, h2, h3⟩ := ih
    have nontail : it.inTail = false → (∀ a, it ≠ .pass a) → st1.hasPass = st.hasPass → st.hasPass = false →
        (st.hasPass = true → ∀ j ∈ it :: items, j.inTail = true) ∧ (it :: items).Pairwise (fun a b => a.inTail = true → b.inTail = true) ∧
        (st.hasPass = false → ∀ a l r, it :: items = l ++ .pass a :: r → .dashes ∈ l) := fun hn hnp hp hf => by
      refine ⟨fun h => (by rw [hf] at h; cases h), ?_, ?_⟩
      · exact List.pairwise_cons.2 ⟨fun b _ h => (by rw [hn] at h; cases h), h2⟩
      · intro _ a l r e
        cases l with
        | nil => injection e with e1 e2; exact (hnp a e1).elim
        | cons y l =>
          injection e with e1 e2
          exact List.mem_cons_of_mem _ (h3 (by rw [hp]; exact hf) a l r e2)
    cases hd with
    | dashes _ =>
      have hall := h1 rfl
      refine ⟨fun _ j hj => ?_, List.pairwise_cons.2 ⟨fun b hb _ => hall b hb, h2⟩, fun _ a l r e => ?_⟩
      · rcases List.mem_cons.1 hj with rfl | hj
        · rfl
        · exact hall j hj
      · cases l with
        | nil => injection e with e1 e2; cases e1
        | cons y l => injection e with e1 e2; rw [← e1]; simp
    | pass a hp _ =>
      have hall := h1 hp
      refine ⟨fun _ j hj => ?_, List.pairwise_cons.2 ⟨fun b hb _ => hall b hb, h2⟩, fun hf => by rw [hp] at hf; cases hf⟩
      rcases List.mem_cons.1 hj with rfl | hj
      · rfl
      · exact hall j hj
    | give it j q x hf _ hg hq _ => exact nontail (gives_spec hg).2.2.2.2.1 (gives_spec hg).2.2.2.2.2 rfl hf
    | ignore it hf _ hv => exact nontail (void_spec hv).2.2.2.2.2.1 (void_spec hv).2.2.2.2.2.2 rfl hf
    | extra a hf => exact nontail rfl (by simp) rfl hf
    | positional a x o hf => exact nontail rfl (by simp) rfl hf

theorem chain_ok {st st' : State} {pos pos' : Nat} {items : List Item} (h : Chain w cfg st pos items st' pos')
    (hp : st.hasPass = true → cfg.passthrough = true) : ∀ it ∈ items, it.Ok (codeNum w) cfg := by
  induction h with
  | nil => simp
  | @cons st st1 st2 pos pos1 pos2 it items hd hc ih =>
    intro j hj
    cases hd with
    | dashes hok =>
      rcases List.mem_cons.1 hj with rfl | hj
      · exact hok
      · exact ih (fun _ => hok) j hj
    | pass a h1 h2 =>
      rcases List.mem_cons.1 hj with rfl | hj
      · exact ⟨hp h1, h2 (hp h1)⟩
      · exact ih hp j hj
    | give it i o x _ hok =>
      rcases List.mem_cons.1 hj with rfl | hj
      · exact hok
      · exact ih hp j hj
    | ignore it _ hok =>
      rcases List.mem_cons.1 hj with rfl | hj
      · exact hok
      · exact ih hp j hj
    | positional a x o _ hno =>
      rcases List.mem_cons.1 hj with rfl | hj
      · exact hno
      · exact ih hp j hj
    | extra a _ hno _ hcol =>
      rcases List.mem_cons.1 hj with rfl | hj
      · exact ⟨hno, hcol⟩
      · exact ih hp j hj

theorem repeats_willRepeat (o : Opt) (c : Cell) : willRepeat o c = (o.kind.repeats || c.value.isNone) := by
  unfold willRepeat Kind.repeats
  cases o.kind <;> simp

/-- A single-valued option that has a value is given no other. -/
theorem chain_set {st st' : State} {pos pos' : Nat} {items : List Item} (h : Chain w cfg st pos items st' pos') (i : Nat) (o : Opt)
    (ho : cfg.options[i]? = some o) (hk : o.kind.repeats = false) :
    (givenTo items i).length ≤ 1 ∧ ((st.cells (.opt i)).value ≠ none → givenTo items i = []) := by
  induction h with
  | nil => simp [givenTo]
  | @cons st st1 st2 pos pos1 pos2 it items hd hc ih =>
    have same : it.gives = none → st1.cells (.opt i) = st.cells (.opt i) →
        (givenTo (it :: items) i).length ≤ 1 ∧ ((st.cells (.opt i)).value ≠ none → givenTo (it :: items) i = []) := fun hn he => by
      rw [givenTo_cons, hn, List.nil_append]; rw [he] at ih; exact ih
    cases hd with
    | dashes _ => exact same rfl rfl
    | pass a _ _ => exact same rfl rfl
    | ignore it _ _ hv => exact same (void_spec hv).1 rfl
    | positional a x o => exact same rfl (setCell_other _ _ (by simp))
    | extra a => exact same rfl rfl
    | give it j q x _ _ hg hq hw =>
      rw [givenTo_cons, hg]
      by_cases hj : j = i
      · subst hj
        rw [ho] at hq; cases hq
        rw [setCell_same] at ih
        have hnone : (st.cells (.opt j)).value = none := by
          rw [repeats_willRepeat, hk] at hw; simpa using hw
        have := ih.2 (by simp [put, hk])
        rw [this]
        refine ⟨by simp, fun h => (h hnone).elim⟩
      · rw [setCell_other _ _ (by simp [Ne.symm hj])] at ih
        simpa [hj] using ih

theorem mem_single {items : List Item} {i : Nat} (h : i ∈ items.filterMap (Item.single cfg)) :
    ∃ o, cfg.options[i]? = some o ∧ o.kind.repeats = false ∧ givenTo items i ≠ [] := by
  rw [List.mem_filterMap] at h
  obtain ⟨it, hit, he⟩ := h
  unfold Item.single at he
  split at he
  · rename_i j x hg
    cases ho : cfg.options[j]? with
    | none => rw [ho] at he; cases he
    | some o =>
      rw [ho] at he
      simp only [Option.bind_some] at he
      split at he
      · cases he
      · rename_i hr
        cases he
        refine ⟨o, ho, by simpa using hr, ?_⟩
        intro hn
        have : x ∈ givenTo items i := by
          unfold givenTo
          rw [List.mem_filterMap]
          exact ⟨it, hit, by simp [hg]⟩
        rw [hn] at this; cases this
  · cases he

theorem chain_once {st st' : State} {pos pos' : Nat} {items : List Item} (h : Chain w cfg st pos items st' pos') :
    (items.filterMap (Item.single cfg)).Nodup := by
  induction h with
  | nil => simp
  | @cons st st1 st2 pos pos1 pos2 it items hd hc ih =>
    rw [List.filterMap_cons]
    cases hs : it.single cfg with
    | none => exact ih
    | some i =>
      simp only
      refine List.nodup_cons.2 ⟨fun hm => ?_, ih⟩
      obtain ⟨o, ho, hk, hne⟩ := mem_single hm
      have hall := (chain_set (Chain.cons hd hc) i o ho hk).1
      rw [givenTo_cons] at hall
      unfold Item.single at hs
      split at hs
      · rename_i j x hg
        have hji : j = i := by
          cases hq : cfg.options[j]? with
          | none => rw [hq] at hs; cases hs
          | some q =>
            rw [hq] at hs
            simp only [Option.bind_some] at hs
            split at hs
            · cases hs
            · cases hs; rfl
        subst hji
        rw [hg] at hall
        simp at hall
        exact hne hall
      · cases hs

theorem chain_plain {st st' : State} {pos pos' : Nat} {items : List Item} (h : Chain w cfg st pos items st' pos') :
    items.filterMap Item.plain = (items.filterMap Item.positionalPair).map Prod.fst ++ items.filterMap Item.extraArg ∧
    (cfg.positionals[pos]? = none → items.filterMap Item.positionalPair = []) ∧
    (items.filterMap Item.extraArg ≠ [] → cfg.positionals.length ≤ pos') := by
  induction h with
  | nil => simp
  | @cons st st1 st2 pos pos1 pos2 it items hd hc ih =>
    obtain ⟨h1, h2, h3⟩ := ih
    have same : it.plain = none → it.positionalPair = none → it.extraArg = none → pos1 = pos →
        (it :: items).filterMap Item.plain = ((it :: items).filterMap Item.positionalPair).map Prod.fst ++ (it :: items).filterMap Item.extraArg ∧
        (cfg.positionals[pos]? = none → (it :: items).filterMap Item.positionalPair = []) ∧
        ((it :: items).filterMap Item.extraArg ≠ [] → cfg.positionals.length ≤ pos2) := fun a b c d => by
      subst d
      rw [List.filterMap_cons, List.filterMap_cons, List.filterMap_cons, a, b, c]
      exact ⟨h1, h2, h3⟩
    cases hd with
    | dashes _ => exact same rfl rfl rfl rfl
    | pass a _ _ => exact same rfl rfl rfl rfl
    | ignore it _ _ hv => obtain ⟨_, a, b, c, _⟩ := void_spec hv; exact same a b c rfl
    | give it j q x _ _ hg hq hw => obtain ⟨a, b, c, _⟩ := gives_spec hg; exact same a b c rfl
    | positional a x o _ _ hp =>
      refine ⟨?_, fun h => (by rw [hp] at h; cases h), ?_⟩
      · have : (Item.positional a x :: items).filterMap Item.plain = a :: items.filterMap Item.plain := rfl
        rw [this, h1]; rfl
      · exact h3
    | extra a _ _ hp =>
      have hnil := h2 hp
      refine ⟨?_, fun _ => hnil, fun _ => ?_⟩
      · have : (Item.extra a :: items).filterMap Item.plain = a :: items.filterMap Item.plain := rfl
        rw [this, h1]
        have e2 : (Item.extra a :: items).filterMap Item.positionalPair = items.filterMap Item.positionalPair := rfl
        have e3 : (Item.extra a :: items).filterMap Item.extraArg = a :: items.filterMap Item.extraArg := rfl
        rw [e2, e3, hnil]; rfl
      · have := (chain_pos hc).1
        rw [List.getElem?_eq_none_iff] at hp
        omega

/-- The value of a single option after at most one value. -/
theorem foldl_put_single {o : Opt} (hk : o.kind.repeats = false) {l : List Val} (hl : l.length ≤ 1) (c : Cell) (hc : c.value = none) :
    (l.foldl (put o) c).value = l[0]? := by
  match l, hl with
  | [], _ => simpa using hc
  | [x], _ => simp [put, hk]

theorem foldl_put_repeated {o : Opt} (hk : o.kind.repeats = true) : ∀ (l : List Val) (c : Cell), (l.foldl (put o) c).values = c.values ++ l := by
  intro l
  induction l with
  | nil => simp
  | cons x r ih => intro c; rw [List.foldl_cons, ih]; simp [put, hk]

end Verif.ArgParser
