import Verif.ArgParser.SpecBuild
import Verif.ArgParser.PropsLine
/-!
# C90, C91: declaring and reading options
-/
namespace Verif.ArgParser
open Verif

theorem bareOpt_iff1 (s s' : Option Str) : BareOpt [45] s s' ↔
    (s' = s.map (fun s => if s[0]? = some 45 then s.drop 1 else s) ∧ ∀ f, s' = some f → f[0]? ≠ none ∧ f[0]? ≠ some 45) := by
  constructor
  · intro h
    cases h with
    | none => exact ⟨rfl, by intro f h; cases h⟩
    | some h =>
      rename_i a f
      obtain ⟨h1, h2, h3⟩ := h
      cases f with
      | nil => exact (h2 rfl).elim
      | cons c f =>
        simp only [List.head?_cons, ne_eq, Option.some.injEq] at h3
        refine ⟨?_, by intro g hg; cases hg; simpa using h3⟩
        rcases h1 with rfl | rfl <;> simp [h3]
  · rintro ⟨rfl, h⟩
    cases s with
    | none => exact .none
    | some a =>
      have h := h _ rfl
      dsimp only at h
      refine .some ⟨?_, ?_, ?_⟩ <;> dsimp only
      · by_cases e : a[0]? = some 45
        · rw [if_pos e]
          cases a with
          | nil => cases e
          | cons c a => simp at e; subst e; right; rfl
        · rw [if_neg e]; left; rfl
      · intro e; exact h.1 (by rw [e]; rfl)
      · rw [List.head?_eq_getElem?]; exact h.2

theorem bareOpt_iff2 (s s' : Option Str) : BareOpt [45, 45] s s' ↔
    (s' = s.map (fun l => if l[0]? = some 45 ∧ l[1]? = some 45 then l.drop 2 else l) ∧ ∀ f, s' = some f → f[0]? ≠ none ∧ f[0]? ≠ some 45) := by
  constructor
  · intro h
    cases h with
    | none => exact ⟨rfl, by intro f h; cases h⟩
    | some h =>
      rename_i a f
      obtain ⟨h1, h2, h3⟩ := h
      cases f with
      | nil => exact (h2 rfl).elim
      | cons c f =>
        simp only [List.head?_cons, ne_eq, Option.some.injEq] at h3
        refine ⟨?_, by intro g hg; cases hg; simpa using h3⟩
        rcases h1 with rfl | rfl <;> simp [h3]
  · rintro ⟨rfl, h⟩
    cases s with
    | none => exact .none
    | some a =>
      have h := h _ rfl
      dsimp only at h
      refine .some ⟨?_, ?_, ?_⟩ <;> dsimp only
      · by_cases e : a[0]? = some 45 ∧ a[1]? = some 45
        · rw [if_pos e]
          match a, e with
          | c :: d :: a, e => simp at e; obtain ⟨rfl, rfl⟩ := e; right; rfl
        · rw [if_neg e]; left; rfl
      · intro e; exact h.1 (by rw [e]; rfl)
      · rw [List.head?_eq_getElem?]; exact h.2

theorem meant_iff (c : Cls) (k : Kind) : Meant c k ↔ k = c.kind := by
  constructor
  · intro h; cases h <;> rfl
  · rintro rfl
    cases c with
    | toggle d => cases d with | none => exact .toggleFalse | some b => exact .toggle b
    | stop d => cases d with | none => exact .stopFalse | some b => exact .stop b
    | _ => constructor

theorem meantPos_iff (c : ValType) (k : Kind) : MeantPos c k ↔ k = c.kind := by
  constructor
  · intro h; cases h <;> rfl
  · rintro rfl; cases c <;> constructor

/-- C90: a constructor call either yields exactly the option that its arguments declare, or, if they are malformed, stops with an assertion failure. -/
theorem C90_constructor (d : Decl) : (∀ o, construct d = .ok o ↔ Declares d o) ∧ ((∀ o, ¬ Declares d o) → construct d = .error .assertFail) := by
  have main : (∃ o, construct d = .ok o ∧ ∀ o', Declares d o' ↔ o' = o) ∨ (construct d = .error .assertFail ∧ ∀ o, ¬ Declares d o) := by
    cases d with
    | named t n h =>
      cases n with
      | none => exact .inr ⟨rfl, by intro o ho; cases ho⟩
      | some n =>
        refine .inl ⟨⟨none, none, some n, h, t.kind⟩, rfl, fun o' => ⟨?_, ?_⟩⟩
        · intro ho; cases ho with | named hm => rw [(meantPos_iff _ _).1 hm]
        · rintro rfl; exact .named ((meantPos_iff _ _).2 rfl)
    | forms c s l h =>
      have hd : ∀ o, Declares (.forms c s l h) o ↔ ∃ s' l', (s ≠ none ∨ l ≠ none) ∧ BareOpt [45] s s' ∧ BareOpt [45, 45] l l' ∧ o = ⟨s', l', none, h, c.kind⟩ := by
        intro o
        constructor
        · intro ho
          cases ho with
          | forms h1 h2 h3 h4 => exact ⟨_, _, h1, h2, h3, by rw [(meant_iff _ _).1 h4]⟩
        · rintro ⟨s', l', h1, h2, h3, rfl⟩
          exact .forms h1 h2 h3 ((meant_iff _ _).2 rfl)
      by_cases hn : s = none ∧ l = none
      · obtain ⟨rfl, rfl⟩ := hn
        refine .inr ⟨rfl, ?_⟩
        intro o ho
        obtain ⟨_, _, h1, _⟩ := (hd o).1 ho
        rcases h1 with h1 | h1 <;> exact h1 rfl
      · have hsl : s ≠ none ∨ l ≠ none := by
          by_cases e : s = none
          · exact .inr fun e' => hn ⟨e, e'⟩
          · exact .inl e
        have hc1 : (((s.isSome || l.isSome) && (none : Option Str).isNone) || (s.isNone && l.isNone && (none : Option Str).isSome)) = true := by
          cases s <;> cases l <;> first | rfl | exact (hn ⟨rfl, rfl⟩).elim
        have ebad : ∀ x : Option Str, (match x with | some s => s[0]?.isNone || decide (s[0]? = some 45) | none => false) = false ↔
            ∀ f, x = some f → f[0]? ≠ none ∧ f[0]? ≠ some 45 := by
          intro x
          cases x with
          | none => simp
          | some f => simp only [Bool.or_eq_false_iff, decide_eq_false_iff_not, Option.isNone_eq_false_iff, Option.some.injEq, forall_eq', Option.isSome_iff_ne_none]
        simp only [construct, mkOpt]
        rw [if_pos hc1]
        generalize hs' : s.map (fun s => if s[0]? = some 45 then s.drop 1 else s) = s'
        generalize hl' : l.map (fun l => if l[0]? = some 45 ∧ l[1]? = some 45 then l.drop 2 else l) = l'
        by_cases hok : (∀ f, s' = some f → f[0]? ≠ none ∧ f[0]? ≠ some 45) ∧ ∀ f, l' = some f → f[0]? ≠ none ∧ f[0]? ≠ some 45
        · refine .inl ⟨⟨s', l', none, h, c.kind⟩, ?_, ?_⟩
          · rw [if_neg]
            rw [Bool.not_eq_true, Bool.or_eq_false_iff]
            exact ⟨(ebad s').2 hok.1, (ebad l').2 hok.2⟩
          · intro o'
            rw [hd]
            constructor
            · rintro ⟨a, b, _, h2, h3, rfl⟩
              rw [((bareOpt_iff1 s a).1 h2).1, ((bareOpt_iff2 l b).1 h3).1, hs', hl']
            · rintro rfl
              exact ⟨s', l', hsl, (bareOpt_iff1 _ _).2 ⟨hs'.symm, hok.1⟩, (bareOpt_iff2 _ _).2 ⟨hl'.symm, hok.2⟩, rfl⟩
        · refine .inr ⟨?_, ?_⟩
          · rw [if_pos]
            rw [Bool.or_eq_true]
            apply Classical.byContradiction
            intro hh
            apply hok
            rw [not_or, Bool.not_eq_true, Bool.not_eq_true] at hh
            exact ⟨(ebad s').1 hh.1, (ebad l').1 hh.2⟩
          · intro o ho
            obtain ⟨a, b, _, h2, h3, rfl⟩ := (hd o).1 ho
            have e1 := (bareOpt_iff1 s a).1 h2
            have e2 := (bareOpt_iff2 l b).1 h3
            rw [hs'] at e1; rw [hl'] at e2
            obtain ⟨rfl, e1⟩ := e1
            obtain ⟨rfl, e2⟩ := e2
            exact hok ⟨e1, e2⟩
  rcases main with ⟨o, h1, h2⟩ | ⟨h1, h2⟩
  · refine ⟨fun o' => ?_, fun h => (h o ((h2 o).2 rfl)).elim⟩
    rw [h1, h2]
    constructor
    · intro e; injection e with e; exact e.symm
    · rintro rfl; rfl
  · refine ⟨fun o' => ?_, fun _ => h1⟩
    rw [h1]
    exact ⟨(by intro e; cases e), fun h => (h2 o' h).elim⟩

theorem construct_ok {d : Decl} {o : Opt} (h : construct d = .ok o) : Declares d o := ((C90_constructor d).1 o).1 h

theorem declares_ok {d : Decl} {o : Opt} (h : Declares d o) : construct d = .ok o := ((C90_constructor d).1 o).2 h

/-- The option is well formed: what `Config.Valid` asks of it, for its place. -/
def OptFine (o : Opt) : Prop :=
  (o.name = none ∧ (o.short.isSome || o.long.isSome) = true ∧ (∀ f, o.short = some f → f ≠ [] ∧ f[0]? ≠ some 45) ∧ (∀ f, o.long = some f → f ≠ [] ∧ f[0]? ≠ some 45)) ∨
  ((o.short.isSome || o.long.isSome) = false ∧ o.name ≠ none ∧ ((∃ d, o.kind = .boolean d) ∨ (∃ d, o.kind = .string d) ∨ ∃ d, o.kind = .int d))

theorem declares_fine {d : Decl} {o : Opt} (h : Declares d o) : OptFine o := by
  have key : ∀ {dd : Str} {s s' : Option Str}, BareOpt dd s s' → (∀ f, s' = some f → f ≠ [] ∧ f[0]? ≠ some 45) ∧ s'.isSome = s.isSome := by
    intro dd s s' hb
    cases hb with
    | none => exact ⟨(by intro f h; cases h), rfl⟩
    | some hb =>
      refine ⟨?_, rfl⟩
      intro g hg; cases hg
      exact ⟨hb.2.1, by rw [← List.head?_eq_getElem?]; exact hb.2.2⟩
  cases h with
  | forms h1 h2 h3 h4 =>
    refine .inl ⟨rfl, ?_, (key h2).1, (key h3).1⟩
    rw [(key h2).2, (key h3).2]
    rcases h1 with h1 | h1
    · rw [Option.isSome_iff_ne_none.2 h1]; rfl
    · rw [Option.isSome_iff_ne_none.2 h1]; simp
  | named h =>
    refine .inr ⟨rfl, by simp, ?_⟩
    cases h
    · exact .inl ⟨_, rfl⟩
    · exact .inr (.inl ⟨_, rfl⟩)
    · exact .inr (.inr ⟨_, rfl⟩)

/-- The options and the positionals among a list of declared ones. -/
theorem add_fine (cfg : Config) (o : Opt) (h : OptFine o) :
    (cfg.add o).options = cfg.options ++ [o].filter (fun o => o.name.isNone) ∧ (cfg.add o).positionals = cfg.positionals ++ [o].filter (fun o => o.name.isSome) ∧
    (cfg.add o).inlineValues = cfg.inlineValues ∧ (cfg.add o).slashes = cfg.slashes ∧ (cfg.add o).collectExtra = cfg.collectExtra ∧
    (cfg.add o).passthrough = cfg.passthrough ∧ (cfg.add o).help = cfg.help := by
  unfold Config.add
  rcases h with ⟨h1, h2, -, -⟩ | ⟨h1, h2, -⟩
  · rw [if_pos h2]; simp [h1]
  · rw [if_neg (by rw [h1]; decide)]
    have : o.name.isSome = true := Option.isSome_iff_ne_none.2 h2
    have h' : o.name.isNone = false := by cases e : o.name <;> simp_all
    simp [this, h']

theorem statics_spec (ss : List Decl) : (∃ os, statics ss = .ok os ∧ DeclaresAll ss os) ∨ (statics ss = .error .assertFail ∧ ∃ d ∈ ss, ∀ o, ¬ Declares d o) := by
  induction ss with
  | nil => exact .inl ⟨[], rfl, .nil⟩
  | cons d ss ih =>
    by_cases hd : ∃ o, Declares d o
    · obtain ⟨o, ho⟩ := hd
      rcases ih with ⟨os, h1, h2⟩ | ⟨h1, d', h2, h3⟩
      · exact .inl ⟨o :: os, by simp only [statics, declares_ok ho, h1, bind, Except.bind], .cons ho h2⟩
      · exact .inr ⟨by simp only [statics, declares_ok ho, h1, bind, Except.bind], d', List.mem_cons_of_mem _ h2, h3⟩
    · have hd' : ∀ o, ¬ Declares d o := fun o ho => hd ⟨o, ho⟩
      exact .inr ⟨by simp only [statics, (C90_constructor d).2 hd', bind, Except.bind], d, by simp, hd'⟩

/-- The set-up `as` of a parser: what it adds. -/
theorem acts_spec (as : List Act) : ∀ cfg : Config,
    (∃ own cfg', acts cfg as = .ok cfg' ∧ DeclaresAll (as.filterMap Act.decl) own ∧
      cfg'.options = cfg.options ++ own.filter (fun o => o.name.isNone) ∧ cfg'.positionals = cfg.positionals ++ own.filter (fun o => o.name.isSome) ∧
      (cfg'.inlineValues = true ↔ cfg.inlineValues = true ∨ .inlineValues ∈ as) ∧ (cfg'.slashes = true ↔ cfg.slashes = true ∨ .slashes ∈ as) ∧
      (cfg'.collectExtra = true ↔ cfg.collectExtra = true ∨ .collectExtra ∈ as) ∧ (cfg'.passthrough = true ↔ cfg.passthrough = true ∨ .passthrough ∈ as) ∧
      cfg'.help = cfg.help) ∨
    (acts cfg as = .error .assertFail ∧ ∃ d ∈ as.filterMap Act.decl, ∀ o, ¬ Declares d o) := by
  induction as with
  | nil => intro cfg; exact .inl ⟨[], cfg, rfl, .nil, by simp, by simp, by simp, by simp, by simp, by simp, rfl⟩
  | cons a as ih =>
    intro cfg
    cases a with
    | declare d =>
      by_cases hd : ∃ o, Declares d o
      · obtain ⟨o, ho⟩ := hd
        have ha := add_fine cfg o (declares_fine ho)
        have he : acts cfg (.declare d :: as) = acts (cfg.add o) as := by simp only [acts, act, declares_ok ho, bind, Except.bind]
        rcases ih (cfg.add o) with ⟨own, cfg', h1, h2, h3, h4, h5, h6, h7, h8, h9⟩ | ⟨h1, d', h2, h3⟩
        · refine .inl ⟨o :: own, cfg', he.trans h1, .cons ho h2, ?_, ?_, ?_, ?_, ?_, ?_, ?_⟩
          · rw [h3, ha.1, List.append_assoc, ← List.filter_append]; rfl
          · rw [h4, ha.2.1, List.append_assoc, ← List.filter_append]; rfl
          · rw [h5, ha.2.2.1]; simp
          · rw [h6, ha.2.2.2.1]; simp
          · rw [h7, ha.2.2.2.2.1]; simp
          · rw [h8, ha.2.2.2.2.2.1]; simp
          · rw [h9, ha.2.2.2.2.2.2]
        · exact .inr ⟨he.trans h1, d', by simp only [List.filterMap_cons, Act.decl]; exact List.mem_cons_of_mem _ h2, h3⟩
      · have hd' : ∀ o, ¬ Declares d o := fun o ho => hd ⟨o, ho⟩
        exact .inr ⟨by simp only [acts, act, (C90_constructor d).2 hd', bind, Except.bind], d, by simp [Act.decl], hd'⟩
    | inlineValues =>
      rcases ih { cfg with inlineValues := true } with ⟨own, cfg', h1, h2, h3, h4, h5, h6, h7, h8, h9⟩ | h
      · exact .inl ⟨own, cfg', h1, h2, h3, h4, by rw [h5]; simp, by rw [h6]; simp, by rw [h7]; simp, by rw [h8]; simp, h9⟩
      · exact .inr h
    | slashes =>
      rcases ih { cfg with slashes := true } with ⟨own, cfg', h1, h2, h3, h4, h5, h6, h7, h8, h9⟩ | h
      · exact .inl ⟨own, cfg', h1, h2, h3, h4, by rw [h5]; simp, by rw [h6]; simp, by rw [h7]; simp, by rw [h8]; simp, h9⟩
      · exact .inr h
    | collectExtra =>
      rcases ih { cfg with collectExtra := true } with ⟨own, cfg', h1, h2, h3, h4, h5, h6, h7, h8, h9⟩ | h
      · exact .inl ⟨own, cfg', h1, h2, h3, h4, by rw [h5]; simp, by rw [h6]; simp, by rw [h7]; simp, by rw [h8]; simp, h9⟩
      · exact .inr h
    | passthrough =>
      rcases ih { cfg with passthrough := true } with ⟨own, cfg', h1, h2, h3, h4, h5, h6, h7, h8, h9⟩ | h
      · exact .inl ⟨own, cfg', h1, h2, h3, h4, by rw [h5]; simp, by rw [h6]; simp, by rw [h7]; simp, by rw [h8]; simp, h9⟩
      · exact .inr h

theorem declaresAll_fine {ds : List Decl} {os : List Opt} (h : DeclaresAll ds os) : ∀ o ∈ os, OptFine o := by
  induction h with
  | nil => intro o ho; cases ho
  | cons h1 _ ih =>
    intro o ho
    rcases List.mem_cons.1 ho with rfl | ho
    · exact declares_fine h1
    · exact ih o ho

theorem foldl_add (os : List Opt) (h : ∀ o ∈ os, OptFine o) : ∀ cfg : Config,
    (os.foldl Config.add cfg).options = cfg.options ++ os.filter (fun o => o.name.isNone) ∧
    (os.foldl Config.add cfg).positionals = cfg.positionals ++ os.filter (fun o => o.name.isSome) ∧
    (os.foldl Config.add cfg).inlineValues = cfg.inlineValues ∧ (os.foldl Config.add cfg).slashes = cfg.slashes ∧
    (os.foldl Config.add cfg).collectExtra = cfg.collectExtra ∧ (os.foldl Config.add cfg).passthrough = cfg.passthrough ∧
    (os.foldl Config.add cfg).help = cfg.help := by
  induction os with
  | nil => intro cfg; simp
  | cons o os ih =>
    intro cfg
    have ha := add_fine cfg o (h o (by simp))
    have hi := ih (fun q hq => h q (List.mem_cons_of_mem _ hq)) (cfg.add o)
    simp only [List.foldl_cons]
    refine ⟨?_, ?_, hi.2.2.1.trans ha.2.2.1, hi.2.2.2.1.trans ha.2.2.2.1, hi.2.2.2.2.1.trans ha.2.2.2.2.1, hi.2.2.2.2.2.1.trans ha.2.2.2.2.2.1,
      hi.2.2.2.2.2.2.trans ha.2.2.2.2.2.2⟩
    · rw [hi.1, ha.1, List.append_assoc, ← List.filter_append]; rfl
    · rw [hi.2.1, ha.2.1, List.append_assoc, ← List.filter_append]; rfl

/-- C90: a parser knows exactly the options declared for it: first `-h`/`--help` if it was made with a help text, then the static options, then its own, in
the order of their declaration; positionals likewise; each switch is on iff it was turned on. Every such parser is one of those the other theorems are about
(`Config.Valid`). -/
theorem C90_built (ss : List Decl) (help : Bool) (as : List Act) (cfg : Config) (h : build ss help as = .ok cfg) :
    (∃ os own, DeclaresAll ss os ∧ DeclaresAll (as.filterMap Act.decl) own ∧
      cfg.options = (if help then [⟨some (lit "h"), some (lit "help"), none, lit "Display this help menu.", .stop false⟩] else []) ++
        (os ++ own).filter (fun o => o.name.isNone) ∧
      cfg.positionals = (os ++ own).filter (fun o => o.name.isSome)) ∧
    (cfg.inlineValues = true ↔ .inlineValues ∈ as) ∧ (cfg.slashes = true ↔ .slashes ∈ as) ∧ (cfg.collectExtra = true ↔ .collectExtra ∈ as) ∧
    (cfg.passthrough = true ↔ .passthrough ∈ as) ∧ cfg.help = help ∧ cfg.Valid := by
  rcases statics_spec ss with ⟨os, hs, ds⟩ | ⟨hs, -⟩
  rotate_left
  · simp only [build, hs, bind, Except.bind] at h; cases h
  have hb : acts (mkConfig help os) as = .ok cfg := by simpa only [build, hs, bind, Except.bind] using h
  rcases acts_spec as (mkConfig help os) with ⟨own, cfg', h1, h2, h3, h4, h5, h6, h7, h8, h9⟩ | ⟨h1, -⟩
  rotate_left
  · rw [h1] at hb; cases hb
  rw [h1] at hb; injection hb with hb; subst hb
  have hf := foldl_add os (declaresAll_fine ds) (if help then { options := [helpOpt], positionals := [], help := true } else { options := [], positionals := [] })
  change (mkConfig help os).options = _ ∧ _ at hf
  obtain ⟨f1, f2, f3, f4, f5, f6, f7⟩ := hf
  have g1 : cfg'.options = (if help then [helpOpt] else []) ++ (os ++ own).filter (fun o => o.name.isNone) := by
    rw [h3, f1, List.append_assoc, ← List.filter_append]; cases help <;> rfl
  have g2 : cfg'.positionals = (os ++ own).filter (fun o => o.name.isSome) := by
    rw [h4]
    change (os.foldl Config.add _).positionals ++ _ = _
    rw [f2, List.append_assoc, ← List.filter_append]; cases help <;> rfl
  have g9 : cfg'.help = help := by
    rw [h9]
    change (os.foldl Config.add _).help = _
    rw [f7]; cases help <;> rfl
  have hfine : ∀ o ∈ os ++ own, OptFine o := by
    intro o ho
    rcases List.mem_append.1 ho with ho | ho
    · exact declaresAll_fine ds o ho
    · exact declaresAll_fine h2 o ho
  have hopt : ∀ o ∈ cfg'.options, o = helpOpt ∨ (o.name = none ∧ OptFine o) := by
    intro o ho
    rw [g1] at ho
    rcases List.mem_append.1 ho with ho | ho
    · left; cases help <;> simp at ho; exact ho
    · right; rw [List.mem_filter] at ho
      exact ⟨by simpa using ho.2, hfine o ho.1⟩
  have hforms : ∀ o ∈ cfg'.options, o.name = none ∧ (∀ f, o.short = some f → f ≠ [] ∧ f[0]? ≠ some 45) ∧ (∀ f, o.long = some f → f ≠ [] ∧ f[0]? ≠ some 45) := by
    intro o ho
    rcases hopt o ho with rfl | ⟨hn, ⟨_, _, a, b⟩ | ⟨_, b, _⟩⟩
    · refine ⟨rfl, ?_, ?_⟩
      · intro f hf; cases hf; decide
      · intro f hf; cases hf; decide
    · exact ⟨hn, a, b⟩
    · exact (b hn).elim
  refine ⟨⟨os, own, ds, h2, g1, g2⟩, ?_, ?_, ?_, ?_, g9, ?_⟩
  · rw [h5]; change (os.foldl Config.add _).inlineValues = true ∨ _ ↔ _; rw [f3]; cases help <;> simp
  · rw [h6]; change (os.foldl Config.add _).slashes = true ∨ _ ↔ _; rw [f4]; cases help <;> simp
  · rw [h7]; change (os.foldl Config.add _).collectExtra = true ∨ _ ↔ _; rw [f5]; cases help <;> simp
  · rw [h8]; change (os.foldl Config.add _).passthrough = true ∨ _ ↔ _; rw [f6]; cases help <;> simp
  · refine ⟨fun o ho => (hforms o ho).1, fun o ho => (hforms o ho).2.1, fun o ho => (hforms o ho).2.2, ?_, ?_⟩
    · intro o ho
      rw [g2, List.mem_filter] at ho
      rcases hfine o ho.1 with ⟨h', _⟩ | ⟨_, h2', h3'⟩
      · rw [h'] at ho; cases ho.2
      · exact ⟨h2', h3'⟩
    · intro hh; rw [g1, ← g9, hh]; rfl

/-- C90: setting a parser up succeeds iff every declaration is well formed; otherwise the program stops with an assertion failure. -/
theorem C90_build_asserts (ss : List Decl) (help : Bool) (as : List Act) :
    ((∀ d ∈ ss ++ as.filterMap Act.decl, ∃ o, Declares d o) ↔ ∃ cfg, build ss help as = .ok cfg) ∧
    (∀ f, build ss help as = .error f → f = .assertFail) := by
  have dall : ∀ {ds os}, DeclaresAll ds os → ∀ d ∈ ds, ∃ o, Declares d o := by
    intro ds os h
    induction h with
    | nil => intro d hd; cases hd
    | cons h1 _ ih =>
      intro d hd
      rcases List.mem_cons.1 hd with rfl | hd
      · exact ⟨_, h1⟩
      · exact ih d hd
  rcases statics_spec ss with ⟨os, hs, ds⟩ | ⟨hs, d, hd, hd'⟩
  · have hb : build ss help as = acts (mkConfig help os) as := by simp only [build, hs, bind, Except.bind]
    rcases acts_spec as (mkConfig help os) with ⟨own, cfg', h1, h2, -⟩ | ⟨h1, d, hd, hd'⟩
    · refine ⟨⟨fun _ => ⟨cfg', hb.trans h1⟩, fun _ d hd => ?_⟩, by rw [hb, h1]; intro f hf; cases hf⟩
      rcases List.mem_append.1 hd with hd | hd
      · exact dall ds d hd
      · exact dall h2 d hd
    · rw [hb, h1]
      refine ⟨⟨fun h => ?_, by rintro ⟨c, hc⟩; cases hc⟩, by intro f hf; cases hf; rfl⟩
      obtain ⟨o, ho⟩ := h d (List.mem_append_right _ hd)
      exact (hd' o ho).elim
  · have hb : build ss help as = .error .assertFail := by simp only [build, hs, bind, Except.bind]
    rw [hb]
    refine ⟨⟨fun h => ?_, by rintro ⟨c, hc⟩; cases hc⟩, by intro f hf; cases hf; rfl⟩
    obtain ⟨o, ho⟩ := h d (List.mem_append_left _ hd)
    exact (hd' o ho).elim

/-! ### C91: what the option objects report -/

theorem reports_of (o : Opt) (c : Cell) : Reports o c (c.value <|> o.kind.default) := by
  have hd : dfltOf o.kind = o.kind.default := by cases o.kind <;> rfl
  unfold Reports hasValue maybeValue valueOf
  rw [hd]
  cases c.value with
  | some v => simp
  | none => cases o.kind.default with
    | some v => simp
    | none => simp

/-- C91: after an accepted command line every single-valued option reports the value the line gives it, or its default if the line gives none, and every
positional the value given. -/
theorem C91_reported (w : Nat) (cfg : Config) (args : List Str) (st' : State) (hw : 32 ≤ w) (hv : cfg.Valid) (h : parse w cfg fresh args = .ok (true, st')) :
    ∃ items, Explains IntNum cfg args items ∧
      (∀ (i : Nat) (o : Opt), cfg.options[i]? = some o → o.kind.repeats = false → Reports o (st'.cells (.opt i)) ((givenTo items i).head? <|> o.kind.default)) ∧
      (∀ (k : Nat) (o : Opt), cfg.positionals[k]? = some o →
        Reports o (st'.cells (.pos k)) (((items.filterMap Item.positionalPair)[k]?.map Prod.snd) <|> o.kind.default)) := by
  obtain ⟨items, hx, he, _⟩ := C72_accepted_is_explained_partial w cfg args st' hw hv h
  refine ⟨items, hx, ?_, ?_⟩
  · intro i o ho hr
    rw [List.head?_eq_getElem?, ← (he.single i o ho hr).1]
    exact reports_of o _
  · intro k o ho
    rw [← he.positional k o ho]
    exact reports_of o _

/-- C91: on a new parser, and on one that has been reset after whatever happened to it, every option reports its default, and repeated options are empty. -/
theorem C91_default_when_new (cfg : Config) (st : State) (hst : st = fresh ∨ ∃ st0, st = reset cfg st0) :
    (∀ (i : Nat) (o : Opt), cfg.options[i]? = some o → Reports o (st.cells (.opt i)) o.kind.default ∧ (st.cells (.opt i)).values = []) ∧
    (∀ (i : Nat) (o : Opt), cfg.positionals[i]? = some o → Reports o (st.cells (.pos i)) o.kind.default) := by
  have key : (∀ (i : Nat) (o : Opt), cfg.options[i]? = some o → st.cells (.opt i) = {}) ∧ (∀ (i : Nat) (o : Opt), cfg.positionals[i]? = some o → st.cells (.pos i) = {}) := by
    rcases hst with rfl | ⟨st0, rfl⟩
    · exact ⟨fun _ _ _ => rfl, fun _ _ _ => rfl⟩
    · constructor
      · intro i o ho
        have := (List.getElem?_eq_some_iff.1 ho).1
        simp [reset, this]
      · intro i o ho
        have := (List.getElem?_eq_some_iff.1 ho).1
        simp [reset, this]
  constructor
  · intro i o ho
    rw [key.1 i o ho]
    exact ⟨reports_of o {}, rfl⟩
  · intro i o ho
    rw [key.2 i o ho]
    exact reports_of o {}

/-! ### A program: two static options, a parser with help, two options and a positional of its own -/

def demoStatics : List Decl := [.forms (.enable true) none (some (lit "--on")) (lit "on or off"), .forms (.int (some 5)) (some (lit "-n")) (some (lit "num")) (lit "a number")]
def demoActs : List Act := [.slashes, .declare (.forms .repString (some (lit "I")) none (lit "dir")), .declare (.named .string (some (lit "file")) (lit "input"))]

def demoBuilt : Config :=
  { options := [helpOpt, ⟨none, some (lit "on"), none, lit "on or off", .enable true⟩, ⟨some (lit "n"), some (lit "num"), none, lit "a number", .int (some 5)⟩,
      ⟨some (lit "I"), none, none, lit "dir", .repString⟩],
    positionals := [⟨none, none, some (lit "file"), lit "input", .string none⟩], slashes := true, help := true }

theorem demo_build : build demoStatics true demoActs = .ok demoBuilt := by decide +kernel

example : demoBuilt.Valid := (C90_built _ _ _ _ demo_build).2.2.2.2.2.2

/-- A form with three dashes is refused. -/
example : build [.forms (.bool none) none (some (lit "---x")) []] false [] = .error .assertFail := by rfl

/-- So is one with one dash in the place of the long form. -/
example : build [.forms (.bool none) none (some (lit "-x")) []] false [] = .error .assertFail := by rfl

/-- `a.c /n 7`: the number is 7 (not the default 5), `--on` reports its default, the positional `a.c`. -/
example : (match parse 64 demoBuilt fresh [lit "a.c", lit "/n", lit "7"] with
    | .ok (b, st') => b && decide (valueOf demoBuilt.options[2] (st'.cells (.opt 2)) = .ok (.int 7)) &&
        decide (valueOf demoBuilt.options[1] (st'.cells (.opt 1)) = .ok (.bool true)) && decide (maybeValue demoBuilt.positionals[0] (st'.cells (.pos 0)) = some (.str (lit "a.c")))
    | .error _ => false) = true := by decide +kernel

end Verif.ArgParser
