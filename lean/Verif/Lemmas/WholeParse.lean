import Verif.Lemmas.Frame
import Verif.Lemmas.Steady
import Verif.Lemmas.PragmaReports
import Verif.Props.Sources
import Verif.Lemmas.NoPanic

/-! Parsing all sources. -/

namespace Lima

open Spec Grammar Props

/-! ### Maps in any order -/

theorem AMap.get_perm {κ ν : Type} [DecidableEq κ] {m n : List (κ × ν)} (h : m.Perm n) (hn : (m.map (·.1)).Nodup)
    (k : κ) : AMap.get m k = AMap.get n k := by
  have hn' : (n.map (·.1)).Nodup := (h.map _).nodup_iff.mp hn
  cases hk : AMap.get m k with
  | some v => exact (AMap.get_of_mem hn' (h.mem_iff.mp (AMap.mem_of_get hk))).symm
  | none =>
    cases hk' : AMap.get n k with
    | none => rfl
    | some v =>
      have := AMap.get_of_mem hn (h.mem_iff.mpr (AMap.mem_of_get hk'))
      rw [hk] at this
      cases this

/-! ### Sources as they come from reading -/

/-- What parsing needs of sources, in whatever order the included files are. -/
structure Complete (tokens : Str → List Ranged) (s : Sources) : Prop where
  below : ∀ e ∈ s.contentIter, e.1 < s.ids.length
  ids : (s.contentIter.map (·.1)).Nodup
  paths : (s.contentIter.map (·.2.1)).Nodup
  keys : (s.content.map (·.1)).Nodup
  expanded : ∀ e ∈ s.contentIter, ∀ i, HasInclude tokens e.2.2 i →
    AMap.get s.globs (resolveIncludedPath e.2.1 (Path.ofStr i)) ≠ none

theorem mem_contentIter {s : Sources} {id : Nat} {path : Option Path} {text : Str} :
    (id, path, text) ∈ s.contentIter ↔ IsSource s id path text := by
  unfold Sources.contentIter IsSource
  rw [List.mem_cons, List.mem_filterMap]
  constructor
  · rintro (h | ⟨⟨p, x⟩, hx, h⟩)
    · cases h
      exact .inl ⟨rfl, rfl, rfl⟩
    · cases x with
      | content i t ix =>
        cases h
        exact .inr ⟨p, ix, rfl, hx⟩
      | error e => cases h
      | duplicate => cases h
  · rintro (⟨rfl, rfl, rfl⟩ | ⟨p, ix, rfl, hx⟩)
    · exact .inl rfl
    · exact .inr ⟨_, hx, rfl⟩

section
variable {fs : FileSystem} {tokens : Str → List Ranged} {rootPath : Option Path} {rootContent : Str}

theorem read_complete (hwf : GlobsWF fs) : Complete tokens (readWithIncludes fs tokens rootPath rootContent) := by
  have inv := readLoop_inv (fs := fs) (tokens := tokens) (rootPath := rootPath) (rootContent := rootContent) hwf
  generalize hs : readWithIncludes fs tokens rootPath rootContent = s
  have hkeys : (s.content.map (·.1)).Nodup := by rw [← hs]; exact inv.keys
  have hpaths : (s.contentIter.map (·.2.1)).Nodup := by
    unfold Sources.contentIter
    rw [List.map_cons, List.nodup_cons]
    constructor
    · rw [List.mem_map]
      rintro ⟨⟨id, path, text⟩, h1, h2⟩
      dsimp only at h2
      rw [List.mem_filterMap] at h1
      obtain ⟨⟨p, x⟩, hx, h⟩ := h1
      cases x with
      | content i t ix =>
        cases h
        have hr : IsSource (readWithIncludes fs tokens rootPath rootContent) 0 (some p) s.rootContent :=
          .inl ⟨rfl, by rw [h2, hs], by rw [hs]⟩
        have hc : IsSource (readWithIncludes fs tokens rootPath rootContent) id (some p) text :=
          .inr ⟨p, ix, rfl, by rw [hs]; exact hx⟩
        have := C09_path_unique hwf _ _ _ _ _ hr hc
        have h3 := (inv.entry p id text ix (by
          have : (readWithIncludes fs tokens rootPath rootContent).content = s.content := by rw [hs]
          rw [← this] at hx
          exact hx)).1
        omega
      | error e => cases h
      | duplicate => cases h
    · rw [List.map_filterMap]
      generalize s.content = c at hkeys
      clear hs inv
      induction c with
      | nil => simp
      | cons e c ih =>
        rw [List.map_cons, List.nodup_cons] at hkeys
        rw [List.filterMap_cons]
        obtain ⟨p, x⟩ := e
        cases x with
        | content i t ix =>
          simp only [Option.map_some, List.nodup_cons]
          refine ⟨?_, ih hkeys.2⟩
          rw [List.mem_filterMap]
          rintro ⟨⟨q, y⟩, hy, h⟩
          cases y with
          | content i' t' ix' =>
            simp only [Option.map_some, Option.some.injEq] at h
            subst h
            exact hkeys.1 (List.mem_map.mpr ⟨_, hy, rfl⟩)
          | error e => simp at h
          | duplicate => simp at h
        | error e => simpa using ih hkeys.2
        | duplicate => simpa using ih hkeys.2
  refine ⟨?_, ?_, hpaths, hkeys, ?_⟩
  · rintro ⟨id, path, text⟩ he
    rw [mem_contentIter, ← hs] at he
    have := C09_identifier_lt hwf id path text he
    rw [hs] at this
    exact this
  · rw [List.nodup_iff_pairwise_ne, List.pairwise_map] at hpaths ⊢
    refine hpaths.imp_of_mem ?_
    rintro ⟨id, path, text⟩ ⟨id', path', text'⟩ h1 h2 hne e
    dsimp only at e hne
    subst e
    rw [mem_contentIter, ← hs] at h1 h2
    exact hne (C09_identifier_unique hwf _ _ _ _ _ h1 h2).1
  · rintro ⟨id, path, text⟩ he i hi
    rw [mem_contentIter, ← hs] at he
    have := C08_includes_recorded hwf id path text i he hi
    dsimp only at this ⊢
    rw [hs] at this
    cases hg : fs.glob (resolveIncludedPath path (Path.ofStr i)) with
    | error e => rw [this.1 e hg]; simp
    | ok gs => rw [(this.2 gs hg).1]; simp

end

theorem contentIter_perm {s : Sources} {c : List (Path × IncludedSource)} (h : s.content.Perm c) :
    s.contentIter.Perm ({ s with content := c } : Sources).contentIter :=
  List.Perm.cons _ (h.filterMap _)

/-- The order of the included files does not matter for this. -/
theorem Complete.perm {tokens : Str → List Ranged} {s : Sources} (h : Complete tokens s)
    {c : List (Path × IncludedSource)} (hc : s.content.Perm c) : Complete tokens { s with content := c } := by
  have hp := contentIter_perm hc
  refine ⟨fun e he => h.below e (hp.mem_iff.mpr he), (hp.map _).nodup_iff.mp h.ids, (hp.map _).nodup_iff.mp h.paths,
    (hc.map _).nodup_iff.mp h.keys, fun e he => h.expanded e (hp.mem_iff.mpr he)⟩

/-! ### Tokens by source -/

theorem tokenize_ok {tokens : Str → List Ranged} {n : Nat} (es : List (Nat × Option Path × Str)) :
    ∀ l : List (List Ranged), l.length = n → (∀ e ∈ es, e.1 < n) → (es.map (·.1)).Nodup →
    ∃ t, es.foldlM (tokenizeOne tokens) l = some t ∧ t.length = n ∧
      (∀ e ∈ es, t[e.1]? = some (tokens e.2.2)) ∧ ∀ i, i ∉ es.map (·.1) → t[i]? = l[i]? := by
  induction es with
  | nil => exact fun l hl _ _ => ⟨l, rfl, hl, by simp, by simp⟩
  | cons e es ih =>
    intro l hl hb hn
    rw [List.map_cons, List.nodup_cons] at hn
    have he := hb e List.mem_cons_self
    obtain ⟨t, h1, h2, h3, h4⟩ := ih (l.set e.1 (tokens e.2.2)) (by simpa using hl)
      (fun e he => hb e (List.mem_cons_of_mem _ he)) hn.2
    refine ⟨t, ?_, h2, ?_, ?_⟩
    · rw [List.foldlM_cons]
      have : tokenizeOne tokens l e = some (l.set e.1 (tokens e.2.2)) := by
        unfold tokenizeOne
        rw [if_pos (by omega)]
      rw [this]
      exact h1
    · intro e' he'
      rcases List.mem_cons.mp he' with rfl | he'
      · rw [h4 _ hn.1, List.getElem?_set_self (by omega)]
      · exact h3 e' he'
    · intro i hi
      rw [List.map_cons, List.mem_cons, not_or] at hi
      rw [h4 i hi.2, List.getElem?_set_ne (fun h => hi.1 h.symm)]

/-- Every source is parsed from its own tokens. -/
theorem new_ok {env : ParseEnv} {s : Sources} (h : Complete env.tokens s) :
    ∃ t, BeancountParser.new env s = some ⟨s, t⟩ ∧ ∀ e ∈ s.contentIter, t[e.1]? = some (env.tokens e.2.2) := by
  obtain ⟨t, h1, _, h2, _⟩ := tokenize_ok (tokens := env.tokens) s.contentIter (List.replicate s.ids.length [])
    (List.length_replicate ..) h.below h.ids
  refine ⟨t, ?_, h2⟩
  unfold BeancountParser.new
  rw [h1]
  rfl

/-! ### Declarations of all files -/

section
variable [Unicode] [DecOps]

theorem inOrder_length {env : ParseEnv} {o o' : ParserOptions} {es : List (Nat × Option Path × Str)}
    {rs : List FileResult} (h : InOrder env o es rs o') : es.length = rs.length := by
  induction h with
  | nil => rfl
  | cons _ _ _ _ _ _ _ _ _ _ ih => simp [ih]

theorem parseAll_ok {env : ParseEnv} {t : List (List Ranged)} (es : List (Nat × Option Path × Str)) :
    ∀ acc : ParsedFiles, (∀ e ∈ es, t[e.1]? = some (env.tokens e.2.2)) → (es.map (·.2.1)).Nodup →
      (∀ e ∈ es, AMap.has acc.outputs e.2.1 = false) → ∀ out,
      es.foldlM (parseOne env t) acc = some out ↔ ∃ rs, InOrder env acc.opts es rs out.opts ∧
        out.outputs = acc.outputs ++ outputsOf es rs ∧ out.errors = acc.errors ++ faultsOf es rs ∧
        out.warns = acc.warns ++ rs.flatMap (·.warns) := by
  induction es with
  | nil =>
    intro acc _ _ _ out
    rw [List.foldlM_nil]
    constructor
    · intro h
      cases h
      exact ⟨[], .nil _, by simp [outputsOf], by simp [faultsOf], by simp⟩
    · rintro ⟨rs, h, h1, h2, h3⟩
      generalize hout : out.opts = oo at h
      cases h
      obtain ⟨a, b, c, d⟩ := out
      obtain ⟨a', b', c', d'⟩ := acc
      simp only [outputsOf, faultsOf, List.zip_nil_left, List.map_nil, List.append_nil, List.flatMap_nil] at h1 h2 h3 hout
      rw [h1, h2, h3, hout]
      rfl
  | cons e es ih =>
    intro acc ht hn hk out
    obtain ⟨id, path, text⟩ := e
    rw [List.map_cons, List.nodup_cons] at hn
    have ht1 := ht _ List.mem_cons_self
    dsimp only at ht1
    rw [List.foldlM_cons]
    have hone : parseOne env t acc (id, path, text) =
        (parseFile ⟨id, path, env.emptySpan id, env.decimal⟩ (env.tokens text) acc.opts []).map (fun res =>
          ⟨acc.outputs ++ [(path, res.declarations.getD [])], acc.errors ++ res.errors.map (Fault.parsing id), res.opts,
            acc.warns ++ res.warns⟩) := by
      unfold parseOne
      dsimp only
      rw [ht1]
      dsimp only
      rw [parseFile_warns]
      unfold ParseEnv.cfg
      cases parseFile ⟨id, path, env.emptySpan id, env.decimal⟩ (env.tokens text) acc.opts [] with
      | none => rfl
      | some res =>
        have hk1 := hk _ List.mem_cons_self
        dsimp only at hk1
        simp only [Option.map_some, AMap.insert, hk1]
        cases res.declarations <;> rfl
    rw [hone]
    cases hp : parseFile ⟨id, path, env.emptySpan id, env.decimal⟩ (env.tokens text) acc.opts [] with
    | none =>
      simp only [Option.map_none]
      constructor
      · intro h; cases h
      · rintro ⟨rs, h, _⟩
        cases h with
        | cons _ _ _ _ _ _ _ _ h _ => rw [hp] at h; cases h
    | some res =>
      simp only [Option.map_some, Option.bind_eq_bind, Option.bind_some]
      rw [ih _ (fun e he => ht e (List.mem_cons_of_mem _ he)) hn.2]
      · constructor
        · rintro ⟨rs, h1, h2, h3, h4⟩
          refine ⟨res :: rs, .cons _ _ _ _ _ _ _ _ hp h1, ?_, ?_, ?_⟩
          · rw [h2, List.append_assoc]; rfl
          · rw [h3, List.append_assoc]; rfl
          · rw [h4, List.append_assoc]; rfl
        · rintro ⟨rs, h1, h2, h3, h4⟩
          cases h1 with
          | cons _ _ _ _ _ res' _ rs h h1 =>
            rw [hp] at h
            cases h
            refine ⟨rs, h1, ?_, ?_, ?_⟩
            · rw [h2, List.append_assoc]; rfl
            · rw [h3, List.append_assoc]; rfl
            · rw [h4, List.append_assoc]; rfl
      · intro e' he'
        have hk' := hk e' (List.mem_cons_of_mem _ he')
        rw [Bool.eq_false_iff, ne_eq, AMap.has_iff] at hk' ⊢
        rintro ⟨x, hx, hxe⟩
        rcases List.mem_append.mp hx with hx | hx
        · exact hk' ⟨x, hx, hxe⟩
        · simp only [List.mem_singleton] at hx
          subst hx
          exact hn.1 (List.mem_map.mpr ⟨e', he', hxe.symm⟩)

/-- The declarations of all files, by what parsing each of them yields. -/
theorem parseDeclarations_iff {env : ParseEnv} {s : Sources} {t : List (List Ranged)} (hc : Complete env.tokens s)
    (ht : ∀ e ∈ s.contentIter, t[e.1]? = some (env.tokens e.2.2)) (out : ParsedFiles) :
    BeancountParser.parseDeclarations env ⟨s, t⟩ = some out ↔
      ∃ rs, InOrder env ParserOptions.default s.contentIter rs out.opts ∧ out.outputs = outputsOf s.contentIter rs ∧
        out.errors = faultsOf s.contentIter rs ∧ out.warns = rs.flatMap (·.warns) := by
  unfold BeancountParser.parseDeclarations
  rw [parseAll_ok _ _ ht hc.paths (by intro e _; rfl)]
  simp

/-! ### Includes -/

theorem inOrder_mem {env : ParseEnv} {o o' : ParserOptions} {es : List (Nat × Option Path × Str)}
    {rs : List FileResult} (h : InOrder env o es rs o') {e : Nat × Option Path × Str} {res : FileResult}
    (hm : (e, res) ∈ es.zip rs) :
    e ∈ es ∧ ∃ o1, parseFile ⟨e.1, e.2.1, env.emptySpan e.1, env.decimal⟩ (env.tokens e.2.2) o1 [] = some res := by
  induction h with
  | nil => cases hm
  | cons o o' id path text res' es rs h t ih =>
    rw [List.zip_cons_cons, List.mem_cons] at hm
    rcases hm with hm | hm
    · cases hm
      exact ⟨List.mem_cons_self, o, h⟩
    · exact ⟨List.mem_cons_of_mem _ (ih hm).1, (ih hm).2⟩

theorem outputs_mem {es : List (Nat × Option Path × Str)} {rs : List FileResult} {p : Option Path}
    {ds : List (Spanned Declaration)} (h : AMap.get (outputsOf es rs) p = some ds) :
    ∃ e res, (e, res) ∈ es.zip rs ∧ e.2.1 = p ∧ ds = res.declarations.getD [] := by
  have hm := AMap.mem_of_get h
  unfold outputsOf at hm
  rw [List.mem_map] at hm
  obtain ⟨⟨e, res⟩, hx, he⟩ := hm
  cases he
  exact ⟨e, res, hx, rfl, rfl⟩

theorem allExpanded {env : ParseEnv} {s : Sources} (hc : Complete env.tokens s) {o o' : ParserOptions}
    {rs : List FileResult} (h : InOrder env o s.contentIter rs o') :
    AllExpanded (env.pragmaEnv s) (outputsOf s.contentIter rs) := by
  intro p ds hp d hd g hg
  obtain ⟨e, res, hm, rfl, rfl⟩ := outputs_mem hp
  obtain ⟨he, o1, hf⟩ := inOrder_mem h hm
  cases hds : res.declarations with
  | none => rw [hds] at hd; cases hd
  | some ds =>
    rw [hds] at hd
    exact hc.expanded e he g.item (parseFile_include hf hds hd hg)

theorem root_parsed {env : ParseEnv} {s : Sources} {o o' : ParserOptions} {rs : List FileResult}
    (h : InOrder env o s.contentIter rs o') : (AMap.get (outputsOf s.contentIter rs) s.rootPath).isSome := by
  unfold Sources.contentIter at h ⊢
  cases h with
  | cons _ _ _ _ _ res _ rs _ _ =>
    simp [outputsOf, AMap.get_cons]

/-- Parsing all sources, by what parsing each of them yields. -/
theorem parseSources_ok {env : ParseEnv} {s : Sources} (hc : Complete env.tokens s) {o : ParserOptions}
    {rs : List FileResult} (h : InOrder env ParserOptions.default s.contentIter rs o) :
    ∃ ds data, processPragmas (env.pragmaEnv s) s.rootPath (outputsOf s.contentIter rs) (Options.new o) = .ok (ds, data) ∧
      parseSources env s =
        if faultsOf s.contentIter rs = [] ∧ data.finalErrors = [] then
          .ok ⟨sortDirectives ds, data.options, data.plugins, rs.flatMap (·.warns)⟩
        else .err ⟨faultsOf s.contentIter rs ++ data.finalErrors.map .pragma, rs.flatMap (·.warns)⟩ := by
  obtain ⟨t, h1, h2⟩ := new_ok hc
  obtain ⟨_, _, ds, data, _, hp, _⟩ := process_history o (root_parsed h) (allExpanded hc h)
  refine ⟨ds, data, hp, ?_⟩
  have hd := (parseDeclarations_iff hc h2 ⟨outputsOf s.contentIter rs, faultsOf s.contentIter rs, o,
    rs.flatMap (·.warns)⟩).mpr ⟨rs, h, rfl, rfl, rfl⟩
  unfold parseSources
  rw [h1]
  unfold BeancountParser.parse
  simp only [hd, hp]
  have : ((faultsOf s.contentIter rs ++ data.finalErrors.map Fault.pragma).isEmpty = true) ↔
      (faultsOf s.contentIter rs = [] ∧ data.finalErrors = []) := by simp
  by_cases hh : faultsOf s.contentIter rs = [] ∧ data.finalErrors = []
  · rw [if_pos hh, if_pos (this.mpr hh)]
  · rw [if_neg hh, if_neg (fun x => hh (this.mp x))]

/-- It panics only if parsing a file does. -/
theorem parseSources_panic {env : ParseEnv} {s : Sources} (hc : Complete env.tokens s) :
    parseSources env s = .panic ↔ ¬ ∃ rs o, InOrder env ParserOptions.default s.contentIter rs o := by
  constructor
  · rintro h ⟨rs, o, hr⟩
    obtain ⟨ds, data, _, hp⟩ := parseSources_ok hc hr
    rw [h] at hp
    split at hp <;> cases hp
  · intro h
    obtain ⟨t, h1, h2⟩ := new_ok hc
    unfold parseSources
    rw [h1]
    unfold BeancountParser.parse
    simp only
    cases hd : BeancountParser.parseDeclarations env ⟨s, t⟩ with
    | none => rfl
    | some out =>
      obtain ⟨rs, hr, _⟩ := (parseDeclarations_iff hc h2 out).mp hd
      exact (h ⟨rs, _, hr⟩).elim

/-! ### The order of included files -/

/-- With options that do not change, the files are parsed independently. -/
theorem inOrder_steady {env : ParseEnv} {o : ParserOptions} (es : List (Nat × Option Path × Str))
    (hn : ∀ e ∈ es, ¬ SetsParserOption (env.tokens e.2.2)) (rs : List FileResult) (o' : ParserOptions) :
    InOrder env o es rs o' ↔ o' = o ∧ List.Forall₂ (fun e res =>
      parseFile ⟨e.1, e.2.1, env.emptySpan e.1, env.decimal⟩ (env.tokens e.2.2) o [] = some res) es rs := by
  induction es generalizing rs with
  | nil =>
    constructor
    · intro h; cases h; exact ⟨rfl, .nil⟩
    · rintro ⟨rfl, h⟩; cases h; exact .nil _
  | cons e es ih =>
    have hn' := hn e List.mem_cons_self
    have ih := ih (fun e he => hn e (List.mem_cons_of_mem _ he))
    constructor
    · intro h
      cases h with
      | cons _ _ id path text res _ rs h t =>
        have := parseFile_steady h hn'
        rw [this] at t
        obtain ⟨h1, h2⟩ := (ih rs).mp t
        exact ⟨h1, .cons h h2⟩
    · rintro ⟨rfl, h⟩
      cases h with
      | cons h1 h2 =>
        obtain ⟨id, path, text⟩ := e
        refine .cons _ _ _ _ _ _ _ _ h1 ?_
        rw [parseFile_steady h1 hn']
        exact (ih _).mpr ⟨rfl, h2⟩

omit [Unicode] [DecOps] in
theorem forall₂_perm {α β : Type} {f : α → Option β} {l l' : List α} (hp : l.Perm l') {rs : List β}
    (h : List.Forall₂ (fun a b => f a = some b) l rs) :
    ∃ rs', List.Forall₂ (fun a b => f a = some b) l' rs' ∧ (l.zip rs).Perm (l'.zip rs') := by
  induction hp generalizing rs with
  | nil => cases h; exact ⟨[], .nil, .nil⟩
  | cons x _ ih =>
    cases h with
    | cons h1 h2 =>
      obtain ⟨rs', h3, h4⟩ := ih h2
      exact ⟨_ :: rs', .cons h1 h3, h4.cons _⟩
  | swap x y l =>
    cases h with
    | cons h1 h2 =>
      cases h2 with
      | cons h2 h3 => exact ⟨_ :: _ :: _, .cons h2 (.cons h1 h3), .swap _ _ _⟩
  | trans _ _ ih1 ih2 =>
    obtain ⟨rs1, h1, h2⟩ := ih1 h
    obtain ⟨rs2, h3, h4⟩ := ih2 h1
    exact ⟨rs2, h3, h2.trans h4⟩

omit [Unicode] [DecOps] in
theorem process_congr {env env' : PragmaEnv} (hg : env'.globs = env.globs)
    (he : ∀ p, AMap.get env'.errorPaths p = AMap.get env.errorPaths p)
    (hcan : env'.canonicalize = env.canonicalize) (hctx : env'.context = env.context)
    {root : Option Path} {parsed parsed' : List (Option Path × List (Spanned Declaration))} {o : ParserOptions}
    (hp : ∀ p, AMap.get parsed' p = AMap.get parsed p) (hroot : (AMap.get parsed root).isSome)
    (hexp : AllExpanded env parsed) :
    processPragmas env' root parsed' (Options.new o) = processPragmas env root parsed (Options.new o) := by
  have hexp' : AllExpanded env' parsed' := by
    intro p ds h d hd g hg'
    rw [hg]
    exact hexp p ds (by rw [← hp]; exact h) d hd g hg'
  obtain ⟨es, v, out, data, h1, h2, h3, h4⟩ := process_history o hroot hexp
  obtain ⟨es', v', out', data', h1', h2', h3', h4'⟩ := process_history (parsed := parsed') o (by rw [hp]; exact hroot) hexp'
  have hget : AMap.get parsed' = AMap.get parsed := funext hp
  have hist : History env root parsed es' v' := by
    obtain ⟨ds, k1, k2⟩ := h1'
    rw [hget] at k1 k2
    rw [hg] at k2
    exact ⟨ds, k1, k2⟩
  obtain ⟨rfl, rfl⟩ := History.det h1 hist
  have hnot : ∀ span d p, PragmaData.notOpened env' span d p = PragmaData.notOpened env span d p := by
    intro span d p
    unfold PragmaData.notOpened
    rw [he, hcan, hctx]
  have hopen : ∀ span d p, PragmaData.opened env' span d p = PragmaData.opened env span d p := by
    intro span d p
    unfold PragmaData.opened
    rw [hcan]
  have hpaths : ∀ span ps d opened, applyPaths env' span d opened ps = applyPaths env span d opened ps := by
    intro span ps
    induction ps with
    | nil => intro d opened; cases opened <;> rfl
    | cons p ps ih =>
      intro d opened
      cases opened with
      | nil => simp only [applyPaths, hnot, hopen, ih]
      | cons q qs => simp only [applyPaths, hnot, hopen, ih]
  have happ : applyEvent env' = applyEvent env := by
    funext d e
    unfold applyEvent
    simp only [hg, hpaths]
  have hout : ∀ es d, outputs env' d es = outputs env d es := by
    intro es
    induction es with
    | nil => intro d; rfl
    | cons e es ih =>
      intro d
      simp only [outputs, happ, ih]
  rw [h2, h2']
  rw [happ] at h3'
  rw [hout, h4] at h4'
  cases h4'
  rw [h3, h3']

omit [Unicode] [DecOps] in
theorem errorPaths_keys {c : List (Path × IncludedSource)} (hk : (c.map (·.1)).Nodup) (s : Sources) (hs : s.content = c) :
    (s.errorPaths.map (·.1)).Nodup := by
  unfold Sources.errorPaths
  rw [hs]
  clear hs
  induction c with
  | nil => simp
  | cons e c ih =>
    rw [List.map_cons, List.nodup_cons] at hk
    rw [List.filterMap_cons]
    obtain ⟨p, x⟩ := e
    cases x with
    | error m =>
      simp only [List.map_cons, List.nodup_cons]
      refine ⟨?_, ih hk.2⟩
      rw [List.mem_map]
      rintro ⟨⟨q, y⟩, hy, h⟩
      rw [List.mem_filterMap] at hy
      obtain ⟨⟨p', z⟩, hz, hy⟩ := hy
      dsimp only at h
      subst h
      cases z with
      | error m' =>
        simp only [Option.some.injEq, Prod.mk.injEq] at hy
        obtain ⟨rfl, _⟩ := hy
        exact hk.1 (List.mem_map.mpr ⟨_, hz, rfl⟩)
      | content i t ix => cases hy
      | duplicate => cases hy
    | content i t ix => simpa using ih hk.2
    | duplicate => simpa using ih hk.2

omit [Unicode] [DecOps] in
theorem outputsOf_keys {es : List (Nat × Option Path × Str)} {rs : List FileResult} (h : es.length = rs.length) :
    (outputsOf es rs).map (·.1) = es.map (·.2.1) := by
  induction es generalizing rs with
  | nil => rfl
  | cons e es ih =>
    cases rs with
    | nil => cases h
    | cons r rs =>
      simp only [List.length_cons, Nat.add_right_cancel_iff] at h
      have := ih h
      unfold outputsOf at this ⊢
      simp [this]

/-- In another order of the included files, each is parsed to the same result. -/
theorem inOrder_perm {env : ParseEnv} {s : Sources} {c : List (Path × IncludedSource)} (hp : s.content.Perm c)
    (hn : ∀ e ∈ s.contentIter.tail, ¬ SetsParserOption (env.tokens e.2.2)) {rs : List FileResult} {o : ParserOptions}
    (h : InOrder env ParserOptions.default s.contentIter rs o) :
    ∃ rs', InOrder env ParserOptions.default ({ s with content := c } : Sources).contentIter rs' o ∧
      (s.contentIter.zip rs).Perm (({ s with content := c } : Sources).contentIter.zip rs') := by
  have hperm : s.contentIter.tail.Perm ({ s with content := c } : Sources).contentIter.tail := hp.filterMap _
  have h1 : s.contentIter = (0, s.rootPath, s.rootContent) :: s.contentIter.tail := rfl
  have h2 : ({ s with content := c } : Sources).contentIter =
    (0, s.rootPath, s.rootContent) :: ({ s with content := c } : Sources).contentIter.tail := rfl
  rw [h1] at h
  rw [h1, h2]
  generalize s.contentIter.tail = es at hn h hperm ⊢
  generalize ({ s with content := c } : Sources).contentIter.tail = es' at hperm ⊢
  cases h with
  | cons _ _ _ _ _ res _ rs h t =>
    obtain ⟨h1, h2⟩ := (inOrder_steady es hn rs o).mp t
    obtain ⟨rs', h3, h4⟩ := forall₂_perm (f := fun e : Nat × Option Path × Str =>
      parseFile ⟨e.1, e.2.1, env.emptySpan e.1, env.decimal⟩ (env.tokens e.2.2) res.opts []) hperm h2
    refine ⟨res :: rs', .cons _ _ _ _ _ _ _ _ h ?_, h4.cons _⟩
    exact (inOrder_steady _ (fun e he => hn e (hperm.mem_iff.mpr he)) rs' o).mpr ⟨h1, h3⟩

omit [Unicode] [DecOps] in
theorem flatMap_zip {β : Type} (f : FileResult → List β) {es : List (Nat × Option Path × Str)} {rs : List FileResult}
    (h : es.length = rs.length) : (es.zip rs).flatMap (fun x => f x.2) = rs.flatMap f := by
  induction es generalizing rs with
  | nil => cases rs with
    | nil => rfl
    | cons r rs => cases h
  | cons e es ih => cases rs with
    | nil => cases h
    | cons r rs => simp [ih (by simpa using h)]

/-- The outcome does not depend on the order of the included files, if none of them sets a parser option. -/
theorem parseSources_perm {env : ParseEnv} {s : Sources} {c : List (Path × IncludedSource)} (hc : Complete env.tokens s)
    (hp : s.content.Perm c) (hn : ∀ e ∈ s.contentIter.tail, ¬ SetsParserOption (env.tokens e.2.2)) :
    SameOutcome (parseSources env s) (parseSources env { s with content := c }) := by
  have hc' := hc.perm hp
  by_cases hpan : ∃ rs o, InOrder env ParserOptions.default s.contentIter rs o
  · obtain ⟨rs, o, h⟩ := hpan
    obtain ⟨rs', h', hz⟩ := inOrder_perm hp hn h
    obtain ⟨ds, data, h1, h2⟩ := parseSources_ok hc h
    obtain ⟨ds', data', h1', h2'⟩ := parseSources_ok hc' h'
    have hl := inOrder_length h
    have hl' := inOrder_length h'
    have hout : (outputsOf s.contentIter rs).Perm (outputsOf ({ s with content := c } : Sources).contentIter rs') :=
      hz.map _
    have herr : (faultsOf s.contentIter rs).Perm (faultsOf ({ s with content := c } : Sources).contentIter rs') :=
      hz.flatMap_right _
    have hwarn : (rs.flatMap (·.warns)).Perm (rs'.flatMap (·.warns)) := by
      rw [← flatMap_zip _ hl, ← flatMap_zip _ hl']
      exact hz.flatMap_right _
    have hep : s.errorPaths.Perm ({ s with content := c } : Sources).errorPaths := hp.filterMap _
    have hsame := process_congr (env := env.pragmaEnv s) (env' := env.pragmaEnv { s with content := c }) (o := o) rfl
      (fun p => (AMap.get_perm hep (errorPaths_keys hc.keys s rfl) p).symm) rfl rfl
      (fun p => (AMap.get_perm hout (by rw [outputsOf_keys hl]; exact hc.paths) p).symm)
      (root_parsed h) (allExpanded hc h)
    dsimp only at h1'
    rw [hsame, h1] at h1'
    cases h1'
    rw [h2, h2']
    by_cases hh : faultsOf s.contentIter rs = [] ∧ data.finalErrors = []
    · rw [if_pos hh, if_pos ⟨by have := herr; rw [hh.1] at this; exact this.nil_eq.symm, hh.2⟩]
      exact ⟨rfl, rfl, rfl, hwarn⟩
    · rw [if_neg hh, if_neg (by
        rintro ⟨h3, h4⟩
        rw [h3] at herr
        exact hh ⟨herr.eq_nil, h4⟩)]
      exact ⟨herr.append_right _, hwarn⟩
  · rw [(parseSources_panic hc).mpr hpan, (parseSources_panic hc').mpr]
    · trivial
    · rintro ⟨rs', o, h'⟩
      have hperm := contentIter_perm hp
      have htail : s.contentIter.tail.Perm ({ s with content := c } : Sources).contentIter.tail := hp.filterMap _
      obtain ⟨rs, h, _⟩ := inOrder_perm (s := { s with content := c }) (c := s.content) hp.symm
        (fun e he => hn e (htail.mem_iff.mpr he)) h'
      exact hpan ⟨rs, o, h⟩

end

end Lima
