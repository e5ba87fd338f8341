import Verif.Spec.Success
import Verif.Lemmas.ReadOrigin
import Verif.Props.Parse
import Verif.Props.Pragma
import Verif.Props.OptionDecoding
import Mathlib.Tactic.Tauto

/-! What a successful parse comes to. -/

set_option linter.unusedSectionVars false

namespace Lima

open Spec Grammar Props

/-! ### Lists -/

theorem perm_by_key {α κ : Type} [DecidableEq κ] (key : α → κ) :
    ∀ (ks : List κ), ks.Nodup → ∀ l : List α, (∀ a ∈ l, key a ∈ ks) →
      l.Perm (ks.flatMap (fun k => l.filter (fun a => decide (key a = k)))) := by
  intro ks
  induction ks with
  | nil =>
    intro _ l h
    cases l with
    | nil => exact .nil
    | cons a l => exact absurd (h a List.mem_cons_self) (by simp)
  | cons k ks ih =>
    intro hn l h
    rw [List.nodup_cons] at hn
    rw [List.flatMap_cons]
    refine (List.filter_append_perm (fun a => decide (key a = k)) l).symm.trans (List.Perm.append_left _ ?_)
    have := ih hn.2 (l.filter (fun a => !decide (key a = k))) (fun a ha => by
      obtain ⟨h1, h2⟩ := List.mem_filter.mp ha
      rcases List.mem_cons.mp (h a h1) with h3 | h3
      · simp [h3] at h2
      · exact h3)
    refine this.trans (List.Perm.of_eq (List.flatMap_congr ?_))
    intro k' hk'
    rw [List.filter_filter]
    refine List.filter_congr ?_
    intro a _
    by_cases h1 : key a = k'
    · have : key a ≠ k := fun e => hn.1 (by rw [← e, h1]; exact hk')
      simp [h1]
      exact fun e => this (h1.trans e)
    · simp [h1]

section
variable [Unicode] [DecOps]

/-! ### Files without errors -/

theorem filesP_of_inOrder {env : ParseEnv} {o o' : ParserOptions} {es : List (Nat × Option Path × Str)}
    {rs : List FileResult} (h : InOrder env o es rs o') (he : ∀ res ∈ rs, res.errors = []) :
    FilesP env o es ((outputsOf es rs).map (·.2)) o' (rs.flatMap (·.warns)) := by
  induction h with
  | nil => exact .nil
  | cons o o' id path text res es rs h t ih =>
    have he1 := he res List.mem_cons_self
    obtain ⟨ds, ws, h1, h2⟩ := parseFile_sound h (by rw [he1]; simp)
    have ih := ih (fun r hr => he r (List.mem_cons_of_mem _ hr))
    rw [he1] at h2
    have hd : res.declarations = some ds := by rw [h1]
    have hw : res.warns = ws := by rw [h1]; rfl
    unfold outputsOf at ih ⊢
    rw [List.zip_cons_cons, List.map_cons, List.map_cons, List.flatMap_cons, hw]
    dsimp only
    rw [hd]
    exact .cons h2 ih

theorem filesP_mem {env : ParseEnv} {o o' : ParserOptions} {es : List (Nat × Option Path × Str)}
    {dss : List (List (Spanned Declaration))} {ws : List Report} (h : FilesP env o es dss o' ws) :
    (∀ e ∈ es, ∃ ds ∈ dss, ∃ o1 o2 ws, FileP ⟨e.1, e.2.1, env.emptySpan e.1, env.decimal⟩ o1 (env.tokens e.2.2) ds o2 [] ws) ∧
    ∀ ds ∈ dss, ∃ e ∈ es, ∃ o1 o2 ws, FileP ⟨e.1, e.2.1, env.emptySpan e.1, env.decimal⟩ o1 (env.tokens e.2.2) ds o2 [] ws := by
  induction h with
  | nil => simp
  | cons h _ ih =>
    constructor
    · intro e he
      rcases List.mem_cons.mp he with rfl | he
      · exact ⟨_, List.mem_cons_self, _, _, _, h⟩
      · obtain ⟨ds, hd, hf⟩ := ih.1 e he
        exact ⟨ds, List.mem_cons_of_mem _ hd, hf⟩
    · intro ds hd
      rcases List.mem_cons.mp hd with rfl | hd
      · exact ⟨_, List.mem_cons_self, _, _, _, h⟩
      · obtain ⟨e, he, hf⟩ := ih.2 ds hd
        exact ⟨e, List.mem_cons_of_mem _ he, hf⟩

/-- The include of a file in the tokens is one among its declarations. -/
theorem include_declared {cfg : ParseCfg} {o o' : ParserOptions} {toks : List Ranged} {ds : List (Spanned Declaration)}
    {es : List PErr} {ws : List Report} (h : FileP cfg o toks ds o' es ws) {i : Str}
    (hi : [Token.include, Token.stringLiteral i] <:+: toks.map (·.tok)) :
    ∃ g span, ⟨.pragma (.include g), span⟩ ∈ ds ∧ g.item = i := by
  obtain ⟨pre, post, hi⟩ := hi
  rw [List.append_assoc] at hi
  obtain ⟨before, rest, rfl, rfl, hrest⟩ := List.map_eq_append_iff.mp hi.symm
  rw [List.cons_append, List.cons_append, List.map_eq_cons_iff] at hrest
  obtain ⟨t, rest, rfl, ht, hrest⟩ := hrest
  rw [List.map_eq_cons_iff] at hrest
  obtain ⟨u, after, rfl, hu, _⟩ := hrest
  obtain ⟨tt, ta, tb⟩ := t
  obtain ⟨ut, ua, ub⟩ := u
  dsimp only at ht hu
  subst ht hu
  obtain ⟨o1, o2, j, es', p, span, h1, h2, _⟩ := keyword_pragma h (by simp [Inner])
  cases h1 with
  | pushtag h => obtain ⟨⟨j, ⟨_, _, h⟩, _⟩, _⟩ := h; cases h
  | poptag h => obtain ⟨⟨j, ⟨_, _, h⟩, _⟩, _⟩ := h; cases h
  | popmeta h => obtain ⟨⟨j, ⟨_, _, h⟩, _⟩, _⟩ := h; cases h
  | pushmeta h => obtain ⟨_, _, h⟩ := h; cases h
  | option h => obtain ⟨_, _, h⟩ := h; cases h
  | plugin h => obtain ⟨_, _, h⟩ := h; cases h
  | «include» h k =>
    obtain ⟨_, _, h⟩ := h
    cases h
    obtain ⟨⟨_, _, k⟩, _⟩ := k
    cases k
    exact ⟨_, span, h2, rfl⟩

/-! ### A successful parse -/

variable {fs : FileSystem} {env : ParseEnv} {rootPath : Option Path} {rootContent : Str} {s : Sources}

/-- All there is to know about a successful parse. -/
structure Succeeds (env : ParseEnv) (s : Sources) (a : ParseSuccess) (rs : List FileResult) (o : ParserOptions)
    (ds : List (Spanned Directive)) (data : PragmaData) (es : List Event) (visited : List (Option Path)) : Prop where
  inOrder : InOrder env ParserOptions.default s.contentIter rs o
  noErrors : ∀ res ∈ rs, res.errors = []
  run : processPragmas (env.pragmaEnv s) s.rootPath (outputsOf s.contentIter rs) (Options.new o) = .ok (ds, data)
  noReports : data.finalErrors = []
  history : History (env.pragmaEnv s) s.rootPath (outputsOf s.contentIter rs) es visited
  expanded : AllExpanded (env.pragmaEnv s) (outputsOf s.contentIter rs)
  result : a = ⟨sortDirectives ds, data.options, data.plugins, rs.flatMap (·.warns)⟩

theorem succeeds (hwf : GlobsWF fs) (hs : ReadInSomeOrder fs env.tokens rootPath rootContent s) {a : ParseSuccess}
    (ha : parseSources env s = .ok a) : ∃ rs o ds data es visited, Succeeds env s a rs o ds data es visited := by
  have hc := read_in_order hwf hs
  obtain ⟨rs, o, ds, data, h1, h2, h3, h4⟩ := (C41_success_iff hwf hs).mp ⟨a, ha⟩
  obtain ⟨ds', data', hp, hr⟩ := parseSources_ok hc h1
  rw [h3] at hp
  cases hp
  have hexp := allExpanded hc h1
  obtain ⟨es, visited, _, _, hh, _⟩ := process_history o (root_parsed h1) hexp
  refine ⟨rs, o, ds, data, es, visited, h1, h2, h3, h4, hh, hexp, ?_⟩
  rw [ha] at hr
  split at hr
  · cases hr; rfl
  · cases hr

variable {a : ParseSuccess} {rs : List FileResult} {o : ParserOptions}
  {ds : List (Spanned Directive)} {data : PragmaData} {es : List Event} {visited : List (Option Path)}

theorem Succeeds.keys (h : Succeeds env s a rs o ds data es visited) :
    (outputsOf s.contentIter rs).map (·.1) = s.contentIter.map (·.2.1) := by
  have hl := inOrder_length h.inOrder
  unfold outputsOf
  rw [List.map_map]
  have : ((fun x : Option Path × List (Spanned Declaration) => x.1) ∘
      fun x : (Nat × Option Path × Str) × FileResult => (x.1.2.1, x.2.declarations.getD [])) =
      (fun x : Nat × Option Path × Str => x.2.1) ∘ Prod.fst := rfl
  rw [this, ← List.map_map, List.map_fst_zip (by omega)]

theorem Succeeds.filesP (h : Succeeds env s a rs o ds data es visited) :
    FilesP env ParserOptions.default s.contentIter ((outputsOf s.contentIter rs).map (·.2)) o a.warnings := by
  rw [h.result]
  exact filesP_of_inOrder h.inOrder h.noErrors

/-- A source is in the language, with the declarations that are spliced. -/
theorem Succeeds.file (h : Succeeds env s a rs o ds data es visited) (hc : Complete env.tokens s) {id : Nat}
    {path : Option Path} {text : Str} (hsrc : IsSource s id path text) :
    ∃ o1 ds' o2 ws, AMap.get (outputsOf s.contentIter rs) path = some ds' ∧
      FileP ⟨id, path, env.emptySpan id, env.decimal⟩ o1 (env.tokens text) ds' o2 [] ws := by
  have hl := inOrder_length h.inOrder
  obtain ⟨i, hi, he⟩ := List.getElem_of_mem (mem_contentIter.mpr hsrc)
  have hm : ((id, path, text), rs[i]'(by omega)) ∈ s.contentIter.zip rs := by
    have := List.getElem_mem (l := s.contentIter.zip rs) (n := i) (by rw [List.length_zip]; omega)
    rwa [List.getElem_zip, he] at this
  obtain ⟨_, o1, hf⟩ := inOrder_mem h.inOrder hm
  have herr := h.noErrors _ (List.of_mem_zip hm).2
  obtain ⟨ds', ws, hr, hp⟩ := parseFile_sound hf (by rw [herr]; simp)
  rw [herr] at hp
  refine ⟨o1, ds', _, ws, ?_, hp⟩
  refine AMap.get_of_mem (by rw [h.keys]; exact hc.paths) ?_
  unfold outputsOf
  rw [List.mem_map]
  refine ⟨_, hm, ?_⟩
  dsimp only
  rw [hr]
  rfl

theorem Succeeds.errors_nil (h : Succeeds env s a rs o ds data es visited) : data.errors = [] := by
  have := h.noReports
  unfold PragmaData.finalErrors at this
  simp only [List.append_eq_nil_iff] at this
  exact this.1.1

/-- The include of a source which is visited is among the events. -/
theorem Succeeds.include_event (h : Succeeds env s a rs o ds data es visited) (hc : Complete env.tokens s) {id : Nat}
    {path : Option Path} {text i : Str} (hsrc : IsSource s id path text) (hv : path ∈ visited)
    (hi : HasInclude env.tokens text i) :
    ∃ pre e post g, es = pre ++ e :: post ∧ e.path = path ∧ e.decl.item = .pragma (.include g) ∧ g.item = i := by
  obtain ⟨o1, ds', o2, ws, h1, h2⟩ := h.file hc hsrc
  obtain ⟨g, span, h3, h4⟩ := include_declared h2 hi
  obtain ⟨ds'', h5, h6⟩ := (C06_once h.history path).1 hv
  rw [h1] at h5
  cases h5
  rw [← h6] at h3
  obtain ⟨e, he, hd⟩ := List.mem_map.mp h3
  obtain ⟨he1, he2⟩ := List.mem_filter.mp he
  obtain ⟨pre, post, hes⟩ := List.append_of_mem he1
  exact ⟨pre, e, post, g, hes, by simpa using he2, by rw [hd], h4⟩

theorem reports_nil {env : PragmaEnv} {p : ParserOptions} {es : List Event} :
    ∀ pre0, allReports env p pre0 es = [] → ∀ pre e post, es = pre ++ e :: post → reports env p (pre0 ++ pre) e = [] := by
  induction es with
  | nil => intro pre0 _ pre e post h; simp at h
  | cons x es ih =>
    intro pre0 h pre e post hes
    unfold allReports at h
    rw [List.append_eq_nil_iff] at h
    cases pre with
    | nil =>
      cases hes
      rw [List.append_nil]
      exact h.1
    | cons y pre =>
      rw [List.cons_append, List.cons.injEq] at hes
      obtain ⟨rfl, hes⟩ := hes
      have := ih _ h.2 pre e post hes
      rwa [List.append_assoc] at this

theorem mem_openings {es : List Event} : ∀ {pre : List Event} {x : Path × List Event}, x ∈ openings pre es →
    ∃ e ∈ es, x.1 ∈ e.opened := by
  induction es with
  | nil => intro pre x h; cases h
  | cons e es ih =>
    intro pre x h
    unfold openings at h
    rcases List.mem_append.mp h with h | h
    · obtain ⟨q, hq, rfl⟩ := List.mem_map.mp h
      exact ⟨e, List.mem_cons_self, hq⟩
    · obtain ⟨e', he, hx⟩ := ih h
      exact ⟨e', List.mem_cons_of_mem _ he, hx⟩

theorem Succeeds.isSource (h : Succeeds env s a rs o ds data es visited) {path : Option Path}
    (hf : (AMap.get (outputsOf s.contentIter rs) path).isSome) : ∃ id text, IsSource s id path text := by
  obtain ⟨ds', hd⟩ := Option.isSome_iff_exists.mp hf
  obtain ⟨⟨id, path, text⟩, res, hm, rfl, _⟩ := outputs_mem hd
  exact ⟨id, text, mem_contentIter.mp (inOrder_mem h.inOrder hm).1⟩

theorem Succeeds.opened (h : Succeeds env s a rs o ds data es visited) {e : Event} (he : e ∈ es) {q : Path}
    (hq : q ∈ e.opened) : (AMap.get (outputsOf s.contentIter rs) (some q)).isSome := by
  obtain ⟨_, _, hok⟩ := History.run o h.history h.expanded h.run
  rcases hok e he with ⟨g', v, hg', ho⟩ | ⟨hn, ho⟩
  · rw [ho] at hq
    exact (fresh_mem hq).2.1
  · rw [ho] at hq
    cases hq

/-- What an include in a visited source stands for: each path is that of a source which is visited, or that of the same
file as one. -/
theorem Succeeds.included (h : Succeeds env s a rs o ds data es visited) (hwf : GlobsWF fs)
    (hs : ReadInSomeOrder fs env.tokens rootPath rootContent s) {id : Nat}
    {path : Option Path} {text i : Str} (hsrc : IsSource s id path text) (hv : path ∈ visited)
    (hi : HasInclude env.tokens text i) :
    ∃ gs, fs.glob (resolveIncludedPath path (Path.ofStr i)) = .ok gs ∧ gs ≠ [] ∧ ∀ g ∈ gs,
      (some g.thePath ∈ visited ∧ (AMap.get (outputsOf s.contentIter rs) (some g.thePath)).isSome) ∨
      (¬ (AMap.get (outputsOf s.contentIter rs) (some g.thePath)).isSome ∧ AMap.get s.errorPaths (some g.thePath) = none ∧
        ∃ q c, (AMap.get (outputsOf s.contentIter rs) (some q)).isSome ∧ env.canonicalize q = some c ∧
          env.canonicalize g.thePath = some c) := by
  have hc := read_in_order hwf hs
  obtain ⟨pre, e, post, g, hes, hpath, hg, hgi⟩ := h.include_event hc hsrc hv hi
  have hsrc' : IsSource (readWithIncludes fs env.tokens rootPath rootContent) id path text := by
    obtain ⟨c, hp, rfl⟩ := hs
    rcases hsrc with hsrc | ⟨p, ix, h1, h2⟩
    · exact .inl hsrc
    · exact .inr ⟨p, ix, h1, hp.mem_iff.mpr h2⟩
  have hglobs : s.globs = (readWithIncludes fs env.tokens rootPath rootContent).globs := by
    obtain ⟨c, hp, rfl⟩ := hs
    rfl
  have hrec := C08_includes_recorded hwf id path text i hsrc' hi
  dsimp only at hrec
  rw [← hglobs] at hrec
  have hrep := C06_reports h.history h.expanded h.run
  rw [h.errors_nil] at hrep
  have hrep := reports_nil [] hrep.symm pre e post hes
  rw [List.nil_append] at hrep
  unfold reports at hrep
  rw [hg] at hrep
  dsimp only [ParseEnv.pragmaEnv] at hrep
  rw [hpath, hgi] at hrep
  cases hgl : fs.glob (resolveIncludedPath path (Path.ofStr i)) with
  | error m =>
    rw [hrec.1 m hgl] at hrep
    cases hrep
  | ok gs =>
    have hget := (hrec.2 gs hgl).1
    rw [hget] at hrep
    have hexpn : expansion (AMap.get (env.pragmaEnv s).globs) e.path g.item = gs.map Globbed.thePath := by
      unfold expansion ParseEnv.pragmaEnv
      dsimp only
      rw [hpath, hgi, hget]
    refine ⟨gs, rfl, ?_, ?_⟩
    · rintro rfl
      cases hrep
    · intro x hx
      have hxm : x.thePath ∈ gs.map Globbed.thePath := List.mem_map.mpr ⟨x, hx, rfl⟩
      by_cases hsome : (AMap.get (outputsOf s.contentIter rs) (some x.thePath)).isSome
      · refine .inl ⟨?_, hsome⟩
        obtain ⟨ds', h5, h6⟩ := (C06_once h.history path).1 hv
        rw [C05_reached h.history]
        refine .step path ds' e.decl g x.thePath ((C05_reached h.history path).mp hv) h5 ?_ hg ?_ hsome
        · rw [← h6]
          exact List.mem_map.mpr ⟨e, List.mem_filter.mpr ⟨by rw [hes]; simp, by simpa using hpath⟩, rfl⟩
        · rw [← hpath, hexpn]
          exact hxm
      · right
        obtain ⟨ps, qs, hps⟩ := List.append_of_mem hxm
        have hnot : x.thePath ∉ e.opened := fun ho => hsome (h.opened (by rw [hes]; simp) ho)
        have := C06_not_opened h.history h.expanded h.run pre e post hes g hg ps x.thePath qs (by rw [hexpn, hps]) (.inr hnot)
        dsimp only at this
        rw [h.errors_nil] at this
        rcases this with ⟨r, hr, _⟩ | ⟨h1, c, h2, before, op, after, h3, h4, _⟩ | ⟨r, hr, _⟩
        · cases hr
        · refine ⟨hsome, h1, op.1, c, ?_, h4, h2⟩
          have hm : op ∈ openings [] pre ++ (e.opened.filter (· ∈ ps)).map (·, pre) := by rw [h3]; simp
          rcases List.mem_append.mp hm with hm | hm
          · obtain ⟨e', he', ho⟩ := mem_openings hm
            exact h.opened (by rw [hes]; simp [he']) ho
          · obtain ⟨q, hq, rfl⟩ := List.mem_map.mp hm
            exact h.opened (by rw [hes]; simp) (List.mem_filter.mp hq).1
        · cases hr

/-- The path of a file read is not that of the root. -/
theorem read_not_root (hwf : GlobsWF fs) {p : Path}
    (hp : p ∈ (readWithIncludes fs env.tokens rootPath rootContent).reads) : rootPath ≠ some p := by
  intro e
  obtain ⟨c, h1, h2⟩ := (C08_read_once (tokens := env.tokens) (rootPath := rootPath) (rootContent := rootContent) hwf).2 p hp
  exact h2 p e h1

theorem get_content (hwf : GlobsWF fs) (hs : ReadInSomeOrder fs env.tokens rootPath rootContent s) (p : Path) :
    AMap.get s.content p = AMap.get (readWithIncludes fs env.tokens rootPath rootContent).content p := by
  obtain ⟨c, hp, rfl⟩ := hs
  exact (AMap.get_perm hp (read_complete hwf).keys p).symm

/-- Every file read is a source, and visited. -/
theorem Succeeds.read_visited (h : Succeeds env s a rs o ds data es visited) (hwf : GlobsWF fs)
    (hs : ReadInSomeOrder fs env.tokens rootPath rootContent s) :
    ∀ n before p after, before.length < n →
      (readWithIncludes fs env.tokens rootPath rootContent).reads = before ++ p :: after →
      some p ∈ visited ∧ ∃ id text, IsSource s id (some p) text ∧ fs.read p = .ok text := by
  have hc := read_in_order hwf hs
  have hroot : s.rootPath = rootPath ∧ s.rootContent = rootContent := by
    obtain ⟨c, hp, rfl⟩ := hs
    exact ⟨rfl, rfl⟩
  intro n
  induction n with
  | zero => intro _ _ _ h; omega
  | succ n ih =>
    intro before p after hn hreads
    have hmem : p ∈ (readWithIncludes fs env.tokens rootPath rootContent).reads := by rw [hreads]; simp
    obtain ⟨q, gs, hq, hgs, hp⟩ := read_named before p after hreads
    have hparent : ∃ id path text i, IsSource s id path text ∧ path ∈ visited ∧ i ∈ getIncludes env.tokens text ∧
        q = resolveIncludedPath path (Path.ofStr i) := by
      rcases hq with ⟨i, hi, rfl⟩ | ⟨r, hr, text, ht, i, hi, rfl⟩
      · refine ⟨0, rootPath, rootContent, i, .inl ⟨rfl, hroot.1.symm, hroot.2.symm⟩, ?_, hi, rfl⟩
        rw [C05_reached h.history, hroot.1]
        exact .root
      · obtain ⟨b1, b2, rfl⟩ := List.append_of_mem hr
        have hlen : b1.length < n := by
          simp only [List.length_append, List.length_cons] at hn
          omega
        obtain ⟨h1, id, text', h2, h3⟩ := ih b1 r (b2 ++ p :: after) hlen (by rw [hreads]; simp)
        rw [ht] at h3
        cases h3
        exact ⟨id, some r, text, i, h2, h1, hi, rfl⟩
    obtain ⟨id, path, text, i, h1, h2, h3, rfl⟩ := hparent
    obtain ⟨gs', h4, _, h5⟩ := h.included hwf hs h1 h2 ((getIncludes_iff text i).mp h3)
    rw [hgs] at h4
    cases h4
    have h6 := h5 _ hp
    dsimp only [Globbed.thePath] at h6
    have hcontent := C08_read_outcome p hmem
    rw [← get_content hwf hs] at hcontent
    have herr := C08_unreadable_files_reported hwf hs p
    have hsource : ∀ text id, fs.read p = .ok text → AMap.get s.content p = some (.content id text (charIndices text)) →
        ∃ id text, IsSource s id (some p) text ∧ fs.read p = .ok text :=
      fun text id hr hg => ⟨id, text, .inr ⟨p, _, rfl, AMap.mem_of_get hg⟩, hr⟩
    have noErr : ∀ m, AMap.get s.content p ≠ some (.error m) := by
      intro m hm
      rcases h6 with ⟨_, h6⟩ | ⟨_, h6, _⟩
      · obtain ⟨id, text, hsrc⟩ := h.isSource h6
        rcases hsrc with ⟨_, hr, _⟩ | ⟨p', ix, hp', hx⟩
        · exact read_not_root hwf hmem (by rw [← hroot.1, hr])
        · cases hp'
          rw [AMap.get_of_mem hc.keys hx] at hm
          cases hm
      · rw [(herr m).mpr hm] at h6
        cases h6
    rcases hcontent with ⟨text, id, hr, hg⟩ | ⟨e, _, hg⟩ | ⟨m, _, hg⟩
    · refine ⟨?_, hsource text id hr hg⟩
      rcases h6 with ⟨h6, _⟩ | ⟨h6, _⟩
      · exact h6
      · obtain ⟨o1, ds', o2, ws, hf, _⟩ := h.file hc (.inr ⟨p, _, rfl, AMap.mem_of_get hg⟩)
        rw [hf] at h6
        exact absurd rfl h6
    · exact absurd hg (noErr _)
    · exact absurd hg (noErr _)

/-- Every source is visited. -/
theorem Succeeds.visited_iff (h : Succeeds env s a rs o ds data es visited) (hwf : GlobsWF fs)
    (hs : ReadInSomeOrder fs env.tokens rootPath rootContent s) (path : Option Path) :
    path ∈ visited ↔ ∃ id text, IsSource s id path text := by
  constructor
  · intro hv
    obtain ⟨ds', hd, _⟩ := (C06_once h.history path).1 hv
    exact h.isSource (by rw [hd]; rfl)
  · rintro ⟨id, text, ⟨_, rfl, _⟩ | ⟨p, ix, rfl, hx⟩⟩
    · rw [C05_reached h.history]
      exact .root
    · have hx' : (p, IncludedSource.content id text ix) ∈ (readWithIncludes fs env.tokens rootPath rootContent).content := by
        obtain ⟨c, hp, rfl⟩ := hs
        exact hp.mem_iff.mpr hx
      obtain ⟨before, after, hr⟩ := List.append_of_mem (C08_content_faithful hwf id p text ix hx').2
      exact (h.read_visited hwf hs _ before p after (Nat.lt_succ_self _) hr).1

/-- The declarations met are those of all files, each once. -/
theorem Succeeds.perm (h : Succeeds env s a rs o ds data es visited) (hwf : GlobsWF fs)
    (hs : ReadInSomeOrder fs env.tokens rootPath rootContent s) :
    (es.map (·.decl)).Perm ((outputsOf s.contentIter rs).map (·.2)).flatten := by
  have hc := read_in_order hwf hs
  have hn : ((outputsOf s.contentIter rs).map (·.1)).Nodup := by rw [h.keys]; exact hc.paths
  have hp := perm_by_key (fun e : Event => e.path) _ hn es (fun e he => by
    have hv : e.path ∈ visited := by
      refine Classical.byContradiction fun hv => ?_
      have := (C06_once h.history e.path).2 hv
      rw [List.filter_eq_nil_iff] at this
      exact this e he (by simp)
    obtain ⟨ds', hd, _⟩ := (C06_once h.history e.path).1 hv
    exact List.mem_map.mpr ⟨_, AMap.mem_of_get hd, rfl⟩)
  refine (hp.map (·.decl)).trans (List.Perm.of_eq ?_)
  rw [List.map_flatMap, List.flatMap_map, ← List.flatMap_def]
  refine List.flatMap_congr ?_
  rintro ⟨path, ds'⟩ hx
  have hget := AMap.get_of_mem hn hx
  have hv := (h.visited_iff hwf hs path).mpr (h.isSource (by rw [hget]; rfl))
  obtain ⟨ds'', h1, h2⟩ := (C06_once h.history path).1 hv
  rw [hget] at h1
  cases h1
  exact h2

/-! ### Directives -/

theorem filterMap_at {α β : Type} (f : α → Option β) : ∀ (l : List α) (i : Nat) (y : β), (l.filterMap f)[i]? = some y →
    ∃ pre e post, l = pre ++ e :: post ∧ f e = some y ∧ (pre.filterMap f).length = i := by
  intro l
  induction l with
  | nil => intro i y h; simp at h
  | cons a l ih =>
    intro i y h
    cases ha : f a with
    | none =>
      rw [List.filterMap_cons_none ha] at h
      obtain ⟨pre, e, post, h1, h2, h3⟩ := ih i y h
      exact ⟨a :: pre, e, post, by rw [h1]; rfl, h2, by rw [List.filterMap_cons_none ha]; exact h3⟩
    | some b =>
      rw [List.filterMap_cons_some ha] at h
      cases i with
      | zero =>
        cases h
        exact ⟨[], a, l, rfl, ha, rfl⟩
      | succ i =>
        obtain ⟨pre, e, post, h1, h2, h3⟩ := ih i y h
        exact ⟨a :: pre, e, post, by rw [h1]; rfl, h2, by rw [List.filterMap_cons_some ha, List.length_cons, h3]⟩

theorem augmentTags_prefix (own : List (Spanned Str)) : ∀ (tags : TagStacks) (m : List (Spanned Str)),
    (∀ t ∈ m, ∀ u ∈ own, u.item ≠ t.item) →
    ∃ more, augmentTags (own ++ m) tags = own ++ more ∧ ∀ t ∈ more, ∀ u ∈ own, u.item ≠ t.item := by
  intro tags
  induction tags with
  | nil => intro m hm; exact ⟨m, rfl, hm⟩
  | cons e tags ih =>
    intro m hm
    have step : ∃ x, augmentTags (own ++ m) (e :: tags) =
        augmentTags (if SSet.has (own ++ m) e.1.item then own ++ m else SSet.insert (own ++ m) x) tags := ⟨_, rfl⟩
    obtain ⟨x, step⟩ := step
    rw [step]
    split
    · exact ih m hm
    · by_cases hx : SSet.has (own ++ m) x.item
      · rw [show SSet.insert (own ++ m) x = own ++ m by unfold SSet.insert; rw [if_pos hx]]
        exact ih m hm
      · rw [show SSet.insert (own ++ m) x = own ++ (m ++ [x]) by
          unfold SSet.insert; rw [if_neg hx, List.append_assoc]]
        refine ih (m ++ [x]) ?_
        intro t ht u hu
        rcases List.mem_append.mp ht with ht | ht
        · exact hm t ht u hu
        · simp only [List.mem_singleton] at ht
          subst ht
          intro he
          apply hx
          unfold SSet.has
          rw [List.any_eq_true]
          exact ⟨u, List.mem_append_left _ hu, by simpa using he⟩

theorem augmentKeyValues_prefix (own : List (Spanned Str × Spanned MetaValue)) : ∀ (metas : MetaStacks)
    (m out : List (Spanned Str × Spanned MetaValue)), (∀ t ∈ m, ∀ u ∈ own, u.1.item ≠ t.1.item) →
    augmentKeyValues (own ++ m) metas = some out →
    ∃ more, out = own ++ more ∧ ∀ t ∈ more, ∀ u ∈ own, u.1.item ≠ t.1.item := by
  intro metas
  induction metas with
  | nil => intro m out hm h; cases h; exact ⟨m, rfl, hm⟩
  | cons e metas ih =>
    intro m out hm h
    unfold augmentKeyValues at h
    rw [List.foldlM_cons] at h
    by_cases hh : SMap.has (own ++ m) e.1.item
    · rw [if_pos hh] at h
      exact ih m out hm h
    · rw [if_neg hh] at h
      cases hl : e.2.getLast? with
      | none => rw [hl] at h; cases h
      | some kv =>
        rw [hl] at h
        obtain ⟨k, v⟩ := kv
        have : SMap.insert (own ++ m) ⟨e.1.item, k⟩ v = own ++ (m ++ [(⟨e.1.item, k⟩, v)]) := by
          unfold SMap.insert
          rw [if_neg hh, List.append_assoc]
        dsimp only at h
        rw [this] at h
        refine ih (m ++ [(⟨e.1.item, k⟩, v)]) out ?_ (by simpa [augmentKeyValues] using h)
        intro t ht u hu
        rcases List.mem_append.mp ht with ht | ht
        · exact hm t ht u hu
        · simp only [List.mem_singleton] at ht
          subst ht
          intro he
          apply hh
          unfold SMap.has
          rw [List.any_eq_true]
          exact ⟨u, List.mem_append_left _ hu, by simpa using he⟩

theorem Succeeds.enriched (h : Succeeds env s a rs o ds data es visited) :
    List.Forall₂ (Enriched (es.map (·.decl))) (directives es) ds := by
  rw [List.forall₂_iff_get]
  have hl := (C05_order h.history h.expanded h.run).1
  refine ⟨hl.symm, ?_⟩
  intro i h1 h2
  simp only [List.get_eq_getElem]
  obtain ⟨pre, e, post, hes, he, hi⟩ := filterMap_at directiveOf es i _ (List.getElem?_eq_getElem h1)
  obtain ⟨dat, x, hinv, hx, ho⟩ := History.emitted h.history h.expanded h.run hes he
  obtain ⟨y1, hy1, htags, _⟩ := C02_tags h.history h.expanded h.run pre e post _ hes he
  obtain ⟨y2, hy2, hmetas, _⟩ := C03_metadata h.history h.expanded h.run pre e post _ hes he
  rw [ho] at hy1 hy2
  cases hy1
  cases hy2
  have hidx : (directives pre).length = i := hi
  rw [hidx, List.getElem?_eq_getElem h2] at ho
  injection ho with ho
  rw [ho]
  have hf := augment_fields hx
  obtain ⟨tags, ht1, ht2⟩ := augmentTags_prefix (directives es)[i].item.metadata.item.tags dat.tags [] (by simp)
  obtain ⟨kvs, hk1, hk2⟩ := augmentKeyValues_prefix (directives es)[i].item.metadata.item.keyValues dat.metas []
    _ (by simp) (by rw [List.append_nil]; exact hf.2.2.2.2.2)
  rw [List.append_nil] at ht1
  refine ⟨rfl, hf.1, hf.2.1, hf.2.2.1, hf.2.2.2.1, ⟨tags, by rw [← ht1]; exact hf.2.2.2.2.1, ?_⟩, ⟨kvs, hk1, ?_⟩⟩
  · intro t ht
    refine ⟨?_, ht2 t ht⟩
    have hm : t ∈ x.metadata.item.tags := by rw [hf.2.2.2.2.1, ht1]; simp [ht]
    rcases (htags t).mp hm with hm | ⟨_, hm⟩
    · exact absurd rfl (ht2 t ht t hm)
    · obtain ⟨q, e', r, hq, he', _⟩ := (C02_innermost t.item pre t).mp hm
      exact ⟨e'.decl, List.mem_map.mpr ⟨e', by rw [hes, hq]; simp, rfl⟩, he'⟩
  · intro kv hkv
    refine ⟨?_, hk2 kv hkv⟩
    have hm : kv ∈ x.metadata.item.keyValues := by rw [hk1]; simp [hkv]
    rcases (hmetas kv.1 kv.2).mp hm with hm | ⟨_, hm⟩
    · exact absurd rfl (hk2 kv hkv kv hm)
    · obtain ⟨q, e', r, hq, he', _⟩ := (C03_innermost kv.1.item pre _).mp hm
      exact ⟨e'.decl, List.mem_map.mpr ⟨e', by rw [hes, hq]; simp, rfl⟩, he'⟩

theorem Succeeds.directives_perm (h : Succeeds env s a rs o ds data es visited) (hwf : GlobsWF fs)
    (hs : ReadInSomeOrder fs env.tokens rootPath rootContent s) :
    (directives es).Perm (directivesAmong ((outputsOf s.contentIter rs).map (·.2)).flatten) := by
  have := (h.perm hwf hs).filterMap (fun d => match d.item with
    | .directive x => some (⟨x, d.span⟩ : Spanned Directive)
    | .pragma _ => none)
  rw [List.filterMap_map] at this
  unfold directivesAmong
  refine List.Perm.trans (List.Perm.of_eq ?_) this
  unfold directives
  refine List.filterMap_congr fun e _ => ?_
  unfold directiveOf
  dsimp only [Function.comp]
  cases e.decl.item <;> rfl

/-! ### Plugins, pushes and pops -/

theorem Succeeds.plugins (h : Succeeds env s a rs o ds data es visited) (hwf : GlobsWF fs)
    (hs : ReadInSomeOrder fs env.tokens rootPath rootContent s) :
    a.plugins.Perm (pluginsAmong ((outputsOf s.contentIter rs).map (·.2)).flatten) := by
  have := (h.perm hwf hs).filterMap (fun d => match d.item with
    | .pragma (.plugin p) => some p
    | _ => none)
  rw [List.filterMap_map] at this
  rw [h.result]
  dsimp only
  rw [(C37_run h.history h.expanded h.run).2]
  exact this

theorem runStack_count {α : Type} {f : Event → StackOp α} {isPush isPop : Event → Bool} (h : Tells f isPush isPop)
    (es : List Event) : (∀ pre e post, es = pre ++ e :: post → isPop e = true → runStack f [] pre ≠ []) →
    (runStack f [] es).length + es.countP isPop = es.countP isPush := by
  induction es using Props.snocInduction with
  | nil => intro _; rfl
  | append_singleton es e ih =>
    intro hno
    have ih := ih (fun pre x post hes => hno pre x (post ++ [e]) (by rw [hes]; simp))
    rw [runStack_append, countP_snoc, countP_snoc]
    have he := h e
    have hne := hno es e [] rfl
    rw [runStack_cons]
    cases hf : f e with
    | push a => rw [hf] at he; simp only [he.1, he.2, runStack, List.foldl_nil] at ih ⊢; simp; omega
    | pop =>
      rw [hf] at he
      have := List.length_pos_iff.mpr (hne he.2)
      simp only [he.1, he.2, runStack, List.foldl_nil, List.length_tail] at ih this ⊢
      simp; omega
    | keep => rw [hf] at he; simp only [he.1, he.2, runStack, List.foldl_nil] at ih ⊢; simp; omega

theorem Succeeds.reports (h : Succeeds env s a rs o ds data es visited) {pre post : List Event} {e : Event}
    (hes : es = pre ++ e :: post) : Spec.reports (env.pragmaEnv s) o pre e = [] := by
  have hrep := C06_reports h.history h.expanded h.run
  rw [h.errors_nil] at hrep
  have hrep := reports_nil [] hrep.symm pre e post hes
  rwa [List.nil_append] at hrep

theorem Succeeds.tags_balanced (h : Succeeds env s a rs o ds data es visited) (t : Str) :
    es.countP (pushesTag t) = es.countP (popsTag t) := by
  have hi := History.inv h.history h.expanded h.run
  have hopen : openTags t es = [] := by
    have := h.noReports
    unfold PragmaData.finalErrors at this
    simp only [List.append_eq_nil_iff, List.flatMap_eq_nil_iff] at this
    have htags : data.tags = [] := by
      cases ht : data.tags with
      | nil => rfl
      | cons x l => exact absurd (this.2 x (by rw [ht]; simp)) (by simp)
    rcases hi.tags.get t with ⟨_, hs⟩ | ⟨_, _, hm, _⟩
    · exact hs
    · rw [htags] at hm
      cases hm
  have := runStack_count (tagOp_tells t) es (by
    intro pre e post hes hp
    have hr := h.reports hes
    unfold popsTag at hp
    split at hp
    · rename_i x hx
      unfold Spec.reports at hr
      rw [hx] at hr
      dsimp only at hr
      rw [← openTags_eq]
      have : x.item = t := by simpa using hp
      subst this
      intro hn
      rw [if_pos hn] at hr
      cases hr
    · cases hp)
  rw [← openTags_eq, hopen] at this
  simpa using this.symm

theorem Succeeds.metas_balanced (h : Succeeds env s a rs o ds data es visited) (k : Str) :
    es.countP (pushesMeta k) = es.countP (popsMeta k) := by
  have hi := History.inv h.history h.expanded h.run
  have hopen : openMetas k es = [] := by
    have := h.noReports
    unfold PragmaData.finalErrors at this
    simp only [List.append_eq_nil_iff, List.map_eq_nil_iff] at this
    have hmetas : data.metas = [] := this.1.2
    rcases hi.metas.get k with ⟨_, hs⟩ | ⟨_, _, hm, _⟩
    · exact hs
    · rw [hmetas] at hm
      cases hm
  have := runStack_count (metaOp_tells k) es (by
    intro pre e post hes hp
    have hr := h.reports hes
    unfold popsMeta at hp
    split at hp
    · rename_i x hx
      unfold Spec.reports at hr
      rw [hx] at hr
      dsimp only at hr
      rw [← openMetas_eq]
      have : x.item = k := by simpa using hp
      subst this
      intro hn
      rw [if_pos hn] at hr
      cases hr
    · cases hp)
  rw [← openMetas_eq, hopen] at this
  simpa using this.symm

/-! ### Options -/

theorem mem_none {κ ν : Type} [DecidableEq κ] {m : List (κ × ν)} {k : κ} {v : ν} (h : AMap.get m k = none) :
    (k, v) ∉ m := by
  intro hm
  have : AMap.has m k = true := (AMap.has_iff m k).mpr ⟨_, hm, rfl⟩
  rw [AMap.has_eq_isSome, h] at this
  cases this

theorem mem_insert_none {κ ν : Type} [DecidableEq κ] {m : List (κ × ν)} {k : κ} {v : ν} (h : AMap.get m k = none)
    (e : κ × ν) : e ∈ AMap.insert m k v ↔ e ∈ m ∨ e = (k, v) := by
  have : AMap.has m k = false := by rw [AMap.has_eq_isSome, h]; rfl
  unfold AMap.insert
  rw [this]
  simp

theorem not_holds {o : Options} {st : Setting} (ho : keptSource o st = none) {at' : OptSource} {v : OptVariant}
    (hv : settingOf v = some st) : ¬ Holds o at' v := by
  intro hh
  cases v <;> simp only [settingOf, Option.some.injEq, reduceCtorEq] at hv <;> subst hv <;>
    simp only [keptSource, Option.map_eq_none_iff] at ho <;> unfold Holds at hh
  case inferredToleranceDefault => exact mem_none ho hh
  case documents => exact mem_none ho hh
  case operatingCurrency => exact mem_none ho hh
  all_goals rw [ho] at hh; cases hh

theorem sourced_inj {α : Type} {v w : α} {x y : OptSource} : sourced v x = sourced w y ↔ x = y ∧ v = w := by
  unfold sourced
  constructor
  · intro h
    injection h with h1 h2
    injection h1 with h3 h4
    exact ⟨h2, h3⟩
  · rintro ⟨rfl, rfl⟩; rfl

theorem holds_assimilate {o : Options} {opt : BOption}
    (ho : ∀ st, settingOf opt.variant = some st → keptSource o st = none) (at' : OptSource) {v : OptVariant}
    (hv : settingOf v ≠ none) : Holds (o.assimilate opt).1 at' v ↔ Holds o at' v ∨ opt = ⟨at', v⟩ := by
  obtain ⟨src, w⟩ := opt
  cases w
  case accountTypeName => cases v <;> first | exact absurd rfl hv | simp [Options.assimilate, Options.update, Holds]
  case longStringMaxlines => cases v <;> first | exact absurd rfl hv | simp [Options.assimilate, Options.update, Holds]
  case assimilated => cases v <;> first | exact absurd rfl hv | simp [Options.assimilate, Options.update, Holds]
  case ignored => cases v <;> first | exact absurd rfl hv | simp [Options.assimilate, Options.update, Holds]
  case inferredToleranceDefault c d =>
    have ho := ho _ rfl
    simp only [keptSource, Option.map_eq_none_iff] at ho
    cases v <;> first | exact absurd rfl hv | simp [Options.assimilate, Options.update, Holds]
    unfold updateHashmap
    rw [ho]
    dsimp only
    rw [mem_insert_none ho]
    simp only [Prod.mk.injEq]
    tauto
  case documents p =>
    have ho := ho _ rfl
    simp only [keptSource] at ho
    cases v <;> first | exact absurd rfl hv | simp [Options.assimilate, Options.update, Holds]
    unfold updateUnitHashmap
    rw [ho]
    dsimp only
    rw [mem_insert_none ho]
    simp only [Prod.mk.injEq]
    tauto
  case operatingCurrency p =>
    have ho := ho _ rfl
    simp only [keptSource] at ho
    cases v <;> first | exact absurd rfl hv | simp [Options.assimilate, Options.update, Holds]
    unfold updateUnitHashmap
    rw [ho]
    dsimp only
    rw [mem_insert_none ho]
    simp only [Prod.mk.injEq]
    tauto
  all_goals
    have ho := ho _ rfl
    simp only [keptSource, Option.map_eq_none_iff] at ho
    cases v <;> first | exact absurd rfl hv | simp [Options.assimilate, Options.update, Holds, ho, updateOptional, sourced_inj]

/-- If no setting is given twice, all options hold. -/
theorem holds_after {p : ParserOptions} {H : List BOption} {at' : OptSource} {v : OptVariant}
    (hv : settingOf v ≠ none) : (∀ pre opt post st, H = pre ++ opt :: post → settingOf opt.variant = some st →
      firstFor pre st = none) → (Holds (optionsAfter p H) at' v ↔ ⟨at', v⟩ ∈ H) := by
  induction H using Props.snocInduction with
  | nil =>
    intro _
    obtain ⟨st, hst⟩ := Option.ne_none_iff_exists'.mp hv
    have := not_holds (o := optionsAfter p []) (at' := at') (by cases st <;> rfl) hst
    simp [this]
  | append_singleton H opt ih =>
    intro hd
    have ih := ih (fun pre x post st h => hd pre x (post ++ [opt]) st (by rw [h]; simp))
    rw [optionsAfter_append, holds_assimilate _ at' hv, ih, List.mem_append, List.mem_singleton]
    · rw [eq_comm (a := opt)]
    · intro st hst
      rw [keptSource_after, hd H opt [] st rfl hst]
      rfl

theorem Succeeds.once (h : Succeeds env s a rs o ds data es visited) {pre post : List BOption} {opt : BOption}
    {st : Setting} (hH : optionHistory es = pre ++ opt :: post) (hst : settingOf opt.variant = some st) :
    firstFor pre st = none := by
  unfold optionHistory at hH
  obtain ⟨e1, e2, h1, h2, h3⟩ := List.filterMap_eq_append_iff.mp hH
  obtain ⟨l1, e, l2, h4, h5, h6, h7⟩ := List.filterMap_eq_cons_iff.mp h3
  have hr := h.reports (pre := e1 ++ l1) (e := e) (post := l2) (by rw [h1, h4]; simp)
  have hpre : optionHistory (e1 ++ l1) = pre := by
    unfold optionHistory
    rw [List.filterMap_append, h2, List.filterMap_eq_nil_iff.mpr h5, List.append_nil]
  have he : e.decl.item = .pragma (.option opt) := by
    split at h6
    · rename_i o' ho'
      rw [ho']
      cases h6
      rfl
    · cases h6
  unfold Spec.reports at hr
  rw [he] at hr
  dsimp only at hr
  rw [hpre, report_assimilate, hst, Option.bind_some, keptSource_after] at hr
  cases hf : firstFor pre st with
  | none => rfl
  | some f => rw [hf] at hr; simp at hr

omit [DecOps] in
theorem assimilate_kept {o o' : ParserOptions} {opt opt' : BOption} (h : o.assimilate opt = (.ok opt', o')) :
    opt'.source = opt.source ∧ ∀ v, settingOf v ≠ none → (opt'.variant = v ↔ opt.variant = v) := by
  obtain ⟨src, w⟩ := opt
  unfold ParserOptions.assimilate at h
  cases w
  case accountTypeName t name =>
    dsimp only at h
    injection h with h1 h2
    cases hu : (o.accountTypeNames.update t name).1 with
    | ok u =>
      rw [hu] at h1
      cases h1
      refine ⟨rfl, fun v hv => ?_⟩
      dsimp only
      constructor
      · rintro rfl; exact absurd rfl hv
      · rintro rfl; exact absurd rfl hv
    | err e => rw [hu] at h1; cases h1
    | panic => rw [hu] at h1; cases h1
  case longStringMaxlines n =>
    cases h
    refine ⟨rfl, fun v hv => ?_⟩
    dsimp only
    constructor
    · rintro rfl; exact absurd rfl hv
    · rintro rfl; exact absurd rfl hv
  all_goals cases h; exact ⟨rfl, fun v _ => Iff.rfl⟩

/-- The options among the declarations of a file are those written. -/
theorem option_written {cfg : ParseCfg} {o o' : ParserOptions} {toks : List Ranged} {ds : List (Spanned Declaration)}
    {ws : List Report} (h : FileP cfg o toks ds o' [] ws) {at' : OptSource} {v : OptVariant} (hv : settingOf v ≠ none) :
    Among (.option ⟨at', v⟩) ds ↔ ∃ name value, WritesOption toks cfg.source name value at' ∧
      Decodes (okOf cfg.decimal) cfg.path name value v := by
  constructor
  · rintro ⟨d, hd, hdi⟩
    obtain ⟨before, run, after, o1, o2, es1, htoks, _, hes, hdecl, _⟩ := file_mem h hd
    obtain ⟨item, span⟩ := d
    dsimp only at hdi
    subst hdi
    have hes : es1 = [] := by
      obtain ⟨l, r, he⟩ := hes
      simp only [List.append_eq_nil_iff] at he
      exact he.1.2
    subst hes
    cases hdecl with
    | pragma h1 h2 h3 =>
      cases h1 with
      | option k1 k2 k3 k4 =>
        obtain ⟨x, y, hi⟩ := k1
        obtain ⟨a, b, rfl, hs1⟩ := at_word k2.1 k2.2
        obtain ⟨c, d, rfl, hs2⟩ := at_word k3.1 k3.2
        cases k4 with
        | accepted k5 k6 =>
          obtain ⟨hsrc, hvar⟩ := assimilate_kept k6
          obtain ⟨w, k7, rfl⟩ := (map_ok _ _ _).mp k5
          have hw := (hvar v hv).mp rfl
          dsimp only at hsrc hw
          subst hw hsrc
          refine ⟨_, _, ⟨before, _, x, y, a, b, c, d, by rw [htoks, hi], ?_⟩, (C46_decodes _ _ _ _ _).mp k7⟩
          rw [hs1, hs2]
  · rintro ⟨name, value, ⟨before, after, x, y, a, b, c, d, rfl, rfl⟩, hdec⟩
    obtain ⟨o1, o2, j, es', p, span, h1, h2, h3⟩ := keyword_pragma h (by simp [Inner])
    have hes : es' = [] := List.eq_nil_iff_forall_not_mem.mpr (fun e he => by cases h3 e he)
    subst hes
    cases h1 with
    | pushtag h => obtain ⟨⟨j, ⟨_, _, h⟩, _⟩, _⟩ := h; cases h
    | poptag h => obtain ⟨⟨j, ⟨_, _, h⟩, _⟩, _⟩ := h; cases h
    | popmeta h => obtain ⟨⟨j, ⟨_, _, h⟩, _⟩, _⟩ := h; cases h
    | pushmeta h => obtain ⟨_, _, h⟩ := h; cases h
    | «include» h => obtain ⟨_, _, h⟩ := h; cases h
    | plugin h => obtain ⟨_, _, h⟩ := h; cases h
    | option k1 k2 k3 k4 =>
      obtain ⟨x', y', hi⟩ := k1
      obtain ⟨a', b', rfl, hs1⟩ := at_word k2.1 k2.2
      obtain ⟨c', d', rfl, hs2⟩ := at_word k3.1 k3.2
      injection hi with hi1 hi
      injection hi with hi2 hi
      injection hi with hi3 hi
      injection hi2 with hi21 hi22 hi23
      injection hi3 with hi31 hi32 hi33
      injection hi21 with hi21
      injection hi31 with hi31
      cases k4 with
      | accepted k5 k6 =>
        obtain ⟨hsrc, hvar⟩ := assimilate_kept k6
        obtain ⟨w, k7, rfl⟩ := (map_ok _ _ _).mp k5
        rw [← hi21, ← hi31, (C46_decodes _ _ _ _ _).mpr hdec] at k7
        cases k7
        have hw := (hvar v hv).mpr rfl
        have key : ∀ p : BOption, p.variant = v → p.source = ⟨⟨cfg.source, a, b⟩, ⟨cfg.source, c, d⟩⟩ →
            Declaration.pragma (.option p) = .pragma (.option ⟨⟨⟨cfg.source, a, b⟩, ⟨cfg.source, c, d⟩⟩, v⟩) := by
          rintro ⟨src, var⟩ rfl hh
          dsimp only at hh
          rw [hh]
        refine ⟨_, h2, key _ hw ?_⟩
        rw [hsrc]
        dsimp only
        rw [hs1, hs2, hi22, hi23, hi32, hi33]

theorem Succeeds.written_iff (h : Succeeds env s a rs o ds data es visited) (hwf : GlobsWF fs)
    (hs : ReadInSomeOrder fs env.tokens rootPath rootContent s) {at' : OptSource} {v : OptVariant} (hv : settingOf v ≠ none) :
    ⟨at', v⟩ ∈ optionHistory es ↔ ∃ id path text name value, IsSource s id path text ∧
      WritesOption (env.tokens text) id name value at' ∧ Decodes (okOf env.decimal) path name value v := by
  have hmem : ⟨at', v⟩ ∈ optionHistory es ↔
      Among (.option ⟨at', v⟩) ((outputsOf s.contentIter rs).map (·.2)).flatten := by
    unfold optionHistory Among
    rw [List.mem_filterMap]
    constructor
    · rintro ⟨e, he, hx⟩
      refine ⟨e.decl, (h.perm hwf hs).mem_iff.mp (List.mem_map.mpr ⟨e, he, rfl⟩), ?_⟩
      split at hx
      · rename_i y hy
        rw [hy]
        cases hx
        rfl
      · cases hx
    · rintro ⟨d, hd, hdi⟩
      obtain ⟨e, he, rfl⟩ := List.mem_map.mp ((h.perm hwf hs).mem_iff.mpr hd)
      exact ⟨e, he, by rw [hdi]⟩
  rw [hmem]
  have hfiles := filesP_mem h.filesP
  constructor
  · rintro ⟨d, hd, hdi⟩
    obtain ⟨ds', hds, hd⟩ := List.mem_flatten.mp hd
    obtain ⟨⟨id, path, text⟩, he, o1, o2, ws, hf⟩ := hfiles.2 ds' hds
    obtain ⟨name, value, h1, h2⟩ := (option_written hf hv).mp ⟨d, hd, hdi⟩
    exact ⟨id, path, text, name, value, mem_contentIter.mp he, h1, h2⟩
  · rintro ⟨id, path, text, name, value, hsrc, h1, h2⟩
    obtain ⟨ds', hds, o1, o2, ws, hf⟩ := hfiles.1 _ (mem_contentIter.mpr hsrc)
    obtain ⟨d, hd, hdi⟩ := (option_written hf hv).mpr ⟨name, value, h1, h2⟩
    exact ⟨d, List.mem_flatten.mpr ⟨ds', hds, hd⟩, hdi⟩

theorem Succeeds.options (h : Succeeds env s a rs o ds data es visited) (hwf : GlobsWF fs)
    (hs : ReadInSomeOrder fs env.tokens rootPath rootContent s) {at' : OptSource} {v : OptVariant} (hv : settingOf v ≠ none) :
    Holds a.options at' v ↔ ∃ id path text name value, IsSource s id path text ∧
      WritesOption (env.tokens text) id name value at' ∧ Decodes (okOf env.decimal) path name value v := by
  rw [← h.written_iff hwf hs hv, h.result]
  dsimp only
  rw [(C37_run h.history h.expanded h.run).1, holds_after hv (fun pre opt post st h1 h2 => h.once h1 h2)]

/-- No setting is given twice. -/
theorem Succeeds.same_option (h : Succeeds env s a rs o ds data es visited) {x y : BOption} {st : Setting}
    (hx : x ∈ optionHistory es) (hy : y ∈ optionHistory es) (hx' : settingOf x.variant = some st)
    (hy' : settingOf y.variant = some st) : x = y := by
  have key : ∀ pre x mid y post, optionHistory es = pre ++ x :: (mid ++ y :: post) → settingOf x.variant = some st →
      settingOf y.variant = some st → False := by
    intro pre x mid y post hH hx hy
    have hf := h.once (pre := pre ++ x :: mid) (opt := y) (post := post) (by rw [hH]; simp) hy
    unfold firstFor at hf
    rw [List.find?_eq_none] at hf
    exact hf x (by simp) (by simpa using hx)
  obtain ⟨pre, post, hH⟩ := List.append_of_mem hx
  rw [hH] at hy
  rcases List.mem_append.mp hy with hy | hy
  · obtain ⟨p1, p2, rfl⟩ := List.append_of_mem hy
    exact (key p1 y p2 x post (by rw [hH]; simp) hy' hx').elim
  · rcases List.mem_cons.mp hy with rfl | hy
    · rfl
    · obtain ⟨p1, p2, rfl⟩ := List.append_of_mem hy
      exact (key pre x p1 y p2 hH hx' hy').elim

theorem optionsAfter_parserOptions (p : ParserOptions) (H : List BOption) : (optionsAfter p H).parserOptions = p := by
  induction H using Props.snocInduction with
  | nil => rfl
  | append_singleton H opt ih =>
    rw [optionsAfter_append]
    obtain ⟨src, w⟩ := opt
    cases w <;> exact ih

theorem Succeeds.parserOptions (h : Succeeds env s a rs o ds data es visited) : data.options.parserOptions = o := by
  rw [(C37_run h.history h.expanded h.run).1]
  exact optionsAfter_parserOptions _ _

theorem _root_.Lima.Spec.Enriched.mono {ds ds' : List (Spanned Declaration)} {w d : Spanned Directive}
    (h : Enriched ds w d) (hs : ∀ x ∈ ds, x ∈ ds') : Enriched ds' w d := by
  obtain ⟨h1, h2, h3, h4, h5, ⟨m, h6, h7⟩, ⟨n, h8, h9⟩⟩ := h
  refine ⟨h1, h2, h3, h4, h5, ⟨m, h6, fun t ht => ⟨?_, (h7 t ht).2⟩⟩, ⟨n, h8, fun t ht => ⟨?_, (h9 t ht).2⟩⟩⟩
  · obtain ⟨x, hx, hi⟩ := (h7 t ht).1
    exact ⟨x, hs x hx, hi⟩
  · obtain ⟨x, hx, hi⟩ := (h9 t ht).1
    exact ⟨x, hs x hx, hi⟩

theorem _root_.Lima.Spec.Enriched.eq {ds : List (Spanned Declaration)} {w d : Spanned Directive} (h : Enriched ds w d)
    (hs : ∀ x ∈ ds, (∀ t, x.item ≠ .pragma (.pushtag t)) ∧ ∀ kv, x.item ≠ .pragma (.pushmeta kv)) : w = d := by
  obtain ⟨h1, h2, h3, h4, h5, ⟨m, h6, h7⟩, ⟨n, h8, h9⟩⟩ := h
  have hm : m = [] := by
    refine List.eq_nil_iff_forall_not_mem.mpr fun t ht => ?_
    obtain ⟨x, hx, hi⟩ := (h7 t ht).1
    exact (hs x hx).1 _ hi
  have hn : n = [] := by
    refine List.eq_nil_iff_forall_not_mem.mpr fun t ht => ?_
    obtain ⟨x, hx, hi⟩ := (h9 t ht).1
    exact (hs x hx).2 _ hi
  rw [hm, List.append_nil] at h6
  rw [hn, List.append_nil] at h8
  obtain ⟨⟨date, ⟨⟨kvs, tags, links⟩, ms⟩, variant⟩, span⟩ := w
  obtain ⟨⟨date', ⟨⟨kvs', tags', links'⟩, ms'⟩, variant'⟩, span'⟩ := d
  dsimp only at *
  subst h1 h2 h3 h4 h5 h6 h8
  rfl

/-- A push among the declarations of a file is one among its tokens. -/
theorem push_token {cfg : ParseCfg} {o o' : ParserOptions} {toks : List Ranged} {ds : List (Spanned Declaration)}
    {es : List PErr} {ws : List Report} (h : FileP cfg o toks ds o' es ws) {d : Spanned Declaration} (hd : d ∈ ds) :
    (∀ t, d.item = .pragma (.pushtag t) → ∃ r ∈ toks, r.tok = .pushtag) ∧
    ∀ kv, d.item = .pragma (.pushmeta kv) → ∃ r ∈ toks, r.tok = .pushmeta := by
  obtain ⟨before, run, after, o1, o2, es1, htoks, _, _, hdecl, _⟩ := file_mem h hd
  obtain ⟨item, span⟩ := d
  constructor
  · rintro t rfl
    cases hdecl with
    | pragma h1 h2 h3 =>
      cases h1 with
      | pushtag h =>
        obtain ⟨⟨j, ⟨x, y, h⟩, _⟩, _⟩ := h
        exact ⟨⟨.pushtag, x, y⟩, by rw [htoks, h]; simp, rfl⟩
  · rintro t rfl
    cases hdecl with
    | pragma h1 h2 h3 =>
      cases h1 with
      | pushmeta h =>
        obtain ⟨x, y, h⟩ := h
        exact ⟨⟨.pushmeta, x, y⟩, by rw [htoks, h]; simp, rfl⟩

/-! ### Options on which parsing depends -/

/-- The last option with a name. -/
def lastGiven (all : List (Str × Str × OptSource)) (name : Str) : Option (Str × OptSource) :=
  (all.reverse.find? (fun x => decide (x.1 = name))).map (·.2)

theorem lastGiven_snoc (all : List (Str × Str × OptSource)) (x : Str × Str × OptSource) (name : Str) :
    lastGiven (all ++ [x]) name = if x.1 = name then some x.2 else lastGiven all name := by
  unfold lastGiven
  rw [List.reverse_append, List.reverse_singleton, List.singleton_append, List.find?_cons]
  by_cases h : x.1 = name <;> simp [h]

theorem lastGiven_same (all : List (Str × Str × OptSource)) (x : Str × OptSource) (name : Str) :
    lastGiven (all ++ [(name, x)]) name = some x := by
  rw [lastGiven_snoc, if_pos rfl]

theorem lastGiven_iff {all : List (Str × Str × OptSource)} {name value : Str} {at' : OptSource} :
    lastGiven all name = some (value, at') ↔ GivenLast all name value at' := by
  induction all using Props.snocInduction with
  | nil =>
    constructor
    · intro h; cases h
    · rintro ⟨b, c, h, _⟩; simp at h
  | append_singleton all x ih =>
    rw [lastGiven_snoc]
    obtain ⟨n, v, p⟩ := x
    dsimp only
    by_cases h : n = name
    · subst h
      rw [if_pos rfl]
      constructor
      · intro h; cases h; exact ⟨all, [], rfl, by simp⟩
      · rintro ⟨b, c, h, hc⟩
        rcases List.eq_nil_or_concat c with rfl | ⟨c', y, rfl⟩
        · have := List.append_inj_right' h rfl
          cases this; rfl
        · have h' : all ++ [(n, v, p)] = (b ++ (n, value, at') :: c') ++ [y] := by
            rw [h]; simp
          have := List.append_inj_right' h' rfl
          cases this
          exact absurd rfl (hc (n, v, p) (by simp))
    · rw [if_neg h, ih]
      constructor
      · rintro ⟨b, c, rfl, hc⟩
        refine ⟨b, c ++ [(n, v, p)], by simp, fun x hx => ?_⟩
        rcases List.mem_append.mp hx with hx | hx
        · exact hc x hx
        · simp only [List.mem_singleton] at hx
          subst hx
          exact h
      · rintro ⟨b, c, h1, hc⟩
        rcases List.eq_nil_or_concat c with rfl | ⟨c', y, rfl⟩
        · have := List.append_inj_right' h1 rfl
          cases this
          exact absurd rfl h
        · have h' : all ++ [(n, v, p)] = (b ++ (name, value, at') :: c') ++ [y] := by
            rw [h1]; simp
          exact ⟨b, c', List.append_inj_left' h' rfl, fun x hx => hc x (by simp [hx])⟩

theorem lastGiven_none {all : List (Str × Str × OptSource)} {name : Str} :
    lastGiven all name = none ↔ ∀ x ∈ all, x.1 ≠ name := by
  unfold lastGiven
  simp

/-- The options on which parsing depends are those given last. -/
structure LastInv (all : List (Str × Str × OptSource)) (o : ParserOptions) : Prop where
  maxlines : match lastGiven all (str "long_string_maxlines") with
    | none => o.longStringMaxlines = none
    | some (v, p) => ∃ n, UsizeText v n ∧ o.longStringMaxlines = some (sourced n p)
  names : ∃ f, Refines o.accountTypeNames f ∧ ∀ t, f t = match lastGiven all (nameOption t) with
    | none => Naming.initial t
    | some (v, _) => v

theorem lastInv_default : LastInv [] ParserOptions.default := ⟨rfl, _, refines_default, fun _ => rfl⟩

theorem nameOption_ne (t : AccountType) : nameOption t ≠ str "long_string_maxlines" := by cases t <;> decide

/-- Not the name of an option on which parsing depends. -/
def Passive (name : Str) : Bool :=
  !([str "name_assets", str "name_liabilities", str "name_equity", str "name_income", str "name_expenses",
    str "long_string_maxlines"].contains name)

theorem passive_ne {name : Str} (h : Passive name = true) :
    (∀ t, name ≠ nameOption t) ∧ name ≠ str "long_string_maxlines" := by
  constructor
  · rintro t rfl; revert h; cases t <;> decide
  · rintro rfl; revert h; decide

theorem lastInv_option {all : List (Str × Str × OptSource)} {o o' : ParserOptions} (h : LastInv all o)
    {decimal : Str → Option Dec} {path : Option Path} {name value : Str} {p : OptSource} {v : OptVariant} {opt : BOption}
    (hd : Decodes decimal path name value v) (ha : o.assimilate ⟨p, v⟩ = (.ok opt, o')) :
    LastInv (all ++ [(name, value, p)]) o' := by
  obtain ⟨h1, f, h2, h3⟩ := h
  have hrename : ∀ t, v = .accountTypeName t value → name = nameOption t → LastInv (all ++ [(name, value, p)]) o' := by
    rintro t rfl rfl
    unfold ParserOptions.assimilate at ha
    dsimp only at ha
    injection ha with ha1 ha2
    subst ha2
    obtain ⟨hr, hc⟩ := refines_update h2 t value
    refine ⟨?_, _, hr, fun t' => ?_⟩
    · rw [lastGiven_snoc, if_neg (nameOption_ne t)]
      exact h1
    · rw [lastGiven_snoc]
      dsimp only
      rcases hc with ⟨_, hc⟩ | ⟨t', hc, _⟩
      · unfold Naming.rename
        rw [if_neg hc]
        by_cases ht : t' = t
        · subst ht; rw [if_pos rfl, if_pos rfl]
        · rw [if_neg ht, if_neg (by revert ht; cases t <;> cases t' <;> decide)]
          exact h3 t'
      · rw [hc] at ha1
        cases ha1
  have hmax : ∀ n, v = .longStringMaxlines n → UsizeText value n → name = str "long_string_maxlines" →
      LastInv (all ++ [(name, value, p)]) o' := by
    rintro n rfl hn hname
    cases ha
    refine ⟨?_, f, h2, fun t => ?_⟩
    · rw [← hname, lastGiven_same]
      exact ⟨n, hn, rfl⟩
    · rw [lastGiven_snoc, if_neg (by rw [hname]; exact (nameOption_ne t).symm)]
      exact h3 t
  have hother : Passive name = true → o' = o → LastInv (all ++ [(name, value, p)]) o' := by
    rintro hn rfl
    obtain ⟨hn1, hn2⟩ := passive_ne hn
    refine ⟨?_, f, h2, fun t => ?_⟩
    · rw [lastGiven_snoc, if_neg hn2]; exact h1
    · rw [lastGiven_snoc, if_neg (hn1 t)]; exact h3 t
  cases hd
  case nameAssets => exact hrename _ rfl rfl
  case nameLiabilities => exact hrename _ rfl rfl
  case nameEquity => exact hrename _ rfl rfl
  case nameIncome => exact hrename _ rfl rfl
  case nameExpenses => exact hrename _ rfl rfl
  case longStringMaxlines n hn => exact hmax n rfl hn rfl
  all_goals exact hother (by decide +kernel) (congrArg Prod.snd ha).symm

theorem writtenOptions_skip (id : Nat) (run r : List Ranged) (h : ∀ t ∈ run, t.tok ≠ .option) :
    writtenOptions id (run ++ r) = writtenOptions id r := by
  induction run with
  | nil => rfl
  | cons t run ih =>
    rw [List.cons_append, writtenOptions]
    · exact ih (fun t ht => h t (List.mem_cons_of_mem _ ht))
    · intro x y n a b v c d r' h1 h2
      exact absurd (by rw [h1]) (h t List.mem_cons_self)

theorem lastInv_file {cfg : ParseCfg} {o o' : ParserOptions} {toks : List Ranged} {ds : List (Spanned Declaration)}
    {es : List PErr} {ws : List Report} (h : FileP cfg o toks ds o' es ws) : es = [] →
    ∀ all, LastInv all o → LastInv (all ++ writtenOptions cfg.source toks) o' := by
  induction h with
  | nil => intro _ all hl; simpa [writtenOptions] using hl
  | @cons o o' o'' run r d ds es es' ws' h _ ih =>
    intro he all hl
    rw [List.append_eq_nil_iff] at he
    obtain ⟨rfl, rfl⟩ := he
    have ih := ih rfl
    have good : Good (run ++ r) r → writtenOptions cfg.source (run ++ r) = writtenOptions cfg.source r := by
      rintro ⟨run', h1, h2⟩
      rw [List.append_cancel_right_eq] at h1
      subst h1
      exact writtenOptions_skip _ _ _ (fun t ht => (h2 t ht).2.2.1)
    have led : ∀ k j, Word k (run ++ r) j → Good j r → k ≠ .option →
        writtenOptions cfg.source (run ++ r) = writtenOptions cfg.source r := by
      rintro k j ⟨x, y, hw⟩ ⟨run', h1, h2⟩ hk
      rw [hw, h1, ← List.cons_append]
      refine writtenOptions_skip _ _ _ (fun t ht => ?_)
      rcases List.mem_cons.mp ht with rfl | ht
      · exact hk
      · exact (h2 t ht).2.2.1
    cases h with
    | directive h _ =>
      rw [good (good_directive h)]
      exact ih all hl
    | pragma h1 h2 h3 =>
      cases h1 with
      | pushtag h =>
        obtain ⟨⟨j, k1, k2⟩, _⟩ := h
        rw [led _ _ k1 ((good_tag k2).trans (good_eol h2)) (by simp)]
        exact ih all hl
      | poptag h =>
        obtain ⟨⟨j, k1, k2⟩, _⟩ := h
        rw [led _ _ k1 ((good_tag k2).trans (good_eol h2)) (by simp)]
        exact ih all hl
      | pushmeta k1 k2 =>
        rw [led _ _ k1 ((good_keyValue k2).trans (good_eol h2)) (by simp)]
        exact ih all hl
      | popmeta h =>
        obtain ⟨⟨j, k1, k, k2, k3⟩, _⟩ := h
        rw [led _ _ k1 ((good_key k2).trans ((Good.word k3 (by simp [Inner, Understood])).trans (good_eol h2))) (by simp)]
        exact ih all hl
      | «include» k1 k2 =>
        rw [led _ _ k1 ((good_string k2.1).trans (good_eol h2)) (by simp)]
        exact ih all hl
      | plugin k1 k2 k3 =>
        rw [led _ _ k1 ((good_string k2.1).trans ((good_maybe (fun _ _ _ h => good_string h.1) k3).trans (good_eol h2))) (by simp)]
        exact ih all hl
      | option k1 k2 k3 k4 =>
        obtain ⟨x, y, hi⟩ := k1
        obtain ⟨a, b, rfl, hs1⟩ := at_word k2.1 k2.2
        obtain ⟨c, d, rfl, hs2⟩ := at_word k3.1 k3.2
        obtain ⟨run', h4, h5⟩ := good_eol h2
        rw [hi, writtenOptions, h4, writtenOptions_skip _ _ _ (fun t ht => (h5 t ht).2.2.1)]
        cases k4 with
        | accepted k5 k6 =>
          obtain ⟨w, k7, rfl⟩ := (map_ok _ _ _).mp k5
          rw [hs1, hs2] at k6
          have := ih _ (lastInv_option hl ((C46_decodes _ _ _ _ _).mp k7) k6)
          rwa [List.append_assoc, List.singleton_append] at this

theorem lastInv_files {o o' : ParserOptions} {es : List (Nat × Option Path × Str)}
    {dss : List (List (Spanned Declaration))} {ws : List Report} (h : FilesP env o es dss o' ws) :
    ∀ all, LastInv all o → LastInv (all ++ es.flatMap (fun e => writtenOptions e.1 (env.tokens e.2.2))) o' := by
  induction h with
  | nil => intro all hl; simpa using hl
  | cons h _ ih =>
    intro all hl
    have := ih _ (lastInv_file h rfl all hl)
    rwa [List.append_assoc] at this

end

end Lima
