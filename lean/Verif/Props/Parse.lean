import Verif.Lemmas.WholeParse
import Verif.Lemmas.ReadOutcome
import Verif.Props.Grammar
import Verif.Props.Order

/-!
# Parsing all sources (C07, C40, C41, and C01, C32, C47 for a whole parse)

`parseSources env s` is `BeancountParser::new(&sources).parse()`; the sources `s` are those read from the file
system, with the included files in any order.
-/

namespace Lima.Props
open Lima Lima.Spec Grammar

section
variable [Unicode] [DecOps] {fs : FileSystem} {env : ParseEnv} {rootPath : Option Path} {rootContent : Str}
  {s : Sources} {rs : List FileResult} {o : ParserOptions}

omit [Unicode] [DecOps] in
theorem read_in_order (hwf : GlobsWF fs) (hs : ReadInSomeOrder fs env.tokens rootPath rootContent s) :
    Complete env.tokens s := by
  obtain ⟨c, hc, rfl⟩ := hs
  exact (read_complete hwf).perm hc

/-! ### C07 -/

/-- C07: whatever the files contain, an `include` among the declarations of a file has been expanded while
reading. -/
theorem C07_include_expanded (hwf : GlobsWF fs) (hs : ReadInSomeOrder fs env.tokens rootPath rootContent s)
    (h : InOrder env ParserOptions.default s.contentIter rs o) {source : Nat × Option Path × Str} {res : FileResult}
    (hm : (source, res) ∈ s.contentIter.zip rs) {ds : List (Spanned Declaration)} (hd : res.declarations = some ds)
    {d : Spanned Declaration} (hmem : d ∈ ds) {g : Spanned Str} (hg : d.item = .pragma (.include g)) :
    AMap.get s.globs (resolveIncludedPath source.2.1 (Path.ofStr g.item)) ≠ none := by
  obtain ⟨he, o1, hf⟩ := inOrder_mem h hm
  exact (read_in_order hwf hs).expanded source he g.item (parseFile_include hf hd hmem hg)

/-- C07: so processing the pragmas does not panic. -/
theorem C07_processing_never_panics (hwf : GlobsWF fs) (hs : ReadInSomeOrder fs env.tokens rootPath rootContent s)
    (h : InOrder env ParserOptions.default s.contentIter rs o) :
    processPragmas (env.pragmaEnv s) s.rootPath (outputsOf s.contentIter rs) (Options.new o) ≠ .panic := by
  obtain ⟨_, _, hp, _⟩ := parseSources_ok (read_in_order hwf hs) h
  rw [hp]
  intro h
  cases h

/-- C07: a parse panics only if parsing one of the files by itself does. -/
theorem C07_panics_only_in_files (hwf : GlobsWF fs) (hs : ReadInSomeOrder fs env.tokens rootPath rootContent s) :
    parseSources env s = .panic ↔ ¬ ∃ rs o, InOrder env ParserOptions.default s.contentIter rs o :=
  parseSources_panic (read_in_order hwf hs)

omit [Unicode] in
theorem inOrder_calm [Unicode] {es : List (Nat × Option Path × Str)} {o : ParserOptions} (ho : AllNamed o)
    (h : ∀ e ∈ es, ¬ MayPanic (env.tokens e.2.2)) : ∃ rs o', InOrder env o es rs o' := by
  induction es generalizing o with
  | nil => exact ⟨[], o, .nil o⟩
  | cons e es ih =>
    obtain ⟨id, path, text⟩ := e
    obtain ⟨res, h1, h2⟩ := parseFile_calm ⟨id, path, env.emptySpan id, env.decimal⟩ [] (h _ List.mem_cons_self) ho
    obtain ⟨rs, o', h3⟩ := ih h2 (fun e he => h e (List.mem_cons_of_mem _ he))
    exact ⟨res :: rs, o', .cons _ _ _ _ _ _ _ _ h1 h3⟩

/-- C47: a parse panics only if one of the files may make it, by its arithmetic or by a currency in an option. -/
theorem C47_whole_parse (hwf : GlobsWF fs) (hs : ReadInSomeOrder fs env.tokens rootPath rootContent s)
    (h : parseSources env s = .panic) : ∃ id path text, IsSource s id path text ∧ MayPanic (env.tokens text) := by
  rw [C07_panics_only_in_files hwf hs] at h
  refine Classical.byContradiction fun hn => h (inOrder_calm rfl ?_)
  rintro ⟨id, path, text⟩ he hp
  exact hn ⟨id, path, text, mem_contentIter.mp he, hp⟩

/-! ### C41 -/

/-- C41: a parse succeeds exactly when no file, and no pragma or option, is reported as an error. -/
theorem C41_success_iff (hwf : GlobsWF fs) (hs : ReadInSomeOrder fs env.tokens rootPath rootContent s) :
    (∃ a, parseSources env s = .ok a) ↔
      ∃ rs o ds data, InOrder env ParserOptions.default s.contentIter rs o ∧ (∀ res ∈ rs, res.errors = []) ∧
        processPragmas (env.pragmaEnv s) s.rootPath (outputsOf s.contentIter rs) (Options.new o) = .ok (ds, data) ∧
        data.finalErrors = [] := by
  have hc := read_in_order hwf hs
  have key : ∀ rs o, InOrder env ParserOptions.default s.contentIter rs o →
      (faultsOf s.contentIter rs = [] ↔ ∀ res ∈ rs, res.errors = []) := by
    intro rs o h
    unfold faultsOf
    rw [List.flatMap_eq_nil_iff]
    constructor
    · intro hf res hr
      obtain ⟨i, hi, rfl⟩ := List.getElem_of_mem hr
      have hl := inOrder_length h
      have := hf (s.contentIter[i]'(by omega), rs[i]) (by
        have := List.getElem_mem (l := s.contentIter.zip rs) (n := i) (by rw [List.length_zip]; omega)
        rwa [List.getElem_zip] at this)
      simpa using this
    · rintro hf ⟨e, res⟩ hx
      rw [hf res (List.of_mem_zip hx).2]
      rfl
  constructor
  · rintro ⟨a, ha⟩
    have hn : ¬ parseSources env s = .panic := by rw [ha]; intro h; cases h
    rw [C07_panics_only_in_files hwf hs, Classical.not_not] at hn
    obtain ⟨rs, o, h⟩ := hn
    obtain ⟨ds, data, hp, hr⟩ := parseSources_ok hc h
    rw [ha] at hr
    split at hr
    · rename_i hh
      exact ⟨rs, o, ds, data, h, (key rs o h).mp hh.1, hp, hh.2⟩
    · cases hr
  · rintro ⟨rs, o, ds, data, h, h1, h2, h3⟩
    obtain ⟨ds', data', hp, hr⟩ := parseSources_ok hc h
    rw [h2] at hp
    cases hp
    rw [if_pos ⟨(key rs o h).mpr h1, h3⟩] at hr
    exact ⟨_, hr⟩

/-- C41: in a success, the directives are those in the files, sorted; the options and the plugins are those set
in the files; and all warnings are returned. -/
theorem C41_success (hwf : GlobsWF fs) (hs : ReadInSomeOrder fs env.tokens rootPath rootContent s) {a : ParseSuccess}
    (ha : parseSources env s = .ok a) :
    ∃ rs o ds data, InOrder env ParserOptions.default s.contentIter rs o ∧
      processPragmas (env.pragmaEnv s) s.rootPath (outputsOf s.contentIter rs) (Options.new o) = .ok (ds, data) ∧
      a.directives = sortDirectives ds ∧ a.options = data.options ∧ a.plugins = data.plugins ∧
      a.warnings = rs.flatMap (·.warns) := by
  have hn : ¬ parseSources env s = .panic := by rw [ha]; intro h; cases h
  rw [C07_panics_only_in_files hwf hs, Classical.not_not] at hn
  obtain ⟨rs, o, h⟩ := hn
  obtain ⟨ds, data, hp, hr⟩ := parseSources_ok (read_in_order hwf hs) h
  rw [ha] at hr
  split at hr
  · cases hr
    exact ⟨rs, o, ds, data, h, hp, rfl, rfl, rfl, rfl⟩
  · cases hr

/-- C41: in a failure, there is an error; the errors are all those of the files, then all those of pragmas and
options; and all warnings are returned. -/
theorem C41_failure (hwf : GlobsWF fs) (hs : ReadInSomeOrder fs env.tokens rootPath rootContent s) {a : ParseError}
    (ha : parseSources env s = .err a) :
    a.errors ≠ [] ∧ ∃ rs o ds data, InOrder env ParserOptions.default s.contentIter rs o ∧
      processPragmas (env.pragmaEnv s) s.rootPath (outputsOf s.contentIter rs) (Options.new o) = .ok (ds, data) ∧
      a.errors = faultsOf s.contentIter rs ++ data.finalErrors.map .pragma ∧
      a.warnings = rs.flatMap (·.warns) := by
  have hn : ¬ parseSources env s = .panic := by rw [ha]; intro h; cases h
  rw [C07_panics_only_in_files hwf hs, Classical.not_not] at hn
  obtain ⟨rs, o, h⟩ := hn
  obtain ⟨ds, data, hp, hr⟩ := parseSources_ok (read_in_order hwf hs) h
  rw [ha] at hr
  split at hr
  · cases hr
  · rename_i hh
    cases hr
    refine ⟨?_, rs, o, ds, data, h, hp, rfl, rfl⟩
    intro he
    simp only [List.append_eq_nil_iff, List.map_eq_nil_iff] at he
    exact hh he

/-- C41: after a success, every file read is in the language, to its last token, and nothing in it was reported. -/
theorem C41_success_language (hwf : GlobsWF fs) (hs : ReadInSomeOrder fs env.tokens rootPath rootContent s)
    {a : ParseSuccess} (ha : parseSources env s = .ok a) {id : Nat} {path : Option Path} {text : Str}
    (h : IsSource s id path text) :
    ∃ o ds o' ws, FileP ⟨id, path, env.emptySpan id, env.decimal⟩ o (env.tokens text) ds o' [] ws := by
  obtain ⟨rs, o, ds, data, h1, h2, _, _⟩ := (C41_success_iff hwf hs).mp ⟨a, ha⟩
  have hl := inOrder_length h1
  obtain ⟨i, hi, he⟩ := List.getElem_of_mem (mem_contentIter.mpr h)
  have hm : ((id, path, text), rs[i]'(by omega)) ∈ s.contentIter.zip rs := by
    have := List.getElem_mem (l := s.contentIter.zip rs) (n := i) (by rw [List.length_zip]; omega)
    rwa [List.getElem_zip, he] at this
  obtain ⟨_, o1, hf⟩ := inOrder_mem h1 hm
  have herr := h2 _ (List.of_mem_zip hm).2
  obtain ⟨ds', ws, hr, hp⟩ := parseFile_sound hf (by rw [herr]; simp)
  rw [herr] at hp
  exact ⟨o1, ds', _, ws, hp⟩

/-- C32: a lexical error in any file read, included or not reachable any more, makes the parse fail. -/
theorem C32_whole_parse (hwf : GlobsWF fs) (hs : ReadInSomeOrder fs env.tokens rootPath rootContent s)
    {id : Nat} {path : Option Path} {text : Str} (h : IsSource s id path text) {t : Ranged} (ht : t ∈ env.tokens text)
    {e : LexerError} (he : t.tok = .error e) (a : ParseSuccess) : parseSources env s ≠ .ok a := by
  intro ha
  obtain ⟨_, _, _, _, hp⟩ := C41_success_language hwf hs ha h
  exact (good_file hp t ht).1 e he

/-- C01: the directives of a successful parse are in order of date, with `open` before and `close` after the other
directives of a day. -/
theorem C01_whole_parse (hwf : GlobsWF fs) (hs : ReadInSomeOrder fs env.tokens rootPath rootContent s)
    {a : ParseSuccess} (ha : parseSources env s = .ok a) :
    a.directives.Pairwise (fun x y => ¬ StrictlyBefore y.item x.item) := by
  obtain ⟨_, _, ds, _, _, _, h, _⟩ := C41_success hwf hs ha
  rw [h]
  exact C01_sort_ordered ds

/-! ### C40 -/

/-- C40, the part which is true: if no included file sets an option on which parsing depends, then whatever order
the included files are parsed in, the outcome is the same, but for the order of errors and of warnings. -/
theorem C40_order_irrelevant_partial (hwf : GlobsWF fs) {s' : Sources}
    (hs : ReadInSomeOrder fs env.tokens rootPath rootContent s)
    (hs' : ReadInSomeOrder fs env.tokens rootPath rootContent s')
    (hn : ∀ id path text, IsSource s id path text → id ≠ 0 → ¬ SetsParserOption (env.tokens text)) :
    SameOutcome (parseSources env s) (parseSources env s') := by
  have hc := read_in_order hwf hs
  obtain ⟨c, hp, rfl⟩ := hs
  obtain ⟨c', hp', rfl⟩ := hs'
  refine parseSources_perm (s := { readWithIncludes fs env.tokens rootPath rootContent with content := c }) hc
    (hp.symm.trans hp') ?_
  rintro ⟨id, path, text⟩ he
  refine hn id path text (mem_contentIter.mp (List.mem_of_mem_tail he)) ?_
  rintro rfl
  have := hc.ids
  unfold Sources.contentIter at this he
  rw [List.map_cons, List.nodup_cons] at this
  exact this.1 (List.mem_map.mpr ⟨_, he, rfl⟩)

end

/-! ### A concrete case: a root which includes a file with an option, and a file with a directive -/

namespace Whole

/-- Two files, `a` and `b`. -/
def files : FileSystem where
  glob p := .ok (if p = Path.ofStr (str "a") ∨ p = Path.ofStr (str "b") then [.path p] else [])
  canonicalize p := if p = Path.ofStr (str "a") ∨ p = Path.ofStr (str "b") then some p else none
  read p := if p = Path.ofStr (str "a") then .ok (str "A") else .ok (str "B")
  files := [Path.ofStr (str "a"), Path.ofStr (str "b")]
  canonicalize_mem := by
    intro p c h
    split at h
    · rename_i h'
      cases h
      rcases h' with rfl | rfl <;> simp
    · cases h

theorem files_wf : GlobsWF files := by
  intro p gs h g hg
  simp only [files] at h
  split at h
  · rename_i h'
    cases h
    simp only [List.mem_singleton] at hg
    subst hg
    rcases h' with rfl | rfl
    · exact Path.ofStr_wf (str "a")
    · exact Path.ofStr_wf (str "b")
  · cases h; cases hg

/-- `include "a"` and `include "b"`. -/
def rootTokens : List Ranged :=
  [⟨.include, 0, 7⟩, ⟨.stringLiteral (str "a"), 8, 11⟩, ⟨.eol, 11, 12⟩,
   ⟨.include, 12, 19⟩, ⟨.stringLiteral (str "b"), 20, 23⟩, ⟨.eol, 23, 24⟩]

/-- `option "<name>" "Capital"`. -/
def optionTokens (name : Str) : List Ranged :=
  [⟨.option, 0, 6⟩, ⟨.stringLiteral name, 7, 10⟩, ⟨.stringLiteral (str "Capital"), 11, 20⟩, ⟨.eol, 20, 21⟩]

/-- `2024-01-02 open Assets:A`. -/
def openTokens : List Ranged :=
  [⟨.date ⟨2024, 1, 2⟩, 0, 10⟩, ⟨.open, 11, 15⟩, ⟨.account (str "Assets:A"), 16, 24⟩, ⟨.eol, 24, 25⟩]

def tokens (name text : Str) : List Ranged :=
  if text = str "A" then optionTokens name else if text = str "B" then openTokens else rootTokens

def env (name : Str) : ParseEnv :=
  ⟨tokens name, fun n _ => ⟨n, 0, 0⟩, fun _ => .error ⟨[]⟩, files.canonicalize, fun _ _ => []⟩

def entryA : Path × IncludedSource := (Path.ofStr (str "a"), .content 1 (str "A") [0])
def entryB : Path × IncludedSource := (Path.ofStr (str "b"), .content 2 (str "B") [0])

/-- The sources, with the included files in the order given. -/
def sources (content : List (Path × IncludedSource)) : Sources where
  rootPath := none
  rootContent := str "R"
  rootCharIndices := [0]
  globs := [(Path.ofStr (str "a"), .expanded [Path.ofStr (str "a")]),
    (Path.ofStr (str "b"), .expanded [Path.ofStr (str "b")])]
  content
  ids := [str "inline", str "a", str "b"]
  reads := [Path.ofStr (str "a"), Path.ofStr (str "b")]

theorem read (name : Str) : readWithIncludes files (env name).tokens none (str "R") = sources [entryA, entryB] := by
  unfold readWithIncludes
  rw [readLoop_some rfl, readLoop_some rfl, readLoop_none rfl]
  rfl

theorem read_ab (name : Str) : ReadInSomeOrder files (env name).tokens none (str "R") (sources [entryA, entryB]) :=
  ⟨[entryA, entryB], by rw [read]; exact .refl _, by rw [read]; rfl⟩

theorem read_ba (name : Str) : ReadInSomeOrder files (env name).tokens none (str "R") (sources [entryB, entryA]) :=
  ⟨[entryB, entryA], by rw [read]; exact .swap _ _ _, by rw [read]; rfl⟩

attribute [local instance] Sample.unicode Sample.decOps

def succeeds (r : Res ParseError ParseSuccess) : Bool :=
  match r with
  | .ok _ => true
  | _ => false

def fails (r : Res ParseError ParseSuccess) : Bool :=
  match r with
  | .err _ => true
  | _ => false

theorem succeeds_iff {r : Res ParseError ParseSuccess} (h : succeeds r = true) : ∃ a, r = .ok a := by
  cases r with
  | ok a => exact ⟨a, rfl⟩
  | err a => cases h
  | panic => cases h

theorem fails_iff {r : Res ParseError ParseSuccess} (h : fails r = true) : ∃ a, r = .err a := by
  cases r with
  | err a => exact ⟨a, rfl⟩
  | ok a => cases h
  | panic => cases h

theorem title_succeeds : ∃ a, parseSources (env (str "title")) (sources [entryA, entryB]) = .ok a :=
  succeeds_iff (by decide +kernel)

theorem renamed_first : ∃ a, parseSources (env (str "name_assets")) (sources [entryA, entryB]) = .err a :=
  fails_iff (by decide +kernel)

theorem renamed_last : ∃ a, parseSources (env (str "name_assets")) (sources [entryB, entryA]) = .ok a :=
  succeeds_iff (by decide +kernel)

end Whole

section
attribute [local instance] Sample.unicode Sample.decOps
open Whole

/-- C40, what is false: for the same files, one order of the included files gives a success and the other an
error, because `option "name_assets"` in one file decides whether the account in the other is valid. -/
theorem C40_order_matters :
    ∃ fs env rootPath rootContent s s', GlobsWF fs ∧ ReadInSomeOrder fs env.tokens rootPath rootContent s ∧
      ReadInSomeOrder fs env.tokens rootPath rootContent s' ∧
      (∃ a, parseSources env s = .ok a) ∧ (∃ a, parseSources env s' = .err a) :=
  ⟨files, env (str "name_assets"), none, str "R", sources [entryB, entryA], sources [entryA, entryB], files_wf,
    read_ba _, read_ab _, renamed_last, renamed_first⟩

theorem title_no_parser_option : ∀ id path text, IsSource (sources [entryA, entryB]) id path text → id ≠ 0 →
    ¬ SetsParserOption ((env (str "title")).tokens text) := by
  rintro id path text (⟨rfl, _⟩ | ⟨p, ix, rfl, h⟩) hid
  · exact (hid rfl).elim
  · simp only [sources, entryA, entryB, List.mem_cons, Prod.mk.injEq, IncludedSource.content.injEq,
      List.not_mem_nil, or_false] at h
    rintro ⟨b, a, name, value, h1, h2⟩
    rcases h with ⟨_, _, rfl, _⟩ | ⟨_, _, rfl, _⟩
    · have h3 : [Token.option, .stringLiteral (str "title"), .stringLiteral (str "Capital"), .eol] =
        b ++ .option :: .stringLiteral name :: .stringLiteral value :: a := h1
      cases b with
      | nil =>
        simp only [List.nil_append, List.cons.injEq, Token.stringLiteral.injEq, true_and] at h3
        obtain ⟨rfl, _⟩ := h3
        revert h2
        decide
      | cons x b =>
        have : Token.option ∈ [Token.stringLiteral (str "title"), .stringLiteral (str "Capital"), .eol] := by
          rw [List.cons_append, List.cons.injEq] at h3
          rw [h3.2]
          simp
        simp at this
    · have : Token.option ∈ openTokens.map (·.tok) := by
        have h3 : openTokens.map (·.tok) = _ := h1
        rw [h3]
        simp
      simp [openTokens] at this

/-- The hypotheses of `C40_order_irrelevant_partial`, `C41_success`, `C41_success_language`, `C01_whole_parse` and the
theorems of C07 are met. -/
example : GlobsWF files ∧ ReadInSomeOrder files (env (str "title")).tokens none (str "R") (sources [entryA, entryB]) ∧
    ReadInSomeOrder files (env (str "title")).tokens none (str "R") (sources [entryB, entryA]) ∧
    (∀ id path text, IsSource (sources [entryA, entryB]) id path text → id ≠ 0 →
      ¬ SetsParserOption ((env (str "title")).tokens text)) ∧
    (∃ a, parseSources (env (str "title")) (sources [entryA, entryB]) = .ok a) ∧
    ∃ rs o, InOrder (env (str "title")) ParserOptions.default (sources [entryA, entryB]).contentIter rs o := by
  refine ⟨files_wf, read_ab _, read_ba _, title_no_parser_option, title_succeeds, ?_⟩
  obtain ⟨a, ha⟩ := title_succeeds
  obtain ⟨rs, o, _, _, h, _⟩ := C41_success files_wf (read_ab _) ha
  exact ⟨rs, o, h⟩

/-- The hypothesis of `C41_failure` is met. -/
example : ∃ a, parseSources (env (str "name_assets")) (sources [entryA, entryB]) = .err a := renamed_first

/-- A single root, from inline input, with the given tokens. -/
def Whole.inline (toks : List Ranged) : ParseEnv :=
  ⟨fun _ => toks, fun n _ => ⟨n, 0, 0⟩, fun _ => .error ⟨[]⟩, files.canonicalize, fun _ _ => []⟩

/-- The hypotheses of `C32_whole_parse` are met. -/
example (toks : List Ranged) (a : ParseSuccess) (e : LexerError) (x y : Nat) (h : ⟨.error e, x, y⟩ ∈ toks) :
    parseSources (Whole.inline toks) (readWithIncludes files (Whole.inline toks).tokens none []) ≠ .ok a :=
  C32_whole_parse files_wf ⟨_, .refl _, rfl⟩ (id := 0) (path := none) (text := []) (.inl ⟨rfl, rfl, rfl⟩) h rfl a

/-- The hypotheses of `C47_whole_parse` are met: `option "operating_currency" "é"` panics. -/
example : ∃ s, ReadInSomeOrder files (Whole.inline [⟨.option, 0, 6⟩, ⟨.stringLiteral (str "operating_currency"), 7, 27⟩,
      ⟨.stringLiteral (str "é"), 28, 32⟩, ⟨.eol, 32, 33⟩]).tokens none [] s ∧
    parseSources (Whole.inline [⟨.option, 0, 6⟩, ⟨.stringLiteral (str "operating_currency"), 7, 27⟩,
      ⟨.stringLiteral (str "é"), 28, 32⟩, ⟨.eol, 32, 33⟩]) s = .panic := by
  refine ⟨_, ⟨_, .refl _, rfl⟩, ?_⟩
  have : ∀ r : Res ParseError ParseSuccess, succeeds r = false → fails r = false → r = .panic := by
    intro r h1 h2
    cases r with
    | ok a => cases h1
    | err a => cases h2
    | panic => rfl
  unfold readWithIncludes
  rw [readLoop_none rfl]
  exact this _ (by decide +kernel) (by decide +kernel)

end

/-! ### C08, C06 for a whole parse -/

section
variable {fs : FileSystem} {tokens : Str → List Ranged} {rootPath : Option Path} {rootContent : Str} {s : Sources}

/-- C08: the files known to be unreadable, on which an `include` reports "can't read file" (C06), are exactly those for
which reading recorded an error: neither a duplicate nor a file which was read is among them. -/
theorem C08_unreadable_files_reported (hwf : GlobsWF fs) (hs : ReadInSomeOrder fs tokens rootPath rootContent s)
    (p : Path) (m : Str) :
    AMap.get s.errorPaths (some p) = some m ↔ AMap.get s.content p = some (.error m) := by
  obtain ⟨c, hc, rfl⟩ := hs
  have hk := ((read_complete (tokens := tokens) (rootPath := rootPath) (rootContent := rootContent) hwf).perm hc).keys
  generalize ({ readWithIncludes fs tokens rootPath rootContent with content := c } : Sources) = s at hk
  have hk' := errorPaths_keys hk s rfl
  constructor
  · intro h
    have := AMap.mem_of_get h
    unfold Sources.errorPaths at this
    rw [List.mem_filterMap] at this
    obtain ⟨⟨q, x⟩, hx, he⟩ := this
    cases x with
    | error m' =>
      cases he
      exact AMap.get_of_mem hk hx
    | content i t ix => cases he
    | duplicate => cases he
  · intro h
    refine AMap.get_of_mem hk' ?_
    unfold Sources.errorPaths
    rw [List.mem_filterMap]
    exact ⟨_, AMap.mem_of_get h, rfl⟩

/-- C08: a file given to the file system for reading is recorded with its text if it could be read, with the error if
not; except that an error of the glob library about the very same path takes its place. -/
theorem C08_read_outcome (p : Path) (h : p ∈ (readWithIncludes fs tokens rootPath rootContent).reads) :
    (∃ text id, fs.read p = .ok text ∧ AMap.get (readWithIncludes fs tokens rootPath rootContent).content p =
      some (.content id text (charIndices text))) ∨
    (∃ e, fs.read p = .error e ∧ AMap.get (readWithIncludes fs tokens rootPath rootContent).content p =
      some (.error (p.render ++ ": ".toList ++ e))) ∨
    ∃ m, GlobError fs p m ∧ AMap.get (readWithIncludes fs tokens rootPath rootContent).content p = some (.error m) := by
  rcases (readLoop_outcome (fs := fs) (tokens := tokens) rootPath rootContent).outcome p h with h | h
  · split at h
    · rename_i text hr
      obtain ⟨id, h⟩ := h
      exact .inl ⟨text, id, hr, h⟩
    · rename_i e hr
      exact .inr (.inl ⟨e, hr, h⟩)
  · exact .inr (.inr h)

/-- C08: an error is recorded only for a file which could not be read, or which the glob library complains about. -/
theorem C08_errors_only (p : Path) (m : Str)
    (h : AMap.get (readWithIncludes fs tokens rootPath rootContent).content p = some (.error m)) :
    (∃ e, fs.read p = .error e ∧ m = p.render ++ ": ".toList ++ e) ∨ GlobError fs p m := by
  rcases (readLoop_outcome (fs := fs) (tokens := tokens) rootPath rootContent).errors p m h with ⟨e, _, h⟩ | h
  · exact .inl ⟨e, h⟩
  · exact .inr h

/-- A file system in which nothing can be read: an unreadable file is included. -/
def unreadableFS : FileSystem := { exampleFS with read := fun _ => .error (str "no") }

example : AMap.get (readWithIncludes unreadableFS exampleTokens none []).errorPaths (some (Path.ofStr (str "s"))) =
    some (str "s: no") := by
  unfold readWithIncludes
  rw [readLoop_some rfl, readLoop_some rfl, readLoop_none rfl]
  rfl

end

end Lima.Props
