import Verif.Lemmas.Success
import Verif.Props.Locations

/-!
# C56: a successful parse loses nothing that was written
-/

set_option linter.unusedSectionVars false

namespace Lima.Props
open Lima Spec Grammar

section
variable [Unicode] [DecOps] {fs : FileSystem} {env : ParseEnv} {rootPath : Option Path} {rootContent : Str} {s : Sources}
  {a : ParseSuccess}

/-! ### Files -/

/-- C56: after a successful parse every file that was read is among the sources, with its text. -/
theorem C56_files_read (hwf : GlobsWF fs) (hs : ReadInSomeOrder fs env.tokens rootPath rootContent s)
    (ha : parseSources env s = .ok a) {p : Path} (hp : p ∈ s.reads) :
    ∃ id text, IsSource s id (some p) text ∧ fs.read p = .ok text := by
  obtain ⟨rs, o, ds, data, es, visited, h⟩ := succeeds hwf hs ha
  have hr : s.reads = (readWithIncludes fs env.tokens rootPath rootContent).reads := by
    obtain ⟨c, _, rfl⟩ := hs
    rfl
  obtain ⟨before, after, hb⟩ := List.append_of_mem (hr ▸ hp)
  exact (h.read_visited hwf hs _ before p after (Nat.lt_succ_self _) hb).2

/-- C56: after a successful parse every `include` in a source stands for at least one path, and each of its paths is
among the sources, or is another path of the same file as one that is. -/
theorem C56_includes (hwf : GlobsWF fs) (hs : ReadInSomeOrder fs env.tokens rootPath rootContent s)
    (ha : parseSources env s = .ok a) {id : Nat} {path : Option Path} {text i : Str} (h : IsSource s id path text)
    (hi : [Token.include, Token.stringLiteral i] <:+: (env.tokens text).map (·.tok)) :
    ∃ gs, fs.glob (resolveIncludedPath path (Path.ofStr i)) = .ok gs ∧ gs ≠ [] ∧ ∀ g ∈ gs,
      (∃ id text, IsSource s id (some g.thePath) text) ∨
      ∃ q c id text, IsSource s id (some q) text ∧ env.canonicalize q = some c ∧
        env.canonicalize g.thePath = some c := by
  obtain ⟨rs, o, ds, data, es, visited, hh⟩ := succeeds hwf hs ha
  have hv := (hh.visited_iff hwf hs path).mpr ⟨id, text, h⟩
  obtain ⟨gs, h1, h2, h3⟩ := hh.included hwf hs h hv hi
  refine ⟨gs, h1, h2, fun g hg => ?_⟩
  rcases h3 g hg with ⟨_, h4⟩ | ⟨_, _, q, c, h4, h5, h6⟩
  · exact .inl (hh.isSource h4)
  · obtain ⟨id, text, h7⟩ := hh.isSource h4
    exact .inr ⟨q, c, id, text, h7, h5, h6⟩

/-! ### Declarations -/

/-- What files come to is determined. -/
theorem C56_unambiguous {o : ParserOptions} {es : List (Nat × Option Path × Str)}
    {dss dss' : List (List (Spanned Declaration))} {o1 o2 : ParserOptions} {ws ws' : List Report}
    (h : FilesP env o es dss o1 ws) (h' : FilesP env o es dss' o2 ws') : dss = dss' ∧ o1 = o2 ∧ ws = ws' := by
  induction h generalizing dss' o2 ws' with
  | nil => cases h'; exact ⟨rfl, rfl, rfl⟩
  | cons h1 _ ih =>
    cases h' with
    | cons h1' h2' =>
      obtain ⟨rfl, rfl, _, rfl⟩ := C31_unambiguous h1 h1'
      obtain ⟨rfl, rfl, rfl⟩ := ih h2'
      exact ⟨rfl, rfl, rfl⟩

/-- C56: after a successful parse the sources are, one after the other, files of the language without errors.  The
warnings are theirs. -/
theorem C56_language (hwf : GlobsWF fs) (hs : ReadInSomeOrder fs env.tokens rootPath rootContent s)
    (ha : parseSources env s = .ok a) :
    ∃ dss o, FilesP env ParserOptions.default s.contentIter dss o a.warnings ∧ a.options.parserOptions = o := by
  obtain ⟨rs, o, ds, data, es, visited, h⟩ := succeeds hwf hs ha
  exact ⟨_, _, h.filesP, by rw [h.result]; exact h.parserOptions⟩

/-- C56: after a successful parse the directives are those of all sources, each once, with nothing lost or changed:
only tags and metadata are added, which are pushed somewhere and which the directive does not have itself. -/
theorem C56_directives (hwf : GlobsWF fs) (hs : ReadInSomeOrder fs env.tokens rootPath rootContent s)
    (ha : parseSources env s = .ok a) {dss : List (List (Spanned Declaration))} {o : ParserOptions} {ws : List Report}
    (hf : FilesP env ParserOptions.default s.contentIter dss o ws) :
    ∃ written ds, written.Perm (directivesAmong dss.flatten) ∧ ds.Perm a.directives ∧
      List.Forall₂ (Enriched dss.flatten) written ds := by
  obtain ⟨rs, o, ds, data, es, visited, h⟩ := succeeds hwf hs ha
  obtain ⟨rfl, _⟩ := C56_unambiguous hf h.filesP
  refine ⟨directives es, ds, h.directives_perm hwf hs, ?_, ?_⟩
  · rw [h.result]
    exact (C01_sort_perm ds).symm
  · refine h.enriched.imp fun w d hd => hd.mono ?_
    intro x hx
    exact (h.perm hwf hs).mem_iff.mp hx

/-- C56: if nothing is pushed, the directives are exactly those written. -/
theorem C56_verbatim (hwf : GlobsWF fs) (hs : ReadInSomeOrder fs env.tokens rootPath rootContent s)
    (ha : parseSources env s = .ok a) {dss : List (List (Spanned Declaration))} {o : ParserOptions} {ws : List Report}
    (hf : FilesP env ParserOptions.default s.contentIter dss o ws)
    (hn : ∀ id path text, IsSource s id path text → ∀ t ∈ env.tokens text, t.tok ≠ .pushtag ∧ t.tok ≠ .pushmeta) :
    a.directives.Perm (directivesAmong dss.flatten) := by
  obtain ⟨written, ds, h1, h2, h3⟩ := C56_directives hwf hs ha hf
  have hpush : ∀ x ∈ dss.flatten, (∀ t, x.item ≠ .pragma (.pushtag t)) ∧ ∀ kv, x.item ≠ .pragma (.pushmeta kv) := by
    intro x hx
    obtain ⟨ds', hds, hx⟩ := List.mem_flatten.mp hx
    obtain ⟨⟨id, path, text⟩, he, o1, o2, ws, hf⟩ := (filesP_mem hf).2 ds' hds
    have := hn id path text (mem_contentIter.mp he)
    obtain ⟨h4, h5⟩ := push_token hf hx
    exact ⟨fun t ht => by
      obtain ⟨r, hr, htok⟩ := h4 t ht
      exact (this r hr).1 htok, fun kv ht => by
      obtain ⟨r, hr, htok⟩ := h5 kv ht
      exact (this r hr).2 htok⟩
  have heq : written = ds := by
    clear h1 h2
    induction h3 with
    | nil => rfl
    | cons h _ ih =>
      rw [ih, h.eq (fun x hx => hpush x hx)]
  rw [← heq] at h2
  exact h2.symm.trans h1

/-- C56: after a successful parse the plugins are those of all sources. -/
theorem C56_plugins (hwf : GlobsWF fs) (hs : ReadInSomeOrder fs env.tokens rootPath rootContent s)
    (ha : parseSources env s = .ok a) {dss : List (List (Spanned Declaration))} {o : ParserOptions} {ws : List Report}
    (hf : FilesP env ParserOptions.default s.contentIter dss o ws) :
    a.plugins.Perm (pluginsAmong dss.flatten) := by
  obtain ⟨rs, o, ds, data, es, visited, h⟩ := succeeds hwf hs ha
  obtain ⟨rfl, _⟩ := C56_unambiguous hf h.filesP
  exact h.plugins hwf hs

/-- C56: after a successful parse every tag and every metadata key is popped as often as it is pushed, over all
sources. -/
theorem C56_balanced (hwf : GlobsWF fs) (hs : ReadInSomeOrder fs env.tokens rootPath rootContent s)
    (ha : parseSources env s = .ok a) {dss : List (List (Spanned Declaration))} {o : ParserOptions} {ws : List Report}
    (hf : FilesP env ParserOptions.default s.contentIter dss o ws) :
    (∀ t, pushes t dss.flatten = pops t dss.flatten) ∧ ∀ k, metaPushes k dss.flatten = metaPops k dss.flatten := by
  obtain ⟨rs, o, ds, data, es, visited, h⟩ := succeeds hwf hs ha
  obtain ⟨rfl, _⟩ := C56_unambiguous hf h.filesP
  have hp := h.perm hwf hs
  constructor
  · intro t
    have := h.tags_balanced t
    unfold pushes pops
    rw [← hp.countP_eq, ← hp.countP_eq, List.countP_map, List.countP_map]
    exact this
  · intro k
    have := h.metas_balanced k
    unfold metaPushes metaPops
    rw [← hp.countP_eq, ← hp.countP_eq, List.countP_map, List.countP_map]
    exact this

/-! ### Options -/

/-- C56, the part which is true: after a successful parse an option has a value, given at a place, exactly if it is
written there in a source; except for the names of the account types and the limit for long strings. -/
theorem C56_options_partial (hwf : GlobsWF fs) (hs : ReadInSomeOrder fs env.tokens rootPath rootContent s)
    (ha : parseSources env s = .ok a) (at' : OptSource) (v : OptVariant) (hv : settingOf v ≠ none) :
    Holds a.options at' v ↔ ∃ id path text name value, IsSource s id path text ∧
      WritesOption (env.tokens text) id name value at' ∧ Decodes (okOf env.decimal) path name value v := by
  obtain ⟨rs, o, ds, data, es, visited, h⟩ := succeeds hwf hs ha
  exact h.options hwf hs hv

/-- C56: no such option is written twice for the same setting, or for the same element of a setting, in all sources. -/
theorem C56_options_once (hwf : GlobsWF fs) (hs : ReadInSomeOrder fs env.tokens rootPath rootContent s)
    (ha : parseSources env s = .ok a) {at1 at2 : OptSource} {v w : OptVariant} {id id' : Nat} {path path' : Option Path}
    {text text' name name' value value' : Str} (h1 : IsSource s id path text) (h1' : IsSource s id' path' text')
    (h2 : WritesOption (env.tokens text) id name value at1) (h2' : WritesOption (env.tokens text') id' name' value' at2)
    (h3 : Decodes (okOf env.decimal) path name value v) (h3' : Decodes (okOf env.decimal) path' name' value' w)
    (hv : settingOf v ≠ none) (hsame : settingOf v = settingOf w) : at1 = at2 ∧ v = w := by
  obtain ⟨rs, o, ds, data, es, visited, h⟩ := succeeds hwf hs ha
  obtain ⟨st, hst⟩ := Option.ne_none_iff_exists'.mp hv
  have hw : settingOf w ≠ none := by rw [← hsame]; exact hv
  have m1 := (h.written_iff hwf hs hv).mpr ⟨id, path, text, name, value, h1, h2, h3⟩
  have m2 := (h.written_iff hwf hs hw).mpr ⟨id', path', text', name', value', h1', h2', h3'⟩
  have := h.same_option m1 m2 hst (by rw [← hst, hsame])
  cases this
  exact ⟨rfl, rfl⟩

/-- C56: after a successful parse the limit for long strings is the one written last, and the account types have the
names written last, going through the sources one after the other.  Earlier ones are dropped silently. -/
theorem C56_last_wins (hwf : GlobsWF fs) (hs : ReadInSomeOrder fs env.tokens rootPath rootContent s)
    (ha : parseSources env s = .ok a) :
    let all := s.contentIter.flatMap (fun e => writtenOptions e.1 (env.tokens e.2.2))
    (∀ n at', a.options.parserOptions.longStringMaxlines = some (sourced n at') ↔
      ∃ value, GivenLast all "long_string_maxlines".toList value at' ∧ UsizeText value n) ∧
    ∀ t name, a.options.parserOptions.accountTypeNames.name t = some name ↔
      (∃ at', GivenLast all (nameOption t) name at') ∨ ((∀ x ∈ all, x.1 ≠ nameOption t) ∧ name = Naming.initial t) := by
  obtain ⟨dss, o, hf, rfl⟩ := C56_language hwf hs ha
  intro all
  obtain ⟨h1, f, h2, h3⟩ := lastInv_files hf [] lastInv_default
  rw [List.nil_append] at h1
  constructor
  · intro n at'
    change _ ↔ ∃ value, GivenLast all (str "long_string_maxlines") value at' ∧ UsizeText value n
    simp only [← lastGiven_iff]
    change match lastGiven all (str "long_string_maxlines") with
      | none => _
      | some (v, p) => _ at h1
    generalize lastGiven all (str "long_string_maxlines") = l at h1 ⊢
    cases l with
    | none => dsimp only at h1; rw [h1]; simp
    | some x =>
      obtain ⟨v, p⟩ := x
      obtain ⟨m, hm, he⟩ := h1
      rw [he]
      constructor
      · intro hh
        obtain ⟨rfl, rfl⟩ := sourced_inj.mp (Option.some.inj hh)
        exact ⟨v, rfl, hm⟩
      · rintro ⟨value, hh, hn⟩
        cases hh
        have e1 := (parseUsize_ok _ _).mpr hm
        have e2 := (parseUsize_ok _ _).mpr hn
        rw [e1] at e2
        cases e2
        rfl
  · intro t name
    have hn := h3 t
    rw [List.nil_append] at hn
    rw [h2.name t, Option.some.injEq]
    simp only [← lastGiven_iff]
    rw [← lastGiven_none]
    change f t = match lastGiven all (nameOption t) with
      | none => _
      | some (v, _) => v at hn
    generalize lastGiven all (nameOption t) = l at hn ⊢
    rw [hn]
    cases l with
    | none => simp [eq_comm]
    | some x => obtain ⟨v, p⟩ := x; simp

end

/-! ### Cases -/

section
attribute [local instance] Categories.asciiOnly Sample.unicode Sample.decOps
open Printed Located

namespace Kept

/-- The limit for long strings, twice. -/
def twice : Str := "option \"long_string_maxlines\" \"1\"\noption \"long_string_maxlines\" \"2\"\n".toList

theorem twice_read : ReadInSomeOrder Whole.files env.tokens none twice (inline twice) := by
  rw [← inline_read Whole.files (by decide +kernel : getIncludes env.tokens twice = [])]
  exact ⟨_, .refl _, rfl⟩

/-- The limit for long strings after a successful parse. -/
def limit (r : Res ParseError ParseSuccess) : Option (Option Nat) :=
  match r with
  | .ok a => some (a.options.parserOptions.longStringMaxlines.map (·.spanned.item))
  | _ => none

theorem twice_limit : limit (parseSources env (Printed.inline twice)) = some (some 2) := by decide +kernel

end Kept
open Kept

/-- C56, what is false: an option which is written need not hold after a successful parse; the limit for long strings
may be written twice, and then the first is dropped silently. -/
theorem C56_options_false : ∃ fs env rootPath rootContent s a, GlobsWF fs ∧
    ReadInSomeOrder fs env.tokens rootPath rootContent s ∧ parseSources env s = .ok a ∧
    ∃ at' v id path text name value, (IsSource s id path text ∧ WritesOption (env.tokens text) id name value at' ∧
      Decodes (okOf env.decimal) path name value v) ∧ ¬ Holds a.options at' v := by
  obtain ⟨a, ha⟩ := Whole.succeeds_iff (r := parseSources env (Printed.inline twice)) (by decide +kernel)
  refine ⟨Whole.files, env, none, twice, Printed.inline twice, a, Whole.files_wf, twice_read, ha,
    ⟨⟨0, 7, 29⟩, ⟨0, 30, 33⟩⟩, .longStringMaxlines 1, 0, none, twice, str "long_string_maxlines", str "1",
    ⟨.inl ⟨rfl, rfl, rfl⟩, ⟨[], (env.tokens twice).drop 3, 0, 6, 7, 29, 30, 33, by decide +kernel, rfl⟩, ?_⟩, ?_⟩
  · exact .longStringMaxlines _ 1 ⟨[1], by decide, by decide, by decide, .inl (by decide)⟩
  · intro h
    have hl := twice_limit
    rw [ha] at hl
    unfold Holds at h
    unfold limit at hl
    dsimp only at hl
    rw [h] at hl
    cases hl

/-- The hypotheses of the theorems about C56 are met: a directive in a pushed tag, an option and a plugin. -/
example : ∃ a, parseSources env (Printed.inline Located.text) = .ok a ∧
    (∃ dss o, FilesP env ParserOptions.default (Printed.inline Located.text).contentIter dss o a.warnings ∧
      (∃ written ds, written.Perm (directivesAmong dss.flatten) ∧ ds.Perm a.directives ∧
        List.Forall₂ (Enriched dss.flatten) written ds) ∧ a.plugins.Perm (pluginsAmong dss.flatten) ∧
      pushes (str "tt") dss.flatten = pops (str "tt") dss.flatten) ∧
    (Holds a.options ⟨⟨0, 72, 79⟩, ⟨0, 80, 83⟩⟩ (.title (str "T")) ↔
      ∃ id path text name value, IsSource (Printed.inline Located.text) id path text ∧
      WritesOption (env.tokens text) id name value ⟨⟨0, 72, 79⟩, ⟨0, 80, 83⟩⟩ ∧
      Decodes (okOf env.decimal) path name value (.title (str "T"))) := by
  obtain ⟨a, ha⟩ := Whole.succeeds_iff (r := parseSources env (Printed.inline Located.text)) (by decide +kernel)
  obtain ⟨dss, o, h, _⟩ := C56_language Whole.files_wf Located.read ha
  exact ⟨a, ha, ⟨dss, o, h, C56_directives Whole.files_wf Located.read ha h, C56_plugins Whole.files_wf Located.read ha h,
    (C56_balanced Whole.files_wf Located.read ha h).1 _⟩,
    C56_options_partial Whole.files_wf Located.read ha _ _ (by simp [settingOf])⟩

/-- In it the title is where it is written, and the tag is added. -/
example : (match parseSources env (Printed.inline Located.text) with
    | .ok a => some (a.options.title.map (fun t => (t.spanned.item, t.source)),
        a.directives.map (·.item.metadata.item.tags.map (·.item)), a.plugins.map (·.moduleName.item))
    | _ => none) = some (some (str "T", ⟨⟨0, 72, 79⟩, ⟨0, 80, 83⟩⟩), [[str "tt"]], [str "pp"]) := by decide +kernel

end

section
attribute [local instance] Sample.unicode Sample.decOps
open Whole

/-- Two files are read, and each is a source; nothing is pushed. -/
example : ∃ a, parseSources (env (str "title")) (sources [entryA, entryB]) = .ok a ∧
    (∃ id text, IsSource (sources [entryA, entryB]) id (some (Path.ofStr (str "b"))) text ∧
      files.read (Path.ofStr (str "b")) = .ok text) ∧
    (∃ gs, files.glob (resolveIncludedPath none (Path.ofStr (str "a"))) = .ok gs ∧ gs ≠ []) ∧
    ∃ dss o, FilesP (env (str "title")) ParserOptions.default (sources [entryA, entryB]).contentIter dss o a.warnings ∧
      a.directives.Perm (directivesAmong dss.flatten) := by
  obtain ⟨a, ha⟩ := title_succeeds
  obtain ⟨dss, o, h, _⟩ := C56_language files_wf (read_ab _) ha
  refine ⟨a, ha, C56_files_read files_wf (read_ab _) ha (by decide), ?_, dss, o, h, C56_verbatim files_wf (read_ab _) ha h ?_⟩
  · obtain ⟨gs, h1, h2, _⟩ := C56_includes files_wf (read_ab _) ha (id := 0) (path := none) (text := str "R") (i := str "a")
      (.inl ⟨rfl, rfl, rfl⟩) (by decide +kernel)
    exact ⟨gs, h1, h2⟩
  · rintro id path text (⟨_, _, rfl⟩ | ⟨p, ix, _, hm⟩)
    · decide
    · simp only [sources, List.mem_cons, List.not_mem_nil, or_false] at hm
      rcases hm with hm | hm <;> cases hm <;> decide

end

end Lima.Props
