import Verif.Lemmas.LocatedParse
import Verif.Props.Display

/-!
# C52: locations

Every location, in what a parse returns and in what it reports, is the place in a file which was read of the thing
located: it runs from the start of the first of its tokens to the end of the last, and what is located by a name, a
string or a date has it among them.  `Locations` lists all locations in a thing.
-/

namespace Lima.Props
open Lima Lima.Spec Grammar

section
variable [Unicode] [DecOps] {cfg : ParseCfg} {toks : List Ranged} {o : ParserOptions} {warns : List Report} {res : FileResult}

/-! ### A file -/

/-- C52: each declaration of a file, whatever errors there are, is located at some of its tokens, and everything in
it at some of these. -/
theorem C52_declarations (h : parseFile cfg toks o warns = some res) {ds : List (Spanned Declaration)}
    (hd : res.declarations = some ds) : ∀ d ∈ ds, DeclaredIn cfg toks d := (parseFile_located h).1 ds hd

/-- C52: so the location of anything in a declaration is within that of the declaration. -/
theorem C52_inside_declaration (ho : Ordered toks) (h : parseFile cfg toks o warns = some res)
    {ds : List (Spanned Declaration)} (hd : res.declarations = some ds) {d : Spanned Declaration} (hm : d ∈ ds) :
    ∀ x ∈ Locations.declaration d.item, Inside x.span d.span ∨
      x.mayBeBlank = true ∧ ∃ rest, rest <:+ toks ∧ x.span = cfg.emptySpan rest := by
  intro x hx
  obtain ⟨before, run, after, rfl, ⟨first, last, h1, h2, h3⟩, h4⟩ := C52_declarations h hd d hm
  have hor := ordered_run ho
  rcases h4 x hx with ⟨b, r, a, e, ⟨f, l, k1, k2, k3⟩, _⟩ | ⟨hb, _, b, a, e, he⟩
  · left
    have er : run = b ++ r ++ a := List.append_cancel_right e
    have mem : ∀ t ∈ r, t ∈ run := fun t ht => by rw [er]; simp [ht]
    have hf := run_bounds hor h1 h2 (mem f (List.mem_of_head? k1))
    have hl := run_bounds hor h1 h2 (mem l (List.mem_of_getLast? k2))
    have hfl := run_bounds (ordered_run (er ▸ hor)) k1 k2 (List.mem_of_head? k1)
    rw [h3, k3]
    exact ⟨rfl, hf.1, by simp only; omega, hl.2.2⟩
  · right
    refine ⟨hb, a ++ after, ⟨before ++ b, ?_⟩, he⟩
    rw [show before ++ b ++ (a ++ after) = before ++ (b ++ a ++ after) by simp, ← e]
    simp

/-- C52: errors of a file are located in it; so are its warnings, and options on which parsing depends, or where
they were before. -/
theorem C52_reports_of_file (h : parseFile cfg toks o warns = some res) :
    (∀ e ∈ res.errors, ∀ x ∈ Locations.parserError e, LocatedIn cfg toks [] x) ∧
    (∀ x ∈ Locations.parserOptions res.opts, x ∈ Locations.parserOptions o ∨ LocatedIn cfg toks [] x) ∧
    ∃ ws, res.warns = warns ++ ws ∧
      ∀ w ∈ ws, ∀ x ∈ Locations.report w, x ∈ Locations.parserOptions o ∨ LocatedIn cfg toks [] x :=
  (parseFile_located h).2

omit [Unicode] [DecOps] in
/-- C52: at a location in the tokens of a text, there is a part of the text, and in it the word is written. -/
theorem C52_shown [Categories] {l : Logos} {text : Str} (hl : lexText l text = some toks) {x : Location}
    (h : LocatedIn cfg toks [] x) : x.span.source = cfg.source ∧ Shows l text x ∨
      x.mayBeBlank = true ∧ x.word = none ∧ ∃ rest, rest <:+ toks ∧ x.span = cfg.emptySpan rest := by
  obtain ⟨ho, _, hb, hw⟩ := C49_tokens_of_text l text toks hl
  rcases h with ⟨before, run, after, e, ⟨first, last, h1, h2, h3⟩, h4⟩ | ⟨hbl, hn, before, after, e, he⟩
  · left
    rw [List.append_nil] at e
    subst e
    have hor := ordered_run ho
    have mem : ∀ t ∈ run, t ∈ before ++ run ++ after := fun t ht => by simp [ht]
    have hfl := run_bounds hor h1 h2 (List.mem_of_head? h1)
    obtain ⟨part, hp⟩ := boundary_slice (hb first (mem _ (List.mem_of_head? h1))).2.2
      (hb last (mem _ (List.mem_of_getLast? h2))).2.1 (by omega)
    refine ⟨by rw [h3], part, by rw [h3]; exact hp, ?_⟩
    intro word hword n1 n2
    obtain ⟨t, ht, rfl⟩ := List.mem_map.mp (h4 word hword)
    obtain ⟨piece, hs, hwr⟩ := hw t (mem t ht) n1 n2
    have hbd := run_bounds hor h1 h2 ht
    obtain ⟨u, v, he⟩ := slice_within hp hs hbd.1 hbd.2.2
    exact ⟨u, piece, v, he, hwr⟩
  · right
    refine ⟨hbl, hn, after ++ [], ⟨before, ?_⟩, he⟩
    rw [e]
    simp

end

/-! ### A whole parse -/

section
variable [Unicode] [DecOps] {fs : FileSystem} {env : ParseEnv} {rootPath : Option Path} {rootContent : Str} {s : Sources}

/-- C52: every location in the outcome of a successful parse is in one of the files which were read. -/
theorem C52_success (hwf : GlobsWF fs) (hs : ReadInSomeOrder fs env.tokens rootPath rootContent s) {a : ParseSuccess}
    (ha : parseSources env s = .ok a) :
    (∀ d ∈ a.directives, LocatedInSources env s (here d) ∧
      ∀ x ∈ Locations.directive d.item, LocatedInSources env s x) ∧
    (∀ x ∈ Locations.options a.options, LocatedInSources env s x) ∧
    (∀ p ∈ a.plugins, ∀ x ∈ Locations.plugin p, LocatedInSources env s x) ∧
    (∀ w ∈ a.warnings, ∀ x ∈ Locations.report w, LocatedInSources env s x) := by
  obtain ⟨rs, o, ds, data, h1, h2, h3, h4, h5, h6⟩ := C41_success hwf hs ha
  obtain ⟨k1, k2⟩ := inOrder_located (s := s) h1 (fun e he => mem_contentIter.mp he) (by
    intro x hx
    simp [Locations.parserOptions, Locations.sourced, ParserOptions.default] at hx)
  obtain ⟨m1, m2⟩ := processPragmas_located (fun _ => LocatedInSources.forget) (outputs_located h1) (by
    intro x hx
    refine k1 x ?_
    simpa [Locations.options, Locations.sourced, Options.new] using hx) h2
  refine ⟨?_, ?_, ?_, ?_⟩
  · intro d hd
    rw [h3] at hd
    exact m1 d ((C01_sort_perm ds).mem_iff.mp hd)
  · rw [h4]; exact m2.options
  · rw [h5]; exact m2.plugins
  · rw [h6]
    intro w hw
    obtain ⟨res, hr, hw⟩ := List.mem_flatMap.mp hw
    exact k2 res hr w hw

/-- C52: every location in the errors and warnings of a failed parse is in one of the files which were read; that of
an error of the parser of a file is in that file. -/
theorem C52_failure (hwf : GlobsWF fs) (hs : ReadInSomeOrder fs env.tokens rootPath rootContent s) {a : ParseError}
    (ha : parseSources env s = .err a) :
    (∀ f ∈ a.errors, ∀ x ∈ Locations.fault f, LocatedInSources env s x) ∧
    (∀ id e, .parsing id e ∈ a.errors → ∃ path text, IsSource s id path text ∧
      ∀ x ∈ Locations.parserError e, LocatedIn (env.cfg id path) (env.tokens text) [] x) ∧
    (∀ w ∈ a.warnings, ∀ x ∈ Locations.report w, LocatedInSources env s x) := by
  obtain ⟨_, rs, o, ds, data, h1, h2, h3, h4⟩ := C41_failure hwf hs ha
  obtain ⟨k1, k2⟩ := inOrder_located (s := s) h1 (fun e he => mem_contentIter.mp he) (by
    intro x hx
    simp [Locations.parserOptions, Locations.sourced, ParserOptions.default] at hx)
  obtain ⟨m1, m2⟩ := processPragmas_located (fun _ => LocatedInSources.forget) (outputs_located h1) (by
    intro x hx
    refine k1 x ?_
    simpa [Locations.options, Locations.sourced, Options.new] using hx) h2
  refine ⟨?_, ?_, ?_⟩
  · intro f hf x hx
    rw [h3] at hf
    rcases List.mem_append.mp hf with hf | hf
    · obtain ⟨id, e, path, text, rfl, n1, n2⟩ := faults_located h1 f hf
      exact ⟨id, path, text, n1, n2 x hx⟩
    · obtain ⟨r, hr, rfl⟩ := List.mem_map.mp hf
      exact finalErrors_located m2 r hr x hx
  · intro id e hf
    rw [h3] at hf
    rcases List.mem_append.mp hf with hf | hf
    · obtain ⟨id', e', path, text, he, n1, n2⟩ := faults_located h1 _ hf
      cases he
      exact ⟨path, text, n1, n2⟩
    · obtain ⟨r, hr, he⟩ := List.mem_map.mp hf
      cases he
  · rw [h4]
    intro w hw
    obtain ⟨res, hr, hw⟩ := List.mem_flatMap.mp hw
    exact k2 res hr w hw

theorem locatedInSources_shown [Categories] {l : Logos} (hlex : LexedBy l env.tokens)
    (hne : ∀ id path text, IsSource s id path text → lexText l text ≠ none) {x : Location}
    (h : LocatedInSources env s x) : ShownInSources l env s x := by
  obtain ⟨id, path, text, h1, h2⟩ := h
  refine ⟨id, path, text, h1, ?_⟩
  cases ht : lexText l text with
  | none => exact absurd ht (hne id path text h1)
  | some toks =>
    rw [hlex text toks ht] at h2 ⊢
    exact C52_shown ht h2

/-- C52: what is shown at the locations in the outcome of a successful parse. -/
theorem C52_success_shown [Categories] {l : Logos} (hlex : LexedBy l env.tokens) (hwf : GlobsWF fs)
    (hs : ReadInSomeOrder fs env.tokens rootPath rootContent s)
    (hne : ∀ id path text, IsSource s id path text → lexText l text ≠ none) {a : ParseSuccess}
    (ha : parseSources env s = .ok a) :
    (∀ d ∈ a.directives, ShownInSources l env s (here d) ∧
      ∀ x ∈ Locations.directive d.item, ShownInSources l env s x) ∧
    (∀ x ∈ Locations.options a.options, ShownInSources l env s x) ∧
    (∀ p ∈ a.plugins, ∀ x ∈ Locations.plugin p, ShownInSources l env s x) ∧
    (∀ w ∈ a.warnings, ∀ x ∈ Locations.report w, ShownInSources l env s x) := by
  obtain ⟨h1, h2, h3, h4⟩ := C52_success hwf hs ha
  have key := fun {x} => locatedInSources_shown (x := x) hlex hne
  exact ⟨fun d hd => ⟨key (h1 d hd).1, fun x hx => key ((h1 d hd).2 x hx)⟩, fun x hx => key (h2 x hx),
    fun p hp x hx => key (h3 p hp x hx), fun w hw x hx => key (h4 w hw x hx)⟩

/-- C52: what is shown at the locations in the errors and warnings of a failed parse. -/
theorem C52_failure_shown [Categories] {l : Logos} (hlex : LexedBy l env.tokens) (hwf : GlobsWF fs)
    (hs : ReadInSomeOrder fs env.tokens rootPath rootContent s)
    (hne : ∀ id path text, IsSource s id path text → lexText l text ≠ none) {a : ParseError}
    (ha : parseSources env s = .err a) :
    (∀ f ∈ a.errors, ∀ x ∈ Locations.fault f, ShownInSources l env s x) ∧
    (∀ w ∈ a.warnings, ∀ x ∈ Locations.report w, ShownInSources l env s x) := by
  obtain ⟨h1, _, h2⟩ := C52_failure hwf hs ha
  have key := fun {x} => locatedInSources_shown (x := x) hlex hne
  exact ⟨fun f hf x hx => key (h1 f hf x hx), fun w hw x hx => key (h2 w hw x hx)⟩

end

/-! ### Examples -/

section
attribute [local instance] Categories.asciiOnly Sample.unicode Sample.decOps
open Printed

/-- The text of a part of a source, the only one, and the words for it. -/
def shown (text : Str) (xs : List Location) : List (Option Str × Bool) :=
  xs.map (fun x => (slice text x.span.start x.span.stop, x.word.isSome))

namespace Located

/-- A directive, in a tag; an option; a plugin. -/
def text : Str := "pushtag #tt\n2024-01-02 note Assets:A \"é\"\n  kk: 7 EUR\npoptag #tt\noption \"title\" \"T\"\nplugin \"pp\"\n".toList

/-- A tag twice, and one never popped. -/
def wrong : Str := "pushtag #tt\n2024-01-02 close Assets:A #u #u\n".toList

theorem includes : getIncludes env.tokens text = [] := by decide +kernel
theorem wrong_includes : getIncludes env.tokens wrong = [] := by decide +kernel

theorem read : ReadInSomeOrder Whole.files env.tokens none text (inline text) := by
  rw [← inline_read Whole.files includes]
  exact ⟨_, .refl _, rfl⟩

theorem wrong_read : ReadInSomeOrder Whole.files env.tokens none wrong (inline wrong) := by
  rw [← inline_read Whole.files wrong_includes]
  exact ⟨_, .refl _, rfl⟩

theorem lexed {text : Str} (h : (lexText logos text).isSome = true) :
    ∀ id path t, IsSource (inline text) id path t → lexText logos t ≠ none := by
  intro id path t ht hn
  rcases ht with ⟨_, _, ht⟩ | ⟨p, ix, _, hm⟩
  · have ht : t = text := ht
    rw [ht] at hn
    rw [hn] at h
    cases h
  · cases hm

end Located
open Located

/-- The hypotheses of `C52_success` and `C52_success_shown` are met. -/
example : ∃ a, parseSources env (inline Located.text) = .ok a ∧
    (∀ d ∈ a.directives, ShownInSources logos env (inline Located.text) (here d) ∧
      ∀ x ∈ Locations.directive d.item, ShownInSources logos env (inline Located.text) x) ∧
    ∀ p ∈ a.plugins, ∀ x ∈ Locations.plugin p, ShownInSources logos env (inline Located.text) x := by
  obtain ⟨a, ha⟩ := Whole.succeeds_iff (r := parseSources env (inline Located.text)) (by decide +kernel)
  obtain ⟨h1, _, h2, _⟩ := C52_success_shown lexedBy Whole.files_wf Located.read (lexed (by decide +kernel)) ha
  exact ⟨a, ha, h1, h2⟩

/-- What is shown at the locations: date, metadata (from the last space of the indent), its key, value, number and currency, the tag pushed, account and
comment. -/
example : (match parseSources env (inline Located.text) with
    | .ok a => a.directives.map (fun d => shown Located.text (Locations.directive d.item))
    | _ => []) = [[(some (str "2024-01-02"), true), (some (str " kk: 7 EUR\n"), false), (some (str "kk"), true),
      (some (str "7 EUR"), true), (some (str "7"), false), (some (str "EUR"), true), (some (str "pushtag #tt"), true),
      (some (str "Assets:A"), true), (some (str "\"é\""), true)]] := by
  decide +kernel

/-- The hypotheses of `C52_failure` and `C52_failure_shown` are met. -/
example : ∃ a, parseSources env (inline wrong) = .err a ∧
    ∀ f ∈ a.errors, ∀ x ∈ Locations.fault f, ShownInSources logos env (inline wrong) x := by
  obtain ⟨a, ha⟩ := Whole.fails_iff (r := parseSources env (inline wrong)) (by decide +kernel)
  exact ⟨a, ha, (C52_failure_shown lexedBy Whole.files_wf wrong_read (lexed (by decide +kernel)) ha).1⟩

/-- What is shown at the locations of the errors. -/
example : (match parseSources env (inline wrong) with
    | .err a => a.errors.map (fun f => shown wrong (Locations.fault f))
    | _ => []) = [[(some (str "#u"), true)], [(some (str "pushtag #tt"), false)]] := by
  decide +kernel

/-- The hypotheses of the theorems about a file are met. -/
example : Ordered (Sample.tx ++ Sample.opening) ∧
    (parseFile Sample.cfg (Sample.tx ++ Sample.opening) Sample.opts []).any (fun r => r.declarations.isSome) = true :=
  ⟨by unfold Ordered; decide, by decide +kernel⟩

end

end Lima.Props
