import Verif.Props.Passage
import Verif.Lemmas.InPlaceRead

/-!
# C61: an include acts as the text of the file in its place

A root file which includes another file of its directory means the same as the root file with the text of that file in place
of the line with the include.
-/

set_option linter.unusedSectionVars false

namespace Lima.Props
open Lima.Spec Grammar

/-! ### Declarations -/

/-- C61: for the declarations of files, once they have been parsed: the directives, the options, the plugins, the errors and
the pushed tags and metadata left at the end are the same with the include as with the declarations of the file in its place. -/
theorem C61_declarations {env env' : PragmaEnv} {root : Option Path} {b : Path}
    {files files' : List (Option Path × List (Spanned Declaration))} (h : InPlace env env' root b files files') (o : Options)
    {out : List (Spanned Directive)} {d : PragmaData} (hr : processPragmas env root files o = .ok (out, d)) :
    ∃ d', processPragmas env' root files' o = .ok (out, d') ∧ d'.tags = d.tags ∧ d'.metas = d.metas ∧ d'.options = d.options ∧
      d'.plugins = d.plugins ∧ d'.errors = d.errors := by
  rcases inPlace_process h o with ⟨out', d1, d2, h1, h2, h3⟩ | ⟨h1, _⟩
  · rw [hr] at h1
    cases h1
    exact ⟨d2, h2, h3.tags, h3.metas, h3.options, h3.plugins, h3.errors⟩
  · rw [hr] at h1
    cases h1

/-! ### Files -/

section
variable [Categories] [Unicode] [DecOps] {l : Logos} {env : ParseEnv} {fs fs' : FileSystem} {root : Option Path} {b : Path}
  {before line contents after name : Str} {s s' : Sources}

/-- C61: with the text of the included file in place of the include, other files are still found, and nothing else. -/
theorem C61_found (hlex : LexedBy l env.tokens) (h : IncludedText l env.tokens fs fs' root b before line contents after name)
    {p : Path} {text : Str} (hp : some p ≠ root) :
    Found fs env.tokens root (before ++ line ++ after) (some p) text ↔
      (p = b ∧ text = contents) ∨ Found fs' env.tokens root (before ++ contents ++ after) (some p) text := by
  constructor
  · intro hf
    rcases InPlaceParse.found_forth hlex h hf with ⟨k, _⟩ | ⟨k1, k2⟩ | ⟨k, _⟩
    · exact absurd k hp
    · exact .inl ⟨Option.some.inj k1, k2⟩
    · exact .inr k
  · rintro (⟨rfl, rfl⟩ | hf)
    · exact InPlaceParse.found_b hlex h
    · rcases InPlaceParse.found_back hlex h hf with ⟨k, _⟩ | ⟨k, _⟩
      · exact absurd k hp
      · exact k

theorem parseTexts_ok {r : ParseSuccess} (hr : parseTexts l env s = .ok r) :
    parseSources env s = .ok r ∧ ∀ e ∈ s.contentIter, lexText l e.2.2 ≠ none := by
  unfold parseTexts at hr
  split at hr
  · cases hr
  · rename_i h
    refine ⟨hr, fun e he hn => h (List.any_eq_true.mpr ⟨e, he, ?_⟩)⟩
    rw [hn]
    rfl

theorem parseTexts_eq (h : ∀ e ∈ s.contentIter, lexText l e.2.2 ≠ none) : parseTexts l env s = parseSources env s := by
  unfold parseTexts
  rw [if_neg]
  intro hh
  obtain ⟨e, he, hn⟩ := List.any_eq_true.mp hh
  exact h e he (Option.isNone_iff_eq_none.mp hn)

/-- C61: a run on files with the include succeeds if and only if the run on files with the text in place of it does, whatever
the orders in which files are visited, and with the same result but for locations and the order of warnings. -/
theorem C61_run (hwf : GlobsWF fs) (hlex : LexedBy l env.tokens) (hx : SameEnv env env) (hc : env.canonicalize = fs.canonicalize)
    (h : IncludedText l env.tokens fs fs' root b before line contents after name)
    (ho : OptionsFirst env.tokens fs root (before ++ line ++ after) after)
    (hs : ReadInSomeOrder fs env.tokens root (before ++ line ++ after) s)
    (hs' : ReadInSomeOrder fs' env.tokens root (before ++ contents ++ after) s') :
    (∃ r r', parseTexts l env s = .ok r ∧ parseTexts l env s' = .ok r' ∧ SameSuccess r r') ∨
    ((∀ r, parseTexts l env s ≠ .ok r) ∧ ∀ r, parseTexts l env s' ≠ .ok r) := by
  have hsplit := InPlaceParse.split_of_read hlex h hwf ho hs hs'
  rw [← hc] at hsplit
  have hwf' : GlobsWF fs' := fun p gs hg => hwf p gs (by rw [← h.glob]; exact hg)
  have lexed : ∀ {t : Str}, Passage l t → lexText l t ≠ none := by
    intro t ht
    rw [(InPlaceParse.passage_whole hlex ht).2.2]
    simp
  have root1 : lexText l (before ++ line ++ after) ≠ none :=
    lexed (Passage.append (Passage.append (InPlaceParse.pBefore hlex h) (InPlaceParse.pLine hlex h)) (InPlaceParse.pAfter hlex h))
  have root2 : lexText l (before ++ contents ++ after) ≠ none :=
    lexed (Passage.append (Passage.append (InPlaceParse.pBefore hlex h) (InPlaceParse.pContents hlex h)) (InPlaceParse.pAfter hlex h))
  -- the texts of both
  have forth : (∀ e ∈ s.contentIter, lexText l e.2.2 ≠ none) → ∀ e ∈ s'.contentIter, lexText l e.2.2 ≠ none := by
    intro hl e he
    rcases InPlaceParse.found_back hlex h (C60_only_found hwf' hs' _ _ _ (mem_contentIter.mp he)) with ⟨_, k⟩ | ⟨k, _⟩
    · rw [k]; exact root2
    · obtain ⟨id, hid⟩ := (C60_files_found hwf h.names h.noErrors hs _ _).mpr k
      exact hl (id, e.2.1, e.2.2) (mem_contentIter.mpr hid)
  have back : (∀ e ∈ s'.contentIter, lexText l e.2.2 ≠ none) → ∀ e ∈ s.contentIter, lexText l e.2.2 ≠ none := by
    intro hl e he
    rcases InPlaceParse.found_forth hlex h (C60_only_found hwf hs _ _ _ (mem_contentIter.mp he)) with ⟨_, k⟩ | ⟨_, k⟩ | ⟨k, _⟩
    · rw [k]; exact root1
    · rw [k]; exact lexed (InPlaceParse.pContents hlex h)
    · obtain ⟨id, hid⟩ := (C60_files_found hwf' (InPlaceParse.names' hlex h) (InPlaceParse.noErrors' hlex h) hs' _ _).mpr k
      exact hl (id, e.2.1, e.2.2) (mem_contentIter.mpr hid)
  by_cases hl : ∀ e ∈ s.contentIter, lexText l e.2.2 ≠ none
  · rw [parseTexts_eq hl, parseTexts_eq (forth hl)]
    have apart : ∀ {s : Sources}, (∀ e ∈ s.contentIter, lexText l e.2.2 ≠ none) →
        ∀ id path text, IsSource s id path text → KeysApart (env.tokens text) := by
      intro s hl id path text hi
      obtain ⟨toks, ht⟩ := Option.ne_none_iff_exists'.mp (hl _ (mem_contentIter.mpr hi))
      rw [hlex _ _ ht]
      exact Layout.lexText_apart ht
    exact InPlaceParse.split_parse hsplit hx (apart hl) (apart (forth hl))
  · right
    constructor
    · intro r hr
      exact hl (parseTexts_ok hr).2
    · intro r hr
      exact hl (back (parseTexts_ok hr).2)

end

/-! ### Samples -/

theorem found_plain {fs : FileSystem} {tokens : Str → List Ranged} {root : Option Path} {rootText : Str}
    (hi : getIncludes tokens rootText = []) {path : Option Path} {text : Str} (h : Found fs tokens root rootText path text) :
    path = root ∧ text = rootText := by
  induction h with
  | root => exact ⟨rfl, rfl⟩
  | step _ hinc _ _ _ _ _ ih =>
    obtain ⟨rfl, rfl⟩ := ih
    have := (getIncludes_iff _ _).mpr hinc
    rw [hi] at this
    cases this

section
attribute [local instance] Categories.asciiOnly Sample.unicode Sample.decOps

namespace Included
open Worded

local instance (s : String) (c : Char) : Decidable (In s c) := inferInstanceAs (Decidable (c ∈ s.toList))

/-- Two files, `r` and `x y`; the latter has a plugin. -/
def files : FileSystem where
  glob p := .ok (if p = Path.ofStr (str "x y") then [.path p] else [])
  canonicalize p := if p = Path.ofStr (str "r") ∨ p = Path.ofStr (str "x y") then some p else none
  read p := if p = Path.ofStr (str "x y") then .ok Worded.pushed else .error (str "no such file")
  files := [Path.ofStr (str "r"), Path.ofStr (str "x y")]
  canonicalize_mem := by
    intro p c h
    split at h
    · rename_i h'
      cases h
      rcases h' with rfl | rfl <;> simp
    · cases h

theorem files_wf : GlobsWF files := by
  intro p gs h g hg
  simp only [files] at h
  split at h
  · rename_i h'
    cases h
    simp only [List.mem_singleton] at hg
    subst hg
    subst h'
    exact Path.ofStr_wf (str "x y")
  · cases h
    cases hg

theorem files_names (tokens : Str → List Ranged) (root : Option Path) (text : Str) : OneName files tokens root text := by
  intro q q' c _ _ h h'
  have : ∀ p c, files.canonicalize p = some c → c = p := by
    intro p c h
    simp only [files] at h
    split at h
    · exact (Option.some.inj h).symm
    · cases h
  rw [← this q c h, ← this q' c h']

theorem files_errors : NoGlobErrors files := by
  rintro p m ⟨g, gs, h, hm⟩
  simp only [files] at h
  injection h with h
  subst h
  split at hm <;> simp at hm

/-- A line with an include. -/
def line : Str := 'i' :: str "nclude" ++ ([' '] ++ ('"' :: str "x y\"" ++ ['\n']))

example : line = str "include \"x y\"\n" := by decide +kernel

theorem line_passage : Passage logos line := by
  refine ⟨⟨[.include, .stringLiteral (str "x y"), .eol], ?_, .inr ⟨[_, _], rfl⟩, [], _, rfl, by simp, fun t ht => ?_⟩,
    notBlank (by decide), notIgnored (by decide)⟩
  · refine apart_spaced (w := 'i' :: str "nclude") (fixed (w := 'i' :: str "nclude") (t := .include) (by decide +kernel) (by decide +kernel)) rfl
      ⟨_, _, rfl, .inl rfl⟩ ?_
    refine apart_gap (b := [' ']) ⟨by simp, by simp⟩ (notBlank (by decide)) ?_
    refine apart_spaced string rfl ⟨_, _, rfl, by decide⟩ ?_
    exact apart_line (e := ['\n']) (s := []) plainEnd (by rintro _ _ ⟨⟩) (by rintro _ _ ⟨⟩) .done
  · cases ht
    exact ⟨notLine rfl, by simp⟩

def env : ParseEnv := { Laid.env with canonicalize := files.canonicalize }

theorem sameEnv : SameEnv env env := ⟨rfl, rfl, fun _ _ _ _ ht hm => C57_context ht hm⟩

theorem plain : getIncludes env.tokens (tight ++ pushed ++ tight) = [] := by decide +kernel

theorem included : IncludedText logos env.tokens files files (some (Path.ofStr (str "r"))) (Path.ofStr (str "x y")) tight line pushed tight
    (str "x y") where
  passages := by
    intro t ht
    simp only [List.mem_cons, List.not_mem_nil, or_false] at ht
    rcases ht with rfl | rfl | rfl | rfl
    · exact tight_passage
    · exact line_passage
    · exact pushed_passage
    · exact tight_passage
  lineTokens := by decide +kernel
  leads := by decide +kernel
  isFile := by decide +kernel
  bText := by decide +kernel
  notRoot := by decide +kernel
  directory := by decide +kernel
  glob := rfl
  canonicalize := rfl
  read := fun _ _ => rfl
  once := by
    rintro ⟨path, text, i, gs, h1, h2, _⟩
    obtain ⟨rfl, rfl⟩ := found_plain plain h1
    have := (getIncludes_iff _ _).mpr h2
    rw [plain] at this
    cases this
  names := files_names _ _ _
  noErrors := files_errors

theorem no_options {toks : List Ranged} (h : ∀ t ∈ toks, t.tok ≠ .option) : ¬ SetsParserOption toks := by
  rintro ⟨a, b, n, v, hm, _⟩
  have : Token.option ∈ toks.map (·.tok) := by rw [hm]; simp
  obtain ⟨t, ht, he⟩ := List.mem_map.mp this
  exact h t ht he

theorem options : OptionsFirst env.tokens files (some (Path.ofStr (str "r"))) (tight ++ line ++ tight) tight := by
  refine ⟨no_options (by decide +kernel), fun p text hp hf => ?_⟩
  rcases (C61_found Laid.lexedBy included hp).mp hf with ⟨_, rfl⟩ | hf
  · exact no_options (by decide +kernel)
  · exact absurd (found_plain plain hf).1 hp

/-- Both are read. -/
def whole : Sources := readWithIncludes files env.tokens (some (Path.ofStr (str "r"))) (tight ++ pushed ++ tight)

theorem whole_eq : whole = ⟨some (Path.ofStr (str "r")), tight ++ pushed ++ tight, charIndices (tight ++ pushed ++ tight), [], [], [str "r"], []⟩ := by
  refine (read_plain plain _).trans ?_
  rfl

end Included

/-- The hypotheses of the theorems about C61 are met by a root file with two directives and an include of a file with a plugin
between them; both runs succeed, with two directives and a plugin. -/
example : ∃ r r', parseTexts logos Included.env (readWithIncludes Included.files Included.env.tokens (some (Path.ofStr (str "r")))
      (Worded.tight ++ Included.line ++ Worded.tight)) = .ok r ∧ parseTexts logos Included.env Included.whole = .ok r' ∧ SameSuccess r r' := by
  have h := C61_run (l := logos) (env := Included.env) Included.files_wf Laid.lexedBy Included.sameEnv rfl Included.included Included.options
    (s := readWithIncludes Included.files Included.env.tokens (some (Path.ofStr (str "r"))) (Worded.tight ++ Included.line ++ Worded.tight))
    (s' := Included.whole) ⟨_, .refl _, rfl⟩ ⟨_, .refl _, rfl⟩
  rcases h with h | ⟨_, h⟩
  · exact h
  · have key : ∀ x : Res ParseError ParseSuccess, (match x with | .ok r => r.plugins.length + r.directives.length == 3 | _ => false) = true → ∃ r, x = .ok r := by
      intro x hx
      cases x with
      | ok r => exact ⟨r, rfl⟩
      | err _ => cases hx
      | panic => cases hx
    obtain ⟨r, hr⟩ := key (parseTexts logos Included.env Included.whole) (by rw [Included.whole_eq]; decide +kernel)
    exact absurd hr (h r)

end

end Lima.Props
