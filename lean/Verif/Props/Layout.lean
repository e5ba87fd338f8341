import Verif.Lemmas.BlindRead
import Verif.Model.Context
import Verif.Props.Run
import Verif.Props.Success

/-!
# Layout does not matter (C57)

`SameTokens`, `SameButPlaces`, `SameFileSystem`, `SameSources` and `SameEnv` are in `Spec/Layout.lean`.
-/

set_option linter.unusedSectionVars false

namespace Lima.Props
open Lima Lima.Spec Grammar

section
variable [Categories] [Unicode] [DecOps] {l : Logos} {fs fs' : FileSystem} {env env' : ParseEnv} {rootPath : Option Path}
  {text text' : Str} {s s' : Sources}

/-- C57: what is read from the tokens of one file, the errors, the warnings and the options afterwards do not depend on
where the tokens stand, but for locations. -/
theorem C57_file {cfg cfg' : ParseCfg} {toks toks' : List Ranged} {o o' : ParserOptions} {ws ws' : List Report}
    (ht : SameTokens toks toks') (hp : cfg'.path = cfg.path) (hd : cfg'.decimal = cfg.decimal) (ho : SameButPlaces o o')
    (hw : SameButPlaces ws ws') :
    SameButPlaces (Grammar.parseFile cfg toks o ws) (Grammar.parseFile cfg' toks' o' ws') :=
  Layout.parseFile_same ht hp hd ho hw

/-- C57: nor does what comes of all files. -/
theorem C57_sources (he : SameEnv env env') (hs : SameSources env.tokens env'.tokens s s')
    (hk : ∀ id path text, IsSource s id path text → KeysApart (env.tokens text))
    (hk' : ∀ id path text, IsSource s' id path text → KeysApart (env'.tokens text)) :
    SameButPlaces (parseSources env s) (parseSources env' s') :=
  Layout.parseSources_same he hs hk hk'

/-- C57: the same files, but for layout, are read the same way, but for layout. -/
theorem C57_read {tokens tokens' : Str → List Ranged} (hfs : SameFileSystem tokens tokens' fs fs')
    (ht : SameTokens (tokens text) (tokens' text')) :
    SameSources tokens tokens' (readWithIncludes fs tokens rootPath text) (readWithIncludes fs' tokens' rootPath text') ∧
    ∀ s, ReadInSomeOrder fs tokens rootPath text s →
      ∃ s', ReadInSomeOrder fs' tokens' rootPath text' s' ∧ SameSources tokens tokens' s s' :=
  ⟨Layout.read_same hfs rootPath ht, fun _ hs => Layout.readInSomeOrder_same hfs ht hs⟩

/-- C57: changing only the layout of texts, that is, not their tokens, changes nothing in the outcome but locations. -/
theorem C57_texts (hlex : LexedBy l env.tokens) (hlex' : LexedBy l env'.tokens) (he : SameEnv env env')
    (hs : SameSources env.tokens env'.tokens s s')
    (hne : ∀ id path text, IsSource s id path text → lexText l text ≠ none)
    (hne' : ∀ id path text, IsSource s' id path text → lexText l text ≠ none) :
    SameButPlaces (parseTexts l env s) (parseTexts l env' s') := by
  have key : ∀ {env : ParseEnv} {s : Sources}, LexedBy l env.tokens →
      (∀ id path text, IsSource s id path text → lexText l text ≠ none) →
      parseTexts l env s = parseSources env s ∧ ∀ id path text, IsSource s id path text → KeysApart (env.tokens text) := by
    intro env s hlex hne
    constructor
    · unfold parseTexts
      rw [if_neg]
      intro h
      obtain ⟨⟨id, path, text⟩, h1, h2⟩ := List.any_eq_true.mp h
      exact hne id path text (mem_contentIter.mp h1) (by simpa using h2)
    · intro id path text h
      obtain ⟨toks, ht⟩ := Option.ne_none_iff_exists'.mp (hne id path text h)
      rw [hlex _ _ ht]
      exact Layout.lexText_apart ht
  rw [(key hlex hne).1, (key hlex' hne').1]
  exact C57_sources he hs (key hlex hne).2 (key hlex' hne').2

/-- C57: for every order in which the files are visited there is one for the same files in another layout, with the same
outcome but for locations. -/
theorem C57_run (hlex : LexedBy l env.tokens) (hlex' : LexedBy l env'.tokens) (he : SameEnv env env')
    (hfs : SameFileSystem env.tokens env'.tokens fs fs') (ht : SameTokens (env.tokens text) (env'.tokens text'))
    (hs : ReadInSomeOrder fs env.tokens rootPath text s) :
    ∃ s', ReadInSomeOrder fs' env'.tokens rootPath text' s' ∧ SameSources env.tokens env'.tokens s s' ∧
      ((∀ id path text, IsSource s id path text → lexText l text ≠ none) →
        (∀ id path text, IsSource s' id path text → lexText l text ≠ none) →
        SameButPlaces (parseTexts l env s) (parseTexts l env' s')) := by
  obtain ⟨s', h1, h2⟩ := (C57_read hfs ht).2 s hs
  exact ⟨s', h1, h2, fun hne hne' => C57_texts hlex hlex' he h2 hne hne'⟩

end

/-! ### What a context says -/

theorem format_congr {α β : Type} (f : β → α) (m : α → Str) (sep : Str) (pre : Option Str) (xs : List β) :
    Display.format m sep pre (xs.map f) = Display.format (fun x => m (f x)) sep pre xs := by
  cases xs with
  | nil => rfl
  | cons x xs =>
    unfold Display.format
    rw [List.map_cons]
    dsimp only
    rw [List.flatMap_map]

theorem metaValue_blind (f : Span → Span) (v : MetaValue) : Display.metaValue (Spec.move f v) = Display.metaValue v := by
  cases v <;> rfl

theorem context_blind (f : Span → Span) (tags : TagStacks) (metas : MetaStacks) :
    fmtIncludeContext (Spec.move f tags) (Spec.move f metas) = fmtIncludeContext tags metas := by
  unfold fmtIncludeContext
  have h1 : Display.format (fun e : Spanned Str × List (Spanned Str) => Display.tag e.1.item) (str " ") none (Spec.move f tags) =
      Display.format (fun e => Display.tag e.1.item) (str " ") none tags := format_congr _ _ _ _ _
  have h2 : ∀ xs : List (Span × Spanned MetaValue),
      Display.format (fun v : Span × Spanned MetaValue => Display.metaValue v.2.item) (str " ") none (Spec.move f xs) =
      Display.format (fun v => Display.metaValue v.2.item) (str " ") none xs := by
    intro xs
    refine (format_congr _ _ _ _ _).trans ?_
    exact congrArg (fun m => Display.format m (str " ") none xs) (funext fun v => metaValue_blind f v.2.item)
  have h3 : Display.format (fun e : Spanned Str × List (Span × Spanned MetaValue) => e.1.item ++ str ": [" ++
        Display.format (fun v => Display.metaValue v.2.item) (str " ") none e.2 ++ str "]") (str " ") none (Spec.move f metas) =
      Display.format (fun e => e.1.item ++ str ": [" ++
        Display.format (fun v => Display.metaValue v.2.item) (str " ") none e.2 ++ str "]") (str " ") none metas := by
    refine (format_congr _ _ _ _ _).trans ?_
    refine congrArg (fun m => Display.format m (str " ") none metas) (funext fun e => ?_)
    exact congrArg (fun x => e.1.item ++ str ": [" ++ x ++ str "]") (h2 e.2)
  rw [h1, h3]

/-- C57: the wording of contexts in errors about duplicate includes does not depend on locations, so the hypothesis `SameEnv`
holds of what the code does. -/
theorem C57_context {tags tags' : TagStacks} {metas metas' : MetaStacks} (ht : SameButPlaces tags tags')
    (hm : SameButPlaces metas metas') : fmtIncludeContext tags' metas' = fmtIncludeContext tags metas := by
  rw [← context_blind (fun _ => ⟨0, 0, 0⟩) tags metas, ← context_blind (fun _ => ⟨0, 0, 0⟩) tags' metas']
  exact (congrArg₂ fmtIncludeContext ht hm).symm

/-! ### Samples -/

section
attribute [local instance] Categories.asciiOnly Sample.unicode Sample.decOps

namespace Laid

/-- What the code does for contexts. -/
def env : ParseEnv := { Printed.env with context := fmtIncludeContext }

theorem lexedBy : LexedBy logos env.tokens := Printed.lexedBy

theorem sameEnv : SameEnv env { env with emptySpan := fun id _ => ⟨id, 7, 7⟩ } :=
  ⟨rfl, rfl, fun _ _ _ _ ht hm => C57_context ht hm⟩

theorem sameFiles : SameFileSystem env.tokens env.tokens Whole.files Whole.files := by
  refine ⟨rfl, rfl, fun p => ?_⟩
  cases Whole.files.read p with
  | ok t => exact .ok rfl
  | error e => exact .error e

/-- A text, and the same in another layout: other spaces, comments, blank lines, line ends, and lines to be ignored. -/
def tight : Str := "pushtag #tt\npushmeta kk: 1 USD\n2024-01-02 * \"p\" \"n\"\n  Assets:A 5 USD\n  xx: 7\npoptag #tt\npopmeta kk:\n".toList
def loose : Str := "\n* title\n\n\npushtag   #tt ; comment\r\n\npushmeta kk:\t1   USD\n; comment\n2024-01-02  *  \"p\"  \"n\"\n\tAssets:A   5 USD ; comment\n\n   xx:   7\n\n* heading\npoptag #tt\npopmeta kk:  \n\n".toList

def env' : ParseEnv := { env with emptySpan := fun id _ => ⟨id, 7, 7⟩ }

theorem same : SameTokens (env.tokens tight) (env'.tokens loose) := by
  unfold SameTokens
  decide +kernel

theorem loose_includes : getIncludes env'.tokens loose = [] := by decide +kernel

theorem lexes {text t : Str} {id : Nat} {path : Option Path} (ht : (lexText logos text).isSome = true)
    (h : IsSource (Printed.inline text) id path t) : lexText logos t ≠ none := by
  rw [inline_source h]
  intro h
  rw [h] at ht
  cases ht

theorem loose_lexes : (lexText logos loose).isSome = true := by decide +kernel

theorem only {fs : FileSystem} {tokens : Str → List Ranged} {text : Str} {s : Sources}
    (hi : getIncludes tokens text = []) (h : ReadInSomeOrder fs tokens none text s) : s = Printed.inline text := by
  obtain ⟨c, hc, rfl⟩ := h
  have : readWithIncludes fs tokens none text = Printed.inline text := read_plain hi none
  rw [this] at hc ⊢
  cases List.nil_perm.mp hc
  rfl

/-- What is shown of a result: the tags of each directive, and how many errors there are. -/
def shown (r : Res ParseError ParseSuccess) : List (List Str) × Nat :=
  match r with
  | .ok a => (a.directives.map (·.item.metadata.item.tags.map (·.item)), 0)
  | .err e => ([], e.errors.length)
  | .panic => ([], 100)

end Laid

/-- The hypotheses of the theorems about C57 are met by two layouts of a text with a transaction in a pushed tag and
pushed metadata. -/
example : ∃ s', ReadInSomeOrder Whole.files Laid.env'.tokens none Laid.loose s' ∧
    SameButPlaces (parseTexts logos Laid.env (Printed.inline Laid.tight)) (parseTexts logos Laid.env' s') := by
  have hr : ReadInSomeOrder Whole.files Laid.env.tokens none Laid.tight (Printed.inline Laid.tight) :=
    run_read (by decide +kernel)
  obtain ⟨s', h1, h2, h3⟩ := C57_run (l := logos) (env := Laid.env) (env' := Laid.env') Laid.lexedBy Laid.lexedBy Laid.sameEnv Laid.sameFiles Laid.same hr
  refine ⟨s', h1, h3 (fun _ _ _ h => Laid.lexes (by decide +kernel) h) fun id path t h => ?_⟩
  exact Laid.lexes Laid.loose_lexes (Laid.only Laid.loose_includes h1 ▸ h)

/-- In both there is the transaction, with the tag. -/
example : Laid.shown (parseTexts logos Laid.env (Printed.inline Laid.tight)) = ([[str "tt"]], 0) ∧
    Laid.shown (parseTexts logos Laid.env' (Printed.inline Laid.loose)) = ([[str "tt"]], 0) := by decide +kernel

/-- A line to be ignored is not ignored if it is the first: this is another text, not another layout. -/
example : ¬ SameTokens (Laid.env.tokens (str "* title\n")) (Laid.env.tokens (str "\n* title\n")) := by
  unfold SameTokens
  decide +kernel

/-- Contexts of includes are worded without locations, but compared with those of pushed keys: pushing the same metadata at two places
makes two contexts, while pushing the same tag at two places makes one. -/
example : sameContext ⟨[(⟨str "t", ⟨0, 0, 2⟩⟩, [])], [], ⟨0, 0, 0⟩⟩
      (PragmaData.mk [] [(⟨str "t", ⟨0, 10, 12⟩⟩, [])] [] (.new .default) [] []) = true ∧
    sameContext ⟨[], [(⟨str "k", ⟨0, 0, 2⟩⟩, [(⟨0, 0, 2⟩, ⟨.simple (.bool true), ⟨0, 3, 7⟩⟩)])], ⟨0, 0, 0⟩⟩
      (PragmaData.mk [] [] [(⟨str "k", ⟨0, 10, 12⟩⟩, [(⟨0, 10, 12⟩, ⟨.simple (.bool true), ⟨0, 13, 17⟩⟩)])] (.new .default) [] []) = false := by
  decide +kernel

end

end Lima.Props
