import Verif.Lemmas.WrittenText
import Verif.Props.Layout
import Verif.Props.Sources

/-!
C58: which texts differ in layout only.

The specification is in `Spec/Written.lean`.
-/

set_option linter.unusedSectionVars false

namespace Lima.Props
open Lima Lima.Spec Grammar

section
variable [Categories] [Unicode] [DecOps] {l : Logos} {env env' : ParseEnv} {fs fs' : FileSystem} {text text' : Str}
  {rootPath : Option Path} {s s' : Sources}

/-- C58: a word ends before white space and comments, whatever follows these. -/
theorem C58_ends {w s : Str} {t : Token} (h : WordFor l w t) (hn : ¬ LineEnd t) (hs : BeginsWithSpace s) : Ends l w s :=
  .inl (ends_word h hn hs)

/-- C58: spaces end before what is none. -/
theorem C58_blanks {b s : Str} (hb : Blanks b) (hs : NotBlank s) : Ends l b s := .inl (endsBefore_blanks hb hs)

/-- C58: the end of a line, which is a comment perhaps, the line end proper and lines to be ignored, is a line end token,
and so is such an end with the indentation of the next line; a comment which ends the file without a line end is one too. -/
theorem C58_line_ends {e b s : Str} (he : LineEnding e) (hb : Blanks b) (hs : NotBlank s) :
    (WordFor l e .eol ∧ (NotIgnored s → Ends l e s)) ∧ WordFor l (e ++ b) .eolThenIndent ∧ Ends l (e ++ b) s :=
  ⟨⟨word_lineEnd he, fun hi => .inl (endsBefore_line he hs hi)⟩, word_lineEndIndent he hb, .inl (endsBefore_indent he hb hs)⟩

theorem C58_last_comment {rest : Str} (h1 : '\r' ∉ rest) (h2 : '\n' ∉ rest) :
    WordFor l (';' :: rest) .eolComment ∧ Ends l (';' :: rest) [] :=
  ⟨word_comment h1 h2, .inl (fun _ _ h => by cases h)⟩

/-- C58: the texts which consist of words, spaces and line ends are all those without lexical errors, if the engine falls back
to the longest lexeme it has seen; if it need not, they are still without lexical errors. -/
theorem C58_written (ts : List Token) :
    (Written l text ts → ∃ items, tokenItems l text = some items ∧ items.map (·.res) = ts.map .ok) ∧
    ((∀ s, l.token.fallsBack s = true) → (∃ items, tokenItems l text = some items ∧ items.map (·.res) = ts.map .ok) →
      Written l text ts) := by
  constructor
  · intro h
    exact lexes_written h 0 text.length (Nat.le_refl _)
  · rintro hl ⟨items, h, hr⟩
    exact written_of_cuts hl (cuts_of_tokenizes (tokenItems_tokenizes h)) ts hr

/-- C58: a text of words and lines lexes to a list of tokens which depends only on the words and on which of them are
in one line, and on which lines are indented. -/
theorem C58_tokens (h : SameText l text text') :
    ∃ toks toks', lexText l text = some toks ∧ lexText l text' = some toks' ∧ SameTokens toks toks' := by
  cases h with
  | layout h h' hs =>
    obtain ⟨toks, h1, h2⟩ := lexText_of_lexes (lexes_written h)
    obtain ⟨toks', h3, h4⟩ := lexText_of_lexes (lexes_written h')
    exact ⟨toks, toks', h1, h3, by rw [SameTokens, h2, h4, linesOf_same hs]⟩
  | unchanged h =>
    cases h' : lexText l text with
    | none => exact absurd h' h
    | some toks => exact ⟨toks, toks, rfl, rfl, rfl⟩

theorem sameTokens_of_text (hlex : LexedBy l env.tokens) (hlex' : LexedBy l env'.tokens) (h : SameText l text text') :
    SameTokens (env.tokens text) (env'.tokens text') := by
  obtain ⟨toks, toks', h1, h2, h3⟩ := C58_tokens h
  rw [hlex _ _ h1, hlex' _ _ h2]
  exact h3

theorem sameFileSystem_of_files (hlex : LexedBy l env.tokens) (hlex' : LexedBy l env'.tokens) (h : SameFiles l fs fs') :
    SameFileSystem env.tokens env'.tokens fs fs' := by
  refine ⟨h.glob, h.canonicalize, fun p => ?_⟩
  have := h.read p
  generalize fs.read p = a, fs'.read p = b at this
  cases this with
  | ok h => exact .ok (sameTokens_of_text hlex hlex' h)
  | error e => exact .error e

/-- Sources are the root and what was read. -/
theorem source_text {tokens : Str → List Ranged} (hwf : GlobsWF fs) (hs : ReadInSomeOrder fs tokens rootPath text s) {id : Nat}
    {path : Option Path} {t : Str} (h : IsSource s id path t) : t = text ∨ ∃ p, fs.read p = .ok t := by
  obtain ⟨content, hp, rfl⟩ := hs
  rcases h with ⟨_, _, rfl⟩ | ⟨p, ix, _, h⟩
  · exact .inl rfl
  · exact .inr ⟨p, (C08_content_faithful hwf id p t ix (hp.mem_iff.mpr h)).1⟩

/-- C58: changing only the layout of files, that is, white space, comments, blank lines, lines to be ignored and line
ends, changes nothing in the outcome of parsing but locations, and no such change makes parsing panic. -/
theorem C58_run (hwf : GlobsWF fs) (hlex : LexedBy l env.tokens) (hlex' : LexedBy l env'.tokens) (he : SameEnv env env')
    (hfs : SameFiles l fs fs') (ht : SameText l text text') (hs : ReadInSomeOrder fs env.tokens rootPath text s) :
    ∃ s', ReadInSomeOrder fs' env'.tokens rootPath text' s' ∧ SameSources env.tokens env'.tokens s s' ∧
      SameButPlaces (parseTexts l env s) (parseTexts l env' s') := by
  obtain ⟨s', h1, h2, h3⟩ := C57_run hlex hlex' he (sameFileSystem_of_files hlex hlex' hfs) (sameTokens_of_text hlex hlex' ht) hs
  have hwf' : GlobsWF fs' := fun p gs hg => hwf p gs (by rw [← hfs.glob]; exact hg)
  obtain ⟨toks, toks', e1, e2, _⟩ := C58_tokens ht
  refine ⟨s', h1, h2, h3 (fun id path t h => ?_) (fun id path t h => ?_)⟩
  · rcases source_text hwf hs h with rfl | ⟨p, hp⟩
    · simp [e1]
    · have := hfs.read p
      rw [hp] at this
      generalize fs'.read p = b at this
      cases this with
      | ok h =>
        obtain ⟨_, _, e, _, _⟩ := C58_tokens h
        simp [e]
  · rcases source_text hwf' h1 h with rfl | ⟨p, hp⟩
    · simp [e2]
    · have := hfs.read p
      rw [hp] at this
      generalize fs.read p = b at this
      cases this with
      | ok h =>
        obtain ⟨_, _, _, e, _⟩ := C58_tokens h
        simp [e]

end

/-! ### Samples -/

section
attribute [local instance] Categories.asciiOnly Sample.unicode Sample.decOps

namespace Worded

local instance (s : String) (c : Char) : Decidable (In s c) := inferInstanceAs (Decidable (_ ∈ _))

theorem date : WordFor logos ('2' :: str "024-01-02") (.date ⟨2024, 1, 2⟩) := by
  refine ⟨.date, ?_, fun t h => ?_, ?_⟩
  · refine Lexeme.date (y := str "2024") (m := str "01") (d := str "02") (s1 := '-') (s2 := '-') ?_ ?_ ?_ (by decide) (by decide) <;>
      exact ⟨rfl, by decide +kernel⟩
  · have : ∀ p ∈ literals, p.2 ≠ str "2024-01-02" := by decide +kernel
    exact absurd rfl (this _ (fixed_iff.mp h))
  · exact Denotes.date (y := [2, 0, 2, 4]) (m := [0, 1]) (d := [0, 2]) (s1 := '-') (s2 := '-') (by decide) (by decide)
      (by unfold DateExists Leap; decide)

theorem fixed {w : Str} {t : Token} (h : (t, w) ∈ literals) (hu : ∀ p ∈ literals, p.2 = w → p.1 = t) : WordFor logos w t :=
  ⟨.lit t, .fixed (fixed_iff.mpr h), fun t' h' => congrArg Kind.lit (hu _ (fixed_iff.mp h') rfl).symm, .lit⟩

theorem account : WordFor logos ('A' :: str "ssets:A") (.account (str "Assets:A")) := by
  refine ⟨.account, ?_, fun t h => ?_, .account⟩
  · exact Lexeme.account (a := 'A') (rest := str "ssets") (first := str "A") (others := []) (by decide +kernel)
      (by unfold AccountChar; decide +kernel) ⟨'A', [], rfl, by decide +kernel, by simp⟩ (by simp)
  · have : ∀ p ∈ literals, p.2 ≠ str "Assets:A" := by decide +kernel
    exact absurd rfl (this _ (fixed_iff.mp h))

theorem key : WordFor logos (['k', 'k']) (.key (str "kk")) := by
  refine ⟨.key, ?_, fun t h => ?_, .key⟩
  · exact Lexeme.key (a := 'k') (rest := ['k']) (by unfold Lower; decide) (by simp) (by simp [Lower])
  · have : ∀ p ∈ literals, p.2 ≠ str "kk" := by decide +kernel
    exact absurd rfl (this _ (fixed_iff.mp h))

theorem string : WordFor logos ('"' :: str "x y\"") (.stringLiteral (str "x y")) := by
  refine ⟨.stringLiteral, ?_, fun t h => ?_, ?_⟩
  · exact Lexeme.string (body := str "x y") (.plain (by decide) (by decide) (.plain (by decide) (by decide) (.plain (by decide) (by decide) .nil)))
  · have : ∀ p ∈ literals, p.2 ≠ str "\"x y\"" := by decide +kernel
    exact absurd rfl (this _ (fixed_iff.mp h))
  · exact Denotes.string (body := str "x y") (.plain (by decide) (.plain (by decide) (.plain (by decide) .nil)))

theorem notLine {t : Token} (h : t.isEol = false) : ¬ LineEnd t := fun h' => by
  rw [(isEol_iff t).mpr h'] at h; cases h

/-- A word before white space. -/
theorem spaced {w s : Str} {t : Token} {ts : List Token} (h : WordFor logos w t) (hn : t.isEol = false) (hs : BeginsWithSpace s)
    (hw : Written logos s ts) : Written logos (w ++ s) (t :: ts) :=
  .word h (C58_ends h (notLine hn) hs) hw

/-- A key right before its colon. -/
theorem key_colon {s : Str} : EndsBefore ['k', 'k'] (':' :: s) := by
  rintro c rest e k more hk
  cases e
  exact not_reads_stop (h := 'k') (t := ['k']) (c := ':') (by decide) (by decide) (by simp) (by simp [isAsciiLower]) (by simp)
    (lexeme_iff.mp hk)

theorem notBlank {c : Char} {s : Str} (h : c ≠ ' ' ∧ c ≠ '\t') : NotBlank (c :: s) := by
  rintro _ _ ⟨⟩; exact h

theorem notIgnored {c : Char} {s : Str} (h : ¬ In "*!&#?%:" c) : NotIgnored (c :: s) := by
  rintro _ _ ⟨⟩; exact h

theorem plainEnd : LineEnding ['\n'] := ⟨[], ['\n'], [], rfl, .inl rfl, .inl rfl, .nil⟩

theorem gap {b s : Str} {ts : List Token} (hb : Blanks b) (hn : NotBlank s) (h : Written logos s ts) : Written logos (b ++ s) ts :=
  .blanks hb (C58_blanks hb hn) h

theorem line {e s : Str} {ts : List Token} (he : LineEnding e) (hn : NotBlank s) (hi : NotIgnored s) (h : Written logos s ts) :
    Written logos (e ++ s) (.eol :: ts) :=
  have hb : Blanks [' '] := ⟨by simp, by simp⟩
  .word (C58_line_ends he hb hn).1.1 ((C58_line_ends he hb hn).1.2 hi) h

theorem lineIndent {e b s : Str} {ts : List Token} (he : LineEnding e) (hb : Blanks b) (hn : NotBlank s) (h : Written logos s ts) :
    Written logos (e ++ b ++ s) (.eolThenIndent :: ts) := .word (C58_line_ends he hb hn).2.1 (C58_line_ends he hb hn).2.2 h

/-- A directive with metadata. -/
def tight : Str := '2' :: str "024-01-02" ++ ([' '] ++ ('o' :: str "pen" ++ ([' '] ++ ('A' :: str "ssets:A" ++ (['\n'] ++ [' '] ++
  (['k', 'k'] ++ ([':'] ++ ([' '] ++ ('"' :: str "x y\"" ++ ['\n'])))))))))

example : tight = str "2024-01-02 open Assets:A\n kk: \"x y\"\n" := by decide +kernel

theorem tight_written : Written logos tight [.date ⟨2024, 1, 2⟩, .open, .account (str "Assets:A"), .eolThenIndent,
    .key (str "kk"), .colon, .stringLiteral (str "x y"), .eol] := by
  refine spaced date rfl ⟨_, _, rfl, .inl rfl⟩ ?_
  refine gap (b := [' ']) ⟨by simp, by simp⟩ (notBlank (by decide)) ?_
  refine spaced (w := 'o' :: str "pen") (fixed (by decide +kernel) (by decide +kernel)) rfl ⟨_, _, rfl, .inl rfl⟩ ?_
  refine gap (b := [' ']) ⟨by simp, by simp⟩ (notBlank (by decide)) ?_
  refine spaced account rfl ⟨_, _, rfl, by decide⟩ ?_
  refine lineIndent (e := ['\n']) (b := [' ']) plainEnd ⟨by simp, by simp⟩ (notBlank (by decide)) ?_
  refine .word key (.inl key_colon) ?_
  refine spaced (w := [':']) (fixed (by decide +kernel) (by decide +kernel)) rfl ⟨_, _, rfl, .inl rfl⟩ ?_
  refine gap (b := [' ']) ⟨by simp, by simp⟩ (notBlank (by decide)) ?_
  refine spaced string rfl ⟨_, _, rfl, by decide⟩ ?_
  exact line (e := ['\n']) plainEnd (by rintro _ _ ⟨⟩) (by rintro _ _ ⟨⟩) .done

/-- The same in another layout. -/
def loose : Str := (';' :: str " a\r\n") ++ (['\n'] ++ ('2' :: str "024-01-02" ++ (['\t'] ++ ('o' :: str "pen" ++ ([' ', ' '] ++
  ('A' :: str "ssets:A" ++ ((';' :: str "b\n* c\n") ++ [' ', ' '] ++ (['\n'] ++ ['\t'] ++ (['k', 'k'] ++ ([' '] ++
  ([':'] ++ ([' '] ++ ('"' :: str "x y\"" ++ (';' :: str " d"))))))))))))))

example : loose = str "; a\r\n\n2024-01-02\topen  Assets:A;b\n* c\n  \n\tkk : \"x y\"; d" := by decide +kernel

theorem loose_written : Written logos loose [.eol, .eol, .date ⟨2024, 1, 2⟩, .open, .account (str "Assets:A"), .eolThenIndent,
    .eolThenIndent, .key (str "kk"), .colon, .stringLiteral (str "x y"), .eolComment] := by
  refine line (e := ';' :: str " a\r\n") ⟨str "; a", ['\r', '\n'], [], rfl, .inr ⟨str " a", rfl, by decide⟩, .inr rfl, .nil⟩
    (notBlank (by decide)) (notIgnored (by decide)) ?_
  refine line (e := ['\n']) plainEnd (notBlank (by decide)) (notIgnored (by decide)) ?_
  refine spaced date rfl ⟨_, _, rfl, .inr (.inl rfl)⟩ ?_
  refine gap (b := ['\t']) ⟨by simp, by simp⟩ (notBlank (by decide)) ?_
  refine spaced (w := 'o' :: str "pen") (fixed (by decide +kernel) (by decide +kernel)) rfl ⟨_, _, rfl, .inl rfl⟩ ?_
  refine gap (b := [' ', ' ']) ⟨by simp, by simp⟩ (notBlank (by decide)) ?_
  refine spaced account rfl ⟨_, _, rfl, by decide⟩ ?_
  refine lineIndent (e := ';' :: str "b\n* c\n") (b := [' ', ' ']) ⟨str ";b", ['\n'], str "* c\n", rfl, .inr ⟨str "b", rfl, by decide⟩,
    .inl rfl, .cons (u := str "* c\n") (v := []) ⟨'*', str " c", ['\n'], rfl, by decide, by decide, .inl rfl⟩ .nil⟩
    ⟨by simp, by simp⟩ (notBlank (by decide)) ?_
  refine lineIndent (e := ['\n']) (b := ['\t']) plainEnd ⟨by simp, by simp⟩ (notBlank (by decide)) ?_
  refine spaced key rfl ⟨_, _, rfl, .inl rfl⟩ ?_
  refine gap (b := [' ']) ⟨by simp, by simp⟩ (notBlank (by decide)) ?_
  refine spaced (w := [':']) (fixed (by decide +kernel) (by decide +kernel)) rfl ⟨_, _, rfl, .inl rfl⟩ ?_
  refine gap (b := [' ']) ⟨by simp, by simp⟩ (notBlank (by decide)) ?_
  refine spaced string rfl ⟨_, _, rfl, by decide⟩ ?_
  have hc := C58_last_comment (l := logos) (rest := str " d") (by decide) (by decide)
  exact .word hc.1 hc.2 .done

theorem same : SameText logos tight loose := by
  refine .layout tight_written loose_written ?_
  refine .symm (.trans (.first _ (.inl rfl)) (.trans (.first _ (.inl rfl)) ?_))
  refine .trans (.merge [_, _, _] _ (.inr (.inl rfl)) (.inr (.inl rfl))) ?_
  exact .last [_, _, _, _, _, _, _]

theorem sameFiles : SameFiles logos Whole.files Whole.files := by
  refine ⟨rfl, rfl, fun p => ?_⟩
  change SameContents logos (if _ then .ok _ else .ok _) (if _ then .ok _ else .ok _)
  split
  · exact .ok (.unchanged (by decide +kernel))
  · exact .ok (.unchanged (by decide +kernel))

end Worded

/-- The hypotheses of the theorems about C58 are met by two layouts of a directive with metadata. -/
example : ∃ s', ReadInSomeOrder Whole.files Laid.env'.tokens none Worded.loose s' ∧
    SameSources Laid.env.tokens Laid.env'.tokens (Printed.inline Worded.tight) s' ∧
    SameButPlaces (parseTexts logos Laid.env (Printed.inline Worded.tight)) (parseTexts logos Laid.env' s') :=
  C58_run (l := logos) (env := Laid.env) (env' := Laid.env') Whole.files_wf Laid.lexedBy Laid.lexedBy Laid.sameEnv Worded.sameFiles
    Worded.same (run_read (by decide +kernel))

/-- In both there is one directive, and the parser does not panic. -/
example : Laid.shown (parseTexts logos Laid.env (Printed.inline Worded.tight)) = ([[]], 0) ∧
    Laid.shown (parseTexts logos Laid.env' (Printed.inline Worded.loose)) = ([[]], 0) := by decide +kernel

end

end Lima.Props
