import Verif.Spec.Layout
import Verif.Spec.Lexemes
import Verif.Spec.Lexer

/-!
Specification of texts as words with spaces, comments and line ends between them, and of when two texts differ in
layout only.
-/

namespace Lima.Spec

section
variable [Categories]

/-- No lexeme which begins with `w` goes on with the first character of `s`. -/
def EndsBefore (w s : Str) : Prop := ∀ c rest, s = c :: rest → ∀ k more, ¬ Lexeme k (w ++ c :: more)

/-- Nothing longer than `w` is a lexeme at the start of `w ++ s`.  Either the first character of `s` tells so, or the engine
falls back to the longest lexeme it has seen. -/
def Ends (l : Logos) (w s : Str) : Prop :=
  EndsBefore w s ∨ (l.token.fallsBack (w ++ s) = true ∧ ∀ more k, more ≠ [] → more <+: s → ¬ Lexeme k (w ++ more))

/-- `w` is a lexeme which denotes the token `t`. -/
def WordFor (l : Logos) (w : Str) (t : Token) : Prop :=
  ∃ k, Lexeme k w ∧ (∀ t', Fixed t' w → k = .lit t') ∧ Denotes l k w (.ok t)

/-- The text `s` does not begin with a space or a tab. -/
def NotBlank (s : Str) : Prop := ∀ c rest, s = c :: rest → c ≠ ' ' ∧ c ≠ '\t'

/-- The text `s` does not begin with a character which makes a line ignored. -/
def NotIgnored (s : Str) : Prop := ∀ c rest, s = c :: rest → ¬ In "*!&#?%:" c

/-- The text `s` begins with white space or a comment. -/
def BeginsWithSpace (s : Str) : Prop := ∃ c rest, s = c :: rest ∧ (c = ' ' ∨ c = '\t' ∨ c = '\r' ∨ c = '\n' ∨ c = ';')

/-- The text consists of words, among them the ends of lines, with spaces between them, and these are their tokens. -/
inductive Written (l : Logos) : Str → List Token → Prop
  | done : Written l [] []
  /-- spaces -/
  | blanks {b s : Str} {ts : List Token} : Blanks b → Ends l b s → Written l s ts → Written l (b ++ s) ts
  /-- a word, or the end of a line -/
  | word {w s : Str} {t : Token} {ts : List Token} : WordFor l w t → Ends l w s → Written l s ts → Written l (w ++ s) (t :: ts)

end

/-- The same lines: of several line ends in a row only the last counts, those before the first line do not count, and a
comment without a line end at the end of the file counts as a line end. -/
inductive SameLines : List Token → List Token → Prop
  | refl (ts : List Token) : SameLines ts ts
  | symm {a b : List Token} : SameLines a b → SameLines b a
  | trans {a b c : List Token} : SameLines a b → SameLines b c → SameLines a c
  | merge (a b : List Token) {t t' : Token} : LineEnd t → LineEnd t' → SameLines (a ++ t :: t' :: b) (a ++ t' :: b)
  | first (b : List Token) {t : Token} : LineEnd t → SameLines (t :: b) b
  | last (a : List Token) : SameLines (a ++ [.eolComment]) (a ++ [.eol])

section
variable [Categories]

/-- Two texts which differ in layout only: they consist of the same words in the same lines.  A text which is not just
words and lines, because there are lexical errors in it, must be the same. -/
inductive SameText (l : Logos) : Str → Str → Prop
  | layout {text text' : Str} {ts ts' : List Token} : Written l text ts → Written l text' ts' → SameLines ts ts' →
      SameText l text text'
  | unchanged {text : Str} : lexText l text ≠ none → SameText l text text

/-- Reading the file gives the same text but for layout, or the same error. -/
inductive SameContents (l : Logos) : Except Str Str → Except Str Str → Prop
  | ok {text text' : Str} (h : SameText l text text') : SameContents l (.ok text) (.ok text')
  | error (e : Str) : SameContents l (.error e) (.error e)

/-- The same files, whose texts differ in layout only. -/
structure SameFiles (l : Logos) (fs fs' : FileSystem) : Prop where
  glob : fs'.glob = fs.glob
  canonicalize : fs'.canonicalize = fs.canonicalize
  read : ∀ p, SameContents l (fs.read p) (fs'.read p)

end

end Lima.Spec
