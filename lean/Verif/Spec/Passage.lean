import Verif.Spec.Written
import Verif.Spec.Layout

/-!
Specification of passages: texts of whole lines, which may be put one after the other.
-/

namespace Lima.Spec

/-- The tokens are those of whole lines: the last of them is the end of a line. -/
def WholeLines (ts : List Token) : Prop := ts = [] ∨ ∃ before, ts = before ++ [.eol]

/-- The first line with anything in it is not indented, and does not begin with a colon. -/
def Unindented (ts : List Token) : Prop :=
  ∃ blank rest, ts = blank ++ rest ∧ (∀ t ∈ blank, t = .eol) ∧ ∀ t ∈ rest.head?, ¬ LineEnd t ∧ t ≠ .colon

/-- What comes of two texts one after the other, if the first is read before the second: the declarations and the errors of both;
options and warnings are those after the second, which begins with those after the first. -/
def inTurn (first second : Grammar.FileResult) : Grammar.FileResult :=
  ⟨first.declarations.bind fun ds => second.declarations.map (ds ++ ·), first.errors ++ second.errors, second.opts, second.warns⟩

section
variable [Categories]

/-- The text consists of words, among them the ends of lines, with spaces between them, and these are their tokens.  Where a
word ends is seen from the next character. -/
inductive Apart (l : Logos) : Str → List Token → Prop
  | done : Apart l [] []
  /-- spaces -/
  | blanks {b s : Str} {ts : List Token} : Blanks b → EndsBefore b s → Apart l s ts → Apart l (b ++ s) ts
  /-- a word, or the end of a line -/
  | word {w s : Str} {t : Token} {ts : List Token} : WordFor l w t → EndsBefore w s → Apart l s ts → Apart l (w ++ s) (t :: ts)

/-- A passage: a text of whole lines, the first of which is neither indented nor ignored, without lexical errors. -/
structure Passage (l : Logos) (text : Str) : Prop where
  written : ∃ ts, Apart l text ts ∧ WholeLines ts ∧ Unindented ts
  notBlank : NotBlank text
  notIgnored : NotIgnored text

end

end Lima.Spec
