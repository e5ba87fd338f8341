import Verif.Spec.Grammar
import Verif.Spec.Expr
import Verif.Spec.Lexemes

/-! What makes parsing a file panic. -/

namespace Lima.Spec

/-- A value of an option which panics: a currency with a character that is not ASCII. -/
def NonAsciiCurrency (name value : Str) : Prop :=
  ((name = "conversion_currency".toList ∨ name = "operating_currency".toList) ∧ ∃ c ∈ value, ¬ Ascii c) ∨
  (name = "inferred_tolerance_default".toList ∧
    ∃ first, ':' ∉ first ∧ (value = first ∨ ∃ t, value = first ++ ':' :: t) ∧ ∃ c ∈ first, ¬ Ascii c)

/-- Tokens on which parsing may panic: a currency with a character that is not ASCII, by itself or as value of
an option, or an expression without value (C20: a division by zero, or too large). -/
inductive MayPanic [DecOps] (toks : List Ranged) : Prop
  | currency (t : Ranged) (s : Str) (c : Char) : t ∈ toks → t.tok = .currency s → c ∈ s → ¬ Ascii c → MayPanic toks
  | expression (before i r : List Ranged) (e : Expr) : toks = before ++ i → Expression i r e →
      (∀ d, ¬ Evaluates e d) → MayPanic toks
  | option (before i r : List Ranged) (name value : Str) : toks = before ++ i →
      (∃ j k, Word .option i j ∧ Word (.stringLiteral name) j k ∧ Word (.stringLiteral value) k r) →
      NonAsciiCurrency name value → MayPanic toks

section
variable [Categories]

/-- There is no lexeme at the start of the text, or the character after the longest one could have continued to a longer
one. -/
def Unsure (s : Str) : Prop :=
  ∀ v k, LongestLexeme s v k → ∃ c rest more k', s = v ++ c :: rest ∧ Lexeme k' (v ++ c :: more)

/-- Cutting the text `s` into lexemes from left to right, what is left at some time is `s'`. -/
inductive ComesTo : Str → Str → Prop
  | here {s : Str} : ComesTo s s
  | lexeme {w s s' : Str} {k : Kind} : LongestLexeme (w ++ s) w k → ComesTo s s' → ComesTo (w ++ s) s'
  | unrecognized {w s s' : Str} : w ≠ [] → Unsure (w ++ s) → ComesTo s s' → ComesTo (w ++ s) s'

/-- The same, where every piece is a lexeme. -/
inductive ComesToByLexemes : Str → Str → Prop
  | here {s : Str} : ComesToByLexemes s s
  | lexeme {w s s' : Str} {k : Kind} : LongestLexeme (w ++ s) w k → ComesToByLexemes s s' → ComesToByLexemes (w ++ s) s'

/-- A text `w` at the start of `w ++ rest` is a lexical error. -/
def Refused (l : Logos) (w rest : Str) : Prop :=
  (∃ k e, LongestLexeme (w ++ rest) w k ∧ Denotes l k w (.error e)) ∨ w ≠ [] ∧ Unsure (w ++ rest)

/-- A date or time written with a digit other than `0` to `9`. -/
def ForeignDate (w : Str) : Prop := (Lexeme .date w ∨ Lexeme .time w) ∧ ∃ c ∈ w, ¬ Ascii c

/-- The lexer comes to a date or time with a digit other than `0` to `9`: the lexeme it has come to is one, or there is
a date of that kind within what it has come to and refuses. -/
inductive ComesToForeignDate (l : Logos) (s : Str) : Prop
  | lexeme (w rest : Str) (k : Kind) : ComesTo s (w ++ rest) → LongestLexeme (w ++ rest) w k → ForeignDate w →
      ComesToForeignDate l s
  | refused (w rest pre d post : Str) : ComesTo s (w ++ rest) → Refused l w rest → w = pre ++ d ++ post →
      Lexeme .date d → ForeignDate d → ComesToForeignDate l s

/-- A date or time with a digit other than `0` to `9` is somewhere in the text. -/
def HasForeignDate (text : Str) : Prop := ∃ pre w post, text = pre ++ w ++ post ∧ ForeignDate w

end

/-- An expression is written in which something is divided by zero, or an operator gives a number too large. -/
def BadArithmetic [DecOps] (toks : List Ranged) : Prop :=
  ∃ before i r e, toks = before ++ i ∧ Expression i r e ∧ (DividesByZero e ∨ TooLarge e)

/-- An option is written whose value is a currency with a character that is not ASCII. -/
def BadOption (toks : List Ranged) : Prop :=
  ∃ before i j k r name value, toks = before ++ i ∧ Word .option i j ∧ Word (.stringLiteral name) j k ∧
    Word (.stringLiteral value) k r ∧ NonAsciiCurrency name value

/-- The last token of an operand. -/
def EndsOperand (t : Token) : Prop := t = .rparen ∨ ∃ d, t = .number d

/-- The first token of an operand. -/
def StartsOperand (t : Token) : Prop := t = .lparen ∨ t = .plus ∨ t = .minus ∨ ∃ d, t = .number d

/-- An operator stands between two operands. -/
def Operates (toks : List Ranged) : Prop :=
  ∃ before a op b after, toks = before ++ a :: op :: b :: after ∧ EndsOperand a.tok ∧
    (op.tok = .plus ∨ op.tok = .minus ∨ op.tok = .asterisk ∨ op.tok = .slash) ∧ StartsOperand b.tok

end Lima.Spec
