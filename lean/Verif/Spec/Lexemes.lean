import Verif.Model.Logos
import Verif.Spec.Names
import Verif.Spec.Callbacks

/-!
Specification of the lexemes of the language, without regular expressions: which texts are a date, a number and so on,
how a text is cut into lexemes, and what token each one is.
-/

namespace Lima.Spec

/-- The tokens which are always written in the same way. -/
def fixedTexts : List (String × Token) :=
  [("TRUE", .true_), ("FALSE", .false_), ("NULL", .null),
   ("|", .pipe), ("@@", .atAt), ("@", .at), ("{{", .lcurlCurl), ("}}", .rcurlCurl), ("{", .lcurl), ("}", .rcurl),
   (",", .comma), ("~", .tilde), ("+", .plus), ("-", .minus), ("/", .slash), ("(", .lparen), (")", .rparen),
   ("#", .hash), ("*", .asterisk), (":", .colon),
   ("!", .dedicatedFlag .exclamation), ("&", .dedicatedFlag .ampersand), ("?", .dedicatedFlag .question),
   ("%", .dedicatedFlag .percent),
   ("txn", .txn), ("balance", .balance), ("open", .open), ("close", .close), ("commodity", .commodity), ("pad", .pad),
   ("event", .event), ("query", .query), ("custom", .custom), ("price", .price), ("note", .note),
   ("document", .document), ("pushtag", .pushtag), ("poptag", .poptag), ("pushmeta", .pushmeta),
   ("popmeta", .popmeta), ("option", .option), ("options", .options), ("plugin", .plugin), ("include", .include)]

/-- `w` is the fixed text of the token `t`. -/
def Fixed (t : Token) (w : Str) : Prop := ∃ s, (s, t) ∈ fixedTexts ∧ w = s.toList

/-- One of the characters of the string. -/
def In (s : String) (c : Char) : Prop := c ∈ s.toList

/-- An end of line: newline, possibly after a carriage return. -/
def Newline (w : Str) : Prop := w = ['\n'] ∨ w = ['\r', '\n']

/-- A comment reaching to the end of its line. -/
def Comment (w : Str) : Prop := ∃ rest, w = ';' :: rest ∧ '\n' ∉ rest

/-- A line which is ignored because of its first character. -/
def IgnoredLine (w : Str) : Prop := ∃ c rest nl, w = c :: rest ++ nl ∧ In "*!&#?%:" c ∧ '\n' ∉ rest ∧ Newline nl

/-- Texts one after the other. -/
inductive Texts (p : Str → Prop) : Str → Prop
  | nil : Texts p []
  | cons {u v : Str} : p u → Texts p v → Texts p (u ++ v)

/-- The end of a line: a comment perhaps, a newline, any number of ignored lines. -/
def LineEnding (w : Str) : Prop := ∃ comment nl ignored, w = comment ++ nl ++ ignored ∧
  (comment = [] ∨ Comment comment) ∧ Newline nl ∧ Texts IgnoredLine ignored

/-- Spaces and tabs. -/
def Blanks (w : Str) : Prop := w ≠ [] ∧ ∀ c ∈ w, c = ' ' ∨ c = '\t'

/-- The inside of a string literal: a quote only after a backslash, and a backslash always before a character other
than a newline. -/
inductive Quoted : Str → Prop
  | nil : Quoted []
  | plain {c : Char} {s : Str} : c ≠ '"' → c ≠ '\\' → Quoted s → Quoted (c :: s)
  | escaped {c : Char} {s : Str} : c ≠ '\n' → Quoted s → Quoted ('\\' :: c :: s)

section
variable [Categories]

/-- So many decimal digits. -/
def Digits (n : Nat) (w : Str) : Prop := w.length = n ∧ ∀ c ∈ w, Categories.decimalDigit c = true

/-- A letter, a number or a dash. -/
def AccountChar (c : Char) : Prop := Categories.letter c = true ∨ Categories.number c = true ∨ c = '-'

/-- A component of an account name. -/
def Component (w : Str) : Prop :=
  ∃ a rest, w = a :: rest ∧
    (Categories.upper a = true ∨ Categories.otherLetter a = true ∨ Categories.number a = true) ∧ ∀ c ∈ rest, AccountChar c

/-- The text `w` is a lexeme of this kind. -/
inductive Lexeme : Kind → Str → Prop
  | fixed {t : Token} {w : Str} : Fixed t w → Lexeme (.lit t) w
  /-- `'A` -/
  | flag {c : Char} : Upper c → Lexeme .flagLetter ['\'', c]
  /-- `USD`, `V2.X` -/
  | currency {a : Char} {rest : Str} : Upper a → (∀ c ∈ rest, Upper c ∨ Digit c ∨ In "'._-" c) → Lexeme .currency (a :: rest)
  /-- `/6J` -/
  | slashCurrency {mid rest : Str} {a : Char} : (∀ c ∈ mid, Digit c ∨ In "'._-" c) → Upper a →
      (∀ c ∈ rest, Upper c ∨ Digit c ∨ In "'._-" c) → Lexeme .currency ('/' :: (mid ++ a :: rest))
  /-- `2024-01-02` -/
  | date {y m d : Str} {s1 s2 : Char} : Digits 4 y → Digits 2 m → Digits 2 d → In "-/" s1 → In "-/" s2 →
      Lexeme .date (y ++ s1 :: (m ++ s2 :: d))
  /-- `9:30` -/
  | time {h m : Str} : (Digits 1 h ∨ Digits 2 h) → Digits 2 m → Lexeme .time (h ++ ':' :: m)
  /-- `9:30:00` -/
  | timeSeconds {h m s : Str} : (Digits 1 h ∨ Digits 2 h) → Digits 2 m → Digits 2 s →
      Lexeme .time (h ++ ':' :: (m ++ ':' :: s))
  /-- `Assets:Bank` -/
  | account {a : Char} {rest : Str} {first : Str} {others : List Str} :
      (Categories.upper a = true ∨ Categories.otherLetter a = true) → (∀ c ∈ rest, AccountChar c) →
      Component first → (∀ w ∈ others, Component w) → Lexeme .account (joinColon ((a :: rest) :: first :: others))
  /-- `"text"` -/
  | string {body : Str} : Quoted body → Lexeme .stringLiteral ('"' :: body ++ ['"'])
  /-- `1,234` -/
  | number {first : Str} {groups : List Str} : first ≠ [] → Digits first.length first → (∀ g ∈ groups, Digits 3 g) →
      Lexeme .number (first ++ groups.flatMap (',' :: ·))
  /-- `1,234.5` -/
  | numberFraction {first fraction : Str} {groups : List Str} : first ≠ [] → Digits first.length first →
      (∀ g ∈ groups, Digits 3 g) → fraction ≠ [] → Digits fraction.length fraction →
      Lexeme .number (first ++ groups.flatMap (',' :: ·) ++ '.' :: fraction)
  /-- `#tag` -/
  | tag {w : Str} : w ≠ [] → (∀ c ∈ w, Upper c ∨ Lower c ∨ Digit c ∨ In "-_/." c) → Lexeme .tag ('#' :: w)
  /-- `^link` -/
  | link {w : Str} : w ≠ [] → (∀ c ∈ w, Upper c ∨ Lower c ∨ Digit c ∨ In "-_/." c) → Lexeme .link ('^' :: w)
  /-- `key`, of at least two characters -/
  | key {a : Char} {rest : Str} : Lower a → rest ≠ [] → (∀ c ∈ rest, Upper c ∨ Lower c ∨ Digit c ∨ In "-_" c) →
      Lexeme .key (a :: rest)
  /-- the end of a line and the indentation of the next -/
  | lineEndIndent {w blanks : Str} : LineEnding w → Blanks blanks → Lexeme (.lit .eolThenIndent) (w ++ blanks)
  /-- the end of a line -/
  | lineEnd {w : Str} : LineEnding w → Lexeme (.lit .eol) w
  /-- a comment -/
  | comment {rest : Str} : '\r' ∉ rest → '\n' ∉ rest → Lexeme (.lit .eolComment) (';' :: rest)
  /-- white space -/
  | blanks {w : Str} : Blanks w → Lexeme .skip w

/-- `w` is the longest lexeme at the start of `s`, and `k` is its kind: a fixed text is not a currency or a key. -/
structure LongestLexeme (s w : Str) (k : Kind) : Prop where
  atStart : w <+: s
  nonEmpty : w ≠ []
  lexeme : Lexeme k w
  fixedFirst : ∀ t, Fixed t w → k = .lit t
  longest : ∀ v k', v <+: s → Lexeme k' v → v.length ≤ w.length

end

/-- The digits of a year, a month or a day. -/
abbrev Decimals := List (Fin 10)

/-- How digits are written. -/
def asDecimals (ds : Decimals) : Str := ds.map digit

/-- What a number lexeme without its commas denotes: if it is made of ASCII digits and fits, the number written.
Otherwise this is up to the decimal library. -/
inductive DenotesNumber (l : Logos) : Str → Except LexerError Dec → Prop
  | int {ds : Decimals} : ds ≠ [] → number ds < 2 ^ 96 → DenotesNumber l (asDecimals ds) (.ok ⟨number ds, 0⟩)
  | fraction {ds fs : Decimals} : ds ≠ [] → fs ≠ [] → number (ds ++ fs) < 2 ^ 96 → fs.length ≤ 28 →
      DenotesNumber l (asDecimals ds ++ '.' :: asDecimals fs) (.ok ⟨number (ds ++ fs), fs.length⟩)
  | other {w : Str} :
      (¬ ∃ ds, ds ≠ [] ∧ number ds < 2 ^ 96 ∧ w = asDecimals ds) →
      (¬ ∃ ds fs, ds ≠ [] ∧ fs ≠ [] ∧ number (ds ++ fs) < 2 ^ 96 ∧ fs.length ≤ 28 ∧ w = asDecimals ds ++ '.' :: asDecimals fs) →
      DenotesNumber l w (l.otherNumber w)

/-- The text of the inside of a string literal.  Escapes other than the named ones are up to the library, which tells
the character and how many characters of the escape are after its first. -/
inductive Unescaped (l : Logos) : Str → Str → Prop
  | nil : Unescaped l [] []
  | plain {c : Char} {s t : Str} : c ≠ '\\' → Unescaped l s t → Unescaped l (c :: s) (c :: t)
  | named {e x : Char} {s t : Str} : (e, x) ∈ namedEscapes → Unescaped l s t → Unescaped l ('\\' :: e :: s) (x :: t)
  | other {e x : Char} {n : Nat} {s t : Str} : (∀ y, (e, y) ∉ namedEscapes) → l.otherEscape (e :: s) = some (x, n) →
      Unescaped l (s.drop n) t → Unescaped l ('\\' :: e :: s) (x :: t)

/-- What token a lexeme is, or the error if it is none. -/
inductive Denotes (l : Logos) : Kind → Str → Except LexerError Token → Prop
  | lit {t : Token} {w : Str} : Denotes l (.lit t) w (.ok t)
  | currency {w : Str} : Denotes l .currency w (.ok (.currency w))
  | flag {c : Char} : Denotes l .flagLetter ['\'', c] (.ok (.dedicatedFlag (.letter c)))
  | date {y m d : Decimals} {s1 s2 : Char} : In "-/" s1 → In "-/" s2 → DateExists (number y) (number m) (number d) →
      Denotes l .date (asDecimals y ++ s1 :: (asDecimals m ++ s2 :: asDecimals d)) (.ok (.date ⟨number y, number m, number d⟩))
  | noDate {y m d : Decimals} {s1 s2 : Char} {e : LexerError} : In "-/" s1 → In "-/" s2 →
      ¬ DateExists (number y) (number m) (number d) →
      Denotes l .date (asDecimals y ++ s1 :: (asDecimals m ++ s2 :: asDecimals d)) (.error e)
  /-- a month which does not exist: the day is not looked at -/
  | noMonth {y m : Decimals} {d : Str} {s1 s2 : Char} {e : LexerError} : In "-/" s1 → In "-/" s2 →
      ¬ (1 ≤ number m ∧ number m ≤ 12) →
      Denotes l .date (asDecimals y ++ s1 :: (asDecimals m ++ s2 :: d)) (.error e)
  | time {h m : Decimals} : TimeExists (number h) (number m) 0 →
      Denotes l .time (asDecimals h ++ ':' :: asDecimals m) (.ok (.time ⟨number h, number m, 0⟩))
  | noTime {h m : Decimals} {e : LexerError} : ¬ TimeExists (number h) (number m) 0 →
      Denotes l .time (asDecimals h ++ ':' :: asDecimals m) (.error e)
  | timeSeconds {h m s : Decimals} : TimeExists (number h) (number m) (number s) →
      Denotes l .time (asDecimals h ++ ':' :: (asDecimals m ++ ':' :: asDecimals s)) (.ok (.time ⟨number h, number m, number s⟩))
  | noTimeSeconds {h m s : Decimals} {e : LexerError} : ¬ TimeExists (number h) (number m) (number s) →
      Denotes l .time (asDecimals h ++ ':' :: (asDecimals m ++ ':' :: asDecimals s)) (.error e)
  | account {w : Str} : Denotes l .account w (.ok (.account w))
  | string {body s : Str} : Unescaped l body s → Denotes l .stringLiteral ('"' :: body ++ ['"']) (.ok (.stringLiteral s))
  | noString {body : Str} {e : LexerError} : (¬ ∃ s, Unescaped l body s) →
      Denotes l .stringLiteral ('"' :: body ++ ['"']) (.error e)
  | number {w : Str} {d : Dec} : DenotesNumber l (w.filter (· ≠ ',')) (.ok d) → Denotes l .number w (.ok (.number d))
  | noNumber {w : Str} {e : LexerError} : DenotesNumber l (w.filter (· ≠ ',')) (.error e) → Denotes l .number w (.error e)
  | tag {w : Str} : Denotes l .tag ('#' :: w) (.ok (.tag w))
  | link {w : Str} : Denotes l .link ('^' :: w) (.ok (.link w))
  | key {w : Str} : Denotes l .key w (.ok (.key w))

section
variable [Categories]

/-- How the text `s` at offset `pos` is cut into lexemes from left to right, and the items they become. -/
inductive Cuts (l : Logos) : Nat → Str → List (RawItem Token) → Prop
  | done {pos : Nat} : Cuts l pos [] []
  /-- white space -/
  | blank {pos : Nat} {w s : Str} {items : List (RawItem Token)} :
      LongestLexeme (w ++ s) w .skip → Cuts l (pos + byteLen w) s items → Cuts l pos (w ++ s) items
  /-- a lexeme -/
  | piece {pos : Nat} {w s : Str} {k : Kind} {r : Except LexerError Token} {items : List (RawItem Token)} :
      LongestLexeme (w ++ s) w k → Denotes l k w r → Cuts l (pos + byteLen w) s items →
      Cuts l pos (w ++ s) (⟨r, pos, pos + byteLen w⟩ :: items)
  /-- there is no lexeme, or the next character could have continued to a longer one and the engine gives up -/
  | unrecognized {pos : Nat} {w s : Str} {e : LexerError} {items : List (RawItem Token)} : w ≠ [] →
      (∀ v k, LongestLexeme (w ++ s) v k → ∃ c rest more k', w ++ s = v ++ c :: rest ∧ Lexeme k' (v ++ c :: more)) →
      Cuts l (pos + byteLen w) s items → Cuts l pos (w ++ s) (⟨.error e, pos, pos + byteLen w⟩ :: items)

end

end Lima.Spec
