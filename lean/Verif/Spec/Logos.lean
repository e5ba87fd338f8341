import Verif.Model.Logos
import Verif.Spec.Regex
import Verif.Spec.Lexer

/-! Specification of the tokens of a text. -/

namespace Lima.Spec

/-- How the text `s`, which is at offset `pos`, is cut into pieces from left to right, and the items they become.
A piece is the longest match of the patterns, or an error where the engine gives up. -/
inductive Tokenizes {τ : Type} (patterns : List (Kind × Re)) (callback : Kind → Str → Option (Res LexerError τ)) :
    Nat → Str → List (RawItem τ) → Prop
  | done {pos : Nat} : Tokenizes patterns callback pos [] []
  /-- white space -/
  | skip {pos n i : Nat} {s : Str} {items : List (RawItem τ)} {p : Kind × Re} :
      LongestMatch (patterns.map (·.2)) s i n → patterns[i]? = some p → callback p.1 (s.take n) = none →
      Tokenizes patterns callback (pos + byteLen (s.take n)) (s.drop n) items → Tokenizes patterns callback pos s items
  /-- a token -/
  | token {pos n i : Nat} {s : Str} {items : List (RawItem τ)} {p : Kind × Re} {t : τ} :
      LongestMatch (patterns.map (·.2)) s i n → patterns[i]? = some p → callback p.1 (s.take n) = some (.ok t) →
      Tokenizes patterns callback (pos + byteLen (s.take n)) (s.drop n) items →
      Tokenizes patterns callback pos s (⟨.ok t, pos, pos + byteLen (s.take n)⟩ :: items)
  /-- a match which is not a token, for example a day which does not exist -/
  | invalid {pos n i : Nat} {s : Str} {items : List (RawItem τ)} {p : Kind × Re} {e : LexerError} :
      LongestMatch (patterns.map (·.2)) s i n → patterns[i]? = some p → callback p.1 (s.take n) = some (.err e) →
      Tokenizes patterns callback (pos + byteLen (s.take n)) (s.drop n) items →
      Tokenizes patterns callback pos s (⟨.error e, pos, pos + byteLen (s.take n)⟩ :: items)
  /-- no match, or the engine gives up because the characters after the longest match could have continued a longer
  one -/
  | unrecognized {pos n : Nat} {s : Str} {items : List (RawItem τ)} {e : LexerError} :
      (∀ i m, LongestMatch (patterns.map (·.2)) s i m → m < s.length ∧ Viable (patterns.map (·.2)) (s.take (m + 1))) →
      0 < n → n ≤ s.length →
      Tokenizes patterns callback (pos + byteLen (s.take n)) (s.drop n) items →
      Tokenizes patterns callback pos s (⟨.error e, pos, pos + byteLen (s.take n)⟩ :: items)

/-- Items come one after the other, within the text `s` which is at offset `pos`. -/
def Consecutive {τ : Type} (pos : Nat) (s : Str) (items : List (RawItem τ)) : Prop :=
  (∀ i ∈ items, pos ≤ i.start ∧ i.start < i.stop ∧ i.stop ≤ pos + byteLen s) ∧
    items.Pairwise (fun a b => a.stop ≤ b.start)

/-- The byte offset is between two characters, or at an end of the text. -/
def Boundary (s : Str) (n : Nat) : Prop := ∃ before after, s = before ++ after ∧ byteLen before = n

/-- What text a token may be written as. -/
def WrittenAs (l : Logos) (t : Token) (text : Str) : Prop :=
  match t with
  | .true_ => text = "TRUE".toList
  | .false_ => text = "FALSE".toList
  | .null => text = "NULL".toList
  | .currency c => text = c
  | .pipe => text = "|".toList
  | .atAt => text = "@@".toList
  | .at => text = "@".toList
  | .lcurlCurl => text = "{{".toList
  | .rcurlCurl => text = "}}".toList
  | .lcurl => text = "{".toList
  | .rcurl => text = "}".toList
  | .comma => text = ",".toList
  | .tilde => text = "~".toList
  | .plus => text = "+".toList
  | .minus => text = "-".toList
  | .slash => text = "/".toList
  | .lparen => text = "(".toList
  | .rparen => text = ")".toList
  | .hash => text = "#".toList
  | .asterisk => text = "*".toList
  | .colon => text = ":".toList
  | .dedicatedFlag .exclamation => text = "!".toList
  | .dedicatedFlag .ampersand => text = "&".toList
  | .dedicatedFlag .question => text = "?".toList
  | .dedicatedFlag .percent => text = "%".toList
  | .dedicatedFlag (.letter c) => text = ['\'', c] ∧ 'A' ≤ c ∧ c ≤ 'Z'
  | .dedicatedFlag .asterisk | .dedicatedFlag .hash => False
  | .txn => text = "txn".toList
  | .balance => text = "balance".toList
  | .open => text = "open".toList
  | .close => text = "close".toList
  | .commodity => text = "commodity".toList
  | .pad => text = "pad".toList
  | .event => text = "event".toList
  | .query => text = "query".toList
  | .custom => text = "custom".toList
  | .price => text = "price".toList
  | .note => text = "note".toList
  | .document => text = "document".toList
  | .pushtag => text = "pushtag".toList
  | .poptag => text = "poptag".toList
  | .pushmeta => text = "pushmeta".toList
  | .popmeta => text = "popmeta".toList
  | .option => text = "option".toList
  | .options => text = "options".toList
  | .plugin => text = "plugin".toList
  | .include => text = "include".toList
  | .date d => parseDate text = .ok d
  | .time d => parseTime text = .ok d
  | .account a => text = a
  | .stringLiteral s => ∃ body, text = '"' :: body ++ ['"'] ∧ unescapeStringLiteral l.otherEscape body = .ok s
  | .number d => parseNumber l.otherNumber text = .ok d
  | .tag t => text = '#' :: t
  | .link t => text = '^' :: t
  | .key k => text = k
  | .eolThenIndent => '\n' ∈ text ∧ ∃ start c, text = start ++ [c] ∧ (c = ' ' ∨ c = '\t')
  | .eol => '\n' ∈ text
  | .eolComment => ∃ rest, text = ';' :: rest ∧ '\n' ∉ rest
  | .indent => False
  | .error _ => True

end Lima.Spec
