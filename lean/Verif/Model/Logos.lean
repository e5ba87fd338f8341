import Verif.Model.Regex
import Verif.Model.Lexer
import Verif.Model.Callbacks

/-!
# The Logos lexers for `Token` and `RecoveryToken`, `/repo/src/lexer.rs:15-298`

The attributes are transcribed as regular expressions.  The Unicode tables behind `\d` and `\p{...}` are a
parameter.
-/

namespace Lima

/-- The Unicode tables of the regular expressions, with what is assumed about them. -/
class Categories where
  /-- `\d`, decimal digits -/
  decimalDigit : Char → Bool
  /-- `\p{Lu}`, uppercase letters -/
  upper : Char → Bool
  /-- `\p{Lo}`, other letters -/
  otherLetter : Char → Bool
  /-- `\p{L}`, letters -/
  letter : Char → Bool
  /-- `\p{N}`, numbers -/
  number : Char → Bool
  decimalDigit_ascii : ∀ c, isAscii c = true → decimalDigit c = isAsciiDigit c
  upper_ascii : ∀ c, isAscii c = true → upper c = isAsciiUpper c
  otherLetter_ascii : ∀ c, isAscii c = true → otherLetter c = false
  letter_ascii : ∀ c, isAscii c = true → letter c = (isAsciiUpper c || isAsciiLower c)
  number_ascii : ∀ c, isAscii c = true → number c = isAsciiDigit c
  /-- decimal digits are not letters -/
  digit_not_letter : ∀ c, decimalDigit c = true → upper c = false ∧ otherLetter c = false

/-- The tables restricted to ASCII satisfy the assumptions. -/
@[reducible] def Categories.asciiOnly : Categories where
  decimalDigit := isAsciiDigit
  upper := isAsciiUpper
  otherLetter _ := false
  letter c := isAsciiUpper c || isAsciiLower c
  number := isAsciiDigit
  decimalDigit_ascii _ _ := rfl
  upper_ascii _ _ := rfl
  otherLetter_ascii _ _ := rfl
  letter_ascii _ _ := rfl
  number_ascii _ _ := rfl
  digit_not_letter c h := by
    simp only [isAsciiDigit, decide_eq_true_eq] at h
    exact ⟨by simp only [isAsciiUpper, decide_eq_false_iff_not]; omega, rfl⟩

/-- Tables which also know some non-ASCII characters: Arabic digits, Latin-1 capitals and letters. -/
@[reducible] def Categories.some : Categories where
  decimalDigit c := isAsciiDigit c || decide (0x660 ≤ c.toNat ∧ c.toNat ≤ 0x669)
  upper c := isAsciiUpper c || decide (0xC0 ≤ c.toNat ∧ c.toNat ≤ 0xDE)
  otherLetter c := decide (c.toNat = 0xAA)
  letter c := isAsciiUpper c || isAsciiLower c || decide (0xC0 ≤ c.toNat ∧ c.toNat ≤ 0xFF)
  number c := isAsciiDigit c || decide (0x660 ≤ c.toNat ∧ c.toNat ≤ 0x669)
  decimalDigit_ascii c h := by
    have : ¬ 0x660 ≤ c.toNat := by simp [isAscii] at h; omega
    simp [this]
  upper_ascii c h := by
    have : ¬ 0xC0 ≤ c.toNat := by simp [isAscii] at h; omega
    simp [this]
  otherLetter_ascii c h := by
    have : ¬ c.toNat = 0xAA := by simp [isAscii] at h; omega
    simp [this]
  letter_ascii c h := by
    have : ¬ 0xC0 ≤ c.toNat := by simp [isAscii] at h; omega
    simp [this]
  number_ascii c h := by
    have : ¬ 0x660 ≤ c.toNat := by simp [isAscii] at h; omega
    simp [this]
  digit_not_letter c h := by
    simp only [isAsciiDigit, Bool.or_eq_true, decide_eq_true_eq] at h
    simp only [isAsciiUpper, Bool.or_eq_false_iff, decide_eq_false_iff_not]
    omega

/-! ### The subpatterns, `/repo/src/lexer.rs:22-32` -/

/-- One of the characters. -/
def oneOf (cs : List Char) (c : Char) : Bool := cs.contains c

/-- `.`: any character except a newline. -/
def Re.dot : Re := .cls (fun c => decide (c ≠ '\n'))

/-- `\r?\n` -/
def Re.newline : Re := .seq (.opt (.chr '\r')) (.chr '\n')

/-- `ignored_whole_line`, `/repo/src/lexer.rs:22`: `([*!&#?%:].*\r?\n)`. -/
def Re.ignoredWholeLine : Re :=
  .seq (.cls (oneOf ['*', '!', '&', '#', '?', '%', ':'])) (.seq (.star .dot) .newline)

/-- `comment_to_eol`, `/repo/src/lexer.rs:23`: `(;.*)`. -/
def Re.commentToEol : Re := .seq (.chr ';') (.star .dot)

/-- `[A-Z0-9'\._-]` -/
def isCurrencyChar (c : Char) : Bool := isAsciiUpper c || isAsciiDigit c || oneOf ['\'', '.', '_', '-'] c

/-- `currency`, `/repo/src/lexer.rs:24` and `268`: `[A-Z][A-Z0-9'\._-]*|/[0-9'\._-]*[A-Z][A-Z0-9'\._-]*`. -/
def Re.currency : Re :=
  .alt (.seq (.cls isAsciiUpper) (.star (.cls isCurrencyChar)))
    (.seq (.chr '/') (.seq (.star (.cls (fun c => isAsciiDigit c || oneOf ['\'', '.', '_', '-'] c)))
      (.seq (.cls isAsciiUpper) (.star (.cls isCurrencyChar)))))

section
variable [Categories]

/-- `\d` -/
def Re.digit : Re := .cls Categories.decimalDigit

/-- `date`, `/repo/src/lexer.rs:25` and `269`: `\d{4}[/\-]\d{2}[/\-]\d{2}`. -/
def Re.date : Re :=
  .seq (.times .digit 4) (.seq (.cls (oneOf ['-', '/'])) (.seq (.times .digit 2)
    (.seq (.cls (oneOf ['-', '/'])) (.times .digit 2))))

/-- `time`, `/repo/src/lexer.rs:26`: `\d{1,2}:\d{2}(:\d{2})?`. -/
def Re.time : Re :=
  .seq .digit (.seq (.opt .digit) (.seq (.chr ':') (.seq (.times .digit 2)
    (.opt (.seq (.chr ':') (.times .digit 2))))))

/-- `[\p{L}\p{N}\-]` -/
def isAccountChar (c : Char) : Bool := Categories.letter c || Categories.number c || decide (c = '-')

/-- `account_type`, `/repo/src/lexer.rs:27`: `[\p{Lu}\p{Lo}][\p{L}\p{N}\-]*`. -/
def Re.accountType : Re :=
  .seq (.cls (fun c => Categories.upper c || Categories.otherLetter c)) (.star (.cls isAccountChar))

/-- `account_name`, `/repo/src/lexer.rs:28`: `[\p{Lu}\p{Lo}\p{N}][\p{L}\p{N}\-]*`. -/
def Re.accountName : Re :=
  .seq (.cls (fun c => Categories.upper c || Categories.otherLetter c || Categories.number c))
    (.star (.cls isAccountChar))

/-- `(?&account_type)(:(?&account_name))+`, `/repo/src/lexer.rs:136`. -/
def Re.account : Re := .seq .accountType (.plus (.seq (.chr ':') .accountName))

/-- `number`, `/repo/src/lexer.rs:30` and `270`: `\d+(,\d{3})*(\.\d+)?`. -/
def Re.number : Re :=
  .seq (.plus .digit) (.seq (.star (.seq (.chr ',') (.times .digit 3)))
    (.opt (.seq (.chr '.') (.plus .digit))))

end

/-- `string_literal`, `/repo/src/lexer.rs:29`: `"([^\\"]|\\.)*"`. -/
def Re.stringLiteral : Re :=
  .seq (.chr '"') (.seq (.star (.alt (.cls (fun c => decide (c ≠ '\\') && decide (c ≠ '"')))
    (.seq (.chr '\\') .dot))) (.chr '"'))

/-- `[A-Za-z0-9\-_/.]` -/
def isTagChar (c : Char) : Bool :=
  isAsciiUpper c || isAsciiLower c || isAsciiDigit c || oneOf ['-', '_', '/', '.'] c

/-- `tag_or_link_identifier`, `/repo/src/lexer.rs:31`: `[A-Za-z0-9\-_/.]+`. -/
def Re.tagOrLinkIdentifier : Re := .plus (.cls isTagChar)

/-- `[a-zA-Z0-9\-_]` -/
def isKeyChar (c : Char) : Bool := isAsciiLower c || isAsciiUpper c || isAsciiDigit c || oneOf ['-', '_'] c

/-- `key`, `/repo/src/lexer.rs:32`: `[a-z][a-zA-Z0-9\-_]+`. -/
def Re.key : Re := .seq (.cls isAsciiLower) (.plus (.cls isKeyChar))

/-! ### The patterns and what they become -/

/-- What Logos does with a match. -/
inductive Kind where
  /-- a token without content -/
  | lit (t : Token)
  | currency | flagLetter | date | time | account | stringLiteral | number | tag | link | key
  /-- no token: `skip r"[ \t]+"`, `/repo/src/lexer.rs:16` -/
  | skip
deriving DecidableEq, Repr

section
variable [Categories]

/-- The attributes of `Token`, `/repo/src/lexer.rs:16-168`, except that the tokens with fixed text come first: of
several patterns with the same longest match Logos prefers the more specific one, and the only patterns with a
common match are a fixed text on the one hand, `currency` or `key` on the other. -/
def tokenPatterns : List (Kind × Re) :=
  [(.lit .true_, .lit (str "TRUE")), (.lit .false_, .lit (str "FALSE")), (.lit .null, .lit (str "NULL")),
   (.lit .pipe, .lit (str "|")), (.lit .atAt, .lit (str "@@")), (.lit .at, .lit (str "@")),
   (.lit .lcurlCurl, .lit (str "{{")), (.lit .rcurlCurl, .lit (str "}}")), (.lit .lcurl, .lit (str "{")),
   (.lit .rcurl, .lit (str "}")), (.lit .comma, .lit (str ",")), (.lit .tilde, .lit (str "~")),
   (.lit .plus, .lit (str "+")), (.lit .minus, .lit (str "-")), (.lit .slash, .lit (str "/")),
   (.lit .lparen, .lit (str "(")), (.lit .rparen, .lit (str ")")), (.lit .hash, .lit (str "#")),
   (.lit .asterisk, .lit (str "*")), (.lit .colon, .lit (str ":")),
   (.lit (.dedicatedFlag .exclamation), .lit (str "!")), (.lit (.dedicatedFlag .ampersand), .lit (str "&")),
   (.lit (.dedicatedFlag .question), .lit (str "?")), (.lit (.dedicatedFlag .percent), .lit (str "%")),
   (.lit .txn, .lit (str "txn")), (.lit .balance, .lit (str "balance")), (.lit .open, .lit (str "open")),
   (.lit .close, .lit (str "close")), (.lit .commodity, .lit (str "commodity")), (.lit .pad, .lit (str "pad")),
   (.lit .event, .lit (str "event")), (.lit .query, .lit (str "query")), (.lit .custom, .lit (str "custom")),
   (.lit .price, .lit (str "price")), (.lit .note, .lit (str "note")), (.lit .document, .lit (str "document")),
   (.lit .pushtag, .lit (str "pushtag")), (.lit .poptag, .lit (str "poptag")),
   (.lit .pushmeta, .lit (str "pushmeta")), (.lit .popmeta, .lit (str "popmeta")),
   (.lit .option, .lit (str "option")), (.lit .options, .lit (str "options")),
   (.lit .plugin, .lit (str "plugin")), (.lit .include, .lit (str "include")),
   (.flagLetter, .seq (.chr '\'') (.cls isAsciiUpper)),
   (.currency, .currency), (.date, .date), (.time, .time), (.account, .account),
   (.stringLiteral, .stringLiteral), (.number, .number),
   (.tag, .seq (.chr '#') .tagOrLinkIdentifier), (.link, .seq (.chr '^') .tagOrLinkIdentifier), (.key, .key),
   -- `(?&comment_to_eol)?\r?\n(?&ignored_whole_line)*[ \t]+`
   (.lit .eolThenIndent, .seq (.opt .commentToEol) (.seq .newline (.seq (.star .ignoredWholeLine)
      (.plus (.cls (oneOf [' ', '\t'])))))),
   -- `(?&comment_to_eol)?\r?\n(?&ignored_whole_line)*`
   (.lit .eol, .seq (.opt .commentToEol) (.seq .newline (.star .ignoredWholeLine))),
   -- `;[^\r\n]*`
   (.lit .eolComment, .seq (.chr ';') (.star (.cls (fun c => decide (c ≠ '\r') && decide (c ≠ '\n'))))),
   (.skip, .plus (.cls (oneOf [' ', '\t'])))]

/-- The attributes of `RecoveryToken`, `/repo/src/lexer.rs:266-283`. -/
def recoveryPatterns : List (Kind × Re) :=
  [(.lit .minus, .lit (str "-")), (.lit .slash, .lit (str "/")), (.lit .colon, .lit (str ":")),
   (.date, .date), (.number, .number)]

end

/-- What is left open about Logos and about the crates used by callbacks. -/
structure Logos where
  token : Engine
  recovery : Engine
  /-- `Decimal::from_str` on text which is not a literal that fits, see `decFromStr` -/
  otherNumber : Str → Except LexerError Dec
  /-- the escapes of more than one character, see `unescape` -/
  otherEscape : Str → Option (Char × Nat)

/-- The error of a callback is converted with `From`, `/repo/src/lexer.rs:747-781`; its message is not
modelled. -/
def Res.ofCallback {ε α β : Type} (f : α → β) : Except ε α → Res ε β
  | .ok a => .ok (f a)
  | .error e => .err e

/-- `Res` with another value. -/
def Res.mapOk {ε α β : Type} (f : α → β) : Res ε α → Res ε β
  | .ok a => .ok (f a)
  | .err e => .err e
  | .panic => .panic

/-- The callback of `DedicatedFlag`, `/repo/src/lexer.rs:80`: the second character as a flag letter. -/
def flagCallback (text : Str) : Res LexerError Token :=
  match text[1]? with
  | none => .panic
  | some c =>
    match FlagLetter.tryFrom c with
    | .ok c => .ok (.dedicatedFlag (.letter c))
    | .error _ => .err ⟨str "invalid flag letter"⟩

/-- `&lex.slice()[1..]`, `/repo/src/lexer.rs:148,151`. -/
def afterFirstByte (f : Str → Token) (text : Str) : Res LexerError Token :=
  match dropBytes 1 text with
  | some s => .ok (f s)
  | none => .panic

/-- The callbacks of `Token`, `/repo/src/lexer.rs:34-168`; `none` is for what is skipped. -/
def tokenCallback (l : Logos) (kind : Kind) (text : Str) : Option (Res LexerError Token) :=
  match kind with
  | .lit t => some (.ok t)
  | .currency => some (.ok (.currency text))
  | .flagLetter => some (flagCallback text)
  | .date => some ((parseDate text).mapOk .date)
  | .time => some ((parseTime text).mapOk .time)
  | .account => some (.ok (.account text))
  | .stringLiteral => some ((stringCallback l.otherEscape text).mapOk .stringLiteral)
  | .number => some (Res.ofCallback .number (parseNumber l.otherNumber text))
  | .tag => some (afterFirstByte .tag text)
  | .link => some (afterFirstByte .link text)
  | .key => some (.ok (.key text))
  | .skip => none

/-- The callbacks of `RecoveryToken`, `/repo/src/lexer.rs:272-283`. -/
def recoveryCallback (l : Logos) (kind : Kind) (text : Str) : Option (Res LexerError RecoveryToken) :=
  match kind with
  | .lit .minus => some (.ok .minus)
  | .lit .slash => some (.ok .slash)
  | .lit .colon => some (.ok .colon)
  | .date => some ((parseDate text).mapOk .date)
  | .number => some (Res.ofCallback .number (parseNumber l.otherNumber text))
  | _ => none

/-- `LexerError::default`, `/repo/src/lexer.rs:731-735`, the error where nothing matches. -/
def LexerError.unrecognized : LexerError := ⟨str "unrecognized token"⟩

/-- `Logos::lexer(text).spanned()` run to exhaustion; `none` is a panic in a callback.  `fuel` is at least the
number of characters left, `pos` the byte offset reached. -/
def lexItems {τ : Type} (e : Engine) (patterns : List (Kind × Re)) (callback : Kind → Str → Option (Res LexerError τ)) :
    Nat → Nat → Str → Option (List (RawItem τ))
  | _, _, [] => some []
  | 0, _, _ => some []
  | fuel + 1, pos, s =>
    match e.next (patterns.map (·.2)) s with
    | .failed n =>
      let stop := pos + byteLen (s.take n)
      (lexItems e patterns callback fuel stop (s.drop n)).map (⟨.error .unrecognized, pos, stop⟩ :: ·)
    | .found i n =>
      let stop := pos + byteLen (s.take n)
      let rest := lexItems e patterns callback fuel stop (s.drop n)
      match patterns[i]? with
      | none => rest
      | some p =>
        match callback p.1 (s.take n) with
        | none => rest
        | some (.ok t) => rest.map (⟨.ok t, pos, stop⟩ :: ·)
        | some (.err err) => rest.map (⟨.error err, pos, stop⟩ :: ·)
        | some .panic => none

section
variable [Categories]

/-- `Token::lexer(s).spanned()`, `/repo/src/lexer.rs:320-321`. -/
def tokenItems (l : Logos) (s : Str) : Option (List (RawItem Token)) :=
  lexItems l.token tokenPatterns (tokenCallback l) s.length 0 s

/-- `RecoveryToken::lexer(s).spanned()`, `/repo/src/lexer.rs:359`. -/
def recoveryItems (l : Logos) (s : Str) : Option (List (RawItem RecoveryToken)) :=
  lexItems l.recovery recoveryPatterns (recoveryCallback l) s.length 0 s

/-- `recoveryItems` where it does not panic. -/
def recoveryList (l : Logos) (s : Str) : List (RawItem RecoveryToken) :=
  match recoveryItems l s with
  | some items => items
  | none => []

/-- Does lexing the failed parts of the text again panic? -/
def recoveryPanics (l : Logos) (s : Str) (items : List (RawItem Token)) : Bool :=
  items.any (fun i =>
    match i.res with
    | .ok _ => false
    | .error _ =>
      match slice s i.start i.stop with
      | some failed => (recoveryItems l failed).isNone
      | none => false)

/-- `lex`, `/repo/src/lexer.rs:304-324`; `none` is a panic. -/
def lexText (l : Logos) (s : Str) : Option (List Ranged) :=
  match tokenItems l s with
  | none => none
  | some items => if recoveryPanics l s items then none else lex (recoveryList l) s items

end

end Lima
