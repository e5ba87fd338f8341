import Verif.Model.Token
import Verif.Model.Text

/-!
# Lexer callbacks, `/repo/src/lexer.rs:672-718` and the attributes of `Token`

External code: integer parsing of `std`, `time::Date::from_calendar_date`, `time::Time::from_hms`,
`rust_decimal::Decimal::from_str`, `unescaper::unescape`.  Their behaviour on the inputs the callbacks can
see is defined here; what is left open is a parameter.
-/

namespace Lima

/-- `str::split` on a set of characters: always at least one piece. -/
def splitBy (p : Char → Bool) : Str → List Str
  | [] => [[]]
  | c :: cs =>
    if p c then [] :: splitBy p cs
    else
      match splitBy p cs with
      | [] => [[c]]
      | w :: ws => (c :: w) :: ws

/-- The value of an ASCII digit. -/
def digitValue (c : Char) : Nat := c.toNat - 48

/-- The value of a string of ASCII digits. -/
def decimalValue (s : Str) : Nat := s.foldl (fun acc c => 10 * acc + digitValue c) 0

/-- `str::parse` for an unsigned integer type with maximum `max`.  Simplification: a leading `+` (or `-` for
`i32`) is not accepted; the lexer's regexes admit no sign. -/
def parseUnsigned (max : Nat) (s : Str) : Option Nat :=
  if s ≠ [] ∧ s.all isAsciiDigit ∧ decimalValue s ≤ max then some (decimalValue s) else none

/-- Days in a month of the proleptic Gregorian calendar (`time::util::days_in_month`). -/
def daysInMonth (year month : Nat) : Nat :=
  if month = 2 then
    if year % 4 = 0 ∧ (year % 100 ≠ 0 ∨ year % 400 = 0) then 29 else 28
  else if month = 4 ∨ month = 6 ∨ month = 9 ∨ month = 11 then 30
  else 31

/-- `Date::from_calendar_date` for a valid month; years are at most 9999. -/
def dateFromCalendar (year month day : Nat) : Option Date :=
  if year ≤ 9999 ∧ 1 ≤ day ∧ day ≤ daysInMonth year month then some ⟨year, month, day⟩ else none

/-- `parse_date`, `/repo/src/lexer.rs:672-679`.  A failed `unwrap` is a panic. -/
def parseDate (s : Str) : Res LexerError Date :=
  match splitBy (fun c => decide (c = '-') || decide (c = '/')) s with
  | [] => .panic
  | y :: rest =>
    match parseUnsigned (2 ^ 31 - 1) y with
    | none => .panic
    | some year =>
      match rest with
      | [] => .panic
      | m :: rest =>
        match parseUnsigned 255 m with
        | none => .panic
        | some month =>
          if ¬ (1 ≤ month ∧ month ≤ 12) then .err ⟨str "month out of range"⟩
          else
            match rest with
            | [] => .panic
            | d :: _ =>
              match parseUnsigned 255 d with
              | none => .panic
              | some day =>
                match dateFromCalendar year month day with
                | some date => .ok date
                | none => .err ⟨str "date out of range"⟩

/-- `Time::from_hms`. -/
def timeFromHms (h m s : Nat) : Option Time := if h < 24 ∧ m < 60 ∧ s < 60 then some ⟨h, m, s⟩ else none

/-- `parse_time`, `/repo/src/lexer.rs:681-692`. -/
def parseTime (s : Str) : Res LexerError Time :=
  match splitBy (fun c => decide (c = ':')) s with
  | h :: m :: rest =>
    match parseUnsigned 255 h, parseUnsigned 255 m with
    | some hour, some min =>
      let finish (sec : Nat) : Res LexerError Time :=
        match timeFromHms hour min sec with
        | some t => .ok t
        | none => .err ⟨str "time out of range"⟩
      match rest with
      | [] => finish 0
      | s :: _ =>
        match parseUnsigned 255 s with
        | some sec => finish sec
        | none => .panic
    | _, _ => .panic
  | _ => .panic

/-- A decimal literal of ASCII digits with an optional fraction, read as mantissa and scale. -/
def decimalLiteral (s : Str) : Option Dec :=
  match splitBy (fun c => decide (c = '.')) s with
  | [i] => if i ≠ [] ∧ i.all isAsciiDigit then some ⟨decimalValue i, 0⟩ else none
  | [i, f] =>
    if i ≠ [] ∧ i.all isAsciiDigit ∧ f ≠ [] ∧ f.all isAsciiDigit then some ⟨decimalValue (i ++ f), f.length⟩
    else none
  | _ => none

/-- `Decimal` holds a 96 bit mantissa and a scale of at most 28. -/
def Dec.Fits (d : Dec) : Prop := d.mant.natAbs < 2 ^ 96 ∧ d.scale ≤ 28

instance (d : Dec) : Decidable d.Fits := inferInstanceAs (Decidable (_ ∧ _))

/-- `Decimal::from_str`: exact for literals which fit; what it does with others (rounding the fraction, an
error for too large numbers or other characters) is the parameter `other`. -/
def decFromStr (other : Str → Except LexerError Dec) (s : Str) : Except LexerError Dec :=
  match decimalLiteral s with
  | some d => if d.Fits then .ok d else other s
  | none => other s

/-- `parse_number`, `/repo/src/lexer.rs:706-718`. -/
def parseNumber (other : Str → Except LexerError Dec) (s : Str) : Except LexerError Dec :=
  if s.contains ',' then decFromStr other (s.filter (fun c => decide (c ≠ ','))) else decFromStr other s

/-- The escapes of one character after the backslash in `unescaper::unescape`. -/
def simpleEscape (c : Char) : Option Char :=
  if c = 'b' then some '\x08'
  else if c = 'f' then some '\x0c'
  else if c = 'n' then some '\n'
  else if c = 'r' then some '\r'
  else if c = 't' then some '\t'
  else if c = '\'' then some '\''
  else if c = '"' then some '"'
  else if c = '\\' then some '\\'
  else none

/-- `unescaper::unescape`.  `other` decodes the remaining escapes (`\u`, `\x`, octal): from the text after the
backslash it gives the character and how many characters follow the first one in the escape; `none` is an
error. -/
def unescape (other : Str → Option (Char × Nat)) : Str → Option Str
  | [] => some []
  | c :: cs =>
    if c ≠ '\\' then (unescape other cs).map (c :: ·)
    else
      match cs with
      | [] => none
      | e :: rest =>
        match simpleEscape e with
        | some x => (unescape other rest).map (x :: ·)
        | none =>
          match other (e :: rest) with
          | some (x, n) => (unescape other (rest.drop n)).map (x :: ·)
          | none => none
termination_by s => s.length
decreasing_by
  all_goals simp
  all_goals omega

/-- `unescape_string_literal`, `/repo/src/lexer.rs:696-704`. -/
def unescapeStringLiteral (other : Str → Option (Char × Nat)) (s : Str) : Except LexerError Str :=
  if s.contains '\\' then
    match unescape other s with
    | some t => .ok t
    | none => .error ⟨str "bad escape"⟩
  else .ok s

/-- The callback of `StringLiteral`, `/repo/src/lexer.rs:139-142`: strip the first and last byte. -/
def stringCallback (other : Str → Option (Char × Nat)) (text : Str) : Res LexerError Str :=
  match slice text 1 (byteLen text - 1) with
  | none => .panic
  | some s =>
    match unescapeStringLiteral other s with
    | .ok t => .ok t
    | .error e => .err e

end Lima
