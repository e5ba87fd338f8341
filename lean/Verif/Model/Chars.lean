import Verif.Model.Basic

/-!
# Characters

ASCII classes are defined outright.  The Unicode tables behind `char::is_alphabetic`,
`char::is_numeric` and `char::is_whitespace` are a parameter: theorems hold for every table that agrees with
ASCII on ASCII characters.
-/

namespace Lima

/-- `char::is_ascii_uppercase`. -/
def isAsciiUpper (c : Char) : Bool := decide (65 ≤ c.toNat ∧ c.toNat ≤ 90)
/-- `char::is_ascii_lowercase`. -/
def isAsciiLower (c : Char) : Bool := decide (97 ≤ c.toNat ∧ c.toNat ≤ 122)
/-- `char::is_ascii_digit`. -/
def isAsciiDigit (c : Char) : Bool := decide (48 ≤ c.toNat ∧ c.toNat ≤ 57)
/-- `char::is_ascii`. -/
def isAscii (c : Char) : Bool := decide (c.toNat < 128)

/-- The Unicode tables of Rust's `char`, with what is assumed about them. -/
class Unicode where
  /-- `char::is_alphabetic` -/
  isAlphabetic : Char → Bool
  /-- `char::is_numeric` -/
  isNumeric : Char → Bool
  /-- `char::is_whitespace` -/
  isWhitespace : Char → Bool
  alphabetic_ascii : ∀ c, isAscii c = true → isAlphabetic c = (isAsciiUpper c || isAsciiLower c)
  numeric_ascii : ∀ c, isAscii c = true → isNumeric c = isAsciiDigit c
  /-- ASCII white space is tab, line feed, vertical tab, form feed, carriage return, space. -/
  whitespace_ascii : ∀ c, isAscii c = true →
    isWhitespace c = decide ((9 ≤ c.toNat ∧ c.toNat ≤ 13) ∨ c.toNat = 32)

/-- The tables restricted to ASCII satisfy the assumptions: a witness that they can be met. -/
@[reducible] def Unicode.asciiOnly : Unicode where
  isAlphabetic c := isAsciiUpper c || isAsciiLower c
  isNumeric c := isAsciiDigit c
  isWhitespace c := decide ((9 ≤ c.toNat ∧ c.toNat ≤ 13) ∨ c.toNat = 32)
  alphabetic_ascii _ _ := rfl
  numeric_ascii _ _ := rfl
  whitespace_ascii _ _ := rfl

/-- Tables that also classify some non-ASCII characters: Latin-1 letters from U+00C0 and the superscript
two as numeric, no-break space as white space. -/
@[reducible] def Unicode.latin1 : Unicode where
  isAlphabetic c := isAsciiUpper c || isAsciiLower c || decide (0xC0 ≤ c.toNat)
  isNumeric c := isAsciiDigit c || decide (c.toNat = 0xB2)
  isWhitespace c := decide ((9 ≤ c.toNat ∧ c.toNat ≤ 13) ∨ c.toNat = 32) || decide (c.toNat = 0xA0)
  alphabetic_ascii c h := by
    have : ¬ 0xC0 ≤ c.toNat := by simp [isAscii] at h; omega
    simp [this]
  numeric_ascii c h := by
    have : ¬ c.toNat = 0xB2 := by simp [isAscii] at h; omega
    simp [this]
  whitespace_ascii c h := by
    have : ¬ c.toNat = 0xA0 := by simp [isAscii] at h; omega
    simp [this]

/-- `char::is_alphanumeric` is alphabetic or numeric. -/
def isAlphanumeric [Unicode] (c : Char) : Bool := Unicode.isAlphabetic c || Unicode.isNumeric c

/-- `str::len`: number of bytes of the UTF-8 encoding. -/
def byteLen (s : Str) : Nat := (s.map Char.utf8Size).sum

end Lima
