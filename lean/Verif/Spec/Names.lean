import Verif.Model.Chars

/-!
# Specification of valid names (C15-C17)

Character classes are stated directly on characters; "letter" and "alphanumeric" refer to the Unicode tables.
-/

namespace Lima.Spec
open Lima

/-- One of `A`..`Z`. -/
def Upper (c : Char) : Prop := 'A' ≤ c ∧ c ≤ 'Z'
/-- One of `a`..`z`. -/
def Lower (c : Char) : Prop := 'a' ≤ c ∧ c ≤ 'z'
/-- One of `0`..`9`. -/
def Digit (c : Char) : Prop := '0' ≤ c ∧ c ≤ '9'
/-- Encoded as a single byte. -/
def Ascii (c : Char) : Prop := c < '\x80'

/-- A currency: one uppercase letter, or an uppercase letter or `/`, then uppercase letters, digits or
`' . _ -`, then an uppercase letter or digit, with an uppercase letter somewhere. -/
def ValidCurrency (s : List Char) : Prop :=
  (∃ a, s = [a] ∧ Upper a) ∨
  (∃ a mid z, s = a :: (mid ++ [z]) ∧ (Upper a ∨ a = '/') ∧
    (∀ c ∈ mid, Upper c ∨ Digit c ∨ c = '\'' ∨ c = '.' ∨ c = '_' ∨ c = '-') ∧
    (Upper z ∨ Digit z) ∧ ∃ c ∈ s, Upper c)

variable [Unicode]

/-- Alphabetic or numeric in the Unicode tables. -/
def Alnum (c : Char) : Prop := Unicode.isAlphabetic c = true ∨ Unicode.isNumeric c = true

/-- Account type name: an ASCII uppercase letter, then alphanumerics or `-`. -/
def ValidAccountTypeName (s : List Char) : Prop :=
  ∃ a rest, s = a :: rest ∧ Upper a ∧ ∀ c ∈ rest, Alnum c ∨ c = '-'

/-- Account component: an ASCII uppercase letter, a digit, or a non-ASCII letter, then alphanumerics or `-`. -/
def ValidAccountName (s : List Char) : Prop :=
  ∃ a rest, s = a :: rest ∧ (Upper a ∨ Digit a ∨ (¬ Ascii a ∧ Unicode.isAlphabetic a = true)) ∧
    ∀ c ∈ rest, Alnum c ∨ c = '-'

/-- Metadata key: an ASCII lowercase letter, then alphanumerics, `-` or `_`. -/
def ValidKey (s : List Char) : Prop :=
  ∃ a rest, s = a :: rest ∧ Lower a ∧ ∀ c ∈ rest, Alnum c ∨ c = '-' ∨ c = '_'

/-- A character allowed in tags and links. -/
def TagChar (c : Char) : Prop := Alnum c ∨ c = '-' ∨ c = '_' ∨ c = '/' ∨ c = '.'

/-- Components joined by colons. -/
def joinColon : List (List Char) → List Char
  | [] => []
  | [w] => w
  | w :: ws => w ++ ':' :: joinColon ws

end Lima.Spec
