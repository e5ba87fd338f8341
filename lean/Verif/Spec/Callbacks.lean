import Verif.Model.Ast

/-!
# Specification of literal tokens (C28-C30)
-/

namespace Lima.Spec
open Lima

/-- The character of a decimal digit. -/
def digit (n : Fin 10) : Char := Char.ofNat (48 + n)

/-- The number written by a sequence of digits. -/
def number : List (Fin 10) → Nat
  | [] => 0
  | d :: ds => d * 10 ^ ds.length + number ds

/-- A leap year of the Gregorian calendar. -/
def Leap (y : Nat) : Prop := (4 ∣ y ∧ ¬ 100 ∣ y) ∨ 400 ∣ y

/-- The day exists in the proleptic Gregorian calendar. -/
def DateExists (y m d : Nat) : Prop :=
  1 ≤ d ∧
  ((m ∈ [1, 3, 5, 7, 8, 10, 12] ∧ d ≤ 31) ∨
   (m ∈ [4, 6, 9, 11] ∧ d ≤ 30) ∨
   (m = 2 ∧ d ≤ 28) ∨
   (m = 2 ∧ d = 29 ∧ Leap y))

/-- The time of day exists. -/
def TimeExists (h m s : Nat) : Prop := h < 24 ∧ m < 60 ∧ s < 60

/-- There is a character other than the digits `0` to `9`. -/
def Foreign (w : List Char) : Prop := ∃ c ∈ w, ¬ ('0' ≤ c ∧ c ≤ '9')

/-- How the months are written. -/
def monthTexts : List String := ["01", "02", "03", "04", "05", "06", "07", "08", "09", "10", "11", "12"]

/-- How a text is written inside a string literal: backslash and quote are escaped. -/
def escape (t : List Char) : List Char :=
  t.flatMap fun c => if c = '"' ∨ c = '\\' then ['\\', c] else [c]

/-- The named escapes. -/
def namedEscapes : List (Char × Char) :=
  [('b', '\x08'), ('f', '\x0c'), ('n', '\n'), ('r', '\r'), ('t', '\t'), ('\'', '\''), ('"', '"'), ('\\', '\\')]

/-- `Unescapes s t`: `t` is `s` with named escapes replaced and nothing else changed. -/
inductive Unescapes : List Char → List Char → Prop
  | nil : Unescapes [] []
  | plain (c s t) : c ≠ '\\' → Unescapes s t → Unescapes (c :: s) (c :: t)
  | named (e x s t) : (e, x) ∈ namedEscapes → Unescapes s t → Unescapes ('\\' :: e :: s) (x :: t)

end Lima.Spec
