import Verif.Model.Regex

/-! Specification of regular expressions and of the longest match. -/

namespace Lima.Spec

/-- The regular expression matches the whole text. -/
inductive Matches : Re → Str → Prop
  | eps : Matches .eps []
  | cls {p : Char → Bool} {c : Char} : p c = true → Matches (.cls p) [c]
  | seq {a b : Re} {u v : Str} : Matches a u → Matches b v → Matches (.seq a b) (u ++ v)
  | left {a b : Re} {u : Str} : Matches a u → Matches (.alt a b) u
  | right {a b : Re} {u : Str} : Matches b u → Matches (.alt a b) u
  | none {a : Re} : Matches (.star a) []
  | more {a : Re} {u v : Str} : Matches a u → Matches (.star a) v → Matches (.star a) (u ++ v)

/-- Every character class of the regular expression has a character. -/
def ClassesInhabited : Re → Prop
  | .void | .eps => True
  | .cls p => ∃ c, p c = true
  | .seq a b | .alt a b => ClassesInhabited a ∧ ClassesInhabited b
  | .star a => ClassesInhabited a

/-- Some of the expressions matches a text of which `u` is the beginning. -/
def Viable (ps : List Re) (u : Str) : Prop := ∃ p ∈ ps, ∃ v, Matches p (u ++ v)

/-- Of the expressions the one with index `i` matches the first `n` characters of the text, none matches more, and
none before it matches the same. -/
structure LongestMatch (ps : List Re) (s : Str) (i n : Nat) : Prop where
  nonEmpty : 0 < n
  inText : n ≤ s.length
  isMatch : ∃ p, ps[i]? = some p ∧ Matches p (s.take n)
  noLonger : ∀ p ∈ ps, ∀ m, n < m → m ≤ s.length → ¬ Matches p (s.take m)
  first : ∀ j p, j < i → ps[j]? = some p → ¬ Matches p (s.take n)

end Lima.Spec
