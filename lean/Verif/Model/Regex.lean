import Verif.Model.Basic

/-!
# Regular expressions and the matching engine of Logos

Logos (version 0.16) turns the regular expressions of a token type into one automaton and runs it from the current
position.  Here the automaton is modelled by derivatives of regular expressions: after reading some characters,
what is left of every expression.  It stops when nothing is left of any of them.
-/

namespace Lima

/-- A regular expression, as in the attributes of `/repo/src/lexer.rs:17-175`. -/
inductive Re where
  /-- nothing at all -/
  | void
  /-- the empty text -/
  | eps
  /-- one character of a class -/
  | cls (p : Char → Bool)
  | seq (a b : Re)
  | alt (a b : Re)
  | star (a : Re)

namespace Re

/-- One given character. -/
def chr (c : Char) : Re := .cls (fun x => decide (x = c))

/-- A literal text. -/
def lit : Str → Re
  | [] => .eps
  | [c] => chr c
  | c :: cs => .seq (chr c) (lit cs)

/-- `a+` -/
def plus (a : Re) : Re := .seq a (.star a)

/-- `a?` -/
def opt (a : Re) : Re := .alt a .eps

/-- `a{n}` -/
def times (a : Re) : Nat → Re
  | 0 => .eps
  | n + 1 => .seq a (times a n)

/-- Does it match the empty text? -/
def nullable : Re → Bool
  | void => false
  | eps => true
  | cls _ => false
  | seq a b => a.nullable && b.nullable
  | alt a b => a.nullable || b.nullable
  | star _ => true

/-- `a` and then `b`, simplified. -/
def mkSeq : Re → Re → Re
  | void, _ => void
  | eps, b => b
  | a, b => seq a b

/-- `a` or `b`, simplified. -/
def mkAlt : Re → Re → Re
  | void, b => b
  | a, void => a
  | a, b => alt a b

/-- What is left after the character `c`. -/
def deriv (c : Char) : Re → Re
  | void => void
  | eps => void
  | cls p => if p c then eps else void
  | seq a b => if a.nullable then mkAlt (mkSeq (a.deriv c) b) (b.deriv c) else mkSeq (a.deriv c) b
  | alt a b => mkAlt (a.deriv c) (b.deriv c)
  | star a => mkSeq (a.deriv c) (star a)

/-- Nothing is left: it matches no text.  Classes are taken to be inhabited. -/
def isVoid : Re → Bool
  | void => true
  | eps => false
  | cls _ => false
  | seq a b => a.isVoid || b.isVoid
  | alt a b => a.isVoid && b.isVoid
  | star _ => false

end Re

/-- Run the automaton on the text.  `ps` is what is left of the expressions, `n` the number of characters read and
`best` the longest match so far: the index of the expression and the number of characters.  Of several expressions
matching as many characters, the first in the list is preferred.  Gives the longest match and the number of
characters read before nothing was left. -/
def scan (ps : List Re) (n : Nat) (best : Option (Nat × Nat)) : Str → Option (Nat × Nat) × Nat
  | [] => (best, n)
  | c :: cs =>
    let ps' := ps.map (Re.deriv c)
    if ps'.all Re.isVoid then (best, n)
    else
      scan ps' (n + 1)
        (match ps'.findIdx? Re.nullable with
          | some i => some (i, n + 1)
          | none => best) cs

/-- What is left open about the automaton generated by Logos. -/
structure Engine where
  /-- In front of this text, does it fall back to the longest match when it has read further than that without
  matching more?  (Logos issue 315, `/repo/src/lexer.rs:326-335`.) -/
  fallsBack : Str → Bool
  /-- How many characters an error in front of this text covers; at least one, at most all. -/
  errorLen : Str → Nat

/-- What comes next in a non-empty text. -/
inductive Match where
  /-- the expression with this index matches so many characters -/
  | found (i n : Nat)
  /-- an error which covers so many characters -/
  | failed (n : Nat)
deriving DecidableEq, Repr

/-- The next match of Logos. -/
def Engine.next (e : Engine) (ps : List Re) (s : Str) : Match :=
  match scan ps 0 none s with
  | (some (i, n), read) =>
    if decide (read = n) || e.fallsBack s then .found i n else .failed (min s.length (max 1 (e.errorLen s)))
  | (none, _) => .failed (min s.length (max 1 (e.errorLen s)))

end Lima
