import Verif.Model.Token

/-!
# Specification of the token stream (C23-C27)
-/

namespace Lima.Spec
open Lima

/-- The keywords and how they are written. -/
def keywords : List (Token × String) :=
  [(.txn, "txn"), (.balance, "balance"), (.open, "open"), (.close, "close"), (.commodity, "commodity"),
   (.pad, "pad"), (.event, "event"), (.query, "query"), (.custom, "custom"), (.price, "price"),
   (.note, "note"), (.document, "document"), (.pushtag, "pushtag"), (.poptag, "poptag"),
   (.pushmeta, "pushmeta"), (.popmeta, "popmeta"), (.option, "option"), (.options, "options"),
   (.plugin, "plugin"), (.include, "include")]

/-- A raw token which ends a line. -/
def LineEnd (t : Token) : Prop := t = .eol ∨ t = .eolThenIndent ∨ t = .eolComment

instance (t : Token) : Decidable (LineEnd t) := inferInstanceAs (Decidable (_ ∨ _ ∨ _))

/-- What is known when reading raw tokens from left to right. -/
inductive LineMode where
  /-- no significant token so far -/
  | fileStart
  /-- directly after a line end which is followed by an indent -/
  | indented
  /-- anywhere else, except in an ignored line -/
  | inside
  /-- in an ignored line at the start of the file -/
  | ignoreAtStart
  /-- in an ignored line later on -/
  | ignore
deriving DecidableEq

/-- The mode after a line end `t`. -/
def LineMode.afterLineEnd (m : LineMode) (t : Token) : LineMode :=
  match m with
  | .fileStart | .ignoreAtStart => .fileStart
  | .indented | .inside | .ignore => if t = .eolThenIndent then .indented else .inside

/-- The mode after a token `t` which is not a line end.  A line is ignored when it starts with a colon and is
indented, or when it starts with a colon and nothing precedes it. -/
def LineMode.afterToken (m : LineMode) (t : Token) : LineMode :=
  match m with
  | .ignore => .ignore
  | .ignoreAtStart => .ignoreAtStart
  | .inside => .inside
  | .fileStart => if t = .colon then .ignoreAtStart else .inside
  | .indented => if t = .colon then .ignore else .inside

/-- The raw tokens which matter, starting in a mode: those which are not line ends and not in an ignored
line. -/
def significant (m : LineMode) : List Ranged → List Ranged
  | [] => []
  | t :: ts =>
    if LineEnd t.tok then significant (m.afterLineEnd t.tok) ts
    else if m.afterToken t.tok = .inside then t :: significant .inside ts
    else significant (m.afterToken t.tok) ts

/-- The line structure the parser relies on. -/
structure LineStructured (ts : List Token) : Prop where
  /-- no line end at the start -/
  noLeadingEol : ts.head? ≠ some .eol
  /-- no indent at the start -/
  noLeadingIndent : ts.head? ≠ some .indent
  /-- no empty lines -/
  noDoubleEol : ∀ l r, ts ≠ l ++ .eol :: .eol :: r
  /-- the raw line end variants are gone -/
  noRaw : .eolThenIndent ∉ ts ∧ .eolComment ∉ ts
  /-- an indent comes directly after a line end -/
  indentAfterEol : ∀ l a r, ts = l ++ a :: .indent :: r → a = .eol
  /-- an indented line is not empty, unless the input ends there -/
  indentBeforeToken : ∀ l b r, ts = l ++ .indent :: b :: r → b ≠ .eol ∧ b ≠ .indent ∧ b ≠ .colon

/-- Tokens come one after the other.  An indent is located at the end of the line end before it. -/
def Ordered (toks : List Ranged) : Prop :=
  (∀ t ∈ toks, t.start ≤ t.stop) ∧
    toks.Pairwise (fun a b => a.stop ≤ b.start ∨ b.tok = .indent ∧ a.start ≤ b.start ∧ a.stop ≤ b.stop)

end Lima.Spec
