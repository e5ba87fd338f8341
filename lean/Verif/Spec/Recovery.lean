import Verif.Spec.Grammar

/-!
Specification of what is made of a file with syntax errors: which tokens are skipped, and what is reported.
-/

namespace Lima.Spec

open Grammar

section
variable [Unicode] [DecOps]

/-! ### One declaration -/

/-- The tokens do not begin with a line of metadata. -/
def NoLine (cfg : ParseCfg) (o : ParserOptions) (i : List Ranged) : Prop := ∀ r m, ¬ LineP cfg o i r m

/-- The tokens do not begin with a posting. -/
def NoPosting (cfg : ParseCfg) (o : ParserOptions) (i : List Ranged) : Prop := ∀ r p, ¬ PostingP cfg o i r p

/-- What comes after a declaration is not a further line of it. -/
def Ended (cfg : ParseCfg) (o : ParserOptions) (d : Declaration) (i : List Ranged) : Prop :=
  match d with
  | .directive ⟨_, _, .transaction _⟩ => NoLine cfg o i ∧ NoPosting cfg o i
  | .directive _ => NoLine cfg o i
  | .pragma _ => True

/-- A declaration with all its lines. -/
def ReadsP (cfg : ParseCfg) (o : ParserOptions) (i r : List Ranged) (d : Spanned Declaration) (o' : ParserOptions)
    (es : List PErr) : Prop :=
  DeclarationP cfg o i r d o' es ∧ Ended cfg o d.item r

/-- The tokens do not begin with a declaration. -/
def NoDeclaration (cfg : ParseCfg) (o : ParserOptions) (i : List Ranged) : Prop :=
  ∀ r d o' es, ¬ DeclarationP cfg o i r d o' es

/-- The tokens begin with `option "name" "value"`. -/
def OptionAt (cfg : ParseCfg) (i : List Ranged) (name value : Spanned Str) : Prop :=
  ∃ j k r, Word .option i j ∧ At cfg StringP j k name ∧ At cfg StringP k r value

/-- The options after looking in vain for a declaration: an option is in force even if its line goes on. -/
inductive AfterFailure (cfg : ParseCfg) (o : ParserOptions) (i : List Ranged) : ParserOptions → Prop
  | option {name value : Spanned Str} {opt : BOption} {o' : ParserOptions} {es : List PErr} :
      OptionAt cfg i name value → OptionP cfg o name value opt o' es → AfterFailure cfg o i o'
  | other : (∀ name value, ¬ OptionAt cfg i name value) → AfterFailure cfg o i o

/-! ### Skipping tokens -/

/-- Tokens at which reading does not resume: there is no declaration, or it has errors of its own. -/
inductive PassedOver (cfg : ParseCfg) (o : ParserOptions) (i : List Ranged) : ParserOptions → Prop
  | nothing {o' : ParserOptions} : NoDeclaration cfg o i → AfterFailure cfg o i o' → PassedOver cfg o i o'
  | withErrors {r : List Ranged} {d : Spanned Declaration} {o' : ParserOptions} {es : List PErr} :
      ReadsP cfg o i r d o' es → es ≠ [] → PassedOver cfg o i o'

/-- Reading does not resume at any of the tokens `run`, which come before `r`. -/
inductive AllPassedOver (cfg : ParseCfg) : ParserOptions → List Ranged → List Ranged → ParserOptions → Prop
  | nil {o : ParserOptions} {r : List Ranged} : AllPassedOver cfg o [] r o
  | cons {o o' o'' : ParserOptions} {t : Ranged} {run r : List Ranged} :
      PassedOver cfg o (t :: run ++ r) o' → AllPassedOver cfg o' run r o'' → AllPassedOver cfg o (t :: run) r o''

/-- The tokens `run` before `r` are skipped: no declaration begins there, and reading does not resume before
`r`. -/
inductive SkipsP (cfg : ParseCfg) (o : ParserOptions) : List Ranged → List Ranged → ParserOptions → Prop
  | mk {o' o'' : ParserOptions} {t : Ranged} {run r : List Ranged} :
      NoDeclaration cfg o (t :: run ++ r) → AfterFailure cfg o (t :: run ++ r) o' → AllPassedOver cfg o' run r o'' →
      SkipsP cfg o (t :: run) r o''

/-! ### Files -/

/-- The pieces into which the tokens of a file are cut. -/
inductive Piece where
  | declaration (run : List Ranged) (d : Spanned Declaration) (es : List PErr)
  | skipped (run : List Ranged)

def Piece.run : Piece → List Ranged
  | .declaration run _ _ => run
  | .skipped run => run

/-- The errors reported for a piece: those of the declaration; one if it is skipped. -/
def Piece.errors : Piece → List PErr
  | .declaration _ _ es => es
  | .skipped _ => [.syntax]

def Piece.read : Piece → Option (Spanned Declaration)
  | .declaration _ d _ => some d
  | .skipped _ => none

/-- How the tokens of a file are cut into pieces, and the options afterwards.  After skipping, reading resumes with
a declaration without errors, or never. -/
inductive PiecesP (cfg : ParseCfg) : ParserOptions → List Ranged → List Piece → ParserOptions → Prop
  | nil {o : ParserOptions} : PiecesP cfg o [] [] o
  | declaration {o o' o'' : ParserOptions} {run r : List Ranged} {d : Spanned Declaration} {es : List PErr}
      {ps : List Piece} :
      ReadsP cfg o (run ++ r) r d o' es → PiecesP cfg o' r ps o'' →
      PiecesP cfg o (run ++ r) (.declaration run d es :: ps) o''
  | skipped {o o1 o2 o3 : ParserOptions} {skipped run r : List Ranged} {d : Spanned Declaration} {ps : List Piece} :
      SkipsP cfg o skipped (run ++ r) o1 → ReadsP cfg o1 (run ++ r) r d o2 [] → PiecesP cfg o2 r ps o3 →
      PiecesP cfg o (skipped ++ (run ++ r)) (.skipped skipped :: .declaration run d [] :: ps) o3
  | lost {o o1 : ParserOptions} {skipped : List Ranged} :
      SkipsP cfg o skipped [] o1 → PiecesP cfg o skipped [.skipped skipped] o1

/-- Reading never resumed. -/
def Lost (ps : List Piece) : Prop := ∃ run, ps.getLast? = some (.skipped run)

end

/-- The tokens with which a declaration may begin. -/
def StartsDeclaration (t : Token) : Prop :=
  (∃ d, t = .date d) ∨ t = .pushtag ∨ t = .poptag ∨ t = .pushmeta ∨ t = .popmeta ∨ t = .include ∨ t = .option ∨
    t = .plugin

end Lima.Spec
