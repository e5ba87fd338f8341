import Verif.Model.Parse
import Verif.Spec.Sources

/-!
# Specification of parsing all sources (C07, C40, C41)
-/

namespace Lima.Spec
open Lima Grammar

section
variable [Unicode] [DecOps]

/-- The files are parsed one after the other, each with the parser options the one before ended with: the results,
and the options at the end. -/
inductive InOrder (env : ParseEnv) : ParserOptions → List (Nat × Option Path × Str) → List FileResult →
    ParserOptions → Prop
  | nil (o) : InOrder env o [] [] o
  | cons (o o' id path text res es rs)
      (h : Grammar.parseFile ⟨id, path, env.emptySpan id, env.decimal⟩ (env.tokens text) o [] = some res)
      (t : InOrder env res.opts es rs o') : InOrder env o ((id, path, text) :: es) (res :: rs) o'

end

/-- The sources are what reading yields, with the included files in any order: the order is that of a hash map. -/
def ReadInSomeOrder (fs : FileSystem) (tokens : Str → List Ranged) (rootPath : Option Path) (rootContent : Str)
    (s : Sources) : Prop :=
  ∃ content, (readWithIncludes fs tokens rootPath rootContent).content.Perm content ∧
    s = { readWithIncludes fs tokens rootPath rootContent with content }

/-- Each file with its declarations; a file which could not be parsed to its end has none. -/
def outputsOf (es : List (Nat × Option Path × Str)) (rs : List FileResult) :
    List (Option Path × List (Spanned Declaration)) :=
  (es.zip rs).map (fun x => (x.1.2.1, x.2.declarations.getD []))

/-- The errors of all files, in order. -/
def faultsOf (es : List (Nat × Option Path × Str)) (rs : List FileResult) : List Fault :=
  (es.zip rs).flatMap (fun x => x.2.errors.map (Fault.parsing x.1.1))

/-- The tokens set an option on which parsing depends: `option "name_assets" "..."`, and the like. -/
def SetsParserOption (toks : List Ranged) : Prop :=
  ∃ before after name value, toks.map (·.tok) =
      before ++ .option :: .stringLiteral name :: .stringLiteral value :: after ∧
    (name = "name_assets".toList ∨ name = "name_liabilities".toList ∨ name = "name_equity".toList ∨
      name = "name_income".toList ∨ name = "name_expenses".toList ∨ name = "long_string_maxlines".toList)

/-- The same outcome, except for the order of errors and of warnings. -/
def SameOutcome : Res ParseError ParseSuccess → Res ParseError ParseSuccess → Prop
  | .ok a, .ok b => a.directives = b.directives ∧ a.options = b.options ∧ a.plugins = b.plugins ∧
      a.warnings.Perm b.warnings
  | .err a, .err b => a.errors.Perm b.errors ∧ a.warnings.Perm b.warnings
  | .panic, .panic => True
  | _, _ => False

end Lima.Spec
