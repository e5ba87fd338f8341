import Verif.Spec.Parse
import Verif.Spec.Grammar
import Verif.Spec.Pragma
import Verif.Spec.AccountTypes

/-!
# Specification of what a successful parse comes to (C56)
-/

namespace Lima.Spec
open Lima

section
variable [Unicode] [DecOps]

/-- The sources are files of the language, one after the other: the declarations of each, the options afterwards and
the warnings. -/
inductive FilesP (env : ParseEnv) : ParserOptions → List (Nat × Option Path × Str) →
    List (List (Spanned Declaration)) → ParserOptions → List Report → Prop
  | nil {o : ParserOptions} : FilesP env o [] [] o []
  | cons {o o1 o' : ParserOptions} {id : Nat} {path : Option Path} {text : Str} {ds : List (Spanned Declaration)}
      {ws ws' : List Report} {es : List (Nat × Option Path × Str)} {dss : List (List (Spanned Declaration))} :
      FileP ⟨id, path, env.emptySpan id, env.decimal⟩ o (env.tokens text) ds o1 [] ws → FilesP env o1 es dss o' ws' →
      FilesP env o ((id, path, text) :: es) (ds :: dss) o' (ws ++ ws')

end

/-- The directives among some declarations, with their locations. -/
def directivesAmong (ds : List (Spanned Declaration)) : List (Spanned Directive) :=
  ds.filterMap (fun d => match d.item with
    | .directive x => some ⟨x, d.span⟩
    | .pragma _ => none)

/-- The plugins among some declarations. -/
def pluginsAmong (ds : List (Spanned Declaration)) : List Plugin :=
  ds.filterMap (fun d => match d.item with
    | .pragma (.plugin p) => some p
    | _ => none)

/-- The pragma is among the declarations. -/
def Among (p : Pragma) (ds : List (Spanned Declaration)) : Prop := ∃ d ∈ ds, d.item = .pragma p

/-- The directive `d` is the directive `w` as written, with tags and metadata added which are pushed by some of the
declarations, and which it does not have itself. -/
structure Enriched (ds : List (Spanned Declaration)) (w d : Spanned Directive) : Prop where
  span : d.span = w.span
  date : d.item.date = w.item.date
  variant : d.item.variant = w.item.variant
  metadata : d.item.metadata.span = w.item.metadata.span
  links : d.item.metadata.item.links = w.item.metadata.item.links
  tags : ∃ more, d.item.metadata.item.tags = w.item.metadata.item.tags ++ more ∧
    ∀ t ∈ more, Among (.pushtag t) ds ∧ ∀ u ∈ w.item.metadata.item.tags, u.item ≠ t.item
  keyValues : ∃ more, d.item.metadata.item.keyValues = w.item.metadata.item.keyValues ++ more ∧
    ∀ kv ∈ more, Among (.pushmeta ⟨kv.1, kv.2⟩) ds ∧ ∀ u ∈ w.item.metadata.item.keyValues, u.1.item ≠ kv.1.item

/-- How often a tag is pushed, and popped. -/
def pushes (t : List Char) (ds : List (Spanned Declaration)) : Nat :=
  ds.countP (fun d => match d.item with
    | .pragma (.pushtag x) => x.item == t
    | _ => false)

def pops (t : List Char) (ds : List (Spanned Declaration)) : Nat :=
  ds.countP (fun d => match d.item with
    | .pragma (.poptag x) => x.item == t
    | _ => false)

/-- How often a metadata key is pushed, and popped. -/
def metaPushes (k : List Char) (ds : List (Spanned Declaration)) : Nat :=
  ds.countP (fun d => match d.item with
    | .pragma (.pushmeta kv) => kv.key.item == k
    | _ => false)

def metaPops (k : List Char) (ds : List (Spanned Declaration)) : Nat :=
  ds.countP (fun d => match d.item with
    | .pragma (.popmeta x) => x.item == k
    | _ => false)

/-- The tokens `option "name" "value"` stand in the file with this index, the name and the value at these locations. -/
def WritesOption (toks : List Ranged) (id : Nat) (name value : List Char) (at' : OptSource) : Prop :=
  ∃ before after x y a b c d, toks =
      before ++ ⟨.option, x, y⟩ :: ⟨.stringLiteral name, a, b⟩ :: ⟨.stringLiteral value, c, d⟩ :: after ∧
    at' = ⟨⟨id, a, b⟩, ⟨id, c, d⟩⟩

/-- The options have this value, given at this place. -/
def Holds (o : Options) (at' : OptSource) : OptVariant → Prop
  | .title v => o.title = some (sourced v at')
  | .accountTypeName t name => o.parserOptions.accountTypeNames.name t = some name
  | .accountPreviousBalances v => o.accountPreviousBalances = some (sourced v at')
  | .accountPreviousEarnings v => o.accountPreviousEarnings = some (sourced v at')
  | .accountPreviousConversions v => o.accountPreviousConversions = some (sourced v at')
  | .accountCurrentEarnings v => o.accountCurrentEarnings = some (sourced v at')
  | .accountCurrentConversions v => o.accountCurrentConversions = some (sourced v at')
  | .accountUnrealizedGains v => o.accountUnrealizedGains = some (sourced v at')
  | .accountRounding v => o.accountRounding = some (sourced v at')
  | .conversionCurrency v => o.conversionCurrency = some (sourced v at')
  | .inferredToleranceDefault c d => (c, d, at') ∈ o.inferredToleranceDefault
  | .inferredToleranceMultiplier v => o.inferredToleranceMultiplier = some (sourced v at')
  | .inferToleranceFromCost v => o.inferToleranceFromCost = some (sourced v at')
  | .documents p => (p, at') ∈ o.documents
  | .operatingCurrency c => (c, at') ∈ o.operatingCurrency
  | .renderCommas v => o.renderCommas = some (sourced v at')
  | .longStringMaxlines n => o.parserOptions.longStringMaxlines = some (sourced n at')
  | .bookingMethod v => o.bookingMethod = some (sourced v at')
  | .pluginProcessingMode v => o.pluginProcessingMode = some (sourced v at')
  | .assimilated => False
  | .ignored => False

/-- The options among some tokens in order: name, value and locations. -/
def writtenOptions (id : Nat) : List Ranged → List (List Char × List Char × OptSource)
  | ⟨.option, _, _⟩ :: ⟨.stringLiteral name, a, b⟩ :: ⟨.stringLiteral value, c, d⟩ :: r =>
    (name, value, ⟨⟨id, a, b⟩, ⟨id, c, d⟩⟩) :: writtenOptions id r
  | _ :: r => writtenOptions id r
  | [] => []

/-- The value is that of the last option with the name. -/
def GivenLast (all : List (List Char × List Char × OptSource)) (name value : List Char) (at' : OptSource) : Prop :=
  ∃ before after, all = before ++ (name, value, at') :: after ∧ ∀ x ∈ after, x.1 ≠ name

/-- The option which names an account type. -/
def nameOption : AccountType → List Char
  | .assets => "name_assets".toList
  | .liabilities => "name_liabilities".toList
  | .equity => "name_equity".toList
  | .income => "name_income".toList
  | .expenses => "name_expenses".toList

end Lima.Spec
