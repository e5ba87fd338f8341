import Verif.Spec.Revised
import Verif.Spec.Options

/-!
# Specification of an option, or a plugin, which is left out (C68)
-/

namespace Lima.Spec
open Lima

/-- The options which affect how what follows is read: the names of the account types, and after how many lines a string is
long. -/
def readingOptions : List Str :=
  ["name_assets".toList, "name_liabilities".toList, "name_equity".toList, "name_income".toList, "name_expenses".toList,
    "long_string_maxlines".toList]

/-- What `option "name" "value"` may set, in whichever file it is.  That depends on the file for `documents` only. -/
def SetBy [Unicode] (decimal : List Char → Option Dec) (name value : Str) (k : Setting) : Prop :=
  ∃ file v, Decodes decimal file name value v ∧ settingOf v = some k

/-- What is set, unless it is left aside. -/
noncomputable def leaving {α : Type} (aside : Prop) (x : Option α) : Option α := open Classical in if aside then none else x

/-- What is listed, but for what is left aside. -/
noncomputable def others {κ ν : Type} (aside : κ → Prop) (l : List (κ × ν)) : List (κ × ν) :=
  open Classical in l.filter fun e => decide (¬ aside e.1)

/-- The options, but for these settings. -/
noncomputable def butFor (S : Setting → Prop) (o : Options) : Options :=
  { o with
    title := leaving (S .title) o.title
    accountPreviousBalances := leaving (S .previousBalances) o.accountPreviousBalances
    accountPreviousEarnings := leaving (S .previousEarnings) o.accountPreviousEarnings
    accountPreviousConversions := leaving (S .previousConversions) o.accountPreviousConversions
    accountCurrentEarnings := leaving (S .currentEarnings) o.accountCurrentEarnings
    accountCurrentConversions := leaving (S .currentConversions) o.accountCurrentConversions
    accountUnrealizedGains := leaving (S .unrealizedGains) o.accountUnrealizedGains
    accountRounding := leaving (S .rounding) o.accountRounding
    conversionCurrency := leaving (S .conversionCurrency) o.conversionCurrency
    inferredToleranceDefault := others (fun c => S (.tolerance c)) o.inferredToleranceDefault
    inferredToleranceMultiplier := leaving (S .toleranceMultiplier) o.inferredToleranceMultiplier
    inferToleranceFromCost := leaving (S .toleranceFromCost) o.inferToleranceFromCost
    documents := others (fun p => S (.document p)) o.documents
    operatingCurrency := others (fun c => S (.operatingCurrency c)) o.operatingCurrency
    renderCommas := leaving (S .renderCommas) o.renderCommas
    bookingMethod := leaving (S .bookingMethod) o.bookingMethod
    pluginProcessingMode := leaving (S .pluginProcessingMode) o.pluginProcessingMode }

/-- The options do not have this setting: without it they are the same. -/
def NotSet (k : Setting) (o : Options) : Prop := butFor (· = k) o = o

/-- The tokens of `option "name" "value"`, a line of its own. -/
def optionLine (name value : Str) : List Token := [.option, .stringLiteral name, .stringLiteral value, .eol]

/-- The tokens of `plugin "name"` and `plugin "name" "config"`, a line of its own. -/
def pluginLine (name : Str) : Option Str → List Token
  | none => [.plugin, .stringLiteral name, .eol]
  | some config => [.plugin, .stringLiteral name, .stringLiteral config, .eol]

/-- The second result is the first but for some of these settings, which it does not have, for locations, and for warnings which
it need not have. -/
structure SameButSettings (S : Setting → Prop) (r r' : ParseSuccess) : Prop where
  directives : SameButPlaces r.directives r'.directives
  options : ∃ gone : Setting → Prop, (∀ k, gone k → S k) ∧ SameButPlaces (butFor gone r.options) r'.options
  plugins : SameButPlaces r.plugins r'.plugins
  warnings : ∃ ws, ws.Sublist r.warnings ∧ SameButPlaces ws r'.warnings

/-- The second list is the first without some occurrences of a plugin, but for locations. -/
inductive PluginGone (name : Str) (config : Option Str) : List Plugin → List Plugin → Prop
  | nil : PluginGone name config [] []
  | stays {p p' : Plugin} {ps ps' : List Plugin} : SameButPlaces p p' → PluginGone name config ps ps' →
      PluginGone name config (p :: ps) (p' :: ps')
  | goes {p : Plugin} {ps ps' : List Plugin} : p.moduleName.item = name → p.config.map (·.item) = config →
      PluginGone name config ps ps' → PluginGone name config (p :: ps) ps'

/-- The second result is the first but for occurrences of a plugin, for locations, and for warnings which it need not have. -/
structure SameButPlugin (name : Str) (config : Option Str) (r r' : ParseSuccess) : Prop where
  directives : SameButPlaces r.directives r'.directives
  options : SameButPlaces r.options r'.options
  plugins : PluginGone name config r.plugins r'.plugins
  warnings : ∃ ws, ws.Sublist r.warnings ∧ SameButPlaces ws r'.warnings

end Lima.Spec
