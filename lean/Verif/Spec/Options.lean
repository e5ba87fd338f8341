import Verif.Model.Options
import Verif.Spec.Names
import Verif.Spec.Callbacks

/-!
# Specification of options (C37-C39, C46)
-/

namespace Lima.Spec
open Lima

/-- What an option pragma sets: a single-valued setting, or one element of a multi-valued one. -/
inductive Setting where
  | title | previousBalances | previousEarnings | previousConversions | currentEarnings | currentConversions
  | unrealizedGains | rounding | conversionCurrency | toleranceMultiplier | toleranceFromCost | renderCommas
  | bookingMethod | pluginProcessingMode
  | tolerance (c : CurrencyOrAny)
  | document (p : Path)
  | operatingCurrency (c : List Char)
deriving DecidableEq

/-- Several elements of such a setting may be given. -/
def Setting.Multi : Setting → Prop
  | .tolerance _ => True
  | .document _ => True
  | .operatingCurrency _ => True
  | _ => False

/-- The setting addressed by a decoded option, if it is kept in `Options`. -/
def settingOf : OptVariant → Option Setting
  | .title _ => some .title
  | .accountTypeName _ _ => none
  | .accountPreviousBalances _ => some .previousBalances
  | .accountPreviousEarnings _ => some .previousEarnings
  | .accountPreviousConversions _ => some .previousConversions
  | .accountCurrentEarnings _ => some .currentEarnings
  | .accountCurrentConversions _ => some .currentConversions
  | .accountUnrealizedGains _ => some .unrealizedGains
  | .accountRounding _ => some .rounding
  | .conversionCurrency _ => some .conversionCurrency
  | .inferredToleranceDefault c _ => some (.tolerance c)
  | .inferredToleranceMultiplier _ => some .toleranceMultiplier
  | .inferToleranceFromCost _ => some .toleranceFromCost
  | .documents p => some (.document p)
  | .operatingCurrency c => some (.operatingCurrency c)
  | .renderCommas _ => some .renderCommas
  | .longStringMaxlines _ => none
  | .bookingMethod _ => some .bookingMethod
  | .pluginProcessingMode _ => some .pluginProcessingMode
  | .assimilated => none
  | .ignored => none

/-- The first option pragma addressing a setting. -/
def firstFor (history : List BOption) (s : Setting) : Option BOption :=
  history.find? (fun o => decide (settingOf o.variant = some s))

/-- The options after a history of option pragmas. -/
def optionsAfter (p : ParserOptions) (history : List BOption) : Options :=
  history.foldl (fun o opt => (o.assimilate opt).1) (Options.new p)

/-- The value, with its location, of the first option of a kind: `select` picks the value. -/
def firstValue {α : Type} (select : OptVariant → Option α) (history : List BOption) : Option (Spanned α) :=
  history.findSome? (fun o => (select o.variant).map (fun v => ⟨v, o.source.value⟩))

/-! ### Decoding -/

/-- Equal up to the case of ASCII letters. -/
def SameLetters (s lower : List Char) : Prop :=
  s.length = lower.length ∧
    ∀ p ∈ s.zip lower, p.1 = p.2 ∨ (Upper p.1 ∧ p.2.toNat = p.1.toNat + 32)

/-- `true` or `false` in any letter case. -/
def BoolText (s : List Char) (b : Bool) : Prop :=
  (SameLetters s "true".toList ∧ b = true) ∨ (SameLetters s "false".toList ∧ b = false)

/-- How a booking method is written. -/
def bookingText : Booking → List Char
  | .strict => "STRICT".toList
  | .strictWithSize => "STRICT_WITH_SIZE".toList
  | .none => "NONE".toList
  | .average => "AVERAGE".toList
  | .fifo => "FIFO".toList
  | .lifo => "LIFO".toList
  | .hifo => "HIFO".toList

/-- How a plugin processing mode is written. -/
def modeText : PluginProcessingMode → List Char
  | .default => "DEFAULT".toList
  | .raw => "RAW".toList

/-- Digits of a natural number below `2 ^ 64`, possibly after a plus sign. -/
def UsizeText (s : List Char) (n : Nat) : Prop :=
  ∃ ds : List (Fin 10), ds ≠ [] ∧ n < 2 ^ 64 ∧ n = number ds ∧ (s = ds.map digit ∨ s = '+' :: ds.map digit)

/-- The documented options and their values.  `decimal` reads a decimal number. -/
inductive Decodes [Unicode] (decimal : List Char → Option Dec) (file : Option Path) :
    List Char → List Char → OptVariant → Prop
  | title (v) : Decodes decimal file "title".toList v (.title v)
  | nameAssets (v) (h : ValidAccountTypeName v) :
      Decodes decimal file "name_assets".toList v (.accountTypeName .assets v)
  | nameLiabilities (v) (h : ValidAccountTypeName v) :
      Decodes decimal file "name_liabilities".toList v (.accountTypeName .liabilities v)
  | nameEquity (v) (h : ValidAccountTypeName v) :
      Decodes decimal file "name_equity".toList v (.accountTypeName .equity v)
  | nameIncome (v) (h : ValidAccountTypeName v) :
      Decodes decimal file "name_income".toList v (.accountTypeName .income v)
  | nameExpenses (v) (h : ValidAccountTypeName v) :
      Decodes decimal file "name_expenses".toList v (.accountTypeName .expenses v)
  | previousBalances (subs) (hne : subs ≠ []) (h : ∀ w ∈ subs, ValidAccountName w) :
      Decodes decimal file "account_previous_balances".toList (joinColon subs)
        (.accountPreviousBalances (joinColon subs))
  | previousEarnings (subs) (hne : subs ≠ []) (h : ∀ w ∈ subs, ValidAccountName w) :
      Decodes decimal file "account_previous_earnings".toList (joinColon subs)
        (.accountPreviousEarnings (joinColon subs))
  | previousConversions (subs) (hne : subs ≠ []) (h : ∀ w ∈ subs, ValidAccountName w) :
      Decodes decimal file "account_previous_conversions".toList (joinColon subs)
        (.accountPreviousConversions (joinColon subs))
  | currentEarnings (subs) (hne : subs ≠ []) (h : ∀ w ∈ subs, ValidAccountName w) :
      Decodes decimal file "account_current_earnings".toList (joinColon subs)
        (.accountCurrentEarnings (joinColon subs))
  | currentConversions (subs) (hne : subs ≠ []) (h : ∀ w ∈ subs, ValidAccountName w) :
      Decodes decimal file "account_current_conversions".toList (joinColon subs)
        (.accountCurrentConversions (joinColon subs))
  | unrealizedGains (subs) (hne : subs ≠ []) (h : ∀ w ∈ subs, ValidAccountName w) :
      Decodes decimal file "account_unrealized_gains".toList (joinColon subs)
        (.accountUnrealizedGains (joinColon subs))
  | rounding (subs) (hne : subs ≠ []) (h : ∀ w ∈ subs, ValidAccountName w) :
      Decodes decimal file "account_rounding".toList (joinColon subs) (.accountRounding (joinColon subs))
  | conversionCurrency (v) (h : ValidCurrency v) :
      Decodes decimal file "conversion_currency".toList v (.conversionCurrency v)
  | toleranceAny (t d) (hc : ':' ∉ t) (h : decimal t = some d) :
      Decodes decimal file "inferred_tolerance_default".toList ('*' :: ':' :: t)
        (.inferredToleranceDefault .any d)
  | tolerance (c t d) (hv : ValidCurrency c) (hc : ':' ∉ t) (h : decimal t = some d) :
      Decodes decimal file "inferred_tolerance_default".toList (c ++ ':' :: t)
        (.inferredToleranceDefault (.currency c) d)
  | toleranceMultiplier (v d) (h : decimal v = some d) :
      Decodes decimal file "inferred_tolerance_multiplier".toList v (.inferredToleranceMultiplier d)
  | toleranceFromCost (v b) (h : BoolText v b) :
      Decodes decimal file "infer_tolerance_from_cost".toList v (.inferToleranceFromCost b)
  | documents (v) (h : ∀ f, file = some f → f.names = []) :
      Decodes decimal file "documents".toList v (.documents (Path.ofStr v))
  | documentsIn (v f) (h : file = some f) (hn : f.names ≠ []) :
      Decodes decimal file "documents".toList v
        (.documents (Path.join ⟨f.root, f.names.dropLast⟩ (Path.ofStr v)))
  | operatingCurrency (v) (h : ValidCurrency v) :
      Decodes decimal file "operating_currency".toList v (.operatingCurrency v)
  | renderCommas (v b) (h : BoolText v b ∨ (v = ['1'] ∧ b = true) ∨ (v = ['0'] ∧ b = false)) :
      Decodes decimal file "render_commas".toList v (.renderCommas b)
  | longStringMaxlines (v n) (h : UsizeText v n) :
      Decodes decimal file "long_string_maxlines".toList v (.longStringMaxlines n)
  | bookingMethod (b) : Decodes decimal file "booking_method".toList (bookingText b) (.bookingMethod b)
  | pluginProcessingMode (m) :
      Decodes decimal file "plugin_processing_mode".toList (modeText m) (.pluginProcessingMode m)

/-- The documented option names. -/
def optionNames : List (List Char) :=
  ["title", "name_assets", "name_liabilities", "name_equity", "name_income", "name_expenses",
   "account_previous_balances", "account_previous_earnings", "account_previous_conversions",
   "account_current_earnings", "account_current_conversions", "account_unrealized_gains", "account_rounding",
   "conversion_currency", "inferred_tolerance_default", "inferred_tolerance_multiplier",
   "infer_tolerance_from_cost", "documents", "operating_currency", "render_commas", "long_string_maxlines",
   "booking_method", "plugin_processing_mode"].map (·.toList)

end Lima.Spec
