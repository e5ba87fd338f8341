import Verif.Spec.AccountTypes
import Verif.Spec.CostSpec
import Verif.Spec.Locations
import Verif.Spec.Options
import Verif.Spec.Recovery

/-!
# Specification of what errors say (C55)

For each kind of name and option, which texts are refused with which message.  The conditions beside the messages
are the rules for names of `Verif.Spec.Names`, so that it can be seen whether a message tells the rule.
-/

namespace Lima.Spec

open Classical

/-- Words separated by commas. -/
def commas : List (List Char) → List Char
  | [] => []
  | [w] => w
  | w :: ws => w ++ ", ".toList ++ commas ws

/-- Characters in quotes, separated by commas. -/
def quoted (cs : List Char) : List Char := commas (cs.map (fun c => ['\'', c, '\'']))

/-- The characters which are not allowed, in order. -/
noncomputable def offending (allowed : Char → Prop) (s : List Char) : List Char :=
  s.filter (fun c => decide (¬ allowed c))

/-! ### Names -/

/-- Currencies. -/
inductive CurrencyComplaint : List Char → List Char → Prop
  | empty : CurrencyComplaint [] "empty currency".toList
  | initial (a : Char) (rest : List Char) : ¬ (Upper a ∨ a = '/') →
      CurrencyComplaint (a :: rest)
        ("invalid initial character ".toList ++ quoted [a] ++
          " for currency - must be uppercase ASCII letter or '/'".toList)
  | final (a z : Char) (s : List Char) : s.head? = some a → s.getLast? = some z → (Upper a ∨ a = '/') →
      ¬ (Upper z ∨ Digit z) →
      CurrencyComplaint s
        ("invalid final character ".toList ++ quoted [z] ++
          " for currency - must be uppercase ASCII alphanumeric".toList)
  | intermediate (a z : Char) (mid bad : List Char) : (Upper a ∨ a = '/') → (Upper z ∨ Digit z) →
      bad = offending (fun c => Upper c ∨ Digit c ∨ c = '\'' ∨ c = '.' ∨ c = '_' ∨ c = '-') mid → bad ≠ [] →
      CurrencyComplaint (a :: (mid ++ [z]))
        ("invalid intermediate characters ".toList ++ quoted bad ++
          " for currency - must be upppercase ASCII alphanumeric or one of ''', '.', '_', '-'".toList)
  | missingLetter (a z : Char) (mid : List Char) : (Upper a ∨ a = '/') → (Upper z ∨ Digit z) →
      (∀ c ∈ mid, Upper c ∨ Digit c ∨ c = '\'' ∨ c = '.' ∨ c = '_' ∨ c = '-') →
      (∀ c ∈ a :: (mid ++ [z]), ¬ Upper c) →
      CurrencyComplaint (a :: (mid ++ [z])) "currency must contain at least one letter".toList

/-- Flags which are letters. -/
inductive FlagComplaint : Char → List Char → Prop
  | mk (c : Char) : ¬ Upper c →
      FlagComplaint c
        ("invalid character ".toList ++ quoted [c] ++ " for flag letter - must be uppercase ASCII".toList)

section
variable [Unicode]

/-- Tags and links. -/
inductive TagComplaint : List Char → List Char → Prop
  | mk (s bad : List Char) : bad = offending TagChar s → bad ≠ [] →
      TagComplaint s
        ("invalid characters ".toList ++ quoted bad ++
          " for tag or link identifier - must be alphanumeric or one of '-', '_', '/', '.'".toList)

/-- Metadata keys. -/
inductive KeyComplaint : List Char → List Char → Prop
  | empty : KeyComplaint [] "empty key".toList
  | initial (a : Char) (rest : List Char) : ¬ Lower a →
      KeyComplaint (a :: rest)
        ("invalid character ".toList ++ quoted [a] ++ " for key initial - must be lowercase ASCII letter".toList)
  | subsequent (a : Char) (rest bad : List Char) : Lower a →
      bad = offending (fun c => Alnum c ∨ c = '-' ∨ c = '_') rest → bad ≠ [] →
      KeyComplaint (a :: rest)
        ("invalid characters ".toList ++ quoted bad ++ " for key - must be alphanumeric or '-' or '_'".toList)

/-- Account type names. -/
inductive TypeNameComplaint : List Char → List Char → Prop
  | empty : TypeNameComplaint [] "empty account name".toList
  | initial (a : Char) (rest : List Char) : ¬ Upper a →
      TypeNameComplaint (a :: rest)
        ("invalid character ".toList ++ quoted [a] ++
          " for account name initial - must be uppercase ASCII letter".toList)
  | subsequent (a : Char) (rest bad : List Char) : Upper a →
      bad = offending (fun c => Alnum c ∨ c = '-') rest → bad ≠ [] →
      TypeNameComplaint (a :: rest)
        ("invalid character ".toList ++ quoted bad ++ " in account name - must be alphanumeric or '-'".toList)

/-- Components of accounts.  Here the message does not tell the rule: other letters than ASCII are also allowed as
the first. -/
inductive AccountNameComplaint : List Char → List Char → Prop
  | empty : AccountNameComplaint [] "empty account name".toList
  | initial (a : Char) (rest : List Char) : ¬ (Upper a ∨ Digit a ∨ (¬ Ascii a ∧ Unicode.isAlphabetic a = true)) →
      AccountNameComplaint (a :: rest)
        ("invalid character ".toList ++ quoted [a] ++
          " for account name initial - must be uppercase ASCII letter or digit".toList)
  | subsequent (a : Char) (rest bad : List Char) :
      (Upper a ∨ Digit a ∨ (¬ Ascii a ∧ Unicode.isAlphabetic a = true)) →
      bad = offending (fun c => Alnum c ∨ c = '-') rest → bad ≠ [] →
      AccountNameComplaint (a :: rest)
        ("invalid character ".toList ++ quoted bad ++ " in account name - must be alphanumeric or '-'".toList)

/-- Components joined by colons: the complaint is about the first bad one. -/
inductive ComponentsComplaint : List Char → List Char → Prop
  | mk (good bad : List (List Char)) (w m : List Char) : (∀ g ∈ good, ValidAccountName g) →
      (∀ x ∈ w :: bad, ':' ∉ x) → AccountNameComplaint w m →
      ComponentsComplaint (joinColon (good ++ w :: bad)) m

/-- Accounts, with these names of account types. -/
inductive AccountComplaint (names : Naming) : List Char → List Char → Prop
  | root (root : List Char) (subs : List (List Char)) (m : List Char) : (∀ x ∈ root :: subs, ':' ∉ x) →
      TypeNameComplaint root m → AccountComplaint names (joinColon (root :: subs)) m
  | component (root : List Char) (good bad : List (List Char)) (w m : List Char) :
      ValidAccountTypeName root → (∀ g ∈ good, ValidAccountName g) → (∀ x ∈ w :: bad, ':' ∉ x) →
      AccountNameComplaint w m → AccountComplaint names (joinColon (root :: (good ++ w :: bad))) m
  | unknown (root : List Char) (subs : List (List Char)) : ValidAccountTypeName root →
      (∀ w ∈ subs, ValidAccountName w) → (∀ t, names t ≠ root) →
      AccountComplaint names (joinColon (root :: subs))
        ("unknown account type ".toList ++ root ++ ", must be one of ".toList ++
          commas [names .assets, names .liabilities, names .equity, names .income, names .expenses])

/-! ### Options -/

/-- Options; `none` is a text which comes from elsewhere.  The name of an unknown option is not looked at
further, nor is its value.  For `render_commas` the message does not tell the rule: `0` and `1` are also
allowed. -/
inductive OptionComplaint (decimal : List Char → Option Dec) : List Char → List Char → Option (List Char) → Prop
  | unknown (name v) : name ∉ optionNames → OptionComplaint decimal name v (some "unknown option".toList)
  | accountTypeName (name v m) :
      name ∈ ["name_assets", "name_liabilities", "name_equity", "name_income", "name_expenses"].map (·.toList) →
      TypeNameComplaint v m → OptionComplaint decimal name v (some m)
  | subaccount (name v m) :
      name ∈ ["account_previous_balances", "account_previous_earnings", "account_previous_conversions",
        "account_current_earnings", "account_current_conversions", "account_unrealized_gains",
        "account_rounding"].map (·.toList) →
      ComponentsComplaint v m → OptionComplaint decimal name v (some m)
  | currency (name v m) :
      name ∈ ["conversion_currency", "operating_currency"].map (·.toList) →
      CurrencyComplaint v m → OptionComplaint decimal name v (some m)
  | toleranceCurrency (c t v m) : (v = c ∨ v = c ++ ':' :: t) → ':' ∉ c → c ≠ "*".toList → CurrencyComplaint c m →
      OptionComplaint decimal "inferred_tolerance_default".toList v (some m)
  | toleranceMissing (c) : ':' ∉ c → (c = "*".toList ∨ ValidCurrency c) →
      OptionComplaint decimal "inferred_tolerance_default".toList c (some "missing colon".toList)
  | toleranceNumber (c t rest v) : (v = c ++ ':' :: t ∨ v = c ++ ':' :: (t ++ ':' :: rest)) → ':' ∉ c → ':' ∉ t →
      (c = "*".toList ∨ ValidCurrency c) → decimal t = none →
      OptionComplaint decimal "inferred_tolerance_default".toList v none
  | toleranceMore (c t rest d) : ':' ∉ c → ':' ∉ t → (c = "*".toList ∨ ValidCurrency c) → decimal t = some d →
      OptionComplaint decimal "inferred_tolerance_default".toList (c ++ ':' :: (t ++ ':' :: rest))
        (some "too many colons".toList)
  | toleranceMultiplier (v) : decimal v = none →
      OptionComplaint decimal "inferred_tolerance_multiplier".toList v none
  | toleranceFromCost (v) : (∀ b, ¬ BoolText v b) →
      OptionComplaint decimal "infer_tolerance_from_cost".toList v
        (some "must be true or false or case-insensitive equivalent".toList)
  | renderCommas (v) : (∀ b, ¬ BoolText v b) → v ≠ ['0'] → v ≠ ['1'] →
      OptionComplaint decimal "render_commas".toList v
        (some "must be true or false or case-insensitive equivalent".toList)
  | longStringMaxlines (v) : (∀ n, ¬ UsizeText v n) → OptionComplaint decimal "long_string_maxlines".toList v none
  | bookingMethod (v) : (∀ b, v ≠ bookingText b) →
      OptionComplaint decimal "booking_method".toList v
        (some "Expected one of STRICT, STRICT_WITH_SIZE, NONE, AVERAGE, FIFO, LIFO, HIFO".toList)
  | pluginProcessingMode (v) : (∀ m, v ≠ modeText m) →
      OptionComplaint decimal "plugin_processing_mode".toList v (some "Expected one of DEFAULT, RAW".toList)

/-! ### Cost specifications -/

/-- What an aspect of a cost specification is called. -/
def aspectText : CostSpecError → List Char
  | .perUnit => "per-unit".toList
  | .total => "total".toList
  | .currency => "currency".toList
  | .date => "date".toList
  | .label => "label".toList
  | .merge => "merge-cost".toList

/-! ### Files -/

/-- The table of names under which an account type is found. -/
def typeTexts : List (AccountType × List Char) :=
  [(.assets, "Assets".toList), (.liabilities, "Liabilities".toList), (.equity, "Equity".toList),
    (.income, "Income".toList), (.expenses, "Expenses".toList)]

/-- The options for renaming account types. -/
def renamingOptions : List (List Char × AccountType) :=
  [("name_assets".toList, .assets), ("name_liabilities".toList, .liabilities), ("name_equity".toList, .equity),
    ("name_income".toList, .income), ("name_expenses".toList, .expenses)]

/-- The name is in use for an account type before `i`: it was when the file was begun, or an option gave it. -/
def InUse [DecOps] (cfg : ParseCfg) (o : ParserOptions) (toks i : List Ranged) (text : List Char) (t : AccountType) :
    Prop :=
  o.accountTypeNames.get text = some t ∨
    ∃ j name value, j <:+ toks ∧ i <:+ j ∧ OptionAt cfg j name value ∧ (name.item, t) ∈ renamingOptions ∧
      value.item = text

/-- What may be said of a file, and where: something is reported as given twice where it is written, an option
which is not known at its name, and an option which does not have a good value at its value. -/
inductive Explained [DecOps] (cfg : ParseCfg) (o : ParserOptions) (toks : List Ranged) :
    Option (List Char) → Option Span → Prop
  | syntax : Explained cfg o toks none none
  | tag (name span) : LocatedIn cfg toks [] ⟨span, false, some (.tag name)⟩ →
      Explained cfg o toks (some ("duplicate tag #".toList ++ name)) (some span)
  | link (name span) : LocatedIn cfg toks [] ⟨span, false, some (.link name)⟩ →
      Explained cfg o toks (some ("duplicate link ^".toList ++ name)) (some span)
  | key (name span) : LocatedIn cfg toks [] ⟨span, false, some (.key name)⟩ →
      Explained cfg o toks (some ("duplicate key ".toList ++ name)) (some span)
  | currency (name span) : LocatedIn cfg toks [] ⟨span, false, some (.currency name)⟩ →
      Explained cfg o toks (some ("duplicate currency ".toList ++ name)) (some span)
  | unknownOption (i name value) : i <:+ toks → OptionAt cfg i name value → name.item ∉ optionNames →
      Explained cfg o toks (some "unknown option".toList) (some name.span)
  | badValue (decimal i name value m) : i <:+ toks → OptionAt cfg i name value → name.item ∈ optionNames →
      (∀ s d, decimal s = some d ↔ cfg.decimal s = .ok d) → OptionComplaint decimal name.item value.item m →
      Explained cfg o toks m (some value.span)
  | nameInUse (i name value t t' text) : i <:+ toks → OptionAt cfg i name value →
      (name.item, t) ∈ renamingOptions → InUse cfg o toks i value.item t' → t' ≠ t →
      (t', text) ∈ typeTexts →
      Explained cfg o toks (some ("account type name in use for ".toList ++ text)) (some value.span)

end

end Lima.Spec
