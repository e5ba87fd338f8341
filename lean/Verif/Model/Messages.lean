import Verif.Model.Display
import Verif.Model.Grammar

/-!
# What errors say, the `Display` implementations of error types

Writing is concatenation.  `none` stands for texts which come from other crates: `strum`, `rust_decimal`, the
standard library's number parsing, and what `chumsky` says about unexpected tokens.
-/

namespace Lima

open Display

/-- `single_quoted`, `/repo/src/format.rs:55-60`, of a character. -/
def singleQuoted (c : Char) : Str := str "'" ++ [c] ++ str "'"

/-- `Display for FlagLetterError`, `/repo/src/types.rs:404-412`. -/
def flagLetterMessage (c : Char) : Str :=
  str "invalid character '" ++ [c] ++ str "' for flag letter - must be uppercase ASCII"

/-- `Display for AccountTypeNameError`, `/repo/src/types.rs:1435-1456`. -/
def accountTypeNameMessage : NameError → Str
  | .empty => str "empty account name"
  | .initial c =>
    str "invalid character '" ++ [c] ++ str "' for account name initial - must be uppercase ASCII letter"
  | .subsequent cs =>
    format singleQuoted (str ", ") (some (str "invalid character ")) cs ++
      str " in account name - must be alphanumeric or '-'"

/-- `Display for AccountNameError`, `/repo/src/types.rs:1522-1543`. -/
def accountNameMessage : NameError → Str
  | .empty => str "empty account name"
  | .initial c =>
    str "invalid character '" ++ [c] ++ str "' for account name initial - must be uppercase ASCII letter or digit"
  | .subsequent cs =>
    format singleQuoted (str ", ") (some (str "invalid character ")) cs ++
      str " in account name - must be alphanumeric or '-'"

/-- `Display for KeyError`, `/repo/src/types.rs:2149-2170`. -/
def keyMessage : NameError → Str
  | .empty => str "empty key"
  | .initial c => str "invalid character '" ++ [c] ++ str "' for key initial - must be lowercase ASCII letter"
  | .subsequent cs =>
    format singleQuoted (str ", ") (some (str "invalid characters ")) cs ++
      str " for key - must be alphanumeric or '-' or '_'"

/-- `Display for CurrencyError`, `/repo/src/types.rs:1646-1682`, with `CURRENCY_INTERMEDIATE_EXTRA_CHARS`, 1579.
The misspelling is in the code. -/
def currencyMessage : CurrencyError → Str
  | .empty => str "empty currency"
  | .initial c =>
    str "invalid initial character '" ++ [c] ++ str "' for currency - must be uppercase ASCII letter or '/'"
  | .intermediate cs =>
    format singleQuoted (str ", ") (some (str "invalid intermediate characters ")) cs ++
      format singleQuoted (str ", ") (some (str " for currency - must be upppercase ASCII alphanumeric or one of "))
        ['\'', '.', '_', '-']
  | .final c =>
    str "invalid final character '" ++ [c] ++ str "' for currency - must be uppercase ASCII alphanumeric"
  | .missingLetter => str "currency must contain at least one letter"

/-- `Display for TagOrLinkIdentifierError`, `/repo/src/types.rs:2061-2072`, with `TAG_OR_LINK_EXTRA_CHARS`,
2049. -/
def tagOrLinkMessage (cs : List Char) : Str :=
  format singleQuoted (str ", ") (some (str "invalid characters ")) cs ++
    format singleQuoted (str ", ") (some (str " for tag or link identifier - must be alphanumeric or one of "))
      ['-', '_', '/', '.']

/-- `Display for AccountError`, `/repo/src/types.rs:1280-1290`, with the message made in `Account::new`, 1240-1243,
and `Display for AccountTypeNames`, 2834-2838. -/
def accountMessage : AccountError → Str
  | .missingColon => str "missing colon"
  | .typeName e => accountTypeNameMessage e
  | .accountName e => accountNameMessage e
  | .unknownAccountType root names =>
    str "unknown account type " ++ root ++ str ", must be one of " ++ format id (str ", ") none names

/-- `AsRef<str> for AccountType`, the derived `IntoStaticStr`, `/repo/src/types.rs:330-344`. -/
def accountTypeText : AccountType → Str
  | .assets => str "Assets"
  | .liabilities => str "Liabilities"
  | .equity => str "Equity"
  | .income => str "Income"
  | .expenses => str "Expenses"

/-- `Display for AccountTypeNamesError`, `/repo/src/types.rs:2848-2855`. -/
def nameInUseMessage (t : AccountType) : Str := str "account type name in use for " ++ accountTypeText t

/-- `Booking::iter()`, the derived `EnumIter`, `/repo/src/types.rs:429-442`. -/
def Booking.all : List Booking := [.strict, .strictWithSize, .none, .average, .fifo, .lifo, .hifo]

/-- `PluginProcessingMode::iter()`, likewise, `/repo/src/types.rs:456-464`. -/
def PluginProcessingMode.all : List PluginProcessingMode := [.default, .raw]

/-- The derived `Display for PluginProcessingMode` with `SCREAMING_SNAKE_CASE`, `/repo/src/types.rs:456-464`. -/
def pluginProcessingModeText : PluginProcessingMode → Str
  | .default => str "DEFAULT"
  | .raw => str "RAW"

/-- `Display for BadValueErrorKind`, `/repo/src/options.rs:275-306`. -/
def badValueMessage : BadValue → Option Str
  | .accountTypeName e => some (accountTypeNameMessage e)
  | .accountName e => some (accountNameMessage e)
  | .currency e => some (currencyMessage e)
  | .booking => some (format booking (str ", ") (some (str "Expected one of ")) Booking.all)
  | .pluginProcessingMode =>
    some (format pluginProcessingModeText (str ", ") (some (str "Expected one of ")) PluginProcessingMode.all)
  | .decimal => none
  | .bool => some (str "must be true or false or case-insensitive equivalent")
  | .missingColon => some (str "missing colon")
  | .tooManyColons => some (str "too many colons")
  | .parseInt => none

/-- `Display for BeancountOptionError`, `/repo/src/options.rs:244-253`. -/
def optionMessage : OptParseError → Option Str
  | .unknownOption => some (str "unknown option")
  | .badValue e => badValueMessage e

/-- The texts given to `Rich::custom` for something given twice, `/repo/src/parsers.rs:369-372, 723-726, 736-739,
748-751, 1045-1048, 1057-1060, 1245-1246, 1282-1285`. -/
def duplicateMessage : DupKind → Str → Str
  | .tag, name => str "duplicate tag " ++ tag name
  | .link, name => str "duplicate link " ++ link name
  | .key, name => str "duplicate key " ++ name
  | .currency, name => str "duplicate currency " ++ name

/-- The reason in `From<ParserError> for Error`, `/repo/src/parsers.rs:1323-1338`.  The message, which is the reason
followed by contexts, and the contexts themselves come from `chumsky`. -/
def PErr.reason : PErr → Option Str
  | .duplicate kind name _ => some (duplicateMessage kind name)
  | .option e _ => optionMessage e
  | .accountTypeName t _ => some (nameInUseMessage t)
  | .syntax => none

/-- The location in `From<ParserError> for Error`, `/repo/src/parsers.rs:1330`; that of an error about an unexpected
token is not modelled. -/
def PErr.span : PErr → Option Span
  | .duplicate _ _ span => some span
  | .option _ span => some span
  | .accountTypeName _ span => some span
  | .syntax => none

/-- The derived `Display for CostSpecErrorKind` with `kebab-case`, `/repo/src/types.rs:2689-2698`. -/
def costSpecErrorKindText : CostSpecError → Str
  | .perUnit => str "per-unit"
  | .total => str "total"
  | .currency => str "currency"
  | .date => str "date"
  | .label => str "label"
  | .merge => str "merge-cost"

/-- `Display for CostSpecError`, `/repo/src/types.rs:2710-2714`. -/
def costSpecErrorMessage (e : CostSpecError) : Str :=
  str "duplicate " ++ costSpecErrorKindText e ++ str " field in cost specification"

/-- `Display for CostSpecErrors`, `/repo/src/types.rs:2722-2726`. -/
def costSpecErrorsMessage (es : List CostSpecError) : Str := format costSpecErrorMessage (str ", ") none es

end Lima
