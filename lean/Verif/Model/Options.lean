import Verif.Model.AccountTypes
import Verif.Model.Path
import Verif.Model.Report

/-!
# Options, `/repo/src/options.rs`
-/

namespace Lima

/-- `CurrencyOrAny`, `/repo/src/options.rs:43-47`. -/
inductive CurrencyOrAny where
  | currency (c : Str)
  | any
deriving Repr, DecidableEq, Inhabited

/-- `Source`, `/repo/src/options.rs:704-708`: where name and value of an option were written. -/
structure OptSource where
  name : Span
  value : Span
deriving Repr, DecidableEq, Inhabited

/-- `Default for Source`, `/repo/src/options.rs:712-724`. -/
def OptSource.default : OptSource := ⟨⟨0, 0, 0⟩, ⟨0, 0, 0⟩⟩

/-- `Sourced<T>`, `/repo/src/options.rs:674-678`. -/
structure Sourced (α : Type) where
  spanned : Spanned α
  source : OptSource
deriving Repr, DecidableEq, Inhabited

/-- `sourced`, `/repo/src/options.rs:691-696`. -/
def sourced {α : Type} (item : α) (source : OptSource) : Sourced α := ⟨⟨item, source.value⟩, source⟩

/-- `BeancountOptionVariant`, `/repo/src/options.rs:18-41`. -/
inductive OptVariant where
  | title (s : Str)
  | accountTypeName (t : AccountType) (name : Str)
  | accountPreviousBalances (s : Str)
  | accountPreviousEarnings (s : Str)
  | accountPreviousConversions (s : Str)
  | accountCurrentEarnings (s : Str)
  | accountCurrentConversions (s : Str)
  | accountUnrealizedGains (s : Str)
  | accountRounding (s : Str)
  | conversionCurrency (c : Str)
  | inferredToleranceDefault (c : CurrencyOrAny) (d : Dec)
  | inferredToleranceMultiplier (d : Dec)
  | inferToleranceFromCost (b : Bool)
  | documents (p : Path)
  | operatingCurrency (c : Str)
  | renderCommas (b : Bool)
  | longStringMaxlines (n : Nat)
  | bookingMethod (b : Booking)
  | pluginProcessingMode (m : PluginProcessingMode)
  | assimilated
  | ignored
deriving Repr, DecidableEq, Inhabited

/-- `BeancountOption`, `/repo/src/options.rs:13-16`. -/
structure BOption where
  source : OptSource
  variant : OptVariant
deriving Repr, DecidableEq, Inhabited

/-- `BeancountOption::ignored`, `/repo/src/options.rs:164-169`. -/
def BOption.ignored : BOption := ⟨OptSource.default, .ignored⟩

/-- `BadValueErrorKind`, `/repo/src/options.rs:261-273`; the payloads which only feed the message text are
left out. -/
inductive BadValue where
  | accountTypeName (e : NameError)
  | accountName (e : NameError)
  | currency (e : CurrencyError)
  | booking
  | pluginProcessingMode
  | decimal
  | bool
  | missingColon
  | tooManyColons
  | parseInt
deriving Repr, DecidableEq

/-- `BeancountOptionError`, `/repo/src/options.rs:239-242`. -/
inductive OptParseError where
  | unknownOption
  | badValue (e : BadValue)
deriving Repr, DecidableEq

/-- `Result::map` on outcomes. -/
def Res.map {ε α β : Type} (f : α → β) : Res ε α → Res ε β
  | .ok a => .ok (f a)
  | .err e => .err e
  | .panic => .panic

/-- `Result::map_err` on outcomes. -/
def Res.mapErr {ε δ α : Type} (f : ε → δ) : Res ε α → Res δ α
  | .ok a => .ok a
  | .err e => .err (f e)
  | .panic => .panic

/-- A `Result` that cannot panic. -/
def Res.ofExcept {ε α : Type} : Except ε α → Res ε α
  | .ok a => .ok a
  | .error e => .err e

/-- `char::to_ascii_lowercase`. -/
def toAsciiLower (c : Char) : Char := if isAsciiUpper c then Char.ofNat (c.toNat + 32) else c

/-- `str::eq_ignore_ascii_case`. -/
def eqIgnoreAsciiCase (a b : Str) : Bool := decide (a.map toAsciiLower = b.map toAsciiLower)

/-- `str::parse::<usize>` on a 64 bit target: an optional `+`, then digits. -/
def parseUsize (s : Str) : Option Nat :=
  match s with
  | [] => none
  | c :: cs => if c = '+' then parseUnsigned (2 ^ 64 - 1) cs else parseUnsigned (2 ^ 64 - 1) (c :: cs)

/-- `Booking::try_from(&str)`: the derived `EnumString` with `SCREAMING_SNAKE_CASE`,
`/repo/src/types.rs:429-442`. -/
def Booking.tryFrom (s : Str) : Option Booking :=
  if s = str "STRICT" then some .strict
  else if s = str "STRICT_WITH_SIZE" then some .strictWithSize
  else if s = str "NONE" then some .none
  else if s = str "AVERAGE" then some .average
  else if s = str "FIFO" then some .fifo
  else if s = str "LIFO" then some .lifo
  else if s = str "HIFO" then some .hifo
  else Option.none

/-- `PluginProcessingMode::try_from(&str)`, likewise, `/repo/src/types.rs:456-464`. -/
def PluginProcessingMode.tryFrom (s : Str) : Option PluginProcessingMode :=
  if s = str "DEFAULT" then some .default
  else if s = str "RAW" then some .raw
  else Option.none

/-- `parse_currency`, `/repo/src/options.rs:182-184`. -/
def parseCurrency (value : Str) : Res OptParseError Str :=
  (Currency.tryFrom value).mapErr (fun e => .badValue (.currency e))

/-- `CurrencyOrAny::try_from`, `/repo/src/options.rs:49-59`. -/
def CurrencyOrAny.tryFrom (s : Str) : Res CurrencyError CurrencyOrAny :=
  if s = str "*" then .ok .any else (Currency.tryFrom s).map .currency

/-- `parse_inferred_tolerance_default`, `/repo/src/options.rs:186-206`; `decimal` is `Decimal::try_from`. -/
def parseInferredToleranceDefault (decimal : Str → Except LexerError Dec) (value : Str) :
    Res OptParseError (CurrencyOrAny × Dec) :=
  match splitColon value with
  | [] => .panic
  | first :: rest =>
    match CurrencyOrAny.tryFrom first with
    | .panic => .panic
    | .err e => .err (.badValue (.currency e))
    | .ok c =>
      match rest with
      | [] => .err (.badValue .missingColon)
      | second :: rest =>
        match decimal second with
        | .error _ => .err (.badValue .decimal)
        | .ok d =>
          match rest with
          | [] => .ok (c, d)
          | _ :: _ => .err (.badValue .tooManyColons)

/-- `parse_bool`, `/repo/src/options.rs:218-226`. -/
def parseBool (value : Str) : Option Bool :=
  if eqIgnoreAsciiCase value (str "true") then some true
  else if eqIgnoreAsciiCase value (str "false") then some false
  else none

/-- `parse_zero_or_one_as_bool`, `/repo/src/options.rs:228-236`. -/
def parseZeroOrOneAsBool (value : Str) : Option Bool :=
  if value = str "1" then some true else if value = str "0" then some false else none

/-- An optional result as an outcome with the given error. -/
def Res.ofOption {α : Type} (e : BadValue) : Option α → Res OptParseError α
  | some a => .ok a
  | none => .err (.badValue e)

section
variable [Unicode]

/-- `parse_subaccount`, `/repo/src/options.rs:172-174`. -/
def parseSubaccount (value : Str) : Res OptParseError Str :=
  (Res.ofExcept (Subaccount.tryFrom value)).mapErr (fun e => .badValue (.accountName e))

/-- `parse_account_type_name`, `/repo/src/options.rs:176-180`. -/
def parseAccountTypeName (value : Str) : Res OptParseError Str :=
  (Res.ofExcept (AccountTypeName.tryFrom value)).mapErr (fun e => .badValue (.accountTypeName e))

/-- The `match` of `BeancountOption::parse`, `/repo/src/options.rs:70-153`. -/
def OptVariant.parse (decimal : Str → Except LexerError Dec) (name value : Str) (sourcePath : Option Path) :
    Res OptParseError OptVariant :=
  if name = str "title" then .ok (.title value)
  else if name = str "name_assets" then (parseAccountTypeName value).map (.accountTypeName .assets)
  else if name = str "name_liabilities" then (parseAccountTypeName value).map (.accountTypeName .liabilities)
  else if name = str "name_equity" then (parseAccountTypeName value).map (.accountTypeName .equity)
  else if name = str "name_income" then (parseAccountTypeName value).map (.accountTypeName .income)
  else if name = str "name_expenses" then (parseAccountTypeName value).map (.accountTypeName .expenses)
  else if name = str "account_previous_balances" then (parseSubaccount value).map .accountPreviousBalances
  else if name = str "account_previous_earnings" then (parseSubaccount value).map .accountPreviousEarnings
  else if name = str "account_previous_conversions" then (parseSubaccount value).map .accountPreviousConversions
  else if name = str "account_current_earnings" then (parseSubaccount value).map .accountCurrentEarnings
  else if name = str "account_current_conversions" then (parseSubaccount value).map .accountCurrentConversions
  else if name = str "account_unrealized_gains" then (parseSubaccount value).map .accountUnrealizedGains
  else if name = str "account_rounding" then (parseSubaccount value).map .accountRounding
  else if name = str "conversion_currency" then (parseCurrency value).map .conversionCurrency
  else if name = str "inferred_tolerance_default" then
    (parseInferredToleranceDefault decimal value).map (fun cd => .inferredToleranceDefault cd.1 cd.2)
  else if name = str "inferred_tolerance_multiplier" then
    match decimal value with
    | .ok d => .ok (.inferredToleranceMultiplier d)
    | .error _ => .err (.badValue .decimal)
  else if name = str "infer_tolerance_from_cost" then
    (Res.ofOption .bool (parseBool value)).map .inferToleranceFromCost
  else if name = str "documents" then
    .ok (.documents (match sourcePath.bind Path.parent with
      | none => Path.ofStr value
      | some parent => parent.join (Path.ofStr value)))
  else if name = str "operating_currency" then (parseCurrency value).map .operatingCurrency
  else if name = str "render_commas" then
    (Res.ofOption .bool ((parseBool value).or (parseZeroOrOneAsBool value))).map .renderCommas
  else if name = str "long_string_maxlines" then
    (Res.ofOption .parseInt (parseUsize value)).map .longStringMaxlines
  else if name = str "booking_method" then (Res.ofOption .booking (Booking.tryFrom value)).map .bookingMethod
  else if name = str "plugin_processing_mode" then
    (Res.ofOption .pluginProcessingMode (PluginProcessingMode.tryFrom value)).map .pluginProcessingMode
  else .err .unknownOption

/-- `BeancountOption::parse`, `/repo/src/options.rs:62-161`. -/
def BOption.parse (decimal : Str → Except LexerError Dec) (name value : Spanned Str)
    (sourcePath : Option Path) : Res OptParseError BOption :=
  (OptVariant.parse decimal name.item value.item sourcePath).map (fun v => ⟨⟨name.span, value.span⟩, v⟩)

end

/-! ### Options which affect parsing -/

/-- `ParserOptions`, `/repo/src/options.rs:313-318`. -/
structure ParserOptions where
  accountTypeNames : AccountTypeNames
  longStringMaxlines : Option (Sourced Nat)
deriving Repr, DecidableEq

/-- `Default for ParserOptions`. -/
def ParserOptions.default : ParserOptions := ⟨AccountTypeNames.default, none⟩

/-- `ParserOptions::assimilate`, `/repo/src/options.rs:323-346`.  The error names the account type which
already uses the name. -/
def ParserOptions.assimilate (o : ParserOptions) (opt : BOption) : Res AccountType BOption × ParserOptions :=
  match opt.variant with
  | .accountTypeName t name =>
    let r := o.accountTypeNames.update t name
    ((r.1).map (fun _ => ⟨opt.source, .assimilated⟩), { o with accountTypeNames := r.2 })
  | .longStringMaxlines n =>
    (.ok ⟨opt.source, .assimilated⟩, { o with longStringMaxlines := some (sourced n opt.source) })
  | _ => (.ok opt, o)

/-- `ParserOptions::long_string_maxlines` with `DEFAULT_LONG_STRING_MAXLINES`,
`/repo/src/options.rs:320, 352-357`. -/
def ParserOptions.maxlines (o : ParserOptions) : Nat :=
  match o.longStringMaxlines with
  | some n => n.spanned.item
  | none => 64

/-! ### All options -/

/-- `Options`, `/repo/src/options.rs:371-392`. -/
structure Options where
  title : Option (Sourced Str)
  accountPreviousBalances : Option (Sourced Str)
  accountPreviousEarnings : Option (Sourced Str)
  accountPreviousConversions : Option (Sourced Str)
  accountCurrentEarnings : Option (Sourced Str)
  accountCurrentConversions : Option (Sourced Str)
  accountUnrealizedGains : Option (Sourced Str)
  accountRounding : Option (Sourced Str)
  conversionCurrency : Option (Sourced Str)
  inferredToleranceDefault : List (CurrencyOrAny × (Dec × OptSource))
  inferredToleranceMultiplier : Option (Sourced Dec)
  inferToleranceFromCost : Option (Sourced Bool)
  documents : List (Path × OptSource)
  operatingCurrency : List (Str × OptSource)
  renderCommas : Option (Sourced Bool)
  bookingMethod : Option (Sourced Booking)
  pluginProcessingMode : Option (Sourced PluginProcessingMode)
  parserOptions : ParserOptions
deriving Repr, DecidableEq

/-- `Options::new`, `/repo/src/options.rs:395-416`. -/
def Options.new (p : ParserOptions) : Options where
  title := none
  accountPreviousBalances := none
  accountPreviousEarnings := none
  accountPreviousConversions := none
  accountCurrentEarnings := none
  accountCurrentConversions := none
  accountUnrealizedGains := none
  accountRounding := none
  conversionCurrency := none
  inferredToleranceDefault := []
  inferredToleranceMultiplier := none
  inferToleranceFromCost := none
  documents := []
  operatingCurrency := []
  renderCommas := none
  bookingMethod := none
  pluginProcessingMode := none
  parserOptions := p

/-- `OptionError`, `/repo/src/options.rs:727-730`. -/
inductive OptError where
  | duplicateOption (span : Span)
  | duplicateValue (span : Span)
deriving Repr, DecidableEq

/-- `Options::update_optional`, `/repo/src/options.rs:502-516`: the new field and the error. -/
def updateOptional {α : Type} (field : Option (Sourced α)) (value : α) (source : OptSource) :
    Option (Sourced α) × Option OptError :=
  match field with
  | none => (some (sourced value source), none)
  | some s => (some s, some (.duplicateOption s.source.name))

/-- `Options::update_hashmap`, `/repo/src/options.rs:518-538`. -/
def updateHashmap {κ ν : Type} [DecidableEq κ] (field : List (κ × (ν × OptSource))) (key : κ) (value : ν)
    (source : OptSource) : List (κ × (ν × OptSource)) × Option OptError :=
  match AMap.get field key with
  | none => (AMap.insert field key (value, source), none)
  | some e => (field, some (.duplicateValue e.2.value))

/-- `Options::update_unit_hashmap`, `/repo/src/options.rs:541-560`. -/
def updateUnitHashmap {κ : Type} [DecidableEq κ] (field : List (κ × OptSource)) (key : κ)
    (source : OptSource) : List (κ × OptSource) × Option OptError :=
  match AMap.get field key with
  | none => (AMap.insert field key source, none)
  | some e => (field, some (.duplicateValue e.value))

/-- The `match` of `Options::assimilate`, `/repo/src/options.rs:423-493`. -/
def Options.update (o : Options) (source : OptSource) : OptVariant → Options × Option OptError
  | .title v => let r := updateOptional o.title v source; ({ o with title := r.1 }, r.2)
  | .accountTypeName _ _ => (o, none)
  | .accountPreviousBalances v =>
    let r := updateOptional o.accountPreviousBalances v source
    ({ o with accountPreviousBalances := r.1 }, r.2)
  | .accountPreviousEarnings v =>
    let r := updateOptional o.accountPreviousEarnings v source
    ({ o with accountPreviousEarnings := r.1 }, r.2)
  | .accountPreviousConversions v =>
    let r := updateOptional o.accountPreviousConversions v source
    ({ o with accountPreviousConversions := r.1 }, r.2)
  | .accountCurrentEarnings v =>
    let r := updateOptional o.accountCurrentEarnings v source
    ({ o with accountCurrentEarnings := r.1 }, r.2)
  | .accountCurrentConversions v =>
    let r := updateOptional o.accountCurrentConversions v source
    ({ o with accountCurrentConversions := r.1 }, r.2)
  | .accountUnrealizedGains v =>
    let r := updateOptional o.accountUnrealizedGains v source
    ({ o with accountUnrealizedGains := r.1 }, r.2)
  | .accountRounding v =>
    let r := updateOptional o.accountRounding v source
    ({ o with accountRounding := r.1 }, r.2)
  | .conversionCurrency v =>
    let r := updateOptional o.conversionCurrency v source
    ({ o with conversionCurrency := r.1 }, r.2)
  | .inferredToleranceDefault c d =>
    let r := updateHashmap o.inferredToleranceDefault c d source
    ({ o with inferredToleranceDefault := r.1 }, r.2)
  | .inferredToleranceMultiplier v =>
    let r := updateOptional o.inferredToleranceMultiplier v source
    ({ o with inferredToleranceMultiplier := r.1 }, r.2)
  | .inferToleranceFromCost v =>
    let r := updateOptional o.inferToleranceFromCost v source
    ({ o with inferToleranceFromCost := r.1 }, r.2)
  | .documents p =>
    let r := updateUnitHashmap o.documents p source
    ({ o with documents := r.1 }, r.2)
  | .operatingCurrency v =>
    let r := updateUnitHashmap o.operatingCurrency v source
    ({ o with operatingCurrency := r.1 }, r.2)
  | .renderCommas v =>
    let r := updateOptional o.renderCommas v source
    ({ o with renderCommas := r.1 }, r.2)
  | .longStringMaxlines _ => (o, none)
  | .bookingMethod v =>
    let r := updateOptional o.bookingMethod v source
    ({ o with bookingMethod := r.1 }, r.2)
  | .pluginProcessingMode v =>
    let r := updateOptional o.pluginProcessingMode v source
    ({ o with pluginProcessingMode := r.1 }, r.2)
  | .assimilated => (o, none)
  | .ignored => (o, none)

/-- The `map_err` of `Options::assimilate`, `/repo/src/options.rs:494-499`. -/
def OptError.report (source : OptSource) : OptError → Report
  | .duplicateOption span =>
    (Report.new (str "invalid option") (str "duplicate") source.name).relatedToNamedSpan (str "option") span
  | .duplicateValue span =>
    (Report.new (str "invalid option") (str "duplicate value") source.value).relatedToNamedSpan
      (str "option value") span

/-- `Options::assimilate`, `/repo/src/options.rs:418-500`. -/
def Options.assimilate (o : Options) (opt : BOption) : Options × Option Report :=
  let r := o.update opt.source opt.variant
  (r.1, r.2.map (OptError.report opt.source))

/-- `Options::inferred_tolerance_default`, `/repo/src/options.rs:607-615`. -/
def Options.toleranceDefault (o : Options) (currency : Str) : Option Dec :=
  ((AMap.get o.inferredToleranceDefault (.currency currency)).map (·.1)).or
    ((AMap.get o.inferredToleranceDefault .any).map (·.1))

/-- `Options::inferred_tolerance_default_fallback`, `/repo/src/options.rs:618-622`. -/
def Options.toleranceFallback (o : Options) : Option Dec :=
  (AMap.get o.inferredToleranceDefault .any).map (·.1)

/-- `Options::inferred_tolerance_defaults`, `/repo/src/options.rs:625-634`. -/
def Options.toleranceDefaults (o : Options) : List (Option Str × Dec) :=
  o.inferredToleranceDefault.map (fun e =>
    match e.1 with
    | .currency c => (some c, e.2.1)
    | .any => (none, e.2.1))

end Lima
