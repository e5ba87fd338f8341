import Verif.Model.Options

/-!
# What can be asked of the options, `/repo/src/options.rs:562-671`

A value is handed out with the location it was written at.  The iteration order of hash maps is the order of the lists.
-/

namespace Lima.Getters

/-- `Options::account_type_name`, `/repo/src/options.rs:348-350, 562-564`; `none` is an index panic. -/
def accountTypeName (o : Options) (t : AccountType) : Option Str := o.parserOptions.accountTypeNames.name t

/-- `Options::title`, `/repo/src/options.rs:566-568`. -/
def title (o : Options) : Option (Spanned Str) := o.title.map (·.spanned)

/-- `Options::account_previous_balances`, `/repo/src/options.rs:570-572`. -/
def accountPreviousBalances (o : Options) : Option (Spanned Str) := o.accountPreviousBalances.map (·.spanned)

/-- `Options::account_previous_earnings`, `/repo/src/options.rs:574-576`. -/
def accountPreviousEarnings (o : Options) : Option (Spanned Str) := o.accountPreviousEarnings.map (·.spanned)

/-- `Options::account_previous_conversions`, `/repo/src/options.rs:578-582`. -/
def accountPreviousConversions (o : Options) : Option (Spanned Str) := o.accountPreviousConversions.map (·.spanned)

/-- `Options::account_current_earnings`, `/repo/src/options.rs:584-586`. -/
def accountCurrentEarnings (o : Options) : Option (Spanned Str) := o.accountCurrentEarnings.map (·.spanned)

/-- `Options::account_current_conversions`, `/repo/src/options.rs:588-592`. -/
def accountCurrentConversions (o : Options) : Option (Spanned Str) := o.accountCurrentConversions.map (·.spanned)

/-- `Options::account_unrealized_gains`, `/repo/src/options.rs:594-596`. -/
def accountUnrealizedGains (o : Options) : Option (Spanned Str) := o.accountUnrealizedGains.map (·.spanned)

/-- `Options::account_rounding`, `/repo/src/options.rs:598-600`. -/
def accountRounding (o : Options) : Option (Spanned Str) := o.accountRounding.map (·.spanned)

/-- `Options::conversion_currency`, `/repo/src/options.rs:602-604`. -/
def conversionCurrency (o : Options) : Option (Spanned Str) := o.conversionCurrency.map (·.spanned)

/-- `Options::inferred_tolerance_multiplier`, `/repo/src/options.rs:636-640`. -/
def inferredToleranceMultiplier (o : Options) : Option (Spanned Dec) := o.inferredToleranceMultiplier.map (·.spanned)

/-- `Options::infer_tolerance_from_cost`, `/repo/src/options.rs:642-644`. -/
def inferToleranceFromCost (o : Options) : Option (Spanned Bool) := o.inferToleranceFromCost.map (·.spanned)

/-- `Options::documents`, `/repo/src/options.rs:646-648`. -/
def documents (o : Options) : List Path := o.documents.map (·.1)

/-- `Options::operating_currency`, `/repo/src/options.rs:650-652`. -/
def operatingCurrency (o : Options) : List Str := o.operatingCurrency.map (·.1)

/-- `Options::render_commas`, `/repo/src/options.rs:654-656`. -/
def renderCommas (o : Options) : Option (Spanned Bool) := o.renderCommas.map (·.spanned)

/-- `Options::booking_method`, `/repo/src/options.rs:658-660`. -/
def bookingMethod (o : Options) : Option (Spanned Booking) := o.bookingMethod.map (·.spanned)

/-- `Options::plugin_processing_mode`, `/repo/src/options.rs:662-664`. -/
def pluginProcessingMode (o : Options) : Option (Spanned PluginProcessingMode) := o.pluginProcessingMode.map (·.spanned)

/-- `Options::long_string_maxlines`, `/repo/src/options.rs:666-671`. -/
def longStringMaxlines (o : Options) : Option (Spanned Nat) := o.parserOptions.longStringMaxlines.map (·.spanned)

end Lima.Getters
