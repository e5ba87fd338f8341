import Verif.Model.Basic

/-!
# Abstract syntax

The data types produced by the parser, `/repo/src/types.rs`.  `Decimal` and `Date` come from the crates
`rust_decimal` and `time`; they are modelled by their values.
-/

namespace Lima

/-- `time::Date`, by calendar fields.  Its `Ord` is chronological, i.e. lexicographic in these fields. -/
structure Date where
  year : Nat
  month : Nat
  day : Nat
deriving Repr, DecidableEq, Inhabited

/-- Strict chronological order on dates (`Ord for time::Date`). -/
def Date.lt (a b : Date) : Bool :=
  decide (a.year < b.year ∨ (a.year = b.year ∧
    (a.month < b.month ∨ (a.month = b.month ∧ a.day < b.day))))

/-- `rust_decimal::Decimal` as signed mantissa and scale: it denotes `mant / 10 ^ scale`.
Simplification: the sign of a zero mantissa is not represented. -/
structure Dec where
  mant : Int
  scale : Nat
deriving Repr, DecidableEq, Inhabited

/-- `AccountType`, `/repo/src/types.rs:318-338`. -/
inductive AccountType where
  | assets | liabilities | equity | income | expenses
deriving Repr, DecidableEq, Inhabited

/-- `Flag`, `/repo/src/types.rs:346-357`; `letter c` is `Flag::Letter(FlagLetter(c))`. -/
inductive Flag where
  | asterisk | exclamation | ampersand | hash | question | percent
  | letter (c : Char)
deriving Repr, DecidableEq, Inhabited

/-- `Booking`, `/repo/src/types.rs:433-442`. -/
inductive Booking where
  | strict | strictWithSize | none | average | fifo | lifo | hifo
deriving Repr, DecidableEq, Inhabited

/-- `PluginProcessingMode`, `/repo/src/types.rs:456-464`. -/
inductive PluginProcessingMode where
  | default | raw
deriving Repr, DecidableEq, Inhabited

/-- `Account`, `/repo/src/types.rs:1210-1214`. -/
structure Account where
  accountType : AccountType
  name : Str
deriving Repr, DecidableEq, Inhabited

/-- `Expr`, `/repo/src/types.rs:2250-2260`. -/
inductive Expr where
  | value (d : Dec)
  | add (l r : Expr)
  | sub (l r : Expr)
  | mul (l r : Expr)
  | div (l r : Expr)
  | neg (e : Expr)
  | paren (e : Expr)
deriving Repr, DecidableEq, Inhabited

/-- `ExprValue`, `/repo/src/types.rs:2205-2208`. -/
structure ExprValue where
  value : Dec
  expr : Expr
deriving Repr, DecidableEq, Inhabited

/-- `CompoundExprValue`, `/repo/src/types.rs:2330-2334`. -/
inductive CompoundExprValue where
  | perUnit (e : ExprValue)
  | total (e : ExprValue)
  | perUnitAndTotal (p t : ExprValue)
deriving Repr, DecidableEq, Inhabited

/-- `ScopedExprValue`, `/repo/src/types.rs:2350-2353`. -/
inductive ScopedExprValue where
  | perUnit (e : ExprValue)
  | total (e : ExprValue)
deriving Repr, DecidableEq, Inhabited

/-- `Amount`, `/repo/src/types.rs:2368-2371`. -/
structure Amount where
  number : Spanned ExprValue
  currency : Spanned Str
deriving Repr, DecidableEq, Inhabited

/-- `AmountWithTolerance`, `/repo/src/types.rs:2400-2403`. -/
structure AmountWithTolerance where
  amount : Spanned Amount
  tolerance : Option (Spanned Dec)
deriving Repr, DecidableEq, Inhabited

/-- `CompoundAmount`, `/repo/src/types.rs:2462-2466`. -/
inductive CompoundAmount where
  | bareCurrency (c : Str)
  | bareAmount (a : CompoundExprValue)
  | currencyAmount (a : CompoundExprValue) (c : Str)
deriving Repr, DecidableEq, Inhabited

/-- `CostSpec`, `/repo/src/types.rs:2481-2488`. -/
structure CostSpec where
  perUnit : Option (Spanned ExprValue)
  total : Option (Spanned ExprValue)
  currency : Option (Spanned Str)
  date : Option (Spanned Date)
  label : Option (Spanned Str)
  merge : Bool
deriving Repr, DecidableEq, Inhabited

/-- `PriceSpec`, `/repo/src/types.rs:2733-2738`. -/
inductive PriceSpec where
  | unspecified
  | bareCurrency (c : Str)
  | bareAmount (a : ScopedExprValue)
  | currencyAmount (a : ScopedExprValue) (c : Str)
deriving Repr, DecidableEq, Inhabited

/-- `SimpleValue`, `/repo/src/types.rs:1913-1923`. -/
inductive SimpleValue where
  | string (s : Str)
  | currency (s : Str)
  | account (a : Account)
  | tag (s : Str)
  | link (s : Str)
  | date (d : Date)
  | bool (b : Bool)
  | null
  | expr (e : ExprValue)
deriving Repr, DecidableEq, Inhabited

/-- `MetaValue`, `/repo/src/types.rs:1895-1898`. -/
inductive MetaValue where
  | simple (v : SimpleValue)
  | amount (a : Amount)
deriving Repr, DecidableEq, Inhabited

/-- `MetaKeyValue`, `/repo/src/types.rs:1882-1885`. -/
structure MetaKeyValue where
  key : Spanned Str
  value : Spanned MetaValue
deriving Repr, DecidableEq, Inhabited

/-- `Metadata`, `/repo/src/types.rs:1807-1811`; the lists stand for hash containers. -/
structure Metadata where
  keyValues : List (Spanned Str × Spanned MetaValue) := []
  tags : List (Spanned Str) := []
  links : List (Spanned Str) := []
deriving Repr, DecidableEq, Inhabited

/-- `Posting`, `/repo/src/types.rs:1729-1737`. -/
structure Posting where
  flag : Option (Spanned Flag)
  account : Spanned Account
  amount : Option (Spanned ExprValue)
  currency : Option (Spanned Str)
  costSpec : Option (Spanned CostSpec)
  priceAnnotation : Option (Spanned PriceSpec)
  metadata : Spanned Metadata
deriving Repr, DecidableEq, Inhabited

/-- `Transaction`, `/repo/src/types.rs:824-829`. -/
structure Transaction where
  flag : Spanned Flag
  payee : Option (Spanned Str)
  narration : Option (Spanned Str)
  postings : List (Spanned Posting)
deriving Repr, DecidableEq, Inhabited

/-- `DirectiveVariant` with the field structs `Price` ... `Custom` inlined,
`/repo/src/types.rs:793-807, 876-879, 911-914, 946-950, 1000-1158`. -/
inductive DirectiveVariant where
  | transaction (t : Transaction)
  | price (currency : Spanned Str) (amount : Spanned Amount)
  | balance (account : Spanned Account) (atol : Spanned AmountWithTolerance)
  | open (account : Spanned Account) (currencies : List (Spanned Str)) (booking : Option (Spanned Booking))
  | close (account : Spanned Account)
  | commodity (currency : Spanned Str)
  | pad (account source : Spanned Account)
  | document (account : Spanned Account) (path : Spanned Str)
  | note (account : Spanned Account) (comment : Spanned Str)
  | event (eventType description : Spanned Str)
  | query (name content : Spanned Str)
  | custom (type_ : Spanned Str) (values : List (Spanned MetaValue))
deriving Repr, DecidableEq, Inhabited

/-- `Directive`, `/repo/src/types.rs:727-731`. -/
structure Directive where
  date : Spanned Date
  metadata : Spanned Metadata
  variant : DirectiveVariant
deriving Repr, DecidableEq, Inhabited

/-- `Plugin`, `/repo/src/types.rs:1182-1185`. -/
structure Plugin where
  moduleName : Spanned Str
  config : Option (Spanned Str)
deriving Repr, DecidableEq, Inhabited

/-- `Metadata::key_value`, `/repo/src/types.rs:1827-1840`: the key is looked up with the span of an
arbitrary existing key, here the first in iteration order. -/
def Metadata.keyValue (m : Metadata) (key : Str) : Option (Spanned MetaValue) :=
  match m.keyValues.map (·.1) with
  | [] => none
  | arbitrary :: _ =>
    let k : Spanned Str := ⟨key, arbitrary.span⟩
    (m.keyValues.find? (fun e => Spanned.eq e.1 k)).map (·.2)

end Lima
