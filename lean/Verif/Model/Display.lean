import Verif.Model.Ast
import Verif.Model.Options

/-!
# Printing, the `Display` implementations of `/repo/src/types.rs` and `/repo/src/format.rs`

Writing to a formatter is concatenation; writing into a string does not fail.  `Spanned<T>` prints its item
(`/repo/src/types.rs:667-674`).  Hash containers print in iteration order, which is the order of the list.
-/

namespace Lima.Display

/-- `format`, `/repo/src/format.rs:4-31`. -/
def format {α : Type} (mapper : α → Str) (separator : Str) (pre : Option Str) (container : List α) : Str :=
  match container with
  | [] => []
  | item :: rest =>
    (match pre with | some p => p | none => []) ++ mapper item ++ rest.flatMap (fun x => separator ++ mapper x)

/-- `simple_format`, `/repo/src/format.rs:34-44`, of an `Option`. -/
def simpleFormat {α : Type} (mapper : α → Str) (pre : Option Str) (x : Option α) : Str :=
  format mapper [] pre x.toList

/-- `double_quoted`, `/repo/src/format.rs:63-68`: nothing is escaped. -/
def doubleQuoted (s : Str) : Str := str "\"" ++ s ++ str "\""

/-- `SPACE`, `/repo/src/format.rs:79`. -/
def space : Str := str " "

/-- `NEWLINE_INDENT`, `/repo/src/format.rs:80`. -/
def newlineIndent : Str := str "\n  "

/-- Pad with zeros on the left, as with the format `{:0>n}`. -/
def zeroPad (n : Nat) (s : Str) : Str := List.replicate (n - s.length) '0' ++ s

/-- `Display for time::Date`, for years from 0 to 9999. -/
def date (d : Date) : Str :=
  zeroPad 4 (Nat.toDigits 10 d.year) ++ str "-" ++ zeroPad 2 (Nat.toDigits 10 d.month) ++ str "-" ++
    zeroPad 2 (Nat.toDigits 10 d.day)

/-- `Display for rust_decimal::Decimal`: the mantissa in decimal, with as many digits after the point as the scale
says and at least one before it. -/
def decimal (d : Dec) : Str :=
  let digits := zeroPad (d.scale + 1) (Nat.toDigits 10 d.mant.natAbs)
  let before := digits.take (digits.length - d.scale)
  let after := digits.drop (digits.length - d.scale)
  (if d.mant < 0 then str "-" else []) ++ before ++ (if d.scale = 0 then [] else str "." ++ after)

/-- `Display for Flag`, `/repo/src/types.rs:365-383`. -/
def flag : Flag → Str
  | .asterisk => str "*"
  | .exclamation => str "!"
  | .ampersand => str "&"
  | .hash => str "#"
  | .question => str "?"
  | .percent => str "%"
  | .letter c => str "'" ++ [c]

/-- The derived `Display for Booking` with `SCREAMING_SNAKE_CASE`, `/repo/src/types.rs:429-442`. -/
def booking : Booking → Str
  | .strict => str "STRICT"
  | .strictWithSize => str "STRICT_WITH_SIZE"
  | .none => str "NONE"
  | .average => str "AVERAGE"
  | .fifo => str "FIFO"
  | .lifo => str "LIFO"
  | .hifo => str "HIFO"

/-- `Display for Account`, `/repo/src/types.rs:1250-1254`. -/
def account (a : Account) : Str := a.name

/-- `Display for Tag`, `/repo/src/types.rs:1988-1992`. -/
def tag (t : Str) : Str := str "#" ++ t

/-- `Display for Link`, `/repo/src/types.rs:2022-2026`. -/
def link (l : Str) : Str := str "^" ++ l

/-- `Display for Expr`, `/repo/src/types.rs:2303-2316`. -/
def expr : Expr → Str
  | .value d => decimal d
  | .add a b => expr a ++ str " + " ++ expr b
  | .sub a b => expr a ++ str " - " ++ expr b
  | .mul a b => expr a ++ str " * " ++ expr b
  | .div a b => expr a ++ str " / " ++ expr b
  | .neg a => str "-" ++ expr a
  | .paren a => str "(" ++ expr a ++ str ")"

/-- `Display for ExprValue`, `/repo/src/types.rs:2243-2247`. -/
def value (v : ExprValue) : Str := expr v.expr

/-- `Display for CompoundExprValue`, `/repo/src/types.rs:2336-2346`. -/
def compoundExpr : CompoundExprValue → Str
  | .perUnit e => value e
  | .total e => str "# " ++ value e
  | .perUnitAndTotal p t => value p ++ str " # " ++ value t

/-- `Display for ScopedExprValue`, `/repo/src/types.rs:2355-2364`. -/
def scopedExpr : ScopedExprValue → Str
  | .perUnit e => value e
  | .total e => str "# " ++ value e

/-- `Display for Amount`, `/repo/src/types.rs:2392-2396`. -/
def amount (a : Amount) : Str := value a.number.item ++ str " " ++ a.currency.item

/-- `Display for AmountWithTolerance`, `/repo/src/types.rs:2424-2432`. -/
def amountWithTolerance (a : AmountWithTolerance) : Str :=
  match a.tolerance with
  | some t => amount a.amount.item ++ str " ~ " ++ decimal t.item
  | none => amount a.amount.item

/-- `Display for CompoundAmount`, `/repo/src/types.rs:2468-2477`. -/
def compoundAmount : CompoundAmount → Str
  | .bareCurrency c => c
  | .bareAmount e => compoundExpr e
  | .currencyAmount e c => compoundExpr e ++ str " " ++ c

/-- `Display for CostSpec`, `/repo/src/types.rs:2528-2571`.  `sep` is the variable of that name. -/
def costSpec (c : CostSpec) : Str :=
  let sep : Str := []
  let out : Str := str "{"
  let (out, sep) := match c.perUnit with
    | some e => (out ++ sep ++ value e.item, str " ")
    | none => (out, sep)
  let (out, sep) := match c.total with
    | some e => (out ++ sep ++ str "# " ++ value e.item, str " ")
    | none => (out, sep)
  let (out, sep) := match c.currency with
    | some x => (out ++ sep ++ x.item, str " ")
    | none => (out, sep)
  let sep := if sep = str " " then str ", " else sep
  let (out, sep) := match c.date with
    | some d => (out ++ sep ++ date d.item, str ", ")
    | none => (out, sep)
  let (out, sep) := match c.label with
    | some s => (out ++ sep ++ str "\"" ++ s.item ++ str "\"", str ", ")
    | none => (out, sep)
  let out := if c.merge then out ++ sep ++ str "*" else out
  out ++ str "}"

/-- `Display for PriceSpec`, `/repo/src/types.rs:2740-2750`. -/
def priceSpec : PriceSpec → Str
  | .unspecified => []
  | .bareCurrency c => c
  | .bareAmount e => scopedExpr e
  | .currencyAmount e c => scopedExpr e ++ str " " ++ c

/-- `Display for SimpleValue`, `/repo/src/types.rs:1931-1947`. -/
def simpleValue : SimpleValue → Str
  | .string s => str "\"" ++ s ++ str "\""
  | .currency c => c
  | .account a => account a
  | .tag t => tag t
  | .link l => link l
  | .date d => date d
  | .bool b => if b then str "TRUE" else str "FALSE"
  | .null => str "NULL"
  | .expr e => value e

/-- `Display for MetaValue`, `/repo/src/types.rs:1900-1909`. -/
def metaValue : MetaValue → Str
  | .simple v => simpleValue v
  | .amount a => amount a

/-- `key_value`, `/repo/src/format.rs:71-77`. -/
def keyValue (kv : Spanned Str × Spanned MetaValue) : Str := kv.1.item ++ str ": " ++ metaValue kv.2.item

/-- `Metadata::fmt_tags_links_inline`, `/repo/src/types.rs:1850-1853`. -/
def tagsLinksInline (m : Metadata) : Str :=
  format (fun t => tag t.item) space (some space) m.tags ++ format (fun l => link l.item) space (some space) m.links

/-- `Metadata::fmt_tags_links_on_separate_lines`, `/repo/src/types.rs:1855-1858`. -/
def tagsLinksOnSeparateLines (m : Metadata) : Str :=
  format (fun t => tag t.item) newlineIndent (some newlineIndent) m.tags ++
    format (fun l => link l.item) newlineIndent (some newlineIndent) m.links

/-- `Metadata::fmt_keys_values`, `/repo/src/types.rs:1860-1868`. -/
def keysValues (m : Metadata) : Str := format keyValue newlineIndent (some newlineIndent) m.keyValues

/-- `Display for Metadata`, `/repo/src/types.rs:1871-1877`. -/
def metadata (m : Metadata) : Str :=
  format (fun t => tag t.item) newlineIndent (some newlineIndent) m.tags ++
    format (fun l => link l.item) newlineIndent (some newlineIndent) m.links ++ keysValues m

/-- `Display for Posting`, `/repo/src/types.rs:1783-1801`. -/
def posting (p : Posting) : Str :=
  simpleFormat (fun f => flag f.item) none p.flag ++
    ((if p.flag.isSome then str " " else []) ++ account p.account.item) ++
    simpleFormat (fun e => value e.item) (some (str " ")) p.amount ++
    simpleFormat (fun c => c.item) (some (str " ")) p.currency ++
    simpleFormat (fun c => costSpec c.item) (some (str " ")) p.costSpec ++
    simpleFormat (fun x => priceSpec x.item) (some (str " @ ")) p.priceAnnotation ++
    metadata p.metadata.item

/-- `Transaction::fmt`, `/repo/src/types.rs:832-852`. -/
def transaction (d : Date) (m : Metadata) (t : Transaction) : Str :=
  date d ++ str " " ++ flag t.flag.item ++
    format (fun s => doubleQuoted s.item) (str " ") (some (str " ")) t.payee.toList ++
    format (fun s => doubleQuoted s.item) (str " ") (some (str " ")) t.narration.toList ++
    (if t.payee.isSome ∧ t.narration.isNone then str " \"\"" else []) ++
    tagsLinksInline m ++ keysValues m ++
    format (fun p => posting p.item) newlineIndent (some newlineIndent) t.postings

/-- The part of the other directives, except `custom`, before tags, links and metadata:
`Price::fmt` to `Query::fmt`, `/repo/src/types.rs:882-1137`. -/
def body : DirectiveVariant → Str
  | .transaction _ => []
  | .price c a => str " price " ++ c.item ++ str " " ++ amount a.item
  | .balance a t => str " balance " ++ account a.item ++ str " " ++ amountWithTolerance t.item
  | .open a cs b =>
    str " open " ++ account a.item ++ format (fun c => c.item) (str ",") (some (str " ")) cs ++
      format (fun b => doubleQuoted (booking b.item)) (str " ") (some (str " ")) b.toList
  | .close a => str " close " ++ account a.item
  | .commodity c => str " commodity " ++ c.item
  | .pad a b => str " pad " ++ account a.item ++ str " " ++ account b.item
  | .document a s => str " document " ++ account a.item ++ str " \"" ++ s.item ++ str "\""
  | .note a s => str " note " ++ account a.item ++ str " \"" ++ s.item ++ str "\""
  | .event s t => str " event \"" ++ s.item ++ str "\" \"" ++ t.item ++ str "\""
  | .query s t => str " query \"" ++ s.item ++ str "\" \"" ++ t.item ++ str "\""
  | .custom _ _ => []

/-- `Display for Directive`, `/repo/src/types.rs:772-790`, with the `fmt` of the variants. -/
def directive (d : Directive) : Str :=
  match d.variant with
  | .transaction t => transaction d.date.item d.metadata.item t
  | .custom type values =>
    date d.date.item ++ str " custom \"" ++ type.item ++ str "\"" ++
      format (fun v => metaValue v.item) space (some space) values ++
      tagsLinksOnSeparateLines d.metadata.item ++ keysValues d.metadata.item
  | v => date d.date.item ++ body v ++ tagsLinksInline d.metadata.item ++ keysValues d.metadata.item

/-- `Display for Plugin`, `/repo/src/types.rs:1199-1207`. -/
def plugin (p : Plugin) : Str :=
  str "plugin \"" ++ p.moduleName.item ++ str "\"" ++
    (match p.config with | some c => str " \"" ++ c.item ++ str "\"" | none => []) ++ str "\n"

end Lima.Display
