import Verif.Model.Parser

/-!
# The grammar, `/repo/src/parsers.rs`

Results of `HashSet`/`HashMap` type are lists, in order of insertion.
-/

namespace Lima

namespace Grammar

/-! ### Terminals -/

/-- `choice((just(Token::Eol).ignored(), end()))`. -/
def eol : P Unit := P.choice [P.just .eol, P.eoi]

/-- `date`, `/repo/src/parsers.rs:1181-1186`. -/
def date : P Date := P.select fun t => match t with | .date d => some d | _ => none

/-- `decimal`, `/repo/src/parsers.rs:1189-1194`. -/
def decimal : P Dec := P.select fun t => match t with | .number d => some d | _ => none

/-- `bool`, `/repo/src/parsers.rs:1073-1078`. -/
def bool : P Bool := P.select fun t => match t with | .true_ => some true | .false_ => some false | _ => none

/-- `currency`, `/repo/src/parsers.rs:1172-1178`. -/
def currency : P Str := do
  let s ← P.select fun t => match t with | .currency s => some s | _ => none
  match Currency.tryFrom s with
  | .ok c => pure c
  | .err _ => P.failure
  | .panic => P.panicking

/-- `flag`, `/repo/src/parsers.rs:639-650`. -/
def flag : P Flag := P.select fun t =>
  match t with
  | .dedicatedFlag f => some f
  | .asterisk => some .asterisk
  | .hash => some .hash
  | _ => none

/-- `txn`, `/repo/src/parsers.rs:631-636`; the default flag is `*`, `/repo/src/types.rs:347-350`. -/
def txn : P Flag := P.choice [(do P.just .txn; pure .asterisk), flag]

/-- The warning of `string` about a string with `lines` lines, `/repo/src/parsers.rs:1210-1229`. -/
def longStringWarning (opts : ParserOptions) (lines : Nat) (span : Span) : Report :=
  let reason := str "exceeds long_string_maxlines(" ++
    (match opts.longStringMaxlines with | some _ => [] | none => str "default ") ++ natStr opts.maxlines ++
    str ") - hint: would require option \"long_string_maxlines\" \"" ++ natStr lines ++ str "\""
  let w := Report.new (str "string too long") reason span
  match opts.longStringMaxlines with
  | some n => w.relatedToNamedSpan (str "max allowed") n.source.value
  | none => w

/-- The number of lines of a string, `/repo/src/parsers.rs:1208`. -/
def lineCount (s : Str) : Nat := (s.filter (fun c => decide (c = '\n'))).length + 1

/-- `string`, `/repo/src/parsers.rs:1197-1232`. -/
def string (cfg : ParseCfg) : P Str := fun s =>
  match P.spanned cfg (P.select fun t => match t with | .stringLiteral s => some s | _ => none) s with
  | .ok x s' =>
    if lineCount x.item > s'.opts.maxlines then
      .ok x.item { s' with warns := s'.warns ++ [longStringWarning s'.opts (lineCount x.item) x.span] }
    else .ok x.item s'
  | .fail s' => .fail s'
  | .panic => .panic

/-- `booking`, `/repo/src/parsers.rs:403-408`. -/
def booking (cfg : ParseCfg) : P Booking := do
  let s ← string cfg
  match Booking.tryFrom s with
  | some b => pure b
  | none => P.failure

section
variable [Unicode]

/-- A token text checked by a `try_from` that cannot panic. -/
def checked {ε : Type} (sel : Token → Option Str) (f : Str → Except ε Str) : P Str := do
  let s ← P.select sel
  match f s with
  | .ok a => pure a
  | .error _ => P.failure

/-- `tag`, `/repo/src/parsers.rs:1142-1148`. -/
def tag : P Str := checked (fun t => match t with | .tag s => some s | _ => none) tagOrLinkTryFrom

/-- `link`, `/repo/src/parsers.rs:1151-1157`. -/
def link : P Str := checked (fun t => match t with | .link s => some s | _ => none) tagOrLinkTryFrom

/-- `key`, `/repo/src/parsers.rs:1162-1169`. -/
def key : P Str := checked (fun t => match t with | .key s => some s | _ => none) Key.tryFrom

/-- The current options. -/
def options : P ParserOptions := fun s => .ok s.opts s

/-- `account`, `/repo/src/parsers.rs:385-400`. -/
def account : P Account := do
  let s ← P.select fun t => match t with | .account s => some s | _ => none
  let o ← options
  match Account.new s o.accountTypeNames with
  | .ok a => pure a
  | .error _ => P.failure

end

/-! ### Expressions -/

/-- `number`, `/repo/src/parsers.rs:1103`. -/
def number : P Expr := P.select fun t => match t with | .number d => some (.value d) | _ => none

/-- `factor`, `/repo/src/parsers.rs:1096-1115`, given the parser of expressions. -/
def factor (expr : P Expr) : P Expr := do
  let sign ← P.orNot (P.choice [(do P.just .minus; pure true), (do P.just .plus; pure false)])
  let x ← P.alt number (do P.just .lparen; let e ← expr; P.just .rparen; pure (.paren e))
  match sign with
  | some true => pure (.neg x)
  | _ => pure x

/-- A left-associative chain of operands, `foldl`. -/
def chain (operand : P Expr) (operator : P (Expr → Expr → Expr)) : P Expr := do
  let first ← operand
  let rest ← P.rep (do let op ← operator; let r ← operand; pure (op, r))
  pure (rest.foldl (fun l r => r.1 l r.2) first)

/-- `*` or `/`. -/
def mulOp : P (Expr → Expr → Expr) :=
  P.choice [(do P.just .asterisk; pure .mul), (do P.just .slash; pure .div)]

/-- `+` or `-`. -/
def addOp : P (Expr → Expr → Expr) :=
  P.choice [(do P.just .plus; pure .add), (do P.just .minus; pure .sub)]

/-- `expr`, `/repo/src/parsers.rs:1089-1139`, with a bound on the depth of nesting; reaching it stands for not
terminating. -/
def exprFuel : Nat → P Expr
  | 0 => P.panicking
  | n + 1 => chain (chain (factor (exprFuel n)) mulOp) addOp

/-- `expr`.  Every parenthesis consumes a token, so that the bound is never reached. -/
def expr : P Expr := fun s => exprFuel (s.toks.length + 1) s

section
variable [DecOps]

/-- `expr_value`, `/repo/src/parsers.rs:1081-1086`. -/
def exprValue : P ExprValue := do
  let e ← expr
  match ExprValue.ofExpr e with
  | some v => pure v
  | none => P.panicking

/-! ### Amounts -/

/-- `amount`, `/repo/src/parsers.rs:834-843`. -/
def amount (cfg : ParseCfg) : P Amount := do
  let number ← P.spanned cfg exprValue
  let cur ← P.spanned cfg currency
  pure ⟨number, cur⟩

/-- The second alternative of `amount_with_tolerance`: the amount and the tolerance. -/
def tolerantAmount (cfg : ParseCfg) : P (Amount × Spanned Dec) := do
  let number ← P.spanned cfg exprValue
  P.just .tilde
  let tolerance ← P.spanned cfg decimal
  let cur ← P.spanned cfg currency
  pure (⟨number, cur⟩, tolerance)

/-- `amount_with_tolerance`, `/repo/src/parsers.rs:845-865`; the location of the amount is that of the whole. -/
def amountWithTolerance (cfg : ParseCfg) : P AmountWithTolerance :=
  P.choice [
    (do let a ← P.spanned cfg (amount cfg)
        pure ⟨a, none⟩),
    (do let x ← P.spanned cfg (tolerantAmount cfg)
        pure ⟨⟨x.item.1, x.span⟩, some x.item.2⟩)]

/-- `compound_expr`, `/repo/src/parsers.rs:893-909`. -/
def compoundExpr : P CompoundExprValue :=
  P.choice [
    (do let p ← exprValue; P.just .hash; let t ← exprValue; pure (.perUnitAndTotal p t)),
    (do let p ← exprValue; P.just .hash; pure (.perUnit p)),
    (do let p ← exprValue; pure (.perUnit p)),
    (do P.just .hash; let t ← exprValue; pure (.total t))]

/-- `compound_amount`, `/repo/src/parsers.rs:878-891`. -/
def compoundAmount : P CompoundAmount :=
  P.choice [
    (do let a ← compoundExpr; let c ← currency; pure (.currencyAmount a c)),
    (do let a ← compoundExpr; pure (.bareAmount a)),
    (do let _ ← P.orNot (P.just .hash); let c ← currency; pure (.bareCurrency c))]

/-- `price_annotation`, `/repo/src/parsers.rs:924-951`. -/
def priceAnnotation : P PriceSpec := do
  let isTotal ← P.choice [(do P.just .at; pure false), (do P.just .atAt; pure true)]
  let amount ← P.orNot exprValue
  let cur ← P.orNot currency
  let scope (a : ExprValue) : ScopedExprValue := if isTotal then .total a else .perUnit a
  match amount, cur with
  | some a, some c => pure (.currencyAmount (scope a) c)
  | some a, none => pure (.bareAmount (scope a))
  | none, some c => pure (.bareCurrency c)
  | none, none => pure .unspecified

end

end Grammar

/-! ### Cost specifications -/

/-- `CostComp`, `/repo/src/parsers.rs:1001-1009`. -/
inductive CostComp where
  | amount (a : CompoundAmount)
  | date (d : Date)
  | label (s : Str)
  | merge
deriving Repr, DecidableEq

/-- `CostSpecErrorKind`, `/repo/src/types.rs:2689-2698`. -/
inductive CostSpecError where
  | perUnit | total | currency | date | label | merge
deriving Repr, DecidableEq

/-- `CostSpecBuilder`, `/repo/src/types.rs:2573-2583`. -/
structure CostSpecBuilder where
  spec : CostSpec
  errors : List CostSpecError

namespace CostSpecBuilder

/-- `Default for CostSpecBuilder`. -/
def default : CostSpecBuilder := ⟨⟨none, none, none, none, none, false⟩, []⟩

/-- `per_unit`, `/repo/src/types.rs:2598-2605`. -/
def perUnit (b : CostSpecBuilder) (v : Spanned ExprValue) : CostSpecBuilder :=
  if b.spec.perUnit.isNone then { b with spec := { b.spec with perUnit := some v } }
  else { b with errors := b.errors ++ [.perUnit] }

/-- `total`, `/repo/src/types.rs:2607-2614`. -/
def total (b : CostSpecBuilder) (v : Spanned ExprValue) : CostSpecBuilder :=
  if b.spec.total.isNone then { b with spec := { b.spec with total := some v } }
  else { b with errors := b.errors ++ [.total] }

/-- `compound_expr`, `/repo/src/types.rs:2586-2596`. -/
def compoundExpr (b : CostSpecBuilder) (v : CompoundExprValue) (span : Span) : CostSpecBuilder :=
  match v with
  | .perUnit e => b.perUnit ⟨e, span⟩
  | .total e => b.total ⟨e, span⟩
  | .perUnitAndTotal p t => (b.perUnit ⟨p, span⟩).total ⟨t, span⟩

/-- `currency`, `/repo/src/types.rs:2616-2623`. -/
def currency (b : CostSpecBuilder) (v : Str) (span : Span) : CostSpecBuilder :=
  if b.spec.currency.isNone then { b with spec := { b.spec with currency := some ⟨v, span⟩ } }
  else { b with errors := b.errors ++ [.currency] }

/-- `date`, `/repo/src/types.rs:2625-2632`. -/
def date (b : CostSpecBuilder) (v : Date) (span : Span) : CostSpecBuilder :=
  if b.spec.date.isNone then { b with spec := { b.spec with date := some ⟨v, span⟩ } }
  else { b with errors := b.errors ++ [.date] }

/-- `label`, `/repo/src/types.rs:2634-2641`. -/
def label (b : CostSpecBuilder) (v : Str) (span : Span) : CostSpecBuilder :=
  if b.spec.label.isNone then { b with spec := { b.spec with label := some ⟨v, span⟩ } }
  else { b with errors := b.errors ++ [.label] }

/-- `merge`, `/repo/src/types.rs:2643-2652`. -/
def merge (b : CostSpecBuilder) : CostSpecBuilder :=
  if !b.spec.merge then { b with spec := { b.spec with merge := true } }
  else { b with errors := b.errors ++ [.merge] }

/-- The closure folding components into the builder, `/repo/src/parsers.rs:979-990`. -/
def add (b : CostSpecBuilder) (c : Spanned CostComp) : CostSpecBuilder :=
  match c.item with
  | .amount (.bareCurrency cur) => b.currency cur c.span
  | .amount (.bareAmount a) => b.compoundExpr a c.span
  | .amount (.currencyAmount a cur) => (b.compoundExpr a c.span).currency cur c.span
  | .date d => b.date d c.span
  | .label s => b.label s c.span
  | .merge => b.merge

/-- `build`, `/repo/src/types.rs:2655-2682`. -/
def build (b : CostSpecBuilder) : Except (List CostSpecError) CostSpec :=
  if b.errors.isEmpty then .ok b.spec else .error b.errors

end CostSpecBuilder

/-- The function given to `try_map` in `cost_spec`, `/repo/src/parsers.rs:973-998`, on all components. -/
def costSpecOf (comps : List (Spanned CostComp)) : Except (List CostSpecError) CostSpec :=
  (comps.foldl CostSpecBuilder.add CostSpecBuilder.default).build

namespace Grammar

section
variable [DecOps]

/-- `cost_comp`, `/repo/src/parsers.rs:1012-1024`. -/
def costComp (cfg : ParseCfg) : P CostComp :=
  P.choice [
    (do let a ← compoundAmount; pure (.amount a)),
    (do let d ← date; pure (.date d)),
    (do let s ← string cfg; pure (.label s)),
    (do P.just .asterisk; pure .merge)]

/-- `cost_spec`, `/repo/src/parsers.rs:955-999`. -/
def costSpec (cfg : ParseCfg) : P CostSpec := do
  P.just .lcurl
  let comps ← P.orNot (do
    let head ← P.spanned cfg (costComp cfg)
    let tail ← P.rep (do P.just .comma; P.spanned cfg (costComp cfg))
    pure (head :: tail))
  P.just .rcurl
  match costSpecOf (match comps with | some l => l | none => []) with
  | .ok c => pure c
  | .error _ => P.failure

end

/-! ### Tags, links, metadata -/

section
variable [Unicode]

/-- One step of the collection without duplicates shared by tags, links and currencies: the element is added,
or an error emitted at its location. -/
def collectOne (kind : DupKind) (acc : List (Spanned Str) × List PErr) (x : Spanned Str) :
    List (Spanned Str) × List PErr :=
  if SSet.has acc.1 x.item then (acc.1, acc.2 ++ [.duplicate kind x.item x.span])
  else (SSet.insert acc.1 x, acc.2)

/-- The fold of `tags_links`, `/repo/src/parsers.rs:1039-1069`: tags, links and errors. -/
def collectTagsLinks (l : List (Sum (Spanned Str) (Spanned Str))) :
    (List (Spanned Str) × List (Spanned Str)) × List PErr :=
  l.foldl (fun acc item =>
    match item with
    | .inl t =>
      let r := collectOne .tag (acc.1.1, acc.2) t
      ((r.1, acc.1.2), r.2)
    | .inr t =>
      let r := collectOne .link (acc.1.2, acc.2) t
      ((acc.1.1, r.1), r.2)) (([], []), [])

/-- `tags_links`, `/repo/src/parsers.rs:1028-1070`. -/
def tagsLinks (cfg : ParseCfg) : P (List (Spanned Str) × List (Spanned Str)) := do
  let l ← P.rep (P.choice [
    (do let t ← P.spanned cfg tag; pure (.inl t)),
    (do let t ← P.spanned cfg link; pure (.inr t))])
  let r := collectTagsLinks l
  P.emit r.2
  pure r.1

/-- `Metadata::merge_tags` and `merge_links`, `/repo/src/parsers.rs:1235-1259, 1272-1298`, on one of the sets:
an error is emitted at the location of the element already there. -/
def mergeInto (kind : DupKind) (own extra : List (Spanned Str)) : List (Spanned Str) × List PErr :=
  extra.foldl (fun acc t =>
    match SSet.get acc.1 t.item with
    | none => (SSet.insert acc.1 t, acc.2)
    | some existing => (acc.1, acc.2 ++ [.duplicate kind t.item existing.span])) (own, [])

/-- `merge_tags` then `merge_links` on the metadata of a directive, as in each `validate`. -/
def mergeHeader (m : Spanned Metadata) (tl : List (Spanned Str) × List (Spanned Str)) :
    Spanned Metadata × List PErr :=
  let t := mergeInto .tag m.item.tags tl.1
  let l := mergeInto .link m.item.links tl.2
  (⟨{ m.item with tags := t.1, links := l.1 }, m.span⟩, t.2 ++ l.2)

variable [DecOps]

/-- `simple_value`, `/repo/src/parsers.rs:815-832`. -/
def simpleValue (cfg : ParseCfg) : P SimpleValue :=
  P.choice [
    (do let s ← string cfg; pure (.string s)),
    (do let c ← currency; pure (.currency c)),
    (do let a ← account; pure (.account a)),
    (do let t ← tag; pure (.tag t)),
    (do let l ← link; pure (.link l)),
    (do let d ← date; pure (.date d)),
    (do let b ← bool; pure (.bool b)),
    (do P.just .null; pure .null),
    (do let e ← exprValue; pure (.expr e))]

/-- `meta_value`, `/repo/src/parsers.rs:804-812`. -/
def metaValue (cfg : ParseCfg) : P MetaValue :=
  P.choice [
    (do let a ← amount cfg; pure (.amount a)),
    (do let v ← simpleValue cfg; pure (.simple v))]

/-- `meta_key_value`, `/repo/src/parsers.rs:770-781`. -/
def metaKeyValue (cfg : ParseCfg) : P MetaKeyValue := do
  let k ← P.spanned cfg key
  P.just .colon
  let v ← P.spanned cfg (P.orNot (metaValue cfg))
  pure ⟨k, ⟨match v.item with | some v => v | none => .simple .null, v.span⟩⟩

end

/-- `Metadatum`, `/repo/src/parsers.rs:763-767`. -/
inductive Metadatum where
  | keyValue (kv : Spanned MetaKeyValue)
  | tag (t : Spanned Str)
  | link (l : Spanned Str)

/-- One step of the fold of `metadata`, `/repo/src/parsers.rs:715-758`. -/
def collectMetadatum (acc : Metadata × List PErr) (item : Metadatum) : Metadata × List PErr :=
  match item with
  | .keyValue kv =>
    if SMap.has acc.1.keyValues kv.item.key.item then
      (acc.1, acc.2 ++ [.duplicate .key kv.item.key.item kv.item.key.span])
    else ({ acc.1 with keyValues := SMap.insert acc.1.keyValues kv.item.key kv.item.value }, acc.2)
  | .tag t =>
    let r := collectOne .tag (acc.1.tags, acc.2) t
    ({ acc.1 with tags := r.1 }, r.2)
  | .link t =>
    let r := collectOne .link (acc.1.links, acc.2) t
    ({ acc.1 with links := r.1 }, r.2)

section
variable [Unicode] [DecOps]

/-- `metadatum_line`, `/repo/src/parsers.rs:784-801`. -/
def metadatumLine (cfg : ParseCfg) : P Metadatum := do
  P.just .indent
  let m ← P.choice [
    (do let kv ← P.spanned cfg (metaKeyValue cfg); pure (.keyValue kv)),
    (do let t ← P.spanned cfg tag; pure (.tag t)),
    (do let l ← P.spanned cfg link; pure (.link l))]
  eol
  pure m

/-- `metadata`, `/repo/src/parsers.rs:702-760`. -/
def metadata (cfg : ParseCfg) : P Metadata := do
  let l ← P.rep (metadatumLine cfg)
  let r := l.foldl collectMetadatum (⟨[], [], []⟩, [])
  P.emit r.2
  pure r.1

/-! ### Directives -/

/-- The fields of a posting before its metadata. -/
structure PostingLine where
  flag : Option (Spanned Flag)
  account : Spanned Account
  amount : Option (Spanned ExprValue)
  currency : Option (Spanned Str)
  costSpec : Option (Spanned CostSpec)
  priceAnnotation : Option (Spanned PriceSpec)

/-- The `group` of `posting`, `/repo/src/parsers.rs:659-670`.  The location of an absent part is dropped. -/
def postingLine (cfg : ParseCfg) : P PostingLine := do
  let flag ← P.orNot (P.spanned cfg flag)
  let account ← P.spanned cfg account
  let amount ← P.orNot (P.spanned cfg exprValue)
  let currency ← P.orNot (P.spanned cfg currency)
  let costSpec ← P.orNot (P.spanned cfg (costSpec cfg))
  let priceAnnotation ← P.orNot (P.spanned cfg priceAnnotation)
  pure { flag, account, amount, currency, costSpec, priceAnnotation }

/-- `posting`, `/repo/src/parsers.rs:653-699`. -/
def posting (cfg : ParseCfg) : P (Spanned Posting) := do
  P.just .indent
  let line ← P.spanned cfg (postingLine cfg)
  eol
  let metadata ← P.spanned cfg (metadata cfg)
  let l := line.item
  pure ⟨⟨l.flag, l.account, l.amount, l.currency, l.costSpec, l.priceAnnotation, metadata⟩, line.span⟩

/-- `replace_some_empty_with_none`, `/repo/src/parsers.rs:231-242`. -/
def replaceSomeEmptyWithNone (s : Option (Spanned Str)) : Option (Spanned Str) :=
  match s with
  | some x => if x.item.isEmpty then none else s
  | none => none

/-- The two maps of `transaction_header_line`, `/repo/src/parsers.rs:215-225`: payee and narration. -/
def payeeNarration (s1 s2 : Option (Spanned Str)) : Option (Spanned Str) × Option (Spanned Str) :=
  let r := match s1, s2 with
    | some s1, none => (none, some s1)
    | s1, s2 => (s1, s2)
  (replaceSomeEmptyWithNone r.1, replaceSomeEmptyWithNone r.2)

/-- `transaction_header_line`, `/repo/src/parsers.rs:203-229`. -/
def transactionHeaderLine (cfg : ParseCfg) : P (Spanned Date × Spanned Flag ×
    (Option (Spanned Str) × Option (Spanned Str)) × (List (Spanned Str) × List (Spanned Str))) := do
  let date ← P.spanned cfg date
  let flag ← P.spanned cfg txn
  let s1 ← P.orNot (P.spanned cfg (string cfg))
  let s2 ← P.orNot (P.spanned cfg (string cfg))
  let tl ← tagsLinks cfg
  eol
  pure (date, flag, payeeNarration s1 s2, tl)

/-- `transaction`, `/repo/src/parsers.rs:165-193`. -/
def transaction (cfg : ParseCfg) : P Directive := do
  let (date, flag, (payee, narration), tl) ← transactionHeaderLine cfg
  let metadata ← P.spanned cfg (metadata cfg)
  let postings ← P.rep (posting cfg)
  let r := mergeHeader metadata tl
  P.emit r.2
  pure ⟨date, r.1, .transaction ⟨flag, payee, narration, postings⟩⟩

/-- What most directives have in common: a date, a keyword, something else, tags and links, the end of the
line, and metadata: the pattern of `price` to `query`, `/repo/src/parsers.rs:245-605`. -/
def simpleDirective (cfg : ParseCfg) (keyword : Token) (body : P DirectiveVariant) : P Directive := do
  let date ← P.spanned cfg date
  P.just keyword
  let variant ← body
  let tl ← tagsLinks cfg
  eol
  let metadata ← P.spanned cfg (metadata cfg)
  let r := mergeHeader metadata tl
  P.emit r.2
  pure ⟨date, r.1, variant⟩

/-- `price`, `/repo/src/parsers.rs:245-271`. -/
def price (cfg : ParseCfg) : P Directive := simpleDirective cfg .price do
  let c ← P.spanned cfg currency
  let a ← P.spanned cfg (amount cfg)
  pure (.price c a)

/-- `balance`, `/repo/src/parsers.rs:274-300`. -/
def balance (cfg : ParseCfg) : P Directive := simpleDirective cfg .balance do
  let a ← P.spanned cfg account
  let atol ← P.spanned cfg (amountWithTolerance cfg)
  pure (.balance a atol)

/-- The fold of `currency_list`, `/repo/src/parsers.rs:363-379`: the first currency goes last. -/
def collectCurrencies (first : Spanned Str) (others : List (Spanned Str)) : List (Spanned Str) × List PErr :=
  (others ++ [first]).foldl (collectOne .currency) ([], [])

/-- `currency_list`, `/repo/src/parsers.rs:353-382`. -/
def currencyList (cfg : ParseCfg) : P (List (Spanned Str)) := do
  let l ← P.orNot (do
    let first ← P.spanned cfg currency
    let others ← P.rep (do P.just .comma; P.spanned cfg currency)
    let r := collectCurrencies first others
    P.emit r.2
    pure r.1)
  match l with
  | some l => pure l
  | none => pure []

/-- `open`, `/repo/src/parsers.rs:303-350`. -/
def open_ (cfg : ParseCfg) : P Directive := simpleDirective cfg .open do
  let a ← P.spanned cfg account
  let cs ← currencyList cfg
  let b ← P.orNot (P.spanned cfg (booking cfg))
  pure (.open a cs b)

/-- `close`, `/repo/src/parsers.rs:411-435`. -/
def close (cfg : ParseCfg) : P Directive := simpleDirective cfg .close do
  let a ← P.spanned cfg account
  pure (.close a)

/-- `commodity`, `/repo/src/parsers.rs:438-462`. -/
def commodity (cfg : ParseCfg) : P Directive := simpleDirective cfg .commodity do
  let c ← P.spanned cfg currency
  pure (.commodity c)

/-- `pad`, `/repo/src/parsers.rs:465-490`. -/
def pad (cfg : ParseCfg) : P Directive := simpleDirective cfg .pad do
  let a ← P.spanned cfg account
  let source ← P.spanned cfg account
  pure (.pad a source)

/-- `document`, `/repo/src/parsers.rs:493-518`. -/
def document (cfg : ParseCfg) : P Directive := simpleDirective cfg .document do
  let a ← P.spanned cfg account
  let path ← P.spanned cfg (string cfg)
  pure (.document a path)

/-- `note`, `/repo/src/parsers.rs:521-546`. -/
def note (cfg : ParseCfg) : P Directive := simpleDirective cfg .note do
  let a ← P.spanned cfg account
  let comment ← P.spanned cfg (string cfg)
  pure (.note a comment)

/-- `event`, `/repo/src/parsers.rs:549-577`. -/
def event (cfg : ParseCfg) : P Directive := simpleDirective cfg .event do
  let t ← P.spanned cfg (string cfg)
  let d ← P.spanned cfg (string cfg)
  pure (.event t d)

/-- `query`, `/repo/src/parsers.rs:580-605`. -/
def query (cfg : ParseCfg) : P Directive := simpleDirective cfg .query do
  let n ← P.spanned cfg (string cfg)
  let c ← P.spanned cfg (string cfg)
  pure (.query n c)

/-- `custom`, `/repo/src/parsers.rs:608-628`. -/
def custom (cfg : ParseCfg) : P Directive := do
  let date ← P.spanned cfg date
  P.just .custom
  let type_ ← P.spanned cfg (string cfg)
  let values ← P.rep (P.spanned cfg (metaValue cfg))
  eol
  let metadata ← P.spanned cfg (metadata cfg)
  pure ⟨date, metadata, .custom type_ values⟩

/-- `directive`, `/repo/src/parsers.rs:65-87`. -/
def directive (cfg : ParseCfg) : P Directive :=
  P.choice [transaction cfg, price cfg, balance cfg, open_ cfg, close cfg, commodity cfg, pad cfg, document cfg,
    note cfg, event cfg, query cfg, custom cfg]

/-! ### Pragmas -/

/-- The function given to `validate` in `option`, `/repo/src/parsers.rs:138-161`. -/
def assimilateOption (cfg : ParseCfg) (name value : Spanned Str) : P BOption := fun s =>
  match BOption.parse cfg.decimal name value cfg.path with
  | .panic => .panic
  | .err .unknownOption => .ok BOption.ignored { s with errs := s.errs ++ [.option .unknownOption name.span] }
  | .err (.badValue e) => .ok BOption.ignored { s with errs := s.errs ++ [.option (.badValue e) value.span] }
  | .ok opt =>
    match s.opts.assimilate opt with
    | (.ok opt, opts) => .ok opt { s with opts }
    | (.err t, opts) => .ok BOption.ignored { s with opts, errs := s.errs ++ [.accountTypeName t value.span] }
    | (.panic, _) => .panic

/-- `option`, `/repo/src/parsers.rs:129-162`. -/
def option (cfg : ParseCfg) : P BOption := do
  P.just .option
  let name ← P.spanned cfg (string cfg)
  let value ← P.spanned cfg (string cfg)
  assimilateOption cfg name value

/-- `pragma`, `/repo/src/parsers.rs:90-126`.  The location of a pushed or popped tag and of a popped key
includes the keyword. -/
def pragma (cfg : ParseCfg) : P Pragma := do
  let p ← P.choice [
    (do let t ← P.spanned cfg (do P.just .pushtag; tag); pure (.pushtag t)),
    (do let t ← P.spanned cfg (do P.just .poptag; tag); pure (.poptag t)),
    (do P.just .pushmeta; let kv ← metaKeyValue cfg; pure (.pushmeta kv)),
    (do let k ← P.spanned cfg (do P.just .popmeta; let k ← key; P.just .colon; pure k); pure (.popmeta k)),
    (do P.just .include; let s ← P.spanned cfg (string cfg); pure (.include s)),
    (do let o ← option cfg; pure (.option o)),
    (do P.just .plugin
        let m ← P.spanned cfg (string cfg)
        let c ← P.orNot (P.spanned cfg (string cfg))
        pure (.plugin ⟨m, c⟩))]
  eol
  pure p

/-! ### Files -/

/-- `declaration` without recovery, `/repo/src/parsers.rs:59-60`. -/
def declaration (cfg : ParseCfg) : P (Spanned Declaration) :=
  P.spanned cfg (P.choice [
    (do let d ← directive cfg; pure (.directive d)),
    (do let p ← pragma cfg; pure (.pragma p))])

/-- `file`, `/repo/src/parsers.rs:41-48`, of declarations with recovery, `51-62`. -/
def file (cfg : ParseCfg) : P (List (Spanned Declaration)) := P.rep (P.recover (declaration cfg))

/-- The outcome of `parse_with_state(..).into_output_errors()`. -/
structure FileResult where
  declarations : Option (List (Spanned Declaration))
  errors : List PErr
  opts : ParserOptions
  warns : List Report

/-- `file(source_path).parse_with_state(tokens, state).into_output_errors()`, `/repo/src/lib.rs:285-287`: the
whole input must be consumed, otherwise there is no output and one more error; `none` is a panic. -/
def parseFile (cfg : ParseCfg) (toks : List Ranged) (opts : ParserOptions) (warns : List Report) :
    Option FileResult :=
  match file cfg ⟨toks, [], opts, warns⟩ with
  | .panic => none
  | .fail s => some ⟨none, s.errs ++ [.syntax], s.opts, s.warns⟩
  | .ok ds s =>
    match s.toks with
    | [] => some ⟨some ds, s.errs, s.opts, s.warns⟩
    | _ :: _ => some ⟨none, s.errs ++ [.syntax], s.opts, s.warns⟩

end

end Grammar

end Lima
