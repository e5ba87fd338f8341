import Verif.Model.Grammar
import Verif.Spec.ExprGrammar
import Verif.Spec.CostSpec
import Verif.Spec.Names
import Verif.Spec.Options
import Verif.Spec.Lexer

/-!
Specification of the language: which tokens make up each kind of declaration, and what it means.

`o` are the options in force (account type names), `cfg` says which file this is.
-/

namespace Lima.Spec

/-! ### Ways to combine phrases -/

/-- The location of the phrase between `i` and `r`: from the start of its first token to the end of its last. -/
def Covers (cfg : ParseCfg) (i r : List Ranged) (span : Span) : Prop :=
  (∃ first run last, i = run ++ r ∧ run.head? = some first ∧ run.getLast? = some last ∧
    span = ⟨cfg.source, first.start, last.stop⟩) ∨
  (i = r ∧ span = cfg.emptySpan i)

/-- A phrase with its location. -/
def At {α : Type} (cfg : ParseCfg) (p : Phrase α) : Phrase (Spanned α) := fun i r x =>
  p i r x.item ∧ Covers cfg i r x.span

/-- A phrase that may be absent. -/
def Maybe {α : Type} (p : Phrase α) : Phrase (Option α) := fun i r x =>
  match x with
  | some a => p i r a
  | none => r = i

/-- Any number of phrases. -/
inductive Many {α : Type} (p : Phrase α) : Phrase (List α)
  | nil {i : List Ranged} : Many p i i []
  | cons {i j r : List Ranged} {a : α} {as : List α} : p i j a → Many p j r as → Many p i r (a :: as)

/-- The end of a line, or of the file. -/
def EndOfLine (i r : List Ranged) : Prop := Word .eol i r ∨ (i = [] ∧ r = [])

/-! ### Single tokens -/

/-- The tokens of the language: not errors of the lexer, and not tokens for which the grammar has no use. -/
def Understood (t : Token) : Prop :=
  (∀ e, t ≠ .error e) ∧ (∀ x, t ≠ .time x) ∧ t ≠ .pipe ∧ t ≠ .lcurlCurl ∧ t ≠ .rcurlCurl ∧ t ≠ .options ∧
    t ≠ .eolThenIndent ∧ t ≠ .eolComment

def DateP : Phrase Date := fun i r d => Word (.date d) i r

def NumberP : Phrase Dec := fun i r d => Word (.number d) i r

def BoolP : Phrase Bool := fun i r b => (b = true ∧ Word .true_ i r) ∨ (b = false ∧ Word .false_ i r)

def StringP : Phrase Str := fun i r s => Word (.stringLiteral s) i r

def CurrencyP : Phrase Str := fun i r c => Word (.currency c) i r ∧ ValidCurrency c

def FlagP : Phrase Flag := fun i r f =>
  Word (.dedicatedFlag f) i r ∨ (f = .asterisk ∧ Word .asterisk i r) ∨ (f = .hash ∧ Word .hash i r)

/-- `txn` stands for the flag `*`. -/
def TxnP : Phrase Flag := fun i r f => (f = .asterisk ∧ Word .txn i r) ∨ FlagP i r f

def BookingP : Phrase Booking := fun i r b => ∃ s, Word (.stringLiteral s) i r ∧ Booking.tryFrom s = some b

section
variable [Unicode]

def TagP : Phrase Str := fun i r t => Word (.tag t) i r ∧ ∀ c ∈ t, TagChar c

def LinkP : Phrase Str := fun i r t => Word (.link t) i r ∧ ∀ c ∈ t, TagChar c

def KeyP : Phrase Str := fun i r k => Word (.key k) i r ∧ ValidKey k

/-- An account: its first component names an account type. -/
def AccountP (o : ParserOptions) : Phrase Account := fun i r a =>
  Word (.account a.name) i r ∧ ∃ root subs, a.name = joinColon (root :: subs) ∧ ValidAccountTypeName root ∧
    (∀ sub ∈ subs, ValidAccountName sub) ∧ o.accountTypeNames.get root = some a.accountType

end

/-! ### Amounts -/

section
variable [DecOps]

/-- An expression with its value. -/
def ValueP : Phrase ExprValue := fun i r v => Expression i r v.expr ∧ ExprValue.ofExpr v.expr = some v

/-- `10 USD` -/
inductive AmountP (cfg : ParseCfg) : Phrase Amount
  | mk {i j r : List Ranged} {n : Spanned ExprValue} {c : Spanned Str} :
      At cfg ValueP i j n → At cfg CurrencyP j r c → AmountP cfg i r ⟨n, c⟩

/-- `10 USD` or `10 ~ 0.1 USD`; the location of the amount is that of the whole. -/
inductive TolerantP (cfg : ParseCfg) : Phrase AmountWithTolerance
  | exact {i r : List Ranged} {a : Spanned Amount} : At cfg (AmountP cfg) i r a → TolerantP cfg i r ⟨a, none⟩
  | tolerant {i j k l r : List Ranged} {n : Spanned ExprValue} {t : Spanned Dec} {c : Spanned Str} {span : Span} :
      At cfg ValueP i j n → Word .tilde j k → At cfg NumberP k l t → At cfg CurrencyP l r c → Covers cfg i r span →
      TolerantP cfg i r ⟨⟨⟨n, c⟩, span⟩, some t⟩

/-- `10`, `10 # 5`, `10 #` or `# 5` -/
inductive CompoundExprP : Phrase CompoundExprValue
  | both {i j k r : List Ranged} {p t : ExprValue} :
      ValueP i j p → Word .hash j k → ValueP k r t → CompoundExprP i r (.perUnitAndTotal p t)
  | perUnitHash {i j r : List Ranged} {p : ExprValue} :
      ValueP i j p → Word .hash j r → CompoundExprP i r (.perUnit p)
  | perUnit {i r : List Ranged} {p : ExprValue} :
      ValueP i r p → CompoundExprP i r (.perUnit p)
  | total {i j r : List Ranged} {t : ExprValue} : Word .hash i j → ValueP j r t → CompoundExprP i r (.total t)

/-- A compound expression, a currency, or one and then the other. -/
inductive CompoundAmountP : Phrase CompoundAmount
  | amountCurrency {i j r : List Ranged} {a : CompoundExprValue} {c : Str} :
      CompoundExprP i j a → CurrencyP j r c → CompoundAmountP i r (.currencyAmount a c)
  | amount {i r : List Ranged} {a : CompoundExprValue} :
      CompoundExprP i r a → CompoundAmountP i r (.bareAmount a)
  | currency {i r : List Ranged} {c : Str} : CurrencyP i r c → CompoundAmountP i r (.bareCurrency c)
  | hashCurrency {i j r : List Ranged} {c : Str} :
      Word .hash i j → CurrencyP j r c → CompoundAmountP i r (.bareCurrency c)

/-- `@` or `@@`, then an optional expression and an optional currency. -/
inductive PriceP : Phrase PriceSpec
  | perUnit {i j r : List Ranged} {a : ExprValue} :
      Word .at i j → ValueP j r a → PriceP i r (.bareAmount (.perUnit a))
  | total {i j r : List Ranged} {a : ExprValue} :
      Word .atAt i j → ValueP j r a → PriceP i r (.bareAmount (.total a))
  | perUnitCurrency {i j k r : List Ranged} {a : ExprValue} {c : Str} :
      Word .at i j → ValueP j k a → CurrencyP k r c → PriceP i r (.currencyAmount (.perUnit a) c)
  | totalCurrency {i j k r : List Ranged} {a : ExprValue} {c : Str} :
      Word .atAt i j → ValueP j k a → CurrencyP k r c → PriceP i r (.currencyAmount (.total a) c)
  | currency {i j r : List Ranged} {c : Str} {t : Token} : (t = .at ∨ t = .atAt) →
      Word t i j → CurrencyP j r c → PriceP i r (.bareCurrency c)
  | unspecified {i r : List Ranged} {t : Token} : (t = .at ∨ t = .atAt) →
      Word t i r → PriceP i r .unspecified

/-- One component of a cost specification. -/
inductive CostCompP : Phrase CostComp
  | amount {i r : List Ranged} {a : CompoundAmount} : CompoundAmountP i r a → CostCompP i r (.amount a)
  | date {i r : List Ranged} {d : Date} : DateP i r d → CostCompP i r (.date d)
  | label {i r : List Ranged} {s : Str} : StringP i r s → CostCompP i r (.label s)
  | merge {i r : List Ranged} : Word .asterisk i r → CostCompP i r .merge

/-- A comma and a component. -/
def CommaCostCompP (cfg : ParseCfg) : Phrase (Spanned CostComp) := fun i r c =>
  ∃ j, Word .comma i j ∧ At cfg CostCompP j r c

/-- Components between braces, separated by commas, saying nothing twice. -/
inductive CostSpecP (cfg : ParseCfg) : Phrase CostSpec
  | empty {i j r : List Ranged} {c : CostSpec} : Word .lcurl i j → Word .rcurl j r → Says c [] → CostSpecP cfg i r c
  | comps {i j k l r : List Ranged} {c : CostSpec} {first : Spanned CostComp} {others : List (Spanned CostComp)} :
      Word .lcurl i j → At cfg CostCompP j k first → Many (CommaCostCompP cfg) k l others → Word .rcurl l r →
      Says c ((first :: others).flatMap costFacts) →
      (∀ kind, timesSaid kind ((first :: others).flatMap costFacts) ≤ 1) → CostSpecP cfg i r c

end

/-! ### Names given once or repeatedly -/

/-- The elements whose name is not among those seen or of an earlier element. -/
def firsts {α κ : Type} [DecidableEq κ] (name : α → κ) (seen : List κ) : List α → List α
  | [] => []
  | x :: xs => if name x ∈ seen then firsts name seen xs else x :: firsts name (name x :: seen) xs

/-- The elements whose name is among those seen or of an earlier element. -/
def repeats {α κ : Type} [DecidableEq κ] (name : α → κ) (seen : List κ) : List α → List α
  | [] => []
  | x :: xs => if name x ∈ seen then x :: repeats name seen xs else repeats name (name x :: seen) xs

/-- A tag or link in the first line of a directive. -/
abbrev TagOrLink := Sum (Spanned Str) (Spanned Str)

/-- The kind and name of a tag or link. -/
def TagOrLink.name : TagOrLink → DupKind × Str
  | .inl t => (.tag, t.item)
  | .inr l => (.link, l.item)

/-- The report of a repeated tag or link. -/
def TagOrLink.report : TagOrLink → PErr
  | .inl t => .duplicate .tag t.item t.span
  | .inr l => .duplicate .link l.item l.span

/-- The tags. -/
def headTags (l : List TagOrLink) : List (Spanned Str) := l.filterMap (fun | .inl t => some t | .inr _ => none)

/-- The links. -/
def headLinks (l : List TagOrLink) : List (Spanned Str) := l.filterMap (fun | .inl _ => none | .inr l => some l)

open Grammar (Metadatum)

/-- The kind and name of what a metadata line gives. -/
def lineName : Metadatum → DupKind × Str
  | .keyValue kv => (.key, kv.item.key.item)
  | .tag t => (.tag, t.item)
  | .link l => (.link, l.item)

/-- The report of a repeated metadata line. -/
def lineReport : Metadatum → PErr
  | .keyValue kv => .duplicate .key kv.item.key.item kv.item.key.span
  | .tag t => .duplicate .tag t.item t.span
  | .link l => .duplicate .link l.item l.span

/-- The keys and values of metadata lines. -/
def lineKeyValues (l : List Metadatum) : List (Spanned Str × Spanned MetaValue) :=
  l.filterMap (fun | .keyValue kv => some (kv.item.key, kv.item.value) | _ => none)

/-- The tags of metadata lines. -/
def lineTags (l : List Metadatum) : List (Spanned Str) := l.filterMap (fun | .tag t => some t | _ => none)

/-- The links of metadata lines. -/
def lineLinks (l : List Metadatum) : List (Spanned Str) := l.filterMap (fun | .link t => some t | _ => none)

/-- What metadata lines say: the first of each name. -/
def lineMetadata (lines : List Metadatum) : Metadata :=
  let l := firsts lineName [] lines
  ⟨lineKeyValues l, lineTags l, lineLinks l⟩

/-- The elements of the first list and those of the second which are not in the first. -/
def union (own extra : List (Spanned Str)) : List (Spanned Str) :=
  own ++ extra.filter (fun t => decide (∀ x ∈ own, x.item ≠ t.item))

/-- The elements of the first list which are in the second. -/
def both (own extra : List (Spanned Str)) : List (Spanned Str) :=
  extra.filterMap (fun t => own.find? (fun x => decide (x.item = t.item)))

/-- The metadata of a directive: that of its metadata lines and the tags and links in its first line. -/
def metadataOf (lines : List Metadatum) (head : List TagOrLink) : Metadata :=
  let m := lineMetadata lines
  let h := firsts TagOrLink.name [] head
  { m with tags := union m.tags (headTags h), links := union m.links (headLinks h) }

/-- One report for every repeated tag or link in the first line. -/
def headErrors (head : List TagOrLink) : List PErr := (repeats TagOrLink.name [] head).map TagOrLink.report

/-- One report for every repeated key, tag or link in the metadata lines. -/
def lineErrors (lines : List Metadatum) : List PErr := (repeats lineName [] lines).map lineReport

/-- One report for every tag or link which is both in the first line and in the metadata lines. -/
def clashErrors (lines : List Metadatum) (head : List TagOrLink) : List PErr :=
  let m := lineMetadata lines
  let h := firsts TagOrLink.name [] head
  (both m.tags (headTags h)).map (fun t => .duplicate .tag t.item t.span) ++
    (both m.links (headLinks h)).map (fun t => .duplicate .link t.item t.span)

/-! ### Metadata -/

section
variable [Unicode] [DecOps]

/-- A simple value.  A number and a currency together are an amount. -/
inductive SimpleValueP (o : ParserOptions) : Phrase SimpleValue
  | string {i r : List Ranged} {s : Str} : StringP i r s → SimpleValueP o i r (.string s)
  | currency {i r : List Ranged} {c : Str} : CurrencyP i r c → SimpleValueP o i r (.currency c)
  | account {i r : List Ranged} {a : Account} : AccountP o i r a → SimpleValueP o i r (.account a)
  | tag {i r : List Ranged} {t : Str} : TagP i r t → SimpleValueP o i r (.tag t)
  | link {i r : List Ranged} {l : Str} : LinkP i r l → SimpleValueP o i r (.link l)
  | date {i r : List Ranged} {d : Date} : DateP i r d → SimpleValueP o i r (.date d)
  | bool {i r : List Ranged} {b : Bool} : BoolP i r b → SimpleValueP o i r (.bool b)
  | null {i r : List Ranged} : Word .null i r → SimpleValueP o i r .null
  | expr {i r : List Ranged} {e : ExprValue} : ValueP i r e → (∀ k c, ¬ CurrencyP r k c) → SimpleValueP o i r (.expr e)

/-- A simple value or an amount. -/
inductive MetaValueP (cfg : ParseCfg) (o : ParserOptions) : Phrase MetaValue
  | simple {i r : List Ranged} {v : SimpleValue} : SimpleValueP o i r v → MetaValueP cfg o i r (.simple v)
  | amount {i r : List Ranged} {a : Amount} : AmountP cfg i r a → MetaValueP cfg o i r (.amount a)

/-- `key: value`; without a value it is null. -/
inductive KeyValueP (cfg : ParseCfg) (o : ParserOptions) : Phrase MetaKeyValue
  | value {i j k r : List Ranged} {key : Spanned Str} {v : Spanned MetaValue} :
      At cfg KeyP i j key → Word .colon j k → At cfg (MetaValueP cfg o) k r v → KeyValueP cfg o i r ⟨key, v⟩
  | null {i j r : List Ranged} {key : Spanned Str} {span : Span} :
      At cfg KeyP i j key → Word .colon j r → Covers cfg r r span →
      KeyValueP cfg o i r ⟨key, ⟨.simple .null, span⟩⟩

/-- A line of metadata. -/
inductive LineP (cfg : ParseCfg) (o : ParserOptions) : Phrase Metadatum
  | keyValue {i j k r : List Ranged} {kv : Spanned MetaKeyValue} :
      Word .indent i j → At cfg (KeyValueP cfg o) j k kv → EndOfLine k r → LineP cfg o i r (.keyValue kv)
  | tag {i j k r : List Ranged} {t : Spanned Str} :
      Word .indent i j → At cfg TagP j k t → EndOfLine k r → LineP cfg o i r (.tag t)
  | link {i j k r : List Ranged} {l : Spanned Str} :
      Word .indent i j → At cfg LinkP j k l → EndOfLine k r → LineP cfg o i r (.link l)

/-- A tag or link in the first line of a directive. -/
inductive TagOrLinkP (cfg : ParseCfg) : Phrase TagOrLink
  | tag {i r : List Ranged} {t : Spanned Str} : At cfg TagP i r t → TagOrLinkP cfg i r (.inl t)
  | link {i r : List Ranged} {l : Spanned Str} : At cfg LinkP i r l → TagOrLinkP cfg i r (.inr l)

/-! ### Directives -/

/-- The line of a posting. -/
inductive PostingLineP (cfg : ParseCfg) (o : ParserOptions) : Phrase Grammar.PostingLine
  | mk {i j k l m n r : List Ranged} {flag : Option (Spanned Flag)} {account : Spanned Account}
      {amount : Option (Spanned ExprValue)} {currency : Option (Spanned Str)} {cost : Option (Spanned CostSpec)}
      {price : Option (Spanned PriceSpec)} :
      Maybe (At cfg FlagP) i j flag → At cfg (AccountP o) j k account → Maybe (At cfg ValueP) k l amount →
      Maybe (At cfg CurrencyP) l m currency → Maybe (At cfg (CostSpecP cfg)) m n cost →
      Maybe (At cfg PriceP) n r price → PostingLineP cfg o i r ⟨flag, account, amount, currency, cost, price⟩

/-- A posting with its metadata; its location is that of its line without indentation.  Second, the errors. -/
inductive PostingP (cfg : ParseCfg) (o : ParserOptions) : Phrase (Spanned Posting × List PErr)
  | mk {i j k l r : List Ranged} {p : Spanned Grammar.PostingLine} {lines : List Metadatum} {span : Span} :
      Word .indent i j → At cfg (PostingLineP cfg o) j k p → EndOfLine k l → Many (LineP cfg o) l r lines →
      Covers cfg l r span →
      PostingP cfg o i r (⟨⟨p.item.flag, p.item.account, p.item.amount, p.item.currency, p.item.costSpec,
        p.item.priceAnnotation, ⟨lineMetadata lines, span⟩⟩, p.span⟩, lineErrors lines)

/-- A string unless it is empty. -/
def nonEmpty (s : Spanned Str) : Option (Spanned Str) := if s.item = [] then none else some s

/-- The strings in the first line of a transaction: payee and narration. -/
inductive PayeeNarrationP (cfg : ParseCfg) : Phrase (Option (Spanned Str) × Option (Spanned Str))
  | neither {i : List Ranged} : PayeeNarrationP cfg i i (none, none)
  | narration {i r : List Ranged} {s : Spanned Str} : At cfg StringP i r s →
      PayeeNarrationP cfg i r (none, nonEmpty s)
  | both {i j r : List Ranged} {s t : Spanned Str} : At cfg StringP i j s → At cfg StringP j r t →
      PayeeNarrationP cfg i r (nonEmpty s, nonEmpty t)

/-- A comma and a currency. -/
def CommaCurrencyP (cfg : ParseCfg) : Phrase (Spanned Str) := fun i r c =>
  ∃ j, Word .comma i j ∧ At cfg CurrencyP j r c

/-- The currencies in the order in which they are checked: the first comes last. -/
inductive CurrenciesP (cfg : ParseCfg) : Phrase (List (Spanned Str))
  | none {i : List Ranged} : CurrenciesP cfg i i []
  | some {i j r : List Ranged} {c : Spanned Str} {cs : List (Spanned Str)} :
      At cfg CurrencyP i j c → Many (CommaCurrencyP cfg) j r cs → CurrenciesP cfg i r (cs ++ [c])

/-- One report for every repeated currency. -/
def currencyErrors (cs : List (Spanned Str)) : List PErr :=
  (repeats (·.item) [] cs).map (fun c => .duplicate .currency c.item c.span)

/-- What comes after the keyword in the first line of a directive; last, the errors. -/
inductive BodyP (cfg : ParseCfg) (o : ParserOptions) : Token → List Ranged → List Ranged → DirectiveVariant →
    List PErr → Prop
  | price {i j r : List Ranged} {c : Spanned Str} {a : Spanned Amount} :
      At cfg CurrencyP i j c → At cfg (AmountP cfg) j r a → BodyP cfg o .price i r (.price c a) []
  | balance {i j r : List Ranged} {a : Spanned Account} {t : Spanned AmountWithTolerance} :
      At cfg (AccountP o) i j a → At cfg (TolerantP cfg) j r t → BodyP cfg o .balance i r (.balance a t) []
  | open {i j k r : List Ranged} {a : Spanned Account} {cs : List (Spanned Str)} {b : Option (Spanned Booking)} :
      At cfg (AccountP o) i j a → CurrenciesP cfg j k cs → Maybe (At cfg BookingP) k r b →
      BodyP cfg o .open i r (.open a (firsts (·.item) [] cs) b) (currencyErrors cs)
  | close {i r : List Ranged} {a : Spanned Account} :
      At cfg (AccountP o) i r a → BodyP cfg o .close i r (.close a) []
  | commodity {i r : List Ranged} {c : Spanned Str} :
      At cfg CurrencyP i r c → BodyP cfg o .commodity i r (.commodity c) []
  | pad {i j r : List Ranged} {a b : Spanned Account} :
      At cfg (AccountP o) i j a → At cfg (AccountP o) j r b → BodyP cfg o .pad i r (.pad a b) []
  | document {i j r : List Ranged} {a : Spanned Account} {s : Spanned Str} :
      At cfg (AccountP o) i j a → At cfg StringP j r s → BodyP cfg o .document i r (.document a s) []
  | note {i j r : List Ranged} {a : Spanned Account} {s : Spanned Str} :
      At cfg (AccountP o) i j a → At cfg StringP j r s → BodyP cfg o .note i r (.note a s) []
  | event {i j r : List Ranged} {s t : Spanned Str} :
      At cfg StringP i j s → At cfg StringP j r t → BodyP cfg o .event i r (.event s t) []
  | query {i j r : List Ranged} {s t : Spanned Str} :
      At cfg StringP i j s → At cfg StringP j r t → BodyP cfg o .query i r (.query s t) []

/-- A directive; last, the errors. -/
inductive DirectiveP (cfg : ParseCfg) (o : ParserOptions) : List Ranged → List Ranged → Directive → List PErr → Prop
  | transaction {i j k l m n p r : List Ranged} {date : Spanned Date} {flag : Spanned Flag}
      {strings : Option (Spanned Str) × Option (Spanned Str)} {head : List TagOrLink} {lines : List Metadatum}
      {span : Span} {postings : List (Spanned Posting × List PErr)} :
      At cfg DateP i j date → At cfg TxnP j k flag → PayeeNarrationP cfg k l strings →
      Many (TagOrLinkP cfg) l m head → EndOfLine m n → Many (LineP cfg o) n p lines → Covers cfg n p span →
      Many (PostingP cfg o) p r postings →
      DirectiveP cfg o i r
        ⟨date, ⟨metadataOf lines head, span⟩,
          .transaction ⟨flag, strings.1, strings.2, postings.map (·.1)⟩⟩
        (headErrors head ++ lineErrors lines ++ postings.flatMap (·.2) ++ clashErrors lines head)
  | other {i j k l m n r : List Ranged} {date : Spanned Date} {keyword : Token} {v : DirectiveVariant}
      {es : List PErr} {head : List TagOrLink} {lines : List Metadatum} {span : Span} :
      At cfg DateP i j date → Word keyword j k → BodyP cfg o keyword k l v es →
      Many (TagOrLinkP cfg) l m head → EndOfLine m n → Many (LineP cfg o) n r lines → Covers cfg n r span →
      DirectiveP cfg o i r ⟨date, ⟨metadataOf lines head, span⟩, v⟩
        (es ++ headErrors head ++ lineErrors lines ++ clashErrors lines head)
  | custom {i j k l m n r : List Ranged} {date : Spanned Date} {type : Spanned Str}
      {values : List (Spanned MetaValue)} {lines : List Metadatum} {span : Span} :
      At cfg DateP i j date → Word .custom j k → At cfg StringP k l type →
      Many (At cfg (MetaValueP cfg o)) l m values → EndOfLine m n → Many (LineP cfg o) n r lines →
      Covers cfg n r span →
      DirectiveP cfg o i r ⟨date, ⟨lineMetadata lines, span⟩, .custom type values⟩ (lineErrors lines)

/-! ### Pragmas -/

/-- `keyword x`, of which the location includes the keyword. -/
def KeywordP {α : Type} (keyword : Token) (p : Phrase α) : Phrase α := fun i r a => ∃ j, Word keyword i j ∧ p j r a

/-- A key and a colon. -/
def KeyColonP : Phrase Str := fun i r k => ∃ j, KeyP i j k ∧ Word .colon j r

/-- An option with a name and a value: what it becomes, the options from then on, and the errors. -/
inductive OptionP (cfg : ParseCfg) (o : ParserOptions) (name value : Spanned Str) :
    BOption → ParserOptions → List PErr → Prop
  | unknown : BOption.parse cfg.decimal name value cfg.path = .err .unknownOption →
      OptionP cfg o name value BOption.ignored o [.option .unknownOption name.span]
  | badValue {e : BadValue} : BOption.parse cfg.decimal name value cfg.path = .err (.badValue e) →
      OptionP cfg o name value BOption.ignored o [.option (.badValue e) value.span]
  | accepted {opt opt' : BOption} {o' : ParserOptions} :
      BOption.parse cfg.decimal name value cfg.path = .ok opt → o.assimilate opt = (.ok opt', o') →
      OptionP cfg o name value opt' o' []
  | refused {opt : BOption} {o' : ParserOptions} {t : AccountType} :
      BOption.parse cfg.decimal name value cfg.path = .ok opt → o.assimilate opt = (.err t, o') →
      OptionP cfg o name value BOption.ignored o' [.accountTypeName t value.span]

/-- A pragma without the end of its line; then the options from then on, and the errors. -/
inductive PragmaP (cfg : ParseCfg) (o : ParserOptions) : List Ranged → List Ranged → Pragma → ParserOptions →
    List PErr → Prop
  | pushtag {i r : List Ranged} {t : Spanned Str} :
      At cfg (KeywordP .pushtag TagP) i r t → PragmaP cfg o i r (.pushtag t) o []
  | poptag {i r : List Ranged} {t : Spanned Str} :
      At cfg (KeywordP .poptag TagP) i r t → PragmaP cfg o i r (.poptag t) o []
  | pushmeta {i j r : List Ranged} {kv : MetaKeyValue} :
      Word .pushmeta i j → KeyValueP cfg o j r kv → PragmaP cfg o i r (.pushmeta kv) o []
  | popmeta {i r : List Ranged} {k : Spanned Str} :
      At cfg (KeywordP .popmeta KeyColonP) i r k → PragmaP cfg o i r (.popmeta k) o []
  | include {i j r : List Ranged} {s : Spanned Str} :
      Word .include i j → At cfg StringP j r s → PragmaP cfg o i r (.include s) o []
  | option {i j k r : List Ranged} {name value : Spanned Str} {opt : BOption} {o' : ParserOptions} {es : List PErr} :
      Word .option i j → At cfg StringP j k name → At cfg StringP k r value → OptionP cfg o name value opt o' es →
      PragmaP cfg o i r (.option opt) o' es
  | plugin {i j k r : List Ranged} {name : Spanned Str} {config : Option (Spanned Str)} :
      Word .plugin i j → At cfg StringP j k name → Maybe (At cfg StringP) k r config →
      PragmaP cfg o i r (.plugin ⟨name, config⟩) o []

/-! ### Files -/

/-- A declaration; then the options from then on, and the errors. -/
inductive DeclarationP (cfg : ParseCfg) (o : ParserOptions) : List Ranged → List Ranged → Spanned Declaration →
    ParserOptions → List PErr → Prop
  | directive {i r : List Ranged} {d : Directive} {es : List PErr} {span : Span} :
      DirectiveP cfg o i r d es → Covers cfg i r span → DeclarationP cfg o i r ⟨.directive d, span⟩ o es
  | pragma {i j r : List Ranged} {p : Pragma} {o' : ParserOptions} {es : List PErr} {span : Span} :
      PragmaP cfg o i j p o' es → EndOfLine j r → Covers cfg i r span → DeclarationP cfg o i r ⟨.pragma p, span⟩ o' es

/-- The warnings for the strings among the tokens which have more lines than allowed. -/
def longStrings (cfg : ParseCfg) (o : ParserOptions) (run : List Ranged) : List Report :=
  run.filterMap (fun t =>
    match t.tok with
    | .stringLiteral s =>
      if s.count '\n' + 1 > o.maxlines then
        some (Grammar.longStringWarning o (s.count '\n' + 1) ⟨cfg.source, t.start, t.stop⟩)
      else none
    | _ => none)

/-- A file is declarations, one after the other; then the options afterwards, the errors and the warnings. -/
inductive FileP (cfg : ParseCfg) : ParserOptions → List Ranged → List (Spanned Declaration) → ParserOptions →
    List PErr → List Report → Prop
  | nil {o : ParserOptions} : FileP cfg o [] [] o [] []
  | cons {o o' o'' : ParserOptions} {run r : List Ranged} {d : Spanned Declaration} {ds : List (Spanned Declaration)}
      {es es' : List PErr} {ws' : List Report} :
      DeclarationP cfg o (run ++ r) r d o' es → FileP cfg o' r ds o'' es' ws' →
      FileP cfg o (run ++ r) (d :: ds) o'' (es ++ es') (longStrings cfg o run ++ ws')

end

/-! ### Words for the properties of files -/

/-- The strings at the front of the tokens, with their locations. -/
def leadingStrings (cfg : ParseCfg) : List Ranged → List (Spanned Str)
  | ⟨.stringLiteral s, x, y⟩ :: r => ⟨s, ⟨cfg.source, x, y⟩⟩ :: leadingStrings cfg r
  | _ => []

/-- A string unless it is empty, or nothing. -/
def unlessEmpty (s : Spanned Str) (x : Option (Spanned Str)) : Prop := if s.item = [] then x = none else x = some s

/-- Payee and narration by position: one string is the narration, of two the first is the payee. -/
def ByPosition : List (Spanned Str) → Option (Spanned Str) → Option (Spanned Str) → Prop
  | [], payee, narration => payee = none ∧ narration = none
  | [s], payee, narration => payee = none ∧ unlessEmpty s narration
  | [s, t], payee, narration => unlessEmpty s payee ∧ unlessEmpty t narration
  | _, _, _ => False

/-- `out` has the first of all elements of each name, and each once. -/
def FirstOfEach {α κ : Type} [DecidableEq κ] (name : α → κ) (out all : List α) : Prop :=
  (out.map name).Nodup ∧ ∀ x, x ∈ out ↔ all.find? (fun y => decide (name y = name x)) = some x

/-- How many reports there are of a duplicate of the kind and name. -/
def reportsOf (kind : DupKind) (name : Str) (es : List PErr) : Nat :=
  es.countP (fun e => match e with | .duplicate k n _ => decide (k = kind ∧ n = name) | _ => false)

/-- The tags, links and keys in the first line of a directive and in its metadata lines. -/
def written (head : List TagOrLink) (lines : List Metadatum) : List (DupKind × Spanned Str) :=
  head.map (fun | .inl t => (.tag, t) | .inr l => (.link, l)) ++
    lines.map (fun | .keyValue kv => (.key, kv.item.key) | .tag t => (.tag, t) | .link l => (.link, l))

/-- How often the kind and name is written. -/
def timesWritten (kind : DupKind) (name : Str) (w : List (DupKind × Spanned Str)) : Nat :=
  w.countP (fun x => decide (x.1 = kind ∧ x.2.item = name))

/-- The report is about something written, and there. -/
def AboutWritten (w : List (DupKind × Spanned Str)) (e : PErr) : Prop :=
  ∃ x ∈ w, e = .duplicate x.1 x.2.item x.2.span

/-- The tokens of the first line. -/
def firstLine (i : List Ranged) : List Ranged := i.takeWhile (fun t => decide (t.tok ≠ .eol))

/-- The tokens after the first line. -/
def afterFirstLine (i : List Ranged) : List Ranged := (i.dropWhile (fun t => decide (t.tok ≠ .eol))).tail

/-- The tags and links in the first line of a directive; those of a `custom` directive are its values. -/
def tagsAndLinks (cfg : ParseCfg) (d : DirectiveVariant) (line : List Ranged) : List TagOrLink :=
  match d with
  | .custom _ _ => []
  | _ => line.filterMap (fun t =>
      match t.tok with
      | .tag n => some (.inl ⟨n, ⟨cfg.source, t.start, t.stop⟩⟩)
      | .link n => some (.inr ⟨n, ⟨cfg.source, t.start, t.stop⟩⟩)
      | _ => none)

/-- Currencies, each after a comma. -/
def moreCurrencies (cfg : ParseCfg) : List Ranged → List (Spanned Str)
  | ⟨.comma, _, _⟩ :: ⟨.currency c, x, y⟩ :: r => ⟨c, ⟨cfg.source, x, y⟩⟩ :: moreCurrencies cfg r
  | _ => []

/-- The currencies at the front of the tokens, with commas in between. -/
def listedCurrencies (cfg : ParseCfg) : List Ranged → List (Spanned Str)
  | ⟨.currency c, x, y⟩ :: r => ⟨c, ⟨cfg.source, x, y⟩⟩ :: moreCurrencies cfg r
  | _ => []

/-- Reports not about the metadata of the directive itself: of the metadata of postings, between `i` and `r`, and
of currencies. -/
def OtherReports [Unicode] [DecOps] (cfg : ParseCfg) (o : ParserOptions) (i r : List Ranged) (d : DirectiveVariant)
    (es : List PErr) : Prop :=
  match d with
  | .transaction t => ∃ ps, Many (PostingP cfg o) i r ps ∧ t.postings = ps.map (·.1) ∧ es = ps.flatMap (·.2)
  | .open _ _ _ => ∀ e ∈ es, ∃ n span, e = .duplicate .currency n span
  | _ => es = []

/-- The location of some tokens: from the start of the first to the end of the last. -/
def SpanOf (source : Nat) (run : List Ranged) (span : Span) : Prop :=
  ∃ first last, run.head? = some first ∧ run.getLast? = some last ∧ span = ⟨source, first.start, last.stop⟩

/-! ### Long strings -/

/-- The locations of the strings of more than so many lines. -/
def tooLong (source limit : Nat) (run : List Ranged) : List Span :=
  run.filterMap (fun t =>
    match t.tok with
    | .stringLiteral s => if s.count '\n' + 1 > limit then some ⟨source, t.start, t.stop⟩ else none
    | _ => none)

/-- The tokens set the limit: `option "long_string_maxlines" "100"`. -/
def SetsLimit (run : List Ranged) (n : Nat) : Prop :=
  ∃ v rest, run.map (·.tok) =
      .option :: .stringLiteral "long_string_maxlines".toList :: .stringLiteral v :: rest ∧ UsizeText v n

/-- Strings which are too long in declarations, the limit at first being as given. -/
inductive TooLong (source : Nat) : Nat → List (List Ranged) → List Span → Prop
  | nil {limit : Nat} : TooLong source limit [] []
  | sets {limit n : Nat} {run : List Ranged} {runs : List (List Ranged)} {spans : List Span} :
      SetsLimit run n → TooLong source n runs spans →
      TooLong source limit (run :: runs) (tooLong source limit run ++ spans)
  | keeps {limit : Nat} {run : List Ranged} {runs : List (List Ranged)} {spans : List Span} :
      (∀ n, ¬ SetsLimit run n) → TooLong source limit runs spans →
      TooLong source limit (run :: runs) (tooLong source limit run ++ spans)

end Lima.Spec
