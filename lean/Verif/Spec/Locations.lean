import Verif.Model.Parse
import Verif.Spec.Grammar
import Verif.Spec.Logos
import Verif.Spec.Parse

/-!
# The locations in what is parsed and in what is reported

For every kind of thing, the list of all locations in it, at any depth.
-/

namespace Lima.Spec

/-- A location, whether what is located may be written as nothing at all, and a word which is part of how it is
written.  What may be written as nothing is the metadata of a directive or posting, and a null value of a metadata
key, as in `key:`. -/
structure Location where
  span : Span
  mayBeBlank : Bool
  word : Option Token

/-- The location of something that is always written. -/
def here {α : Type} (x : Spanned α) : Location := ⟨x.span, false, none⟩

/-- The location of something written with a word of its own. -/
def reads {α : Type} (word : α → Token) (x : Spanned α) : Location := ⟨x.span, false, some (word x.item)⟩

/-- The location of something optional. -/
def hereOpt {α : Type} (x : Option (Spanned α)) : List Location := x.toList.map here

/-- The location of something optional, written with a word of its own. -/
def readsOpt {α : Type} (word : α → Token) (x : Option (Spanned α)) : List Location := x.toList.map (reads word)

/-- The word for an account. -/
def accountWord (a : Account) : Token := .account a.name

/-- The word for a value, if it is a name, a string or a date. -/
def valueWord : MetaValue → Option Token
  | .simple (.string s) => some (.stringLiteral s)
  | .simple (.currency c) => some (.currency c)
  | .simple (.account a) => some (accountWord a)
  | .simple (.tag t) => some (.tag t)
  | .simple (.link l) => some (.link l)
  | .simple (.date d) => some (.date d)
  | .simple (.bool true) => some .true_
  | .simple (.bool false) => some .false_
  | .simple .null => none
  | .simple (.expr _) => none
  | .amount a => some (.currency a.currency.item)

/-! ### Directives -/

def Locations.amount (a : Amount) : List Location := [here a.number, reads .currency a.currency]

def Locations.amountWithTolerance (a : AmountWithTolerance) : List Location :=
  here a.amount :: Locations.amount a.amount.item ++ readsOpt .number a.tolerance

def Locations.costSpec (c : CostSpec) : List Location :=
  hereOpt c.perUnit ++ hereOpt c.total ++ readsOpt .currency c.currency ++ readsOpt .date c.date ++
    readsOpt .stringLiteral c.label

def Locations.metaValue : MetaValue → List Location
  | .simple _ => []
  | .amount a => Locations.amount a

def Locations.keyValue (e : Spanned Str × Spanned MetaValue) : List Location :=
  reads .key e.1 :: ⟨e.2.span, decide (e.2.item = .simple .null), valueWord e.2.item⟩ ::
    Locations.metaValue e.2.item

def Locations.metadata (m : Metadata) : List Location :=
  m.keyValues.flatMap Locations.keyValue ++ m.tags.map (reads .tag) ++ m.links.map (reads .link)

def Locations.spannedMetadata (m : Spanned Metadata) : List Location :=
  ⟨m.span, true, none⟩ :: Locations.metadata m.item

def Locations.posting (p : Posting) : List Location :=
  hereOpt p.flag ++ [reads accountWord p.account] ++ hereOpt p.amount ++ readsOpt .currency p.currency ++
    p.costSpec.toList.flatMap (fun c => here c :: Locations.costSpec c.item) ++ hereOpt p.priceAnnotation ++
    Locations.spannedMetadata p.metadata

def Locations.transaction (t : Transaction) : List Location :=
  [here t.flag] ++ readsOpt .stringLiteral t.payee ++ readsOpt .stringLiteral t.narration ++
    t.postings.flatMap (fun p => here p :: Locations.posting p.item)

def Locations.variant : DirectiveVariant → List Location
  | .transaction t => Locations.transaction t
  | .price c a => [reads .currency c, here a] ++ Locations.amount a.item
  | .balance a t => [reads accountWord a, here t] ++ Locations.amountWithTolerance t.item
  | .open a cs b => [reads accountWord a] ++ cs.map (reads .currency) ++ hereOpt b
  | .close a => [reads accountWord a]
  | .commodity c => [reads .currency c]
  | .pad a s => [reads accountWord a, reads accountWord s]
  | .document a p => [reads accountWord a, reads .stringLiteral p]
  | .note a c => [reads accountWord a, reads .stringLiteral c]
  | .event t d => [reads .stringLiteral t, reads .stringLiteral d]
  | .query n c => [reads .stringLiteral n, reads .stringLiteral c]
  | .custom t vs => [reads .stringLiteral t] ++
      vs.flatMap (fun v => ⟨v.span, false, valueWord v.item⟩ :: Locations.metaValue v.item)

def Locations.directive (d : Directive) : List Location :=
  [reads .date d.date] ++ Locations.spannedMetadata d.metadata ++ Locations.variant d.variant

/-! ### Pragmas, plugins and options -/

def Locations.plugin (p : Plugin) : List Location := reads .stringLiteral p.moduleName :: readsOpt .stringLiteral p.config

/-- Name and value of an option. -/
def Locations.source (s : OptSource) : List Location := [⟨s.name, false, none⟩, ⟨s.value, false, none⟩]

/-- An option which was rejected has lost its location. -/
def Locations.option (o : BOption) : List Location :=
  match o.variant with
  | .ignored => []
  | _ => Locations.source o.source

def Locations.pragma : Pragma → List Location
  | .pushtag t => [reads .tag t]
  | .poptag t => [reads .tag t]
  | .pushmeta kv => Locations.keyValue (kv.key, kv.value)
  | .popmeta k => [reads .key k]
  | .include p => [reads .stringLiteral p]
  | .option o => Locations.option o
  | .plugin p => Locations.plugin p

def Locations.declaration : Declaration → List Location
  | .directive d => Locations.directive d
  | .pragma p => Locations.pragma p

/-- An option of the result, with the location of its value and of where it was set. -/
def Locations.sourced {α : Type} (o : Option (Sourced α)) : List Location :=
  o.toList.flatMap (fun s => here s.spanned :: Locations.source s.source)

def Locations.parserOptions (o : ParserOptions) : List Location := Locations.sourced o.longStringMaxlines

def Locations.options (o : Options) : List Location :=
  Locations.sourced o.title ++ Locations.sourced o.accountPreviousBalances ++
    Locations.sourced o.accountPreviousEarnings ++ Locations.sourced o.accountPreviousConversions ++
    Locations.sourced o.accountCurrentEarnings ++ Locations.sourced o.accountCurrentConversions ++
    Locations.sourced o.accountUnrealizedGains ++ Locations.sourced o.accountRounding ++
    Locations.sourced o.conversionCurrency ++
    o.inferredToleranceDefault.flatMap (fun e => Locations.source e.2.2) ++
    Locations.sourced o.inferredToleranceMultiplier ++ Locations.sourced o.inferToleranceFromCost ++
    o.documents.flatMap (fun e => Locations.source e.2) ++
    o.operatingCurrency.flatMap (fun e => Locations.source e.2) ++
    Locations.sourced o.renderCommas ++ Locations.sourced o.bookingMethod ++
    Locations.sourced o.pluginProcessingMode ++ Locations.parserOptions o.parserOptions

/-! ### Reports -/

/-- All locations in an error or warning: its own, those of its contexts and those it is related to. -/
def Locations.report (r : Report) : List Location :=
  ⟨r.span, false, none⟩ :: (r.contextsIter ++ r.relatedIter).map (fun c => ⟨c.2, false, none⟩)

/-- The word for something given twice. -/
def kindWord : DupKind → Str → Token
  | .tag => .tag
  | .link => .link
  | .key => .key
  | .currency => .currency

/-- The location in an error of the parser of a file; that of an unexpected token is not modelled. -/
def Locations.parserError : PErr → List Location
  | .duplicate kind name span => [⟨span, false, some (kindWord kind name)⟩]
  | .option _ span => [⟨span, false, none⟩]
  | .accountTypeName _ span => [⟨span, false, none⟩]
  | .syntax => []

def Locations.fault : Fault → List Location
  | .parsing _ e => Locations.parserError e
  | .pragma r => Locations.report r

/-! ### Where locations are -/

/-- The location is that of some of the tokens between `i` and `r`: from the start of the first to the end of the
last, and the word is one of them; or, for something which may be blank, that of an empty match somewhere between
them. -/
def LocatedIn (cfg : ParseCfg) (i r : List Ranged) (x : Location) : Prop :=
  (∃ before run after, i = before ++ run ++ after ++ r ∧ SpanOf cfg.source run x.span ∧
    ∀ t, x.word = some t → t ∈ run.map (·.tok)) ∨
  (x.mayBeBlank = true ∧ x.word = none ∧ ∃ before after, i = before ++ after ++ r ∧ x.span = cfg.emptySpan (after ++ r))

/-- The declaration is located at some of the tokens, and everything in it at some of these. -/
def DeclaredIn (cfg : ParseCfg) (toks : List Ranged) (d : Spanned Declaration) : Prop :=
  ∃ before run after, toks = before ++ run ++ after ∧ SpanOf cfg.source run d.span ∧
    ∀ x ∈ Locations.declaration d.item, LocatedIn cfg (run ++ after) after x

/-- The location is in one of the sources which were read. -/
def LocatedInSources (env : ParseEnv) (s : Sources) (x : Location) : Prop :=
  ∃ id path text, IsSource s id path text ∧ LocatedIn (env.cfg id path) (env.tokens text) [] x

/-! ### In texts -/

/-- One location is within the other. -/
def Inside (inner outer : Span) : Prop :=
  inner.source = outer.source ∧ outer.start ≤ inner.start ∧ inner.start ≤ inner.stop ∧ inner.stop ≤ outer.stop

/-- At the location there is a part of the text, and in it the word is written.  (Line ends and indents are not
words.) -/
def Shows (l : Logos) (text : Str) (x : Location) : Prop :=
  ∃ part, slice text x.span.start x.span.stop = some part ∧
    ∀ word, x.word = some word → word ≠ .eol → word ≠ .indent →
      ∃ before piece after, part = before ++ piece ++ after ∧ WrittenAs l word piece

/-- The location shows a part of the text of a source which was read; unless it may be blank, and then it may be
that of an empty match. -/
def ShownInSources (l : Logos) (env : ParseEnv) (s : Sources) (x : Location) : Prop :=
  ∃ id path text, IsSource s id path text ∧
    (x.span.source = id ∧ Shows l text x ∨
      x.mayBeBlank = true ∧ x.word = none ∧ ∃ rest, rest <:+ env.tokens text ∧ x.span = env.emptySpan id rest)

end Lima.Spec
