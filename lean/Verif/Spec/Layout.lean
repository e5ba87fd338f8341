import Verif.Model.Parse

/-!
# Specification of what layout does not change

Layout is where things stand: blanks, line ends, comments.  It shows in the result of a parse as locations.  Here:
what it means that two results are the same but for locations.
-/

namespace Lima.Spec

/-- A type of things with locations in them: `move f` replaces every location by another one. -/
class Places (α : Type) where
  move : (Span → Span) → α → α

export Places (move)

instance : Places Span := ⟨fun f s => f s⟩

/-! ### Without locations -/

instance (priority := high) : Places (List Char) := ⟨fun _ x => x⟩
instance : Places Unit := ⟨fun _ x => x⟩
instance : Places Bool := ⟨fun _ x => x⟩
instance : Places Nat := ⟨fun _ x => x⟩
instance : Places Date := ⟨fun _ x => x⟩
instance : Places Dec := ⟨fun _ x => x⟩
instance : Places Flag := ⟨fun _ x => x⟩
instance : Places Booking := ⟨fun _ x => x⟩
instance : Places PluginProcessingMode := ⟨fun _ x => x⟩
instance : Places AccountType := ⟨fun _ x => x⟩
instance : Places Account := ⟨fun _ x => x⟩
instance : Places Expr := ⟨fun _ x => x⟩
instance : Places (Expr → Expr → Expr) := ⟨fun _ x => x⟩
instance : Places ExprValue := ⟨fun _ x => x⟩
instance : Places CompoundExprValue := ⟨fun _ x => x⟩
instance : Places ScopedExprValue := ⟨fun _ x => x⟩
instance : Places CompoundAmount := ⟨fun _ x => x⟩
instance : Places PriceSpec := ⟨fun _ x => x⟩
instance : Places SimpleValue := ⟨fun _ x => x⟩
instance : Places CostComp := ⟨fun _ x => x⟩
instance : Places CurrencyOrAny := ⟨fun _ x => x⟩
instance : Places OptVariant := ⟨fun _ x => x⟩
instance : Places Path := ⟨fun _ x => x⟩

/-! ### Containers -/

instance {α : Type} [Places α] : Places (Spanned α) := ⟨fun f x => ⟨move f x.item, f x.span⟩⟩
instance {α : Type} [Places α] : Places (Option α) := ⟨fun f x => x.map (move f)⟩
instance {α : Type} [Places α] : Places (List α) := ⟨fun f x => x.map (move f)⟩
instance {α β : Type} [Places α] [Places β] : Places (α × β) := ⟨fun f x => (move f x.1, move f x.2)⟩
instance {α β : Type} [Places α] [Places β] : Places (α ⊕ β) := ⟨fun f x =>
  match x with
  | .inl a => .inl (move f a)
  | .inr b => .inr (move f b)⟩
instance {ε α : Type} [Places ε] [Places α] : Places (Res ε α) := ⟨fun f x =>
  match x with
  | .ok a => .ok (move f a)
  | .err e => .err (move f e)
  | .panic => .panic⟩

/-! ### Syntax -/

instance : Places Amount := ⟨fun f x => ⟨move f x.number, move f x.currency⟩⟩
instance : Places AmountWithTolerance := ⟨fun f x => ⟨move f x.amount, move f x.tolerance⟩⟩
instance : Places CostSpec := ⟨fun f x =>
  ⟨move f x.perUnit, move f x.total, move f x.currency, move f x.date, move f x.label, x.merge⟩⟩
instance : Places MetaValue := ⟨fun f x =>
  match x with
  | .simple v => .simple v
  | .amount a => .amount (move f a)⟩
instance : Places MetaKeyValue := ⟨fun f x => ⟨move f x.key, move f x.value⟩⟩
instance : Places Metadata := ⟨fun f x => ⟨move f x.keyValues, move f x.tags, move f x.links⟩⟩
instance : Places Posting := ⟨fun f x => ⟨move f x.flag, move f x.account, move f x.amount, move f x.currency,
  move f x.costSpec, move f x.priceAnnotation, move f x.metadata⟩⟩
instance : Places Transaction := ⟨fun f x => ⟨move f x.flag, move f x.payee, move f x.narration, move f x.postings⟩⟩
instance : Places DirectiveVariant := ⟨fun f x =>
  match x with
  | .transaction t => .transaction (move f t)
  | .price c a => .price (move f c) (move f a)
  | .balance a t => .balance (move f a) (move f t)
  | .open a cs b => .open (move f a) (move f cs) (move f b)
  | .close a => .close (move f a)
  | .commodity c => .commodity (move f c)
  | .pad a b => .pad (move f a) (move f b)
  | .document a p => .document (move f a) (move f p)
  | .note a s => .note (move f a) (move f s)
  | .event t d => .event (move f t) (move f d)
  | .query n c => .query (move f n) (move f c)
  | .custom t vs => .custom (move f t) (move f vs)⟩
instance : Places Directive := ⟨fun f x => ⟨move f x.date, move f x.metadata, move f x.variant⟩⟩
instance : Places Plugin := ⟨fun f x => ⟨move f x.moduleName, move f x.config⟩⟩

/-! ### Options -/

instance : Places OptSource := ⟨fun f x => ⟨f x.name, f x.value⟩⟩
instance {α : Type} [Places α] : Places (Sourced α) := ⟨fun f x => ⟨move f x.spanned, move f x.source⟩⟩

/-- An option which was refused has the location of nothing, which is no location. -/
instance : Places BOption := ⟨fun f x =>
  match x.variant with
  | .ignored => x
  | v => ⟨move f x.source, v⟩⟩
instance : Places ParserOptions := ⟨fun f x => ⟨x.accountTypeNames, move f x.longStringMaxlines⟩⟩
instance : Places Options := ⟨fun f x => {
  title := move f x.title
  accountPreviousBalances := move f x.accountPreviousBalances
  accountPreviousEarnings := move f x.accountPreviousEarnings
  accountPreviousConversions := move f x.accountPreviousConversions
  accountCurrentEarnings := move f x.accountCurrentEarnings
  accountCurrentConversions := move f x.accountCurrentConversions
  accountUnrealizedGains := move f x.accountUnrealizedGains
  accountRounding := move f x.accountRounding
  conversionCurrency := move f x.conversionCurrency
  inferredToleranceDefault := move f x.inferredToleranceDefault
  inferredToleranceMultiplier := move f x.inferredToleranceMultiplier
  inferToleranceFromCost := move f x.inferToleranceFromCost
  documents := move f x.documents
  operatingCurrency := move f x.operatingCurrency
  renderCommas := move f x.renderCommas
  bookingMethod := move f x.bookingMethod
  pluginProcessingMode := move f x.pluginProcessingMode
  parserOptions := move f x.parserOptions }⟩

/-! ### Declarations and results -/

instance : Places Pragma := ⟨fun f x =>
  match x with
  | .pushtag t => .pushtag (move f t)
  | .poptag t => .poptag (move f t)
  | .pushmeta kv => .pushmeta (move f kv)
  | .popmeta k => .popmeta (move f k)
  | .include p => .include (move f p)
  | .option o => .option (move f o)
  | .plugin p => .plugin (move f p)⟩
instance : Places Declaration := ⟨fun f x =>
  match x with
  | .directive d => .directive (move f d)
  | .pragma p => .pragma (move f p)⟩
instance : Places Report := ⟨fun f x => ⟨x.message, x.reason, f x.span, move f x.contexts, move f x.related⟩⟩
instance : Places PErr := ⟨fun f x =>
  match x with
  | .duplicate kind name span => .duplicate kind name (f span)
  | .option e span => .option e (f span)
  | .accountTypeName t span => .accountTypeName t (f span)
  | .syntax => .syntax⟩
instance : Places Fault := ⟨fun f x =>
  match x with
  | .parsing source e => .parsing source (move f e)
  | .pragma e => .pragma (move f e)⟩
instance : Places Grammar.FileResult := ⟨fun f x =>
  ⟨move f x.declarations, move f x.errors, move f x.opts, move f x.warns⟩⟩
instance : Places ParseSuccess := ⟨fun f x =>
  ⟨move f x.directives, move f x.options, move f x.plugins, move f x.warnings⟩⟩
instance : Places ParseError := ⟨fun f x => ⟨move f x.errors, move f x.warnings⟩⟩

/-- The same but for locations. -/
def SameButPlaces {α : Type} [Places α] (a b : α) : Prop :=
  move (fun _ => ⟨0, 0, 0⟩) a = move (fun _ => ⟨0, 0, 0⟩) b

/-- The same tokens, wherever they stand. -/
def SameTokens (a b : List Ranged) : Prop := a.map (·.tok) = b.map (·.tok)

/-- Different keys are at different places. -/
def KeysApart (toks : List Ranged) : Prop :=
  ∀ (i j : Nat) (a b : Ranged) (k l : Str), toks[i]? = some a → toks[j]? = some b → a.tok = .key k → b.tok = .key l →
    a.start = b.start → a.stop = b.stop → i = j

/-! ### The same files -/

/-- The same included file, but for the layout of its text; `tokens` and `tokens'` are the tokens of a text. -/
inductive SameSource (tokens tokens' : Str → List Ranged) : IncludedSource → IncludedSource → Prop
  | content {id : Nat} {text text' : Str} {indices indices' : List Nat} (h : SameTokens (tokens text) (tokens' text')) :
      SameSource tokens tokens' (.content id text indices) (.content id text' indices')
  | error (e : Str) : SameSource tokens tokens' (.error e) (.error e)
  | duplicate : SameSource tokens tokens' .duplicate .duplicate

/-- The same sources, but for the layout of their texts. -/
structure SameSources (tokens tokens' : Str → List Ranged) (s s' : Sources) : Prop where
  rootPath : s'.rootPath = s.rootPath
  rootContent : SameTokens (tokens s.rootContent) (tokens' s'.rootContent)
  globs : s'.globs = s.globs
  content : List.Forall₂ (fun e e' => e'.1 = e.1 ∧ SameSource tokens tokens' e.2 e'.2) s.content s'.content
  ids : s'.ids = s.ids

/-- The same file, or none. -/
inductive SameFile (tokens tokens' : Str → List Ranged) : Except Str Str → Except Str Str → Prop
  | ok {text text' : Str} (h : SameTokens (tokens text) (tokens' text')) : SameFile tokens tokens' (.ok text) (.ok text')
  | error (e : Str) : SameFile tokens tokens' (.error e) (.error e)

/-- The same files, but for the layout of their texts. -/
structure SameFileSystem (tokens tokens' : Str → List Ranged) (fs fs' : FileSystem) : Prop where
  glob : fs'.glob = fs.glob
  canonicalize : fs'.canonicalize = fs.canonicalize
  read : ∀ p, SameFile tokens tokens' (fs.read p) (fs'.read p)

/-- The parsers are given the same, but that what is between tokens may be located elsewhere, and that the texts of
the two files systems need not be lexed the same way.  How an include context is worded does not depend on
locations. -/
structure SameEnv (env env' : ParseEnv) : Prop where
  decimal : env'.decimal = env.decimal
  canonicalize : env'.canonicalize = env.canonicalize
  context : ∀ (tags tags' : TagStacks) (metas metas' : MetaStacks), SameButPlaces tags tags' → SameButPlaces metas metas' →
    env'.context tags' metas' = env.context tags metas

end Lima.Spec
