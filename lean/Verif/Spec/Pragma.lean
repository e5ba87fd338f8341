import Verif.Model.Pragma
import Verif.Model.Decimal
import Verif.Spec.Options

/-!
# Specification of pragma processing (C02-C07)

The declarations of all files are spliced into one list of events; tags, metadata, options, plugins and errors
are then functions of that list.
-/

namespace Lima.Spec
open Lima

/-- A declaration met in a file; for an include, with the files that are opened because of it. -/
structure Event where
  path : Option Path
  decl : Spanned Declaration
  opened : List Path

/-! ### The order of events -/

/-- The files among `paths` that have not been visited, each once. -/
def fresh (files : Option Path → Option (List (Spanned Declaration))) :
    List (Option Path) → List Path → List Path
  | _, [] => []
  | visited, p :: ps =>
    if (files (some p)).isSome ∧ some p ∉ visited then p :: fresh files (some p :: visited) ps
    else fresh files visited ps

/-- Something to splice: the rest of the declarations of a file, or some files one after the other. -/
inductive Task where
  | body (path : Option Path) (declarations : List (Spanned Declaration))
  | files (paths : List Path)

/-- `Splice files expand visited task events visited'`: the events of the task, and the files visited when it
is done.  At an include, the files it expands to that were not visited follow, the last one first; the
declarations after the include come after them. -/
inductive Splice (files : Option Path → Option (List (Spanned Declaration)))
    (expand : Option Path → List Char → List Path) :
    List (Option Path) → Task → List Event → List (Option Path) → Prop
  | nil (v p) : Splice files expand v (.body p []) [] v
  | plain (v v' p d ds es) (h : ∀ g, d.item ≠ .pragma (.include g))
      (rest : Splice files expand v (.body p ds) es v') :
      Splice files expand v (.body p (d :: ds)) (⟨p, d, []⟩ :: es) v'
  | include (v v1 v2 p d g ds es es') (h : d.item = .pragma (.include g))
      (included : Splice files expand ((fresh files v (expand p g.item)).map some ++ v)
        (.files (fresh files v (expand p g.item)).reverse) es v1)
      (rest : Splice files expand v1 (.body p ds) es' v2) :
      Splice files expand v (.body p (d :: ds)) (⟨p, d, fresh files v (expand p g.item)⟩ :: (es ++ es')) v2
  | none (v) : Splice files expand v (.files []) [] v
  | file (v v1 v2 q qs ds es es') (h : files (some q) = some ds)
      (body : Splice files expand v (.body (some q) ds) es v1)
      (rest : Splice files expand v1 (.files qs) es' v2) :
      Splice files expand v (.files (q :: qs)) (es ++ es') v2

/-- The paths an include stands for. -/
def expansion (globs : Path → Option IncludedGlob) (path : Option Path) (relGlob : List Char) : List Path :=
  match globs (resolveIncludedPath path (Path.ofStr relGlob)) with
  | some (.expanded paths) => paths
  | _ => []

/-- The events of all files, starting from the root file. -/
def History (env : PragmaEnv) (root : Option Path) (parsed : List (Option Path × List (Spanned Declaration)))
    (es : List Event) (visited : List (Option Path)) : Prop :=
  ∃ decls, AMap.get parsed root = some decls ∧
    Splice (AMap.get parsed) (expansion (AMap.get env.globs)) [root] (.body root decls) es visited

/-- Every include of a file has been expanded when the sources were read. -/
def AllExpanded (env : PragmaEnv) (parsed : List (Option Path × List (Spanned Declaration))) : Prop :=
  ∀ p ds, AMap.get parsed p = some ds → ∀ d ∈ ds, ∀ g, d.item = .pragma (.include g) →
    AMap.get env.globs (resolveIncludedPath p (Path.ofStr g.item)) ≠ none

/-! ### Open pushes -/

/-- The pushes of a tag still open, the innermost first. -/
def openTags (t : List Char) (es : List Event) : List (Spanned (List Char)) :=
  es.foldl (fun stack e =>
    match e.decl.item with
    | .pragma (.pushtag x) => if x.item = t then x :: stack else stack
    | .pragma (.poptag x) => if x.item = t then stack.tail else stack
    | _ => stack) []

/-- The pushes of a metadata key still open, the innermost first: location of the key, and value. -/
def openMetas (k : List Char) (es : List Event) : List (Span × Spanned MetaValue) :=
  es.foldl (fun stack e =>
    match e.decl.item with
    | .pragma (.pushmeta kv) => if kv.key.item = k then (kv.key.span, kv.value) :: stack else stack
    | .pragma (.popmeta x) => if x.item = k then stack.tail else stack
    | _ => stack) []

/-- Expressions written alike, except for zeros at the end of decimals. -/
inductive SameExpr : Expr → Expr → Prop
  | value {a b : Dec} : a.val = b.val → SameExpr (.value a) (.value b)
  | add {a b c d : Expr} : SameExpr a c → SameExpr b d → SameExpr (.add a b) (.add c d)
  | sub {a b c d : Expr} : SameExpr a c → SameExpr b d → SameExpr (.sub a b) (.sub c d)
  | mul {a b c d : Expr} : SameExpr a c → SameExpr b d → SameExpr (.mul a b) (.mul c d)
  | div {a b c d : Expr} : SameExpr a c → SameExpr b d → SameExpr (.div a b) (.div c d)
  | neg {a b : Expr} : SameExpr a b → SameExpr (.neg a) (.neg b)
  | paren {a b : Expr} : SameExpr a b → SameExpr (.paren a) (.paren b)

def SameExprValue (a b : ExprValue) : Prop := a.value.val = b.value.val ∧ SameExpr a.expr b.expr

/-- Metadata values written alike, except for zeros at the end of decimals; wherever they are. -/
inductive SameMetaValue : MetaValue → MetaValue → Prop
  | same {v : SimpleValue} : SameMetaValue (.simple v) (.simple v)
  | expr {a b : ExprValue} : SameExprValue a b → SameMetaValue (.simple (.expr a)) (.simple (.expr b))
  | amount {a b : Amount} : SameExprValue a.number.item b.number.item → a.currency.item = b.currency.item →
      SameMetaValue (.amount a) (.amount b)

/-- The same pushes are open after two histories. -/
def SameContext (es es' : List Event) : Prop :=
  (∀ t, (openTags t es).map (·.item) = (openTags t es').map (·.item)) ∧
  (∀ k, (openMetas k es).length = (openMetas k es').length ∧
    ∀ x ∈ (openMetas k es).zip (openMetas k es'), x.1.1 = x.2.1 ∧ SameMetaValue x.1.2.item x.2.2.item)

/-- Nesting of the pushes and pops of one tag or key, told apart by `isPush` and `isPop`: never more pops than
pushes from the start, and as many in the end. -/
def Balanced (isPush isPop : Event → Bool) (es : List Event) : Prop :=
  es.countP isPush = es.countP isPop ∧
  ∀ q r, es = q ++ r → q.countP isPop ≤ q.countP isPush

def pushesTag (t : List Char) (e : Event) : Bool :=
  match e.decl.item with
  | .pragma (.pushtag x) => x.item == t
  | _ => false

def popsTag (t : List Char) (e : Event) : Bool :=
  match e.decl.item with
  | .pragma (.poptag x) => x.item == t
  | _ => false

def pushesMeta (k : List Char) (e : Event) : Bool :=
  match e.decl.item with
  | .pragma (.pushmeta kv) => kv.key.item == k
  | _ => false

def popsMeta (k : List Char) (e : Event) : Bool :=
  match e.decl.item with
  | .pragma (.popmeta x) => x.item == k
  | _ => false

/-- Locations of the tags popped without being open. -/
def strayTagPops : List Event → List Event → List Span
  | _, [] => []
  | pre, e :: es =>
    (match e.decl.item with
      | .pragma (.poptag x) => if openTags x.item pre = [] then [x.span] else []
      | _ => []) ++ strayTagPops (pre ++ [e]) es

/-- Locations of the keys popped without being open. -/
def strayMetaPops : List Event → List Event → List Span
  | _, [] => []
  | pre, e :: es =>
    (match e.decl.item with
      | .pragma (.popmeta x) => if openMetas x.item pre = [] then [x.span] else []
      | _ => []) ++ strayMetaPops (pre ++ [e]) es

/-! ### Files reached -/

/-- The files reached from the root by includes. -/
inductive Reached (files : Option Path → Option (List (Spanned Declaration)))
    (expand : Option Path → List Char → List Path) (root : Option Path) : Option Path → Prop
  | root : Reached files expand root root
  | step (p ds d g q) (h : Reached files expand root p) (hp : files p = some ds) (hd : d ∈ ds)
      (hg : d.item = .pragma (.include g)) (hq : q ∈ expand p g.item) (hf : (files (some q)).isSome) :
      Reached files expand root (some q)

/-! ### Reports -/

/-- The files opened, each with the history before the include. -/
def openings : List Event → List Event → List (Path × List Event)
  | _, [] => []
  | pre, e :: es => e.opened.map (·, pre) ++ openings (pre ++ [e]) es

/-- A file is included again harmlessly: when last opened, the same pushes were open. -/
def Harmless (canonicalize : Path → Option Path) (opened : List (Path × List Event)) (pre : List Event)
    (p : Path) : Prop :=
  ∃ c, canonicalize p = some c ∧
    ∃ before o after, opened = before ++ o :: after ∧ canonicalize o.1 = some c ∧
      (∀ x ∈ after, canonicalize x.1 ≠ some c) ∧ SameContext o.2 pre

open Classical in
/-- Message and location of what is reported about a path that is included but not opened. -/
noncomputable def notOpenedReport (env : PragmaEnv) (opened : List (Path × List Event)) (pre : List Event)
    (span : Span) (p : Path) : List (List Char × Span) :=
  if ∃ e, AMap.get env.errorPaths (some p) = some e then [("can't read file".toList, span)]
  else if Harmless env.canonicalize opened pre p then []
  else [("duplicate include".toList, span)]

/-- What is reported about the paths an include stands for; `toOpen` are those that are opened. -/
noncomputable def pathReports (env : PragmaEnv) (pre : List Event) (span : Span) :
    List (Path × List Event) → List Path → List Path → List (List Char × Span)
  | _, _, [] => []
  | opened, toOpen, p :: ps =>
    if p ∈ toOpen then pathReports env pre span (opened ++ [(p, pre)]) (toOpen.erase p) ps
    else notOpenedReport env opened pre span p ++ pathReports env pre span opened toOpen ps

/-- Locations of the errors with a given message. -/
def located (message : List Char) (errors : List Report) : List Span :=
  (errors.filter (fun r => decide (r.message = message))).map (·.span)

/-- The option pragmas of a history. -/
def optionHistory (es : List Event) : List BOption :=
  es.filterMap (fun e => match e.decl.item with
    | .pragma (.option o) => some o
    | _ => none)

/-- Message and location of what is reported at an event, after the history `pre`. -/
noncomputable def reports (env : PragmaEnv) (p : ParserOptions) (pre : List Event) (e : Event) :
    List (List Char × Span) :=
  match e.decl.item with
  | .pragma (.poptag x) => if openTags x.item pre = [] then [("invalid poptag".toList, x.span)] else []
  | .pragma (.popmeta x) => if openMetas x.item pre = [] then [("invalid popmeta".toList, x.span)] else []
  | .pragma (.option o) =>
    (((optionsAfter p (optionHistory pre)).assimilate o).2.map (fun r => (r.message, r.span))).toList
  | .pragma (.include g) =>
    match AMap.get env.globs (resolveIncludedPath e.path (Path.ofStr g.item)) with
    | some (.expanded []) => [("include failed".toList, g.span)]
    | some (.expanded paths) => pathReports env pre g.span (openings [] pre) e.opened paths
    | some (.error _) => [("can't expand glob".toList, g.span)]
    | none => []
  | _ => []

/-- All reports of a history, in order. -/
noncomputable def allReports (env : PragmaEnv) (p : ParserOptions) :
    List Event → List Event → List (List Char × Span)
  | _, [] => []
  | pre, e :: es => reports env p pre e ++ allReports env p (pre ++ [e]) es

/-! ### Directives -/

/-- The directive met at an event, with its location. -/
def directiveOf (e : Event) : Option (Spanned Directive) :=
  match e.decl.item with
  | .directive d => some ⟨d, e.decl.span⟩
  | _ => none

/-- The directives of a history, in order. -/
def directives (es : List Event) : List (Spanned Directive) := es.filterMap directiveOf

end Lima.Spec
