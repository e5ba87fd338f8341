import Verif.Model.Options
import Verif.Model.Sources

/-!
# Pragma processing, `/repo/src/lib.rs:305-668`

`PragmaProcessor` walks the declarations of all files, applies pragmas, splices included files and yields the
directives.  One call of `next` consumes declarations until it meets a directive; here `PragmaState.step`
consumes one declaration, and `PragmaState.collect` steps until the end, gathering the directives.
-/

namespace Lima

/-- `Pragma`, `/repo/src/types.rs:809-820`. -/
inductive Pragma where
  | pushtag (tag : Spanned Str)
  | poptag (tag : Spanned Str)
  | pushmeta (kv : MetaKeyValue)
  | popmeta (key : Spanned Str)
  | include (path : Spanned Str)
  | option (o : BOption)
  | plugin (p : Plugin)
deriving Repr, DecidableEq

/-- `Declaration`, `/repo/src/types.rs:720-723`. -/
inductive Declaration where
  | directive (d : Directive)
  | pragma (p : Pragma)
deriving Repr, DecidableEq

/-! ### Equality of metadata values, as derived in Rust: locations are ignored, decimals compare by value -/

/-- `PartialEq for Decimal`: numeric equality. -/
def Dec.eq (a b : Dec) : Bool := decide (a.mant * 10 ^ b.scale = b.mant * 10 ^ a.scale)

/-- Derived `PartialEq for Expr`, `/repo/src/types.rs:2251-2260`. -/
def Expr.eq : Expr → Expr → Bool
  | .value a, .value b => a.eq b
  | .add a b, .add c d => a.eq c && b.eq d
  | .sub a b, .sub c d => a.eq c && b.eq d
  | .mul a b, .mul c d => a.eq c && b.eq d
  | .div a b, .div c d => a.eq c && b.eq d
  | .neg a, .neg b => a.eq b
  | .paren a, .paren b => a.eq b
  | _, _ => false

/-- Derived `PartialEq for ExprValue`, `/repo/src/types.rs:2204-2208`. -/
def ExprValue.eq (a b : ExprValue) : Bool := a.value.eq b.value && a.expr.eq b.expr

/-- Derived `PartialEq for SimpleValue`, `/repo/src/types.rs:1912-1923`. -/
def SimpleValue.eq : SimpleValue → SimpleValue → Bool
  | .expr a, .expr b => a.eq b
  | a, b => decide (a = b)

/-- Derived `PartialEq for MetaValue`, `/repo/src/types.rs:1894-1898`, with that of `Amount`, `2367-2371`. -/
def MetaValue.eq : MetaValue → MetaValue → Bool
  | .simple a, .simple b => a.eq b
  | .amount a, .amount b => a.number.item.eq b.number.item && decide (a.currency.item = b.currency.item)
  | _, _ => false

/-! ### The state -/

/-- The tags pushed and not popped: the first push is the key, later ones are in the vector. -/
abbrev TagStacks := List (Spanned Str × List (Spanned Str))

/-- The metadata pushed and not popped: per key the location of the key and the value of each push. -/
abbrev MetaStacks := List (Spanned Str × List (Span × Spanned MetaValue))

/-- `IncludeContext`, `/repo/src/lib.rs:327-332`. -/
structure IncludeContext where
  tags : TagStacks
  metas : MetaStacks
  span : Span

/-- What the processor looks up but does not change: `included_globs`, `error_paths`, the file system's
`canonicalize`, and `fmt_include_context` (`/repo/src/lib.rs:334-359`), whose text depends on the iteration
order of hash maps. -/
structure PragmaEnv where
  globs : List (Path × IncludedGlob)
  errorPaths : List (Option Path × Str)
  canonicalize : Path → Option Path
  context : TagStacks → MetaStacks → Str

/-- The fields of `PragmaProcessor` (`/repo/src/lib.rs:309-325`) which do not determine what comes next. -/
structure PragmaData where
  includeBy : List (Path × IncludeContext)
  tags : TagStacks
  metas : MetaStacks
  options : Options
  plugins : List Plugin
  errors : List Report

/-- `PragmaProcessor`, `/repo/src/lib.rs:309-325`.  Its `warnings` always stay empty and are left out. -/
structure PragmaState where
  currentPath : Option Path
  current : List (Spanned Declaration)
  stacked : List (Option Path × List (Spanned Declaration))
  remaining : List (Option Path × List (Spanned Declaration))
  data : PragmaData

/-- Add an error. -/
def PragmaData.report (d : PragmaData) (e : Report) : PragmaData := { d with errors := d.errors ++ [e] }

/-! ### Pushing and popping -/

/-- `Pushtag`, `/repo/src/lib.rs:449-456`. -/
def PragmaData.pushtag (d : PragmaData) (tag : Spanned Str) : PragmaData :=
  match SMap.get d.tags tag.item with
  | some others => { d with tags := SMap.insert d.tags tag (others ++ [tag]) }
  | none => { d with tags := SMap.insert d.tags tag [] }

/-- `Poptag`, `/repo/src/lib.rs:457-482`. -/
def PragmaData.poptag (d : PragmaData) (tag : Spanned Str) : PragmaData :=
  match SMap.get d.tags tag.item with
  | some others =>
    if others.isEmpty then { d with tags := SMap.erase d.tags tag.item }
    else { d with tags := SMap.insert d.tags tag others.dropLast }
  | none => d.report (Report.new (str "invalid poptag") (str "missing corresponding pushtag") tag.span)

/-- `Pushmeta`, `/repo/src/lib.rs:483-491`. -/
def PragmaData.pushmeta (d : PragmaData) (kv : MetaKeyValue) : PragmaData :=
  match SMap.get d.metas kv.key.item with
  | some values => { d with metas := SMap.insert d.metas kv.key (values ++ [(kv.key.span, kv.value)]) }
  | none => { d with metas := SMap.insert d.metas kv.key [(kv.key.span, kv.value)] }

/-- `Popmeta`, `/repo/src/lib.rs:492-516`. -/
def PragmaData.popmeta (d : PragmaData) (key : Spanned Str) : PragmaData :=
  match SMap.get d.metas key.item with
  | some values =>
    if values.dropLast.isEmpty then { d with metas := SMap.erase d.metas key.item }
    else { d with metas := SMap.insert d.metas key values.dropLast }
  | none => d.report (Report.new (str "invalid popmeta") (str "missing corresponding pushmeta") key.span)

/-- `Option`, `/repo/src/lib.rs:644-648`. -/
def PragmaData.option (d : PragmaData) (o : BOption) : PragmaData :=
  let r := d.options.assimilate o
  match r.2 with
  | some e => PragmaData.report { d with options := r.1 } e
  | none => { d with options := r.1 }

/-! ### Directives -/

/-- `Metadata::augment_tags`, `/repo/src/parsers.rs:1261-1270`. -/
def augmentTags (own : List (Spanned Str)) (tags : TagStacks) : List (Spanned Str) :=
  tags.foldl (fun own e =>
    if SSet.has own e.1.item then own
    else SSet.insert own (match e.2.getLast? with
      | some t => t
      | none => e.1)) own

/-- `Metadata::augment_key_values`, `/repo/src/parsers.rs:1300-1318`; `none` is a panic. -/
def augmentKeyValues (own : List (Spanned Str × Spanned MetaValue)) (metas : MetaStacks) :
    Option (List (Spanned Str × Spanned MetaValue)) :=
  metas.foldlM (fun own e =>
    if SMap.has own e.1.item then some own
    else match e.2.getLast? with
      | some (keySpan, value) => some (SMap.insert own ⟨e.1.item, keySpan⟩ value)
      | none => none) own

/-- `Declaration::Directive`, `/repo/src/lib.rs:438-443`; `none` is a panic. -/
def PragmaData.augment (d : PragmaData) (dir : Directive) : Option Directive :=
  match augmentKeyValues dir.metadata.item.keyValues d.metas with
  | none => none
  | some keyValues =>
    let metadata := { dir.metadata.item with tags := augmentTags dir.metadata.item.tags d.tags, keyValues }
    some { dir with metadata := ⟨metadata, dir.metadata.span⟩ }

/-! ### Includes -/

/-- `PartialEq for HashMap`: as many entries, and each has an equal one. -/
def SMap.beq {κ ν : Type} [DecidableEq κ] (eq : ν → ν → Bool) (m n : List (Spanned κ × ν)) : Bool :=
  decide (m.length = n.length) && m.all (fun e =>
    match SMap.get n e.1.item with
    | some v => eq e.2 v
    | none => false)

/-- `PartialEq for Vec`. -/
def listEq {α : Type} (eq : α → α → Bool) : List α → List α → Bool
  | [], [] => true
  | a :: as, b :: bs => eq a b && listEq eq as bs
  | _, _ => false

/-- The comparison of include contexts, `/repo/src/lib.rs:608-611`. -/
def sameContext (c : IncludeContext) (d : PragmaData) : Bool :=
  SMap.beq (listEq Spanned.eq) c.tags d.tags &&
  SMap.beq (listEq (fun a b => decide (a.1 = b.1) && a.2.item.eq b.2.item)) c.metas d.metas

/-- The end of the loop body for a file that was not opened, `/repo/src/lib.rs:575-633`. -/
def PragmaData.notOpened (env : PragmaEnv) (span : Span) (d : PragmaData) (p : Path) : PragmaData :=
  match AMap.get env.errorPaths (some p) with
  | some e => d.report (Report.new (str "can't read file") e span)
  | none =>
    let e := Report.new (str "duplicate include") (str "context " ++ env.context d.tags d.metas) span
    match env.canonicalize p with
    | some c =>
      match AMap.get d.includeBy c with
      | some ctx =>
        if sameContext ctx d then d
        else d.report (e.relatedToNamedSpan (str "context " ++ env.context ctx.tags ctx.metas) ctx.span)
      | none => d.report e
    | none => d.report e

/-- Remembering the context of a file that was opened, `/repo/src/lib.rs:555-572`. -/
def PragmaData.opened (env : PragmaEnv) (span : Span) (d : PragmaData) (p : Path) : PragmaData :=
  match env.canonicalize p with
  | some c => { d with includeBy := AMap.insert d.includeBy c ⟨d.tags, d.metas, span⟩ }
  | none => d

/-- One turn of the loop over expanded paths, `/repo/src/lib.rs:537-635`. -/
def PragmaState.includeOne (env : PragmaEnv) (span : Span) (st : PragmaState) (p : Path) : PragmaState :=
  match AMap.get st.remaining (some p) with
  | some declarations =>
    { currentPath := some p
      current := declarations
      stacked := (st.currentPath, st.current) :: st.stacked
      remaining := AMap.erase st.remaining (some p)
      data := st.data.opened env span p }
  | none => { st with data := st.data.notOpened env span p }

/-- `Include`, `/repo/src/lib.rs:517-642`; `none` is the panic `impossible, I hope`. -/
def PragmaState.includeGlob (env : PragmaEnv) (st : PragmaState) (relGlob : Spanned Str) : Option PragmaState :=
  match AMap.get env.globs (resolveIncludedPath st.currentPath (Path.ofStr relGlob.item)) with
  | none => none
  | some (.expanded paths) =>
    let st := if paths.isEmpty
      then { st with data := st.data.report (Report.new (str "include failed") (str "no such file") relGlob.span) }
      else st
    some (paths.foldl (PragmaState.includeOne env relGlob.span) st)
  | some (.error e) =>
    some { st with data := st.data.report (Report.new (str "can't expand glob") e relGlob.span) }

/-! ### The iterator -/

/-- What one turn of `next` does. -/
inductive Turn where
  | yield (d : Spanned Directive) (st : PragmaState)
  | continue (st : PragmaState)
  | done
  | panic

/-- The body of `Iterator::next` up to its recursive call, `/repo/src/lib.rs:434-667`. -/
def PragmaState.step (env : PragmaEnv) (st : PragmaState) : Turn :=
  match st.current with
  | declaration :: rest =>
    let st := { st with current := rest }
    match declaration.item with
    | .directive dir =>
      match st.data.augment dir with
      | some dir => .yield ⟨dir, declaration.span⟩ st
      | none => .panic
    | .pragma (.pushtag tag) => .continue { st with data := st.data.pushtag tag }
    | .pragma (.poptag tag) => .continue { st with data := st.data.poptag tag }
    | .pragma (.pushmeta kv) => .continue { st with data := st.data.pushmeta kv }
    | .pragma (.popmeta key) => .continue { st with data := st.data.popmeta key }
    | .pragma (.include relGlob) =>
      match st.includeGlob env relGlob with
      | some st => .continue st
      | none => .panic
    | .pragma (.option o) => .continue { st with data := st.data.option o }
    | .pragma (.plugin p) => .continue { st with data := { st.data with plugins := st.data.plugins ++ [p] } }
  | [] =>
    match st.stacked with
    | (path, declarations) :: stacked =>
      .continue { st with currentPath := path, current := declarations, stacked }
    | [] => .done

/-- Bound on the number of steps: declarations, frames and files left. -/
def PragmaState.size (st : PragmaState) : Nat :=
  st.current.length + (st.stacked.map (fun f => f.2.length + 1)).sum +
    (st.remaining.map (fun f => f.2.length + 1)).sum

/-- Calling `next` until it returns `None`: the directives and the final state.  Out of fuel is `err`, which
never happens with the fuel given by `collect`. -/
def PragmaState.collectFuel (env : PragmaEnv) : Nat → PragmaState → Res Unit (List (Spanned Directive) × PragmaState)
  | 0, _ => .err ()
  | n + 1, st =>
    match st.step env with
    | .yield d st => (PragmaState.collectFuel env n st).map (fun r => (d :: r.1, r.2))
    | .continue st => PragmaState.collectFuel env n st
    | .done => .ok ([], st)
    | .panic => .panic

/-- Iterating a processor to exhaustion. -/
def PragmaState.collect (env : PragmaEnv) (st : PragmaState) : Res Unit (List (Spanned Directive) × PragmaState) :=
  st.collectFuel env (st.size + 1)

/-- `PragmaProcessor::new`, `/repo/src/lib.rs:362-398`; `none` is a panic. -/
def PragmaState.new (rootPath : Option Path) (parsed : List (Option Path × List (Spanned Declaration)))
    (options : Options) : Option PragmaState :=
  match AMap.get parsed rootPath with
  | none => none
  | some current =>
    some {
      currentPath := rootPath
      current
      stacked := []
      remaining := AMap.erase parsed rootPath
      data := { includeBy := [], tags := [], metas := [], options, plugins := [], errors := [] } }

/-- The iteration over all declarations in `BeancountParser::parse`, `/repo/src/lib.rs:227-252`, before sorting:
the directives, and the data from which `PragmaProcessor::result` reads options, plugins and errors. -/
def processPragmas (env : PragmaEnv) (rootPath : Option Path)
    (parsed : List (Option Path × List (Spanned Declaration))) (options : Options) :
    Res Unit (List (Spanned Directive) × PragmaData) :=
  match PragmaState.new rootPath parsed options with
  | none => .panic
  | some st => (st.collect env).map (fun r => (r.1, r.2.data))

/-- The errors of `PragmaProcessor::result`, `/repo/src/lib.rs:400-428`. -/
def PragmaData.finalErrors (d : PragmaData) : List Report :=
  d.errors ++
  d.metas.map (fun e => Report.new (str "invalid pushmeta") (str "missing corresponding popmeta") e.1.span) ++
  d.tags.flatMap (fun e => (e.1 :: e.2).map (fun t =>
    Report.new (str "invalid pushtag") (str "missing corresponding poptag") t.span))

end Lima
