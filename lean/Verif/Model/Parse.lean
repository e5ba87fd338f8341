import Verif.Model.Grammar
import Verif.Model.Sort

/-!
# Parsing all sources, `/repo/src/lib.rs:127-302`

The iteration order over the hash map of included files is the order of the list `Sources.content`.
-/

namespace Lima

/-- What parsing is given besides the sources: the lexer (`lex_with_source`, `/repo/src/lib.rs:127-131`), the
location of an empty match in the source with a given index (it depends on `end_of_input`,
`/repo/src/lib.rs:670`), `Decimal::try_from`, the file system's `canonicalize` and `fmt_include_context`. -/
structure ParseEnv where
  tokens : Str → List Ranged
  emptySpan : Nat → List Ranged → Span
  decimal : Str → Except LexerError Dec
  canonicalize : Path → Option Path
  context : TagStacks → MetaStacks → Str

/-- `BeancountParser`, `/repo/src/lib.rs:176-180`. -/
structure BeancountParser where
  sources : Sources
  tokenized : List (List Ranged)

/-- One turn of the loop in `BeancountParser::new`, `/repo/src/lib.rs:213-216`; `none` is a panic. -/
def tokenizeOne (tokens : Str → List Ranged) (tokenized : List (List Ranged)) (e : Nat × Option Path × Str) :
    Option (List (List Ranged)) :=
  if e.1 < tokenized.length then some (tokenized.set e.1 (tokens e.2.2)) else none

/-- `BeancountParser::new`, `/repo/src/lib.rs:208-222`; `none` is a panic. -/
def BeancountParser.new (env : ParseEnv) (sources : Sources) : Option BeancountParser :=
  (sources.contentIter.foldlM (tokenizeOne env.tokens) (List.replicate sources.ids.length [])).map
    (fun tokenized => ⟨sources, tokenized⟩)

/-- `Error` as returned from a parse: of the parser of a file, with the index of its source, or of the pragma
processor.  `From<ParserError> for Error`, `/repo/src/parsers.rs:1323-1338`, which words the former, is in
`Model/Messages.lean`. -/
inductive Fault where
  | parsing (source : Nat) (e : PErr)
  | pragma (e : Report)
deriving Repr, DecidableEq

/-- The local variables of `parse_declarations`, `/repo/src/lib.rs:273-302`, and its result. -/
structure ParsedFiles where
  outputs : List (Option Path × List (Spanned Declaration))
  errors : List Fault
  opts : ParserOptions
  warns : List Report

/-- What the parser of the source with this index and path is given. -/
def ParseEnv.cfg (env : ParseEnv) (source : Nat) (path : Option Path) : ParseCfg :=
  ⟨source, path, env.emptySpan source, env.decimal⟩

section
variable [Unicode] [DecOps]

/-- One turn of the loop in `parse_declarations`, `/repo/src/lib.rs:278-291`; `none` is a panic. -/
def parseOne (env : ParseEnv) (tokenized : List (List Ranged)) (acc : ParsedFiles) (e : Nat × Option Path × Str) :
    Option ParsedFiles :=
  match tokenized[e.1]? with
  | none => none
  | some toks =>
    match Grammar.parseFile (env.cfg e.1 e.2.1) toks acc.opts acc.warns with
    | none => none
    | some res =>
      some {
        outputs := AMap.insert acc.outputs e.2.1 (match res.declarations with | some ds => ds | none => [])
        errors := acc.errors ++ res.errors.map (Fault.parsing e.1)
        opts := res.opts
        warns := res.warns }

/-- `parse_declarations`, `/repo/src/lib.rs:273-302`; `none` is a panic. -/
def BeancountParser.parseDeclarations (env : ParseEnv) (p : BeancountParser) : Option ParsedFiles :=
  p.sources.contentIter.foldlM (parseOne env p.tokenized) ⟨[], [], ParserOptions.default, []⟩

/-- `ParseSuccess`, `/repo/src/lib.rs:183-189`. -/
structure ParseSuccess where
  directives : List (Spanned Directive)
  options : Options
  plugins : List Plugin
  warnings : List Report

/-- `ParseError`, `/repo/src/lib.rs:192-196`. -/
structure ParseError where
  errors : List Fault
  warnings : List Report

/-- What the pragma processor looks up, `/repo/src/lib.rs:227-233`. -/
def ParseEnv.pragmaEnv (env : ParseEnv) (s : Sources) : PragmaEnv :=
  ⟨s.globs, s.errorPaths, env.canonicalize, env.context⟩

/-- `BeancountParser::parse`, `/repo/src/lib.rs:225-265`.  The processor never runs out of fuel (C06). -/
def BeancountParser.parse (env : ParseEnv) (p : BeancountParser) : Res ParseError ParseSuccess :=
  match p.parseDeclarations env with
  | none => .panic
  | some parsed =>
    match processPragmas (env.pragmaEnv p.sources) p.sources.rootPath parsed.outputs (Options.new parsed.opts) with
    | .ok (directives, data) =>
      let errors := parsed.errors ++ data.finalErrors.map .pragma
      if errors.isEmpty then .ok ⟨sortDirectives directives, data.options, data.plugins, parsed.warns⟩
      else .err ⟨errors, parsed.warns⟩
    | .err _ => .panic
    | .panic => .panic

/-- `BeancountParser::new(&sources).parse()`. -/
def parseSources (env : ParseEnv) (s : Sources) : Res ParseError ParseSuccess :=
  match BeancountParser.new env s with
  | none => .panic
  | some p => p.parse env

end

end Lima
