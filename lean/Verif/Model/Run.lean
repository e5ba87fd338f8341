import Verif.Model.Logos
import Verif.Model.Parse

/-!
# From texts to results

The lexer enters `Model/Parse.lean` as a function which always yields tokens.  Here its panics are part of the
outcome.
-/

namespace Lima

/-- `BeancountParser::new(&sources).parse()`, `/repo/src/lib.rs:208-265`, where `lex_with_source`,
`/repo/src/lib.rs:127-131`, panics as `lexText` does.  (All texts are lexed before any is parsed.  They were already
lexed when the sources were read, by `get_includes`, `/repo/src/lib.rs:99-125`, so that the panic comes even
earlier.)  The tokens `env.tokens` are those of `lexText` where it does not panic. -/
def parseTexts [Categories] [Unicode] [DecOps] (l : Logos) (env : ParseEnv) (s : Sources) : Res ParseError ParseSuccess :=
  if s.contentIter.any (fun e => (lexText l e.2.2).isNone) then .panic else parseSources env s

end Lima
