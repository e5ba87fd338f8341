import Verif.Model.Ast
import Verif.Model.Names

/-!
# Tokens, `/repo/src/lexer.rs:15-298`
-/

namespace Lima

/-- `time::Time`, by its fields. -/
structure Time where
  hour : Nat
  minute : Nat
  second : Nat
deriving Repr, DecidableEq, Inhabited

/-- `LexerError`, `/repo/src/lexer.rs:720-723`. -/
structure LexerError where
  message : Str
deriving Repr, DecidableEq, Inhabited

/-- `Token`, `/repo/src/lexer.rs:33-175`. -/
inductive Token where
  | true_ | false_ | null
  | currency (s : Str)
  | pipe | atAt | at | lcurlCurl | rcurlCurl | lcurl | rcurl | comma | tilde | plus | minus | slash
  | lparen | rparen | hash | asterisk | colon
  | dedicatedFlag (f : Flag)
  | txn | balance | open | close | commodity | pad | event | query | custom | price | note | document
  | pushtag | poptag | pushmeta | popmeta | option | options | plugin | include
  | date (d : Date)
  | time (t : Time)
  | account (s : Str)
  | stringLiteral (s : Str)
  | number (d : Dec)
  | tag (s : Str)
  | link (s : Str)
  | key (s : Str)
  | eolThenIndent | eol | eolComment | indent
  | error (e : LexerError)
deriving Repr, DecidableEq, Inhabited

/-- `Token::is_eol`, `/repo/src/lexer.rs:177-183`. -/
def Token.isEol (t : Token) : Bool :=
  decide (t = .eolThenIndent) || decide (t = .eol) || decide (t = .eolComment)

/-- `RecoveryToken`, `/repo/src/lexer.rs:266-283`. -/
inductive RecoveryToken where
  | minus | slash | colon
  | date (d : Date)
  | number (d : Dec)
deriving Repr, DecidableEq, Inhabited

/-- `impl From<RecoveryToken> for Token`, `/repo/src/lexer.rs:285-298`. -/
def RecoveryToken.toToken : RecoveryToken → Token
  | .minus => .minus
  | .slash => .slash
  | .colon => .colon
  | .date d => .date d
  | .number d => .number d

/-- A token with its byte range: `RangedToken`, `/repo/src/lexer.rs:259`. -/
structure Ranged where
  tok : Token
  start : Nat
  stop : Nat
deriving Repr, DecidableEq, Inhabited

end Lima
