import Verif.Model.Decimal
import Verif.Model.Pragma

/-!
# Parser combinators

The part of the crate `chumsky` (0.12) used by `/repo/src/parsers.rs`, as functions from a parser state to an
outcome.  This is an assumption about external code:

* a parser either succeeds, consuming tokens, or fails; a failing parser leaves no tokens consumed and no
  errors emitted, because whoever goes on after a failure (`choice`, `or_not`, `repeated`, `recover_with`)
  rewinds both;
* the user state (options and warnings) is never rewound;
* `choice` takes the first alternative that succeeds, `repeated` is greedy;
* `validate` emits errors and succeeds, `try_map` fails;
* the location of a non-empty match is from the start of its first token to the end of its last token; the
  location of an empty match is a parameter;
* the error describing what was expected at the furthest position (`syntax`) is opaque; `labelled` and
  `as_context` only affect its text.

Running out of stack on deeply nested input is not modelled.
-/

namespace Lima

/-- What kind of thing was given twice. -/
inductive DupKind where
  | tag | link | key | currency
deriving Repr, DecidableEq

/-- `ParserError`, `/repo/src/parsers.rs:1321`: a custom error with its location, by what it is about, or an
error about an unexpected token.  For the texts see `Verif.Model.Messages`. -/
inductive PErr where
  | duplicate (kind : DupKind) (name : Str) (span : Span)
  | option (e : OptParseError) (span : Span)
  | accountTypeName (usedFor : AccountType) (span : Span)
  | syntax
deriving Repr, DecidableEq

/-- The state of a parse: remaining tokens, errors emitted so far, and `ParserState`,
`/repo/src/parsers.rs:1341-1345`. -/
structure PSt where
  toks : List Ranged
  errs : List PErr
  opts : ParserOptions
  warns : List Report

/-- The outcome of a parser. -/
inductive PRes (α : Type) where
  | ok (a : α) (s : PSt)
  | fail (s : PSt)
  | panic

/-- A parser. -/
def P (α : Type) := PSt → PRes α

/-- The state after rewinding from `s'` to `s`. -/
def PSt.rewind (s s' : PSt) : PSt := { s with opts := s'.opts, warns := s'.warns }

namespace P

/-- Succeeds without consuming anything. -/
def pure' {α : Type} (a : α) : P α := fun s => .ok a s

/-- `then`, `group`, `map`: one parser after the other. -/
def bind' {α β : Type} (p : P α) (f : α → P β) : P β := fun s =>
  match p s with
  | .ok a s' => f a s'
  | .fail s' => .fail s'
  | .panic => .panic

instance : Monad P where
  pure := pure'
  bind := bind'

/-- Fails, as in `try_map`. -/
def failure {α : Type} : P α := fun s => .fail s

/-- A Rust panic in a function called by a parser. -/
def panicking {α : Type} : P α := fun _ => .panic

/-- `select_ref!`: one token, if the function likes it. -/
def select {α : Type} (f : Token → Option α) : P α := fun s =>
  match s.toks with
  | [] => .fail s
  | t :: ts =>
    match f t.tok with
    | some a => .ok a { s with toks := ts }
    | none => .fail s

/-- `just`: one given token. -/
def just (t : Token) : P Unit := select (fun t' => if t' = t then some () else none)

/-- `end`: no more tokens. -/
def eoi : P Unit := fun s =>
  match s.toks with
  | [] => .ok () s
  | _ :: _ => .fail s

/-- `or` and `choice`: the first that succeeds. -/
def alt {α : Type} (p q : P α) : P α := fun s =>
  match p s with
  | .ok a s' => .ok a s'
  | .fail s' => q (s.rewind s')
  | .panic => .panic

/-- `choice` of several. -/
def choice {α : Type} : List (P α) → P α
  | [] => failure
  | [p] => p
  | p :: ps => alt p (choice ps)

/-- `or_not`. -/
def orNot {α : Type} (p : P α) : P (Option α) := fun s =>
  match p s with
  | .ok a s' => .ok (some a) s'
  | .fail s' => .ok none (s.rewind s')
  | .panic => .panic

/-- `repeated().collect()` with a bound on the number of turns; reaching it stands for not terminating. -/
def repFuel {α : Type} (p : P α) : Nat → P (List α)
  | 0 => fun _ => .panic
  | n + 1 => fun s =>
    match p s with
    | .ok a s' =>
      match repFuel p n s' with
      | .ok as s'' => .ok (a :: as) s''
      | .fail s'' => .fail s''
      | .panic => .panic
    | .fail s' => .ok [] (s.rewind s')
    | .panic => .panic

/-- `repeated().collect()`.  Every turn consumes a token, so that the bound is never reached. -/
def rep {α : Type} (p : P α) : P (List α) := fun s => repFuel p (s.toks.length + 1) s

/-- Emit errors, as in `validate`. -/
def emit (es : List PErr) : P Unit := fun s => .ok () { s with errs := s.errs ++ es }

/-- `SkipThenRetryUntil` with `any` and `end`, after the parser failed in `s`: `toks` are the tokens from the
position of the failure.  It skips a token and retries until the parser succeeds without emitting an error,
and then emits the original error. -/
def skipThenRetry {α : Type} (p : P α) : List Ranged → P α
  | [] => fun s => .fail s
  | _ :: ts => fun s =>
    match p { s with toks := ts } with
    | .ok a s' =>
      if s'.errs.length = s.errs.length then .ok a { s' with errs := s'.errs ++ [.syntax] }
      else skipThenRetry p ts (s.rewind s')
    | .fail s' => skipThenRetry p ts (s.rewind s')
    | .panic => .panic

/-- `recover_with(skip_then_retry_until(any_ref().ignored(), end()))`. -/
def recover {α : Type} (p : P α) : P α := fun s =>
  match p s with
  | .ok a s' => .ok a s'
  | .fail s' => skipThenRetry p s.toks (s.rewind s')
  | .panic => .panic

end P

/-- What the parser of a file is given besides tokens: the index and path of the source, the location of an
empty match before given tokens, and `Decimal::try_from` for option values. -/
structure ParseCfg where
  source : Nat
  path : Option Path
  emptySpan : List Ranged → Span
  decimal : Str → Except LexerError Dec

/-- The location of a match, `e.span()`, between the tokens before and those after. -/
def ParseCfg.spanOf (cfg : ParseCfg) (before after : List Ranged) : Span :=
  match before.take (before.length - after.length) with
  | [] => cfg.emptySpan before
  | f :: l => ⟨cfg.source, f.start, ((f :: l).getLast (by simp)).stop⟩

/-- `map_with(spanned_extra)`: the result with the location of the match, `/repo/src/types.rs:560-580`. -/
def P.spanned {α : Type} (cfg : ParseCfg) (p : P α) : P (Spanned α) := fun s =>
  match p s with
  | .ok a s' => .ok ⟨a, cfg.spanOf s.toks s'.toks⟩ s'
  | .fail s' => .fail s'
  | .panic => .panic

end Lima
