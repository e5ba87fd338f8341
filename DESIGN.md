# Formal model of beancount-parser-lima

The model lives in `lean/Verif/`. Each area has up to four kinds of file:

* `Model/*.lean` - executable definitions, function by function, each with a comment citing the file and lines in
  `/repo` it models and saying where it simplifies;
* `Spec/*.lean`  - small independent specifications, written without the model's helpers;
* `Props/*.lean` - the property theorems (named `Cnn_...`), next to `example`s showing their hypotheses are met;
* `Lemmas/*.lean` - everything in between.

`properties.jsonl` lists the properties in English, `MANIFEST.json` maps them to theorems (regenerated from the
sources by `tools/gen.py`), `seeded/LOG.jsonl` records deliberate bugs put into the model and the theorems that
caught them.

## Modelling conventions

* `&str`/`String` are `List Char`; byte lengths are computed with the UTF-8 size of each character, so byte
  offsets (spans) and character offsets (runes) are distinct in the model. Slicing at a byte offset inside a
  character is `none`/`panic`, as in Rust.
* `HashMap`/`HashSet` are association lists without duplicate keys. Where iteration order is observable, either
  the theorem is stated up to permutation or the order is an explicit parameter.
* A Rust panic is an explicit `panic` (or `none`) outcome. Never a default value.
* Iterators (`RecoveryAttempter`, `KeywordThenColonToKey`, `EolIndentHandler`, `PragmaProcessor`, `Sort`) are
  state machines with a `next` step, as in the code; lemmas relate running them to list functions.
* chumsky parsers are functions from a token list and user state to an outcome: ordered choice, greedy
  repetition, rewinding of input and emitted errors (but not user state) on backtracking.
* The Logos lexers are lists of regular expressions with priorities, run by derivatives from the current position.
* External code (file system, glob, canonicalisation, rust_decimal, Unicode tables, ...) enters as parameters with
  explicit laws; theorems quantify over every instance of them, and concrete instances show the laws can be met.
* `usize`/`u32` counters are unbounded naturals.

## What is modelled

| code | model | what is left out |
|------|-------|------------------|
| `lib.rs:60-302` `BeancountParser::parse`, `parse_declarations` | `Model/Parse.lean`, `Model/Run.lean` | - |
| `lib.rs:305-668` `PragmaProcessor` | `Model/Pragma.lean`, `Model/Context.lean` | - |
| `sources.rs` reading, spans, synthetic sources | `Model/Sources.lean`, `Model/Spans.lean`, `Model/Entry.lean` | - |
| `sources.rs` `write_report`, `write_errors_or_warnings`, `sources` | `Model/WriteReport.lean` | the drawing by ariadne: what is handed to it is modelled |
| `trim.rs` | `Model/Spans.lean` | - |
| `sort.rs` | `Model/Sort.lean` | - |
| `lexer.rs:15-298` Logos attributes | `Model/Token.lean`, `Model/Logos.lean`, `Model/Regex.lean` | the generated automaton, replaced by its meaning |
| `lexer.rs:300-670` adaptors | `Model/Lexer.lean` | - |
| `lexer.rs:672-743` callbacks | `Model/Callbacks.lean` | texts of lexer errors |
| `parsers.rs` | `Model/Parser.lean`, `Model/Grammar.lean`, `Model/Messages.lean` | wording of "expected ..." errors, contexts added to messages |
| `options.rs` | `Model/Options.lean`, `Model/Getters.lean`, `Model/Messages.lean` | - |
| `types.rs` data types, names, account types, expressions, errors, Display | `Model/Ast.lean`, `Names.lean`, `AccountTypes.lean`, `Decimal.lean`, `Report.lean`, `Display.lean`, `Messages.lean` | plain getters, `Debug` output, `ElementType` names |
| `format.rs` | `Model/Display.lean` | - |
| `examples/check.rs`, `examples/check-postings-balance.rs` | `Model/Check.lean` | command line, writing of the reports |
| `examples/dump.rs` | `Model/Dump.lean` | command line, standard error (reports, counts of allocations) |

Not modelled: running out of stack or memory (deeply nested parentheses; many pragmas one after the other, `PragmaProcessor::next` calling itself for each), performance, ariadne output, the protobuf
test harness, command lines of the `examples/` programs and what they write on standard error.

## How each property is stated and proved

| id | modelled | statement and proof |
|----|----------|-------|
| C01 | `Sort::new/next` as bucket insertion in an ordered map, `parse`'s key | sorted + permutation + stable, and such a list is unique; for the whole parse: induction on the list |
| C02-C04 | `PragmaProcessor` tag/meta maps and `result` | run over any history; refinement to a count/stack specification |
| C05, C06 | `PragmaProcessor::next` stack machine with includes | refinement to recursive splice; measure = unread declarations + unopened files |
| C07 | `includes` scan, `pragma`'s include, worklist reader | every include pair is scanned; closure invariant of the reader |
| C08-C10 | `read_with_includes` worklist | lexicographic measure over the finite set of canonical paths; loop invariants |
| C11-C13 | UTF-8 offsets, `trim`, `resolve_span`, `SyntheticSources` | partition-point law; C12 and C13 are false as stated, see findings: `_partial` and witness |
| C14, C15 | `AccountTypeNames`, `Account::new` | bijection invariant over all update sequences; acceptance iff specification |
| C16, C17 | validators as char loops | acceptance iff specification; C16's "never panics" is false: panic iff non-ASCII |
| C18 | `expr` grammar and Display | grammar of the language as an inductive relation; unambiguous; print then parse by structural induction |
| C19, C20 | `Expr::evaluate` over `DecOps` | exact rational value, rounding; C20 is false: division by zero |
| C21 | `CostSpecBuilder`, `cost_spec` | at most once, permutation |
| C22, C44 | all `Display` implementations, the lexer, the grammar, the whole parse | provenance: tokens of a text, hence directives of a parse, are well-formed; printed directives lex to the expected tokens, which the grammar reads as the same directive; pragmas and sort leave them alone. False in general (total prices, tolerances, quotes, backslashes): witnesses and `_partial` |
| C23-C27 | lexer adaptors | state machine = list function; C26 is false: witness |
| C28-C30 | `parse_date`, `parse_number`, `unescape_string_literal` | induction on text; C28's "never crash" is false: Unicode digits |
| C31-C36, C45 | the full grammar | the language as a relation between token runs and meanings (`Spec/Grammar.lean`), sound and complete |
| C37-C39, C46 | `Options`, `BeancountOption::parse` | invariants over histories; C46 false for non-ASCII currencies |
| C40 | `parse_declarations` with the iteration order as a parameter | commutation; false when an included file sets a parser option: witness |
| C41, C47 | `parse` | composition; exact outcome |
| C42, C43 | `Spanned`, `ErrorOrWarning` | algebraic laws |
| C48-C50 | the raw lexers | longest match by derivatives; lexemes specified without regular expressions (`Spec/Lexemes.lean`), sound, unambiguous, complete; locations; panics: where a date or time in Unicode digits is come to, and only there; so C50 is false |
| C51 | `write_report`, `write_errors_or_warnings` for files and synthetic sources | labels computed for any report; the renderer's lookup by name is universally quantified; the writer is any state machine which may fail; false when names clash or synthetic text is not ASCII: witnesses |
| C52 | the grammar, `PragmaProcessor`, `Options`, reports | `Spec/Locations.lean` lists all locations in a thing with a word it is written with; induction over the parsers, then an invariant of the pragma processor; with C49, what the text shows there |
| C53 | lexer, grammar, pragmas and sort composed (`Model/Run.lean`) | composition of C50, C47, C20 and the provenance of tokens; a syntactic sufficient condition |
| C54 | `P.skipThenRetry`, `P.recover`, `file`, `parseFile` on any tokens (`Model/Parser.lean`, `Model/Grammar.lean`) | grammar completeness up to panics, for declarations with all their lines; failure only where no declaration begins; induction over the tokens skipped; the outcome is determined by the cut into pieces |
| C55 | `Display` of the errors of names, accounts, options, duplicates and cost specifications (`Model/Messages.lean`) | a complaint relation per kind of name (`Spec/Messages.lean`), exact both ways; for files, an invariant over the pieces of C54 relates each error to what stands at its location; syntax errors come from chumsky: `_partial` |
| C56 | the whole parse, as in C41 | the declarations processed are shown to be a permutation of those of all sources (every file read is visited), from which the claims about directives, plugins, pushes and options follow by counting; options which change parsing can be overwritten silently: `_false` and `_partial` |
| C57 | the whole parse and reading, `fmt_include_context` in `Model/Context.lean` | every function of the model is natural in locations: moving all spans commutes with it; each parse is the image of the parse of one canonical layout, by a map which is injective on keys, the only spans that are compared; results agree after erasing spans |
| C58 | the lexer with its adaptors, and the whole parse | `Spec/Written.lean` says how a text is words, spaces and line ends, and when two have the same lines; such texts lex to their words; the adaptors for keys and line ends are functions of the tokens alone, invariant under merging line ends; then C57 |
| C59 | the lexer with its adaptors, and the parse of one file | a declaration is one line and then indented lines (`Lemmas/Cut.lean`, over every rule of the grammar); what it means does not depend on what comes after its last line, since every rule stops at the end of a line or reads on only if the next is indented; so a cut before an unindented line is between declarations; the lexer adaptors restart there; locations are removed as in C57 |
| C60 | reading of sources (`Model/Sources.lean`) | `Spec/Found.lean` defines the files found inductively, without a work list; one way by an invariant of the loop over every path queued, the other by induction over the files found, with the completeness of the loop (C08) |
| C61 | reading and the whole parse | on declarations (`Lemmas/InPlace.lean`): a simulation of the two runs of the pragma processor, one of which enters the included file, with the invariant that the file is entered once; on texts: the root file is its passages (C59), the files found correspond (C60), and the parses of other files do not depend on the order since options are set first |
| C62, C63 | reading and the whole parse | on declarations (`Lemmas/Revise.lean`): a simulation of two runs of the pragma processor over lists of declarations which differ by one exchange of directives, or one left out, and chains of these; the sort by date is stable, so ranks decide the order (`Lemmas/ReviseSort.lean`); on texts: files are their passages (C59), a passage without pragmas parses to directives only, and reading depends on includes only (`Lemmas/ReviseRead.lean`); which directives remain (`C63_rest`) is a simulation of its own, by location, as for C66 (`Lemmas/LeftOut.lean`) |
| C64 | the getters of `Options` over the whole parse | from C56 and C37-C39; every written option is decoded since otherwise there is an error |
| C65 | the entry points of `BeancountSources` and the whole parse | lockstep of two readings which differ in the canonical path taken at first; the parser of a file uses its path for `documents` only; renaming the root commutes with each turn of the pragma processor |
| C66 | reading and the whole parse | on declarations (`Lemmas/Bracketed.lean`): a simulation of two runs of the pragma processor, one of which has a push and a pop around some directives, for any pair of pragmas of which the second undoes the first; tags are such a pair (`Lemmas/SurroundTag.lean`); on texts: a directive begins at a date, and dates of a passage lie within it (`Lemmas/SurroundRegion.lean`), so the location of a directive tells whether it is in the passage |
| C67 | reading and the whole parse | the simulation of C66 for another pair of pragmas: with a key not pushed elsewhere, `popmeta` undoes `pushmeta`, and the value pushed is given to a directive unless it has the key (`Lemmas/SurroundMeta.lean`); the value is stated with the grammar of C31-C36, so that it is independent of the parser |
| C68 | reading and the whole parse | a simulation between the two runs, with a relation between options and plugins which is kept by every pragma (`Lemmas/UnsetRun.lean`); for options the relation is being without some settings, and that a setting is refused only if it is there already makes the run without it succeed (`Lemmas/UnsetOptions.lean`) |
| C69 | the program `check` after a parse | an invariant between the map of accounts and the directives before (`Inv`, `Lemmas/Check.lean`) shows that the program computes the relation `AllReported` exactly; with the order of directives (C01) this gives `C69_unknown` and `C69_closed`, which speak of dates only |
| C70 | the program `check-postings-balance` after a parse | by cases on the postings, for every partition which puts those with an amount first |
| C71 | reading and the whole parse | the simulation of C68 from the other side: the run with the line is like the one without, unless that one has errors or has the setting already, and both of these last to the end (`Lemmas/UnsetBack.lean`) |
| C72 | the program `dump` after a parse, and the whole parse of what it prints | as C44, with empty lines between the directives; any number of rounds by induction, as `Same` is transitive and keeps what can be printed (`Lemmas/SameTrans.lean`); appended to another ledger: whatever is lexed may come after whole lines (`Lemmas/AppendPrinted.lean`), then as C73 |
| C73 | reading and the whole parse | as C62, with places erased; the grammar is cut at the end of the ledger's root; the pragma processor comes to the appended directives last, when, if there are no errors, nothing is pushed any more (`Lemmas/Append.lean`); then by C01 there is only one order |

Every property could be expressed in the model. Those found false of the code are kept as stated in
`properties.jsonl`; the manifest marks them `partial`, and gives both the proved negation (suffix `_false`, or a
witness) and the strongest true version (suffix `_partial`).

## Trusted base

1. Lean 4.33.0's kernel and the Mathlib modules imported.
2. The axioms `propext`, `Classical.choice`, `Quot.sound`; nothing else (no `sorry`, no `native_decide`, no
   `bv_decide`, no axioms of our own). Examples that compute use `decide`, `decide +kernel` or `rfl`: kernel
   evaluation, no axiom.
3. The reading of the Rust source in `Model/`.
4. The behaviour of external code, where it is not a parameter:
   * **chumsky 0.12** (`Model/Parser.lean`): a failing parser leaves no tokens consumed and no errors emitted;
     the user state is never rewound; `choice` is ordered; `repeated` is greedy; `validate` emits, `try_map` fails;
     the span of a non-empty match goes from its first token to its last; `recover_with` strategies as cited.
     The span of an empty match and the primary "expected" error are parameters.
   * **Logos 0.16** (`Model/Regex.lean`, `Model/Logos.lean`): from the current position the longest match wins, ties
     are decided by priority; skipped patterns yield nothing. Whether the engine falls back to a shorter match after
     reading on (issue 315), and how long an error is, are parameters (`Engine`). C22 and C44 assume that it falls
     back from the comma in a number followed by a comma and a space (`NumberThenComma`), as printed in `{2, ...}`.
   * **std**: `str` slicing, `split`, `trim`, `chars`, `Path` on Unix with UTF-8 texts, compared by components.
     `slice::partition_point` is the class `PartitionPoint`; where synthetic sources make it search a list which is
     not partitioned, `MonotonePoint`, proved of the implementation in std (`Lemmas/BinarySearch.lean`).
   * **ariadne**: `Label::new` panics if the start is after the end, and nothing else does; a text is found by name
     among those handed over, which of several with the same name is left open (`Finds`).
   * **Unicode tables**: class `Unicode` (`is_alphabetic`, `is_numeric`, `is_whitespace`) and class `Categories`
     (`\d`, `\p{Lu}`, `\p{Lo}`, `\p{L}`, `\p{N}`): they agree with ASCII on ASCII, decimal digits are not letters.
   * **rust_decimal**: class `DecOps` (exact if the result fits, panics only on overflow or division by zero,
     `rescale` rounds half away from zero, results fit); `from_str` is exact when the number fits in 96 bits and 28
     places and otherwise the parameter `otherNumber`, which C22 and C44 assume to yield non-negative decimals that fit
     (`SoundNumbers`: the pattern has no sign); `Display` prints the mantissa with its scale.
   * **time**: `Date::from_calendar_date` accepts the proleptic Gregorian calendar; `Display` pads to `YYYY-MM-DD`.
   * **unescaper**: named escapes are modelled; hexadecimal, unicode and octal escapes are a parameter.
   * **glob, file system** (structure `FileSystem`): unchanged while sources are read; finitely many canonical paths.
   * **strum**: `Display`/`EnumString` of the enums as the attributes say.
   * `HashMap` iteration order is arbitrary.
   * **itertools** (examples only): `partition` is a parameter which meets `Partitions` (a partition by swapping in place does, `Lemmas/SwapPartition.lean`); `Sum for Decimal` adds from left to right from zero.

## Findings: where the code disagrees with its documentation or with a stated property

1. `trim_trailing_whitespace` adds one to the byte index of the last non-blank character: if that character has
   several bytes the span ends inside it, and slicing the source with it panics (C12).
2. `SyntheticSources` shifts character indices by a number of characters instead of bytes, so lines and columns of
   synthetic spans are wrong after non-ASCII text (C13, C51).
3. `EolIndentHandler.previous_was_eol` is never reset, so a missing final end of line is forced only when the input
   had no earlier line end (C26); a last line of blanks without newline leaves a dangling indent.
4. `Currency::try_from` panics on every non-ASCII string; reachable with `option "operating_currency" "é"` (C16, C46).
5. `Expr::evaluate` panics on `1/0` and on overflow (C20, C47).
6. `parse_date` and `parse_time` panic on non-ASCII decimal digits, which the patterns admit (C28, C50). A string with an unknown escape is lexed again by the recovery lexer, so that such a date inside a string panics too.
7. The parser options in force are shared by all included files in hash order: an included file which renames an
   account type makes the result nondeterministic (C40).
8. A glob include is processed in reverse order; pushed tags and metadata leak across includes, both ways (C05).
9. Display does not parse back: a total price prints as `@ # 5 USD`; a tolerance prints as `5 USD ~ 0.1` where the
   grammar wants `5 ~ 0.1 USD`; strings are printed without escaping quotes and backslashes (C22, C44).
10. A text that cannot be parsed at the end of a file drops all the declarations of that file (C54). A declaration
    with an error of its own (such as a duplicate tag) right after a malformed stretch is skipped, and its error is
    not reported. Reading may resume in the middle of a line, and an option of a malformed line stays in force.
11. An included path that cannot be canonicalised is reported as a duplicate include; a source identifier is
    allocated even when reading fails; a file called `inline` shares the report name of inline input, and a synthetic
    source may share that of a file: a report then shows the wrong text (C51).
12. One error is reported per leftover `pushtag`, but only one per key of leftover `pushmeta` (C04).
13. `Account::new("Assets")` is accepted: no component is needed after the account type (C15).
14. `Tag::try_from("")` and `Link::try_from("")` are accepted (C17).
15. A lexed currency may end in `'._-`, and then fails validation in the parser.
16. The parenthesis "impossible, I hope" in the include processor is indeed unreachable (C07).
17. Errors of a duplicate tag are reported at the location of the first occurrence.
18. The warnings of failed alternatives are kept; only long strings warn, and each of them is parsed once, so this has
    no effect (C36).
19. Span order: the `Indent` of a combined end-of-line token lies inside the preceding `Eol`'s span (C45, C49).
20. Two messages do not tell the rule: a component of an account may begin with any non-ASCII letter although the
    message demands an uppercase ASCII letter or a digit, and `render_commas` may be `0` or `1`. The message for
    currencies misspells "uppercase" (C55).
21. `long_string_maxlines` and the names of account types may be given more than once, in one file or several, with no
    report; the last one read wins (C56). All other options are reported as duplicates.
22. Whether an include of a file already read counts as a duplicate depends on the locations of pushed metadata keys, not
    of tags: popping and pushing the same metadata again makes another context (C57, an example).
23. A line such as `* title` is ignored except as the first line of a file, where it is a syntax error (C57, an example).
24. A file reached by two names (a symbolic link) is a source only by the name met first, breadth first, which need not be
    the one processed first (C60, `C60_two_names`).
25. The effect of `option "documents"` depends on the directory of the file it is in, so a file moved to another directory
    changes meaning; so does every relative include (C61 is for files of the same directory).
26. The example programs add up the amounts of a transaction whatever their currencies, so `1 EUR` and `-1 USD` balance and a
    conversion at a price is reported; and they crash if the sum overflows (C69, C70).

## Testing the theorems

`seeded/LOG.jsonl` has one line per deliberate bug: the definition edited, the edit, the claim it breaks, the theorems
that failed and, where a bug first survived, the theorems that were tightened.
