{"id": "C01", "title": "Directives come out in date order, Open before Balance before the rest, otherwise in source order", "statement": "The directives returned by a successful parse are a permutation of the directives produced by pragma processing, are non-decreasing in (date, kind) where kind ranks Open first, Balance second and everything else last, and two directives with the same rank keep their relative order.", "quantifier": "every list of directives, every assignment of dates and kinds to them", "why_tests_cant": "A unit test sorts a handful of items; stability and permutation must hold for every list and every multiplicity of equal keys.", "anchors": ["src/lib.rs: BeancountParser::parse", "src/sort.rs: Sort, SortIterator::sort"]}
{"id": "C02", "title": "Every pushed tag that is active, and no other, is added to each directive", "statement": "For any history of pushtag/poptag pragmas and directives, the tags of an emitted directive are exactly its own tags plus the tags with a push still open before it (some stretch of the history up to the directive has more pushes than pops of the tag); a tag the directive already has is not added again and keeps its own location, an added tag has the location of the innermost open push.", "quantifier": "every sequence of pushtag, poptag and directive declarations, of any length and nesting", "why_tests_cant": "Tests cover one or two nested pushes; the claim is about every interleaving and multiplicity.", "anchors": ["src/lib.rs: PragmaProcessor::next", "src/parsers.rs: augment_tags"]}
{"id": "C03", "title": "Pushed metadata behaves as one stack per key and never overrides a directive's own key", "statement": "For any history of pushmeta/popmeta and directives, the metadata of an emitted directive is its own key/values plus, for each key with a push still open and not already in the directive, the value of the innermost push still open.", "quantifier": "every sequence of pushmeta, popmeta and directive declarations", "why_tests_cant": "The stack discipline per key must survive any interleaving of keys and depths, not only the few nestings a test writes out.", "anchors": ["src/lib.rs: PragmaProcessor::next", "src/parsers.rs: augment_key_values"]}
{"id": "C04", "title": "Unbalanced push/pop is always reported, balanced push/pop never is", "statement": "A poptag/popmeta of something not pushed reports exactly one error and changes nothing; at the end of input every tag push left open is reported, every metadata key left open is reported, and if all pushes are matched no such error is reported.", "quantifier": "every history of push/pop pragmas", "why_tests_cant": "Requires counting over arbitrary histories.", "anchors": ["src/lib.rs: PragmaProcessor::next, PragmaProcessor::result"]}
{"id": "C05", "title": "Include processing splices an included file's declarations at the point of the include", "statement": "Directives emitted for a file that includes others are the file's declarations in order, with each first-time included file's directives (recursively) in place of the include pragma; when a glob include names several files they are spliced one after another, the last expansion first.", "quantifier": "every set of files with any include graph, including cycles and diamonds", "why_tests_cant": "The order arises from an explicit stack machine; a test can only exercise a few include graphs.", "anchors": ["src/lib.rs: PragmaProcessor::next, PragmaProcessor::new"]}
{"id": "C06", "title": "Each file's declarations are processed at most once and pragma processing terminates", "statement": "Whatever the include graph, including cycles, no file's declarations are emitted twice, a second include of a file either is silently ignored (same pushed tags and metadata) or is reported as a duplicate include, and processing always reaches the end of input.", "quantifier": "every include graph, including self-includes, cycles and aliases by canonical path", "why_tests_cant": "Termination and at-most-once cannot be established by running finitely many graphs.", "anchors": ["src/lib.rs: PragmaProcessor::next", "src/sources.rs: BeancountSources::read_with_includes"]}
{"id": "C07", "title": "The include expansion lookup marked 'impossible, I hope' can never panic", "statement": "For every file system and root file, each include pragma that survives parsing has been recorded while reading the sources, so the processor never reaches the panic for an unrecorded include.", "quantifier": "every file system content, glob expansion and root file", "why_tests_cant": "The two scans (token scan for includes, full parse) are independent pieces of code; their agreement must hold for every token stream.", "anchors": ["src/lib.rs: PragmaProcessor::next, get_includes", "src/parsers.rs: includes, pragma", "src/sources.rs: BeancountSources::read_with_includes"]}
{"id": "C08", "title": "Reading sources terminates and reads each canonical file at most once", "statement": "For every finite file system, however its files include each other, reading the sources terminates; no canonical path is read twice, every include found in a readable file is recorded with its expansion, and each expanded path that can be canonicalised is recorded as content, duplicate or error.", "quantifier": "every finite file system and include graph", "why_tests_cant": "Termination over cyclic graphs is not testable by examples.", "anchors": ["src/sources.rs: BeancountSources::read_with_includes"]}
{"id": "C09", "title": "Source identifiers are distinct and resolve back to the file they came from", "statement": "Every file that was read gets its own source identifier; looking up that identifier returns that file's content and path, the root's identifier returns the root, and an identifier never refers to two files.", "quantifier": "every file system and include graph with fewer than 2^32 files", "why_tests_cant": "Depends on the order in which identifiers are allocated across any number of files, including unreadable ones.", "anchors": ["src/sources.rs: BeancountSources::read_with_includes, get_adjusted_source, content_iter", "src/types.rs: SourceId"]}
{"id": "C10", "title": "Relative includes are resolved against the including file, absolute ones are not changed", "statement": "A relative include path is resolved against the directory of the file containing the include, an absolute include path is used as is, and includes from inline input are used as is; the same resolution is used while reading and while processing.", "quantifier": "every including path and included path", "why_tests_cant": "Must hold for every path; the agreement between two call sites is what makes C07 true.", "anchors": ["src/sources.rs: resolve_included_path, path_dir"]}
{"id": "C11", "title": "Resolved spans give correct line numbers and character ranges", "statement": "For every source text and every byte span on character boundaries, resolving the span reports a character (rune) range whose characters are exactly the span's text, and a start line equal to one plus the number of newlines before it; a span which is out of range resolves to an empty range rather than panicking.", "quantifier": "every source text (any Unicode) and every span", "why_tests_cant": "Byte/char arithmetic goes wrong only on particular multibyte layouts, so examples say little.", "anchors": ["src/sources.rs: resolve_span, byte_to_rune, trimmed_span"]}
{"id": "C12", "title": "Trailing whitespace is trimmed from a reported span without cutting a character", "statement": "Trimming yields a span that starts where the original starts, ends right after the last non-whitespace character, and can be used to slice the source.", "quantifier": "every source text and every span on character boundaries", "why_tests_cant": "Fails only when the last non-whitespace character is multibyte; ASCII tests pass.", "anchors": ["src/trim.rs: trim_trailing_whitespace", "src/sources.rs: error_source_text, resolve_span"]}
{"id": "C13", "title": "Synthetic spans resolve to the text they were created for", "statement": "A synthetic span created for some text resolves to that text and to the name it was created with, whatever synthetic spans are created before or after it; distinct names get distinct source identifiers which clash with no file's identifier.", "quantifier": "every history of create_synthetic_span calls", "why_tests_cant": "Claims about arbitrary call histories, with shared buffers that grow.", "anchors": ["src/sources.rs: SyntheticSources::create_synthetic_span, resolve_span, get_adjusted_source"]}
{"id": "C14", "title": "Account type renaming keeps types and names in one-to-one correspondence", "statement": "After any sequence of account type renamings, accepted or rejected, each of the five account types has exactly one name, no two types share a name, and a name is recognised as an account type exactly when it is the current name of that type; a rejected renaming changes nothing; renaming is rejected exactly when another type has that name.", "quantifier": "every sequence of name_assets/liabilities/equity/income/expenses options", "why_tests_cant": "The two maps must stay inverse after every history, including swaps and renaming back.", "anchors": ["src/types.rs: AccountTypeNames::update, AccountTypeNames::get, Default"]}
{"id": "C15", "title": "An account is accepted exactly when its root is the current name of an account type", "statement": "Parsing an account name gives an account whose type is the type currently named by its first component and whose remaining components are those written, and fails exactly when the first component names no account type or some component is ill-formed.", "quantifier": "every string and every state of the account type names", "why_tests_cant": "Ranges over all strings and all renaming histories.", "anchors": ["src/types.rs: Account::new, AccountTypeName::try_from, AccountName::try_from", "src/parsers.rs: account"]}
{"id": "C16", "title": "Currency validation accepts exactly the documented currencies and does not panic", "statement": "Checking a string as a currency accepts it exactly when it starts with an uppercase letter or '/', continues with uppercase letters, digits or '-_.apostrophe', ends in an uppercase letter or digit, and contains an uppercase letter; it never panics.", "quantifier": "every string", "why_tests_cant": "The panic occurs on every non-ASCII string and no ASCII one; tests use ASCII.", "anchors": ["src/types.rs: Currency::try_from, is_valid_initial, is_valid_intermediate, is_valid_final", "src/options.rs: parse_currency"]}
{"id": "C17", "title": "Tag, link, key, account component and flag validation accept exactly the documented character sets", "statement": "Validation of tags, links, metadata keys, account components, account type names and flag letters accepts exactly those strings whose characters belong to the stated classes, and on rejection reports the offending characters.", "quantifier": "every string", "why_tests_cant": "An acceptance criterion is a statement about all strings.", "anchors": ["src/types.rs: validate_tag_or_link, Key::try_from, AccountName::try_from, AccountTypeName::try_from, FlagLetter::try_from"]}
{"id": "C18", "title": "Arithmetic expressions group by the usual precedence, left to right", "statement": "Parsing the tokens of an arithmetic expression gives the tree with * and / binding tighter than + and -, all left-associative, with unary minus and parentheses; printing a parsed expression and parsing it again gives the same tree.", "quantifier": "every expression, of any size and nesting", "why_tests_cant": "Precedence and round trip are claims about all expression trees.", "anchors": ["src/parsers.rs: expr", "src/types.rs: Expr Display"]}
{"id": "C19", "title": "An expression's value is its exact value rounded to the largest number of decimals written in it", "statement": "When no division is involved and nothing overflows, the value of a parsed expression is its exact rational value rounded, half away from zero, to the largest scale of any literal in it, and has exactly that scale.", "quantifier": "every expression", "why_tests_cant": "Ranges over all expressions; the rounding rule shows only in some products.", "anchors": ["src/types.rs: ExprValue::from, Expr::evaluate"]}
{"id": "C20", "title": "Evaluating an expression never panics", "statement": "A syntactically valid expression never crashes the parser. (It does: dividing by a zero-valued sub-expression panics; the true claim is that without overflow, panics happen exactly on a division by zero.)", "quantifier": "every expression", "why_tests_cant": "Whether a divisor is zero depends on arbitrary sub-expressions.", "anchors": ["src/types.rs: Expr::evaluate", "src/parsers.rs: expr_value"]}
{"id": "C21", "title": "A cost specification accepts each component at most once, in any order", "statement": "A braced cost specification succeeds exactly when per-unit, total, currency, date, label and merge are each given at most once, its fields are the given components, and permuting the components does not change it.", "quantifier": "every list of cost components of any length and order", "why_tests_cant": "Permutation invariance over lists of any length.", "anchors": ["src/parsers.rs: cost_spec, cost_comp", "src/types.rs: CostSpecBuilder"]}
{"id": "C22", "title": "Printing a cost specification and parsing it gives it back", "statement": "For every cost specification obtained from parsing, its printed form parses to an equal cost specification. (False for labels containing quotes or backslashes; true otherwise.)", "quantifier": "every cost specification", "why_tests_cant": "Round trip over a product of optional fields and arbitrary expressions.", "anchors": ["src/types.rs: CostSpec Display", "src/parsers.rs: cost_spec"]}
{"id": "C23", "title": "A keyword directly followed by a colon is lexed as a metadata key and nothing else changes", "statement": "The token stream after key recognition has the same length and locations; the i-th token is a key with the keyword's text exactly when the i-th raw token is a keyword and the next one is a colon, and is otherwise unchanged.", "quantifier": "every token stream", "why_tests_cant": "One-token lookahead with state; must hold at every position of every stream.", "anchors": ["src/lexer.rs: KeywordThenColonToKey"]}
{"id": "C24", "title": "Line structure of the token stream is normalised", "statement": "The token stream handed to the parser never starts with an end-of-line, never has two consecutive end-of-lines, contains no comment or combined end-of-line/indent tokens, and every indent token directly follows an end-of-line.", "quantifier": "every raw token stream", "why_tests_cant": "Blank lines, comments and indentation can be combined without bound.", "anchors": ["src/lexer.rs: EolIndentHandler"]}
{"id": "C25", "title": "No significant token is lost or reordered by line handling", "statement": "Outside ignored lines (lines starting with a colon, or indented lines starting with a colon), the tokens handed to the parser are exactly the raw tokens other than line ends and comments, in the same order with the same locations.", "quantifier": "every raw token stream", "why_tests_cant": "Must hold for any arrangement of blank, ignored and ordinary lines.", "anchors": ["src/lexer.rs: EolIndentHandler"]}
{"id": "C26", "title": "The token stream ends with an end-of-line", "statement": "Documented claim: lexing forces a final end-of-line in case missing. (False for inputs with at least one earlier line end; true when there is none.)", "quantifier": "every raw token stream", "why_tests_cant": "The missing case depends on whether any earlier end-of-line was emitted, an unbounded history.", "anchors": ["src/lexer.rs: EolIndentHandler::next, lex"]}
{"id": "C27", "title": "Lexical recovery leaves good tokens alone and stays within the failed text", "statement": "Tokens that lexed successfully are passed through unchanged; each failed piece is replaced by tokens whose locations lie within that piece in order.", "quantifier": "every sequence of successful and failed lexer items", "why_tests_cant": "Ranges over every mixture of failures.", "anchors": ["src/lexer.rs: RecoveryAttempter"]}
{"id": "C28", "title": "Dates are accepted exactly when they exist in the calendar", "statement": "A date token is accepted exactly when it denotes a day of the proleptic Gregorian calendar, and then yields that year, month and day; digits in the token never crash the lexer.", "quantifier": "every date text matched by the lexer, including non-ASCII digits", "why_tests_cant": "Unicode digits are matched by the lexer's pattern but crash the conversion; tests use ASCII digits.", "anchors": ["src/lexer.rs: parse_date, parse_time"]}
{"id": "C29", "title": "Number literals denote the number written", "statement": "A number token, with optional thousands separators, yields the decimal with the digits written and as many decimals as written.", "quantifier": "every number text matched by the lexer", "why_tests_cant": "All digit strings.", "anchors": ["src/lexer.rs: parse_number"]}
{"id": "C30", "title": "String literals have escapes removed and nothing else changed", "statement": "A string token yields the text between the quotes with backslash-escaped characters unescaped and every other character unchanged; escaping any text and lexing it gives the text back.", "quantifier": "every text", "why_tests_cant": "Round trip over every string.", "anchors": ["src/lexer.rs: unescape_string_literal"]}
{"id": "C31", "title": "Parsing succeeds only if every token was understood", "statement": "If parsing a file reports no syntax error then its token stream is the concatenation of the token runs of its declarations: no token was skipped by error recovery. A file is parsed without syntax error exactly if it is in the language, and its meaning is the one the language gives it.", "quantifier": "every token stream of every file", "why_tests_cant": "Recovery and backtracking may skip input anywhere; must hold on all streams.", "anchors": ["src/parsers.rs: file, declaration", "src/lib.rs: parse_declarations"]}
{"id": "C32", "title": "A lexical error always makes parsing fail", "statement": "If a file's token stream contains an error token then parsing that file reports an error.", "quantifier": "every token stream with an error token at any position", "why_tests_cant": "The error token can be anywhere in any construct.", "anchors": ["src/parsers.rs: file and every token parser", "src/lexer.rs: Token::Error"]}
{"id": "C33", "title": "Payee and narration are assigned by position and empty strings count as absent", "statement": "A transaction header with one string has it as narration, with two has payee then narration, and an empty string gives an absent field.", "quantifier": "every transaction header", "why_tests_cant": "All combinations with arbitrary text, tags and links.", "anchors": ["src/parsers.rs: transaction_header_line, replace_some_empty_with_none"]}
{"id": "C34", "title": "Tags, links and metadata keys are collected without duplicates, duplicates are reported", "statement": "The tags (links, keys) of a directive are those written in its first line and its metadata lines, each once, with the location and value of the first metadata line giving it or else of its first occurrence in the first line, and one error is reported per repeated occurrence.", "quantifier": "every list of tags, links and metadata lines", "why_tests_cant": "Any number and arrangement of repetitions.", "anchors": ["src/parsers.rs: tags_links, metadata, merge_tags, merge_links"]}
{"id": "C35", "title": "The currencies of an open directive are those written, repetition is reported", "statement": "The currency set of an open directive is the set of currencies written and one error is reported per repetition.", "quantifier": "every currency list", "why_tests_cant": "Any length and arrangement of repetitions.", "anchors": ["src/parsers.rs: currency_list"]}
{"id": "C36", "title": "A long string warns exactly when it has more lines than the limit", "statement": "A string literal gives a warning exactly when its number of lines exceeds the configured maximum (64 if not configured), and the string is accepted regardless.", "quantifier": "every string and every limit", "why_tests_cant": "All strings.", "anchors": ["src/parsers.rs: string"]}
{"id": "C37", "title": "Single-valued options keep the first value and report later ones", "statement": "For each single-valued option, after any sequence of option pragmas its value is that of the first valid occurrence, or is absent when there is none, and every later occurrence is reported as a duplicate.", "quantifier": "every sequence of options", "why_tests_cant": "First-wins over arbitrary histories.", "anchors": ["src/options.rs: Options::assimilate, update_optional"]}
{"id": "C38", "title": "Multi-valued options accumulate a set and report repeated values", "statement": "operating_currency, documents and inferred_tolerance_default accumulate every distinct value given, and each repeated one is reported.", "quantifier": "every sequence of options", "why_tests_cant": "Arbitrary histories.", "anchors": ["src/options.rs: Options::assimilate, update_hashmap, update_unit_hashmap"]}
{"id": "C39", "title": "Tolerance lookup prefers the specific currency and falls back to '*'", "statement": "The inferred default tolerance of a currency is the one configured for it if any, else the one for '*', else none; the effective list contains each currency once.", "quantifier": "every history of options and every currency", "why_tests_cant": "All histories and currencies.", "anchors": ["src/options.rs: Options::inferred_tolerance_default, inferred_tolerance_defaults"]}
{"id": "C40", "title": "The result does not depend on the order in which included files happen to be parsed", "statement": "Parsing the same files gives the same directives and the same set of errors whatever the (random) iteration order over included files. (False when an included file renames an account type or sets the long string limit; true when only the root file does.)", "quantifier": "every set of files and every iteration order", "why_tests_cant": "The order is a hash map's random order: a schedule, not an input.", "anchors": ["src/lib.rs: parse_declarations", "src/sources.rs: content_iter", "src/options.rs: ParserOptions::assimilate"]}
{"id": "C41", "title": "A parse succeeds exactly when nothing at all was reported as an error, and warnings are kept either way", "statement": "The parser returns success exactly when no lexical, syntax, pragma or option error was reported; warnings never cause failure and are returned in both cases; on failure every error reported by any phase is returned.", "quantifier": "every input", "why_tests_cant": "Every combination of error sources.", "anchors": ["src/lib.rs: BeancountParser::parse"]}
{"id": "C42", "title": "Locations do not influence equality or lookup", "statement": "Two located items compare equal exactly when the items are equal, equal items hash equally, and a metadata lookup by key finds the value wherever the key was written.", "quantifier": "every pair of located items", "why_tests_cant": "Law quantified over all values.", "anchors": ["src/types.rs: Spanned PartialEq/Hash, Metadata::key_value"]}
{"id": "C43", "title": "Error annotations accumulate in order and do not change the message", "statement": "Adding related items or contexts to an error appends them in call order and changes neither the error's message, reason nor location.", "quantifier": "every error and every sequence of annotation calls", "why_tests_cant": "Arbitrary histories of calls.", "anchors": ["src/types.rs: ErrorOrWarning, AnnotatedErrorOrWarning"]}
{"id": "C44", "title": "Printing a directive and parsing it gives it back", "statement": "For every directive obtained from parsing, its printed form parses to an equal directive, and printing all directives of a parse and parsing the text gives the same directives in the same order. (False for postings with a total price, for balances with a tolerance and for strings containing quotes or backslashes; true otherwise, if accounts are of the default types.)", "quantifier": "every directive", "why_tests_cant": "A round trip over all directives.", "anchors": ["src/types.rs: Display for Directive, Transaction, Posting, Metadata", "src/format.rs"]}
{"id": "C45", "title": "A directive's location covers exactly the tokens it was parsed from", "statement": "The location of each parsed declaration starts at its first token and ends at its last token, and declarations of a file have locations in increasing, non-overlapping order.", "quantifier": "every token stream with ordered token locations", "why_tests_cant": "Every declaration in every file.", "anchors": ["src/parsers.rs: file, spanned", "src/types.rs: Spanned"]}
{"id": "C46", "title": "The option pragma is decoded as documented", "statement": "Each documented option name decodes its value to the corresponding setting or reports a bad value; unknown names are reported and never alter any option.", "quantifier": "every option name and value string", "why_tests_cant": "All strings.", "anchors": ["src/options.rs: BeancountOption::parse"]}
{"id": "C47", "title": "Parsing a file panics only because of arithmetic or a non-ASCII currency", "statement": "Parsing the tokens of a file, well-formed or not, always returns a result, except if some expression in it has no value (division by zero or overflow), or a currency, by itself or as the value of an option, has a character that is not ASCII.", "quantifier": "every token stream, including malformed ones, and every reachable state of the options", "why_tests_cant": "Recovery may restart parsing at any token; absence of panics is over all token streams.", "anchors": ["src/parsers.rs: file, declaration and every parser below them", "src/types.rs: AccountTypeNames::update, Currency::try_from, Expr::evaluate"]}
{"id": "C48", "title": "The raw tokens of a text are its longest matches, in order, with nothing lost", "statement": "Lexing cuts a text from left to right into pieces; each piece is the longest match of the language's token patterns (fixed texts winning ties) or an error where no token can be recognised; pieces come one after the other within the text, a token is what the text at its location denotes, and every character outside the pieces is a space or tab.", "quantifier": "every text of any length, every Unicode table of letters and digits agreeing with ASCII, and every way the generated automaton may handle dead ends", "why_tests_cant": "All texts; a test covers single samples of the interplay of about sixty patterns.", "anchors": ["src/lexer.rs: Token, bare_lex"]}
{"id": "C49", "title": "The tokens handed to the parser are located where they are written", "statement": "For every text, the tokens handed to the parser are in increasing order within the text, between characters, have the line structure the parser relies on, and every token other than a line end or indent is what the text at its location denotes, including tokens recovered after lexical errors and keywords turned into keys.", "quantifier": "every text", "why_tests_cant": "All texts, with any mixture of lexical errors, comments, ignored lines and indentation.", "anchors": ["src/lexer.rs: lex, attempt_recovery, keyword_then_colon_to_key, handle_eol_indent"]}
{"id": "C50", "title": "Lexing never panics", "statement": "Lexing any text returns a token stream.", "quantifier": "every text", "why_tests_cant": "Absence of panics over all texts, in every callback and every slice of the text.", "anchors": ["src/lexer.rs: lex, parse_date, parse_time, Token callbacks"]}
{"id": "C51", "title": "Written reports show the text they are about", "statement": "Writing any list of errors or warnings never panics; it writes one report per error, in order, each followed by its annotation if it has one, and stops at the first failure of the writer. Each report has the error's message, one label for the error itself, one per context and one per related element, in this order with their texts, and every label covers, in the text shown under the name of its source, exactly the characters of its span without trailing blanks.", "quantifier": "every set of sources read, every history of synthetic spans, every list of errors or warnings with any spans, contexts, related elements and annotations, every writer", "why_tests_cant": "Label positions depend on byte and character offsets in arbitrary texts, on which sources share a name, and on where the writer fails.", "anchors": ["src/sources.rs: write_report, write_errors_or_warnings, sources, source_id_string_and_adjusted_rune_span, SyntheticSources", "src/types.rs: Report, AnnotatedErrorOrWarning, ErrorOrWarningKind"]}
{"id": "C52", "title": "Every location is where the thing is written", "statement": "Every location in the outcome of a parse - of directives and everything in them at any depth, options, plugins, and of errors and warnings with their contexts and related elements - lies in a source which was read: it runs from the start of the first to the end of the last of consecutive tokens of that source, on character boundaries, and the text there contains the located name, string or date as written. Everything in a declaration is located within it. Only what is written as nothing at all (empty metadata, a null value) has the location of an empty match.", "quantifier": "every file system, every set of sources read in any order, every text, lexed in any admissible way, successful and failed parses", "why_tests_cant": "Locations come from nested parsers with backtracking, and are copied by pragmas, options and reports; a wrong one shows only in the input that reaches it.", "anchors": ["src/parsers.rs: spanned, map_with, all directive and pragma parsers", "src/lib.rs: PragmaProcessor, BeancountParser::parse", "src/options.rs: Options::assimilate, BeancountOption", "src/types.rs: Spanned, SpannedDirective, ErrorOrWarning"]}
{"id": "C53", "title": "Parsing texts does not crash, with three exceptions", "statement": "Reading any files and parsing their texts, well-formed or not, never panics, unless the lexer comes to a date or time written with a decimal digit which is not ASCII in one of the texts (or refuses a text with such a date in it), or one writes an expression that divides by zero or whose value is too large for a decimal, or gives an option a currency which is not ASCII. In particular texts without arithmetic operators between numbers, without dates and times in foreign digits and without such options never crash it, whatever else is in them.", "quantifier": "every file system, every set of files with any texts, read in any order, any behaviour of the lexer engine within its contract", "why_tests_cant": "Crashes hide in arbitrary garbage input, error recovery and combinations of files; fuzzing samples them.", "anchors": ["src/lib.rs: BeancountParser::new, BeancountParser::parse, lex_with_source", "src/lexer.rs: lex", "src/parsers.rs: file", "src/types.rs: Expr::evaluate, Currency::try_from"]}
{"id": "C54", "title": "Syntax errors are contained", "statement": "Whatever the tokens of a file, parsing cuts them, in order and without omission, into declarations and skipped stretches; each declaration is exactly what the grammar says at that place, read with all its lines and the options in force there; there is one syntax error for each skipped stretch and two stretches are never adjacent; a declaration before a malformed stretch is not affected by it; after a malformed stretch in which no declaration begins, nothing of the rest of the file is hidden: all its declarations are read and all its errors reported. (The last part is false if the next declaration has an error of its own, which is then skipped without a word, and if no declaration follows, in which case the file yields nothing.)", "quantifier": "every sequence of tokens, well-formed or not, every state of the options, every place and length of a malformed stretch", "why_tests_cant": "Malformed input is unbounded: tests show recovery after a few chosen mistakes, not that no declaration is lost or invented after any mistake anywhere.", "anchors": ["src/parsers.rs: file, declaration", "src/lib.rs: BeancountParser::parse"]}
{"id": "C55", "title": "Errors say what is wrong, and where", "statement": "A refused name (currency, flag letter, tag, link, metadata key, account type name, account, account component) is refused with a message which names exactly the offending characters and the rule broken, and such a message is given only to names which break that rule; the characters can be read off the message. The same holds for values of options, which list the accepted words where there is a list, and for cost specifications, whose message names each repeated aspect. Every error reported for a file about a duplicate or an option is about something which stands in the file at the location reported. (Two messages do not tell the whole rule; the wording of syntax errors comes from a library.)", "quantifier": "every text offered as a name or as the value of an option, every renaming of account types, every cost specification, every sequence of tokens", "why_tests_cant": "Messages depend on the text refused: tests compare a few messages, not that for every bad text the message matches the reason and place.", "anchors": ["src/types.rs: Display for CurrencyError, KeyError, AccountError, AccountTypeNameError, AccountNameError, TagOrLinkIdentifierError, FlagLetterError, CostSpecErrors, AccountTypeNamesError", "src/options.rs: Display for BeancountOptionError, BadValueErrorKind", "src/parsers.rs: From<ParserError> for Error"]}
{"id": "C56", "title": "A successful parse loses nothing that was written", "statement": "If parsing succeeds, then everything written is in the result. Every file that was read is a source and a file of the language without errors; every include stands for at least one file, each of which is a source, or another path of one. The directives are exactly those of all sources, each once, with everything they say; only tags and metadata are added, which are pushed somewhere and which the directive does not have itself. The plugins are exactly those written. Every tag and metadata key is popped as often as it is pushed. Every option written has its value in the result, with its location, and every option in the result is written; no option is written twice for the same setting. (The last part is false of the account type names and of `long_string_maxlines`: they may be written any number of times, and the last one read wins.)", "quantifier": "every file system, every root file, every order in which files are read, every text", "why_tests_cant": "Silent loss shows only on the one combination of files, includes, pushes and options that triggers it; tests compare a few ledgers.", "anchors": ["src/lib.rs: BeancountParser::parse, PragmaProcessor", "src/sources.rs: BeancountSources", "src/options.rs: Options::assimilate, ParserOptions::assimilate"]}
{"id": "C57", "title": "Layout does not matter", "statement": "What comes of parsing depends on the tokens of the files only, not on where they stand: two sets of files whose texts have the same tokens, but different spaces, comments, blank lines or line ends, are read in the same way and give the same result, whether success or failure, but for locations: the same directives, options, plugins and warnings, or the same errors with the same messages, in the same order. This holds although locations are compared while processing (an include is a duplicate if its context differs, and contexts contain locations): such comparisons come out the same in every layout.", "quantifier": "every two file systems with the same tokens in corresponding files, every root file, every order in which files are read", "why_tests_cant": "Layouts are unbounded in number; a dependence on position (a comparison of locations, a lookup by location) shows only when two places happen to coincide or differ.", "anchors": ["src/lib.rs: BeancountParser::parse, PragmaProcessor, fmt_include_context", "src/parsers.rs: file", "src/types.rs: Spanned PartialEq, Hash", "src/sources.rs: BeancountSources"]}
{"id": "C58", "title": "Which texts differ in layout only", "statement": "White space between words, comments, blank lines, ignored lines and the kind of line end carry no meaning. A text without lexical errors is words, spaces and line ends; every word ends before white space and before a comment. Two texts with the same words in the same lines, the same of which are indented, have the same tokens: of several line ends in a row only the last counts, those before the first line do not, and a final comment counts as a line end. Parsing files changed only so gives the same outcome but for locations, and does not panic unless it did before.", "quantifier": "every two texts of the same words and lines in any layout, every two file systems of such texts, every order in which files are read", "why_tests_cant": "There are unboundedly many ways to lay out a ledger, and the lexer handles line ends, comments and ignored lines with regular expressions and two stages of look-ahead whose interplay depends on what happens to be adjacent.", "anchors": ["src/lexer.rs: Token, EolIndentHandler, KeywordThenColonToKey", "src/lib.rs: BeancountParser::parse"]}
{"id": "C59", "title": "A file is its passages in turn", "statement": "A file may be cut between whole lines, wherever the next line with anything in it is not indented. If text A followed by text B is parsed, it has no syntax errors exactly if A, and then B with the options A leaves, have none; and then its declarations are those of A followed by those of B, likewise its errors and warnings, and the options after it are those after B, all but for locations. Nothing in B changes what A means, and nothing in A changes what B means except the options it sets.", "quantifier": "every two texts of whole lines of which the second begins unindented, every option state", "why_tests_cant": "The grammar has optional parts and repetition at every level, and the lexer adaptors look ahead across line ends; that no declaration reaches over an unindented line, or is read differently because of what follows, concerns every pair of texts.", "anchors": ["src/parsers.rs: file, declaration, directive, pragma", "src/lexer.rs: lex, EolIndentHandler", "src/lib.rs: BeancountParser::parse"]}
{"id": "C60", "title": "Exactly the files found by following includes are read", "statement": "The sources are the root file and the files found by following includes: a file is read if an include of a file read matches it, it exists and is not the root file, and nothing else is read. Each has the text of the file system. The files reported unreadable are exactly those an include of a file found leads to which exist and cannot be read, each with the error of the file system; and what an include of a file found stands for is what the file system says. None of this depends on the order in which files are read. (A file which goes by two names, such as by a symbolic link, is found by both, but is a source by one of them only; the equivalences are for trees in which nothing goes by two names.)", "quantifier": "every file system, every root file, every order in which files are read, every depth of nested includes, cyclic includes too", "why_tests_cant": "The reader is a work list with two kinds of deduplication over an unbounded and possibly cyclic graph of files; that it reaches every file reachable, and no other, concerns every such graph.", "anchors": ["src/sources.rs: BeancountSources::try_read_with_includes, read_with_includes, included_globs", "src/lexer.rs: bare_lex"]}
{"id": "C61", "title": "An include acts as the text of the file in its place", "statement": "If a root file includes another file of the same directory, which is included nowhere else, then replacing the line with the include by the contents of that file makes no difference: both parse, or neither does, and if they do, the directives are the same in the same order, so are the options and the plugins, and so are the warnings in some order (the line of the include may cause one more, if the name of the file spans too many lines), all but for locations. The files found are the same but for the one included. This is for whole lines, beginning unindented, and for files in which the options that parsing depends on are set only before the include.", "quantifier": "every root file, every position of the include, every contents of the included file, every file system, every order in which files are read", "why_tests_cant": "Pushed tags and metadata, options, duplicate detection, the order of directives of the same date and nested includes all cross the boundary between the files; that none of them notices it concerns every such combination.", "anchors": ["src/lib.rs: BeancountParser::parse, PragmaProcessor", "src/parsers.rs: file", "src/sources.rs: BeancountSources, resolve_included_path", "src/lexer.rs: lex"]}
{"id": "C62", "title": "Between pragmas, directives may be written in any order", "statement": "Exchanging neighbouring passages of a file which have no pragmas in them, any number of times and in any files of a tree, makes no difference to whether the tree parses, to the options, to the plugins, to the set of directives (each with its tags, links and metadata, pushed ones too) nor to the warnings, but for locations; the same files are read. If the passages exchanged never have a date in common, then the directives are in the same order in the result, too.", "quantifier": "every tree of files, every rearrangement of any of them, every order in which files are read", "why_tests_cant": "The claim is about every pair of a ledger and its rearrangements: any state the parser kept from one directive to the next would break it for some pair.", "anchors": ["src/lib.rs: BeancountParser::parse, PragmaProcessor, sort_by_key", "src/parsers.rs: file, declaration", "src/lexer.rs: lex"]}
{"id": "C63", "title": "Directives may be left out without an effect on the others", "statement": "Leaving passages without pragmas out of files of a tree which parses gives a tree which parses; its directives are those of the whole tree which do not begin in a passage left out, all of them, each the same as there and in the same order; its options and plugins are the same, and its warnings are some of those of the whole. Conversely, if the tree with passages left out parses and the whole does not, then the whole has an error inside of some file: a directive is never an error because of directives elsewhere.", "quantifier": "every tree of files, every choice of passages left out, every order in which files are read", "why_tests_cant": "It compares all ledgers with all their parts.", "anchors": ["src/lib.rs: BeancountParser::parse, PragmaProcessor", "src/parsers.rs: file, declaration", "src/lexer.rs: lex"]}
{"id": "C64", "title": "Asked for an option, the parser answers with what is written", "statement": "After a successful parse every option written in a source has a documented name and a value it can have; asking for an option which has one value gives that value, decoded, with the location it is written at, exactly if it is written in some source, and nothing otherwise; the operating currencies and document roots are exactly those written, each once, documents relative to the directory of the file in which they are written; the tolerance of a currency is the one written for it, or else the one for `*`, or else there is none; the limit for long strings and the names of account types are those written last, or else the default.", "quantifier": "every tree of files which parses, every order in which files are read, every option", "why_tests_cant": "It relates every answer to every text of every source.", "anchors": ["src/options.rs: Options::title .. Options::long_string_maxlines, Options::inferred_tolerance_default, Options::inferred_tolerance_defaults, Options::account_type_name", "src/options.rs: BeancountOption::parse, Options::assimilate, ParserOptions::assimilate", "src/parsers.rs: option"]}
{"id": "C65", "title": "The root may be a file of any name, or a text given directly", "statement": "Sources can be made from a file exactly if that file can be read, and the error is that of reading it, whatever its includes are. Two roots with the same text in the same directory, or one of them a text given directly and the other a file in the current directory, have the same result - directives, options, plugins, errors and warnings with all their locations - and the same lines are shown for each location, provided that no include leads to either. (If an include leads to the root the results differ: a file which includes itself is an error, the same text given directly is not.)", "quantifier": "every tree of files, every two names of the root in a directory, every order in which files are read", "why_tests_cant": "Tests of a parser are made with texts given directly; that they speak about files has to hold for all texts.", "anchors": ["src/sources.rs: BeancountSources::try_from, BeancountSources::from, try_read_with_includes, read_with_includes, resolve_included_path", "src/lib.rs: BeancountParser::parse, PragmaProcessor", "src/options.rs: BeancountOption::parse"]}
{"id": "C66", "title": "pushtag and poptag around a passage tag exactly its directives", "statement": "Putting a passage without pragmas, anywhere in any file, between `pushtag #t` and `poptag #t` changes nothing about whether the parse succeeds, and if it does then each directive which begins in that passage has the tag t besides what it had (and not twice, if it had it already), and everything else is the same but for locations: the order of the directives, all other directives, options, plugins and warnings. The same files are read.", "quantifier": "every tree of files, every passage of whole lines in any of them without pragmas, every tag, every order in which files are read", "why_tests_cant": "It compares two runs for every text, every place in it, and whatever other tags are pushed or popped around it or in other files.", "anchors": ["src/lib.rs: PragmaProcessor::process, augment_directive", "src/parsers.rs: pragma, file, metadata", "src/lexer.rs: lex"]}
{"id": "C67", "title": "pushmeta and popmeta around a passage give exactly its directives the metadata", "statement": "Putting a passage without pragmas, anywhere in any file, between `pushmeta k: v` and `popmeta k:`, where k is pushed nowhere else, changes nothing about whether the parse succeeds, and if it does then each directive which begins in that passage and has no metadata with key k of its own has the value v for it besides what it had, and a directive with key k keeps its own value. Everything else is the same but for locations: the order of the directives, all other directives, options and plugins. Warnings are the same too, except that a string may bring a warning of its own. The same files are read.", "quantifier": "every tree of files, every passage of whole lines in any of them without pragmas, every valid key pushed nowhere else, every value which is no account, every order in which files are read", "why_tests_cant": "It compares two runs for every text, every place in it, and whatever other metadata and tags are pushed or popped around it or in other files.", "anchors": ["src/lib.rs: PragmaProcessor::process, augment_directive", "src/parsers.rs: pragma, meta_key_value, meta_value", "src/lexer.rs: lex"]}
{"id": "C68", "title": "Leaving out an option or a plugin has no effect on anything else", "statement": "If a parse succeeds, then so does the parse of the files without a line which is a plugin, or an option other than the names of account types and long_string_maxlines. The directives are the same, in the same order, and so is everything else but for locations: without a plugin all options and all other plugins, in their order; without an option all plugins and all other options, and what the option set is either as before (because it is in a file which was left as it is) or not set at all. No warning is new. The same files are read.", "quantifier": "every tree of files, every line in any of them which is a plugin or an option of any of these names with any value, every order in which files are read", "why_tests_cant": "It compares two runs for every text, every place in it, every option and value, and whatever else is in that file and in others.", "anchors": ["src/lib.rs: PragmaProcessor::process", "src/options.rs: Options::assimilate", "src/parsers.rs: pragma, option", "src/lexer.rs: lex"]}
{"id": "C69", "title": "The program `check` reports unknown and closed accounts and transactions which do not balance, and nothing else", "statement": "After a successful parse the example program `check` reports, in the order of the directives: for a transaction all of whose postings have an amount, and which has postings, one error exactly if the sum of the amounts is not zero, telling the exact sum; for each posting an error exactly if its account was not opened before, or was opened and then closed; for an open directive a warning if the account is open already and an error if it was closed; for a close directive an error if the account was not opened or is closed already. Accounts are found by name whatever the order in which directives are written and in which files they are: an account counts as unknown exactly if no open directive for it has a date which is not later, and a posting dated after the close of an account is reported. The program does not crash if the amounts of each transaction can be added up.", "quantifier": "every tree of files which parses successfully, every transaction, posting, open and close directive in it, every account and every sequence of dates", "why_tests_cant": "It is about every history of open and close directives and postings over all files, and about exact sums of any number of amounts.", "anchors": ["examples/check.rs: parse, check_postings_amounts, check_postings_accounts", "src/types.rs: Spanned::error, Spanned::warning, related_to, related_to_all, in_context", "src/lib.rs: BeancountParser::parse, ParseSuccess"]}
{"id": "C70", "title": "The program `check-postings-balance` reports exactly the transactions which cannot balance", "statement": "After a successful parse the example program `check-postings-balance` reports, in the order of the directives, a warning for each transaction without postings, an error for each with more than one posting without amount (related to exactly these postings), an error for each whose postings all have an amount where the total is not zero, and nothing else. If it reports no error then each transaction has exactly one posting without amount, or the exact sum of its amounts is zero. It does not crash if the amounts of each transaction can be added up.", "quantifier": "every successful parse, every transaction with any number of postings, with and without amounts in any order, every way in which itertools::partition may reorder the postings", "why_tests_cant": "It is about every list of postings, every mixture of those with and without amounts, and exact sums.", "anchors": ["examples/check-postings-balance.rs: parse", "src/types.rs: Transaction::postings, Posting::amount, Spanned::error, Spanned::warning, related_to_all, in_context"]}
{"id": "C71", "title": "Putting in a plugin or a new option has no effect on anything else", "statement": "If a parse succeeds, then so does the parse of the files with a line put in, between two declarations, which is a plugin (in any file), or (in the root) an option with a proper value, other than the names of account types and long_string_maxlines, which sets something that is not set so far. The directives are the same, in the same order, and so is everything else but for locations and for warnings about the line itself: with the plugin all options and all other plugins, in their order; with the option all plugins and all other options. The option then has the value. The same files are read.", "quantifier": "every tree of files, every place between two declarations, every plugin with or without configuration, every option of any of these names with any proper value, every order in which files are read", "why_tests_cant": "It compares two runs for every text, every place in it, every option and value, and whatever else is in that file and in others.", "anchors": ["src/lib.rs: PragmaProcessor::process", "src/options.rs: Options::assimilate", "src/parsers.rs: pragma, option", "src/lexer.rs: lex"]}
{"id": "C72", "title": "What the program `dump` prints is parsed as the same directives, again and again", "statement": "For a successful parse the example program `dump` prints on standard output each directive in its order, followed by an empty line, whether or not it shows allocations; for a parse which fails it prints nothing there. What it prints, given to the parser inline or as a file, is parsed successfully with the same directives in the same order (locations, and the order in hash containers, may differ), and so on for any number of rounds of printing and parsing. What it prints for one ledger may also be appended to the root of another which parses: the result then has the directives of both, the appended ones after the others where neither must come before the other, and the options and plugins of the ledger appended to.", "quantifier": "every successful parse of every tree of files, any number and kind of directives, any order of hash containers at each printing, with and without the flag, any number of rounds", "why_tests_cant": "It is about every set of directives and about any number of rounds of printing and parsing, with hash containers in every order.", "anchors": ["examples/dump.rs: parse, show_directive", "src/types.rs: Display for Directive", "src/format.rs", "src/lexer.rs: lex, EolIndentHandler", "src/lib.rs: BeancountParser::parse"]}
{"id": "C73", "title": "Directives appended to a ledger are added as they would be parsed alone, and change nothing else", "statement": "Let a ledger be parsed, none of whose root's options renames account types or sets long_string_maxlines, and let a text of directives, without pragmas, be parsed on its own under the same path. Then the ledger with that text appended to the root is parsed. Its directives are those of the ledger and those of the text, each the same as before but for locations, in order; where neither of two must come before the other, those of the text come after those of the ledger. Options and plugins are those of the ledger, warnings those of both. Conversely, if the ledger with the text appended is parsed, then so are the ledger and the text. The same files are read. The same holds for any number of passages appended one after the other.", "quantifier": "every tree of files, every text of directives which begins with an unindented line, every order in which files are read; any number of passages", "why_tests_cant": "It compares three runs for every ledger with any number of files, and every text which is appended.", "anchors": ["src/lib.rs: BeancountParser::parse, PragmaProcessor::next, PragmaProcessor::result", "src/parsers.rs: file, directive", "src/lexer.rs: lex", "src/sources.rs: read_with_includes"]}
