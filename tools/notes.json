{
 "C01": {
  "note": "Sorting of directives: permutation, ordered, stable, and uniqueness of such a list."
 },
 "C16": {
  "note": "False as stated: validation panics exactly on non-ASCII strings (C16_currency_panic_iff, C16_never_panics_false). The acceptance half is proved for all strings on which the code returns."
 },
 "C26": {
  "note": "False as documented: once any Eol was emitted, a final Eol is no longer forced (C26_final_eol_false). C26_final_eol_partial says what holds."
 },
 "C28": {
  "note": "Exact for dates and times of ASCII digits. The lexer regex admits other Unicode digits, on which the code panics (C28_never_panics_false), so the full claim is false. C28_date_panics_iff and C28_time_panics_iff say exactly on which texts: foreign digits, except in the day of a date whose month does not exist."
 },
 "C30": {
  "note": "Named escapes exactly; hex, unicode and octal escapes are decoded by the external crate `unescaper`, left as a parameter."
 },
 "C12": {
  "note": "False as stated: the end is the byte index of the last non-whitespace character plus one, which cuts a multibyte character and makes error_source_text panic (C12_multibyte). C12_content_partial covers a one-byte last character; a span of white space only is not trimmed (C12_all_whitespace)."
 },
 "C13": {
  "note": "Text, name and identifiers hold for every history. Lines and character positions hold if all fragments of the source but the last are ASCII (C13_lines_partial; C13_resolve_partial for the text) and are wrong otherwise (C13_lines_false), because the appended character indices are shifted by a number of characters instead of bytes."
 },
 "C46": {
  "note": "Decoding is exact (C46_decodes) and unknown names are reported exactly (C46_unknown). False as stated for currencies with non-ASCII characters, on which the code panics (C46_panics_iff, C46_always_reported_false)."
 },
 "C40": {
  "note": "False in general: an included file that renames an account type decides, by the order of a hash map, whether accounts in other files are valid (C40_order_matters). C40_order_irrelevant_partial: when no included file sets an account type name or the long string limit (the root may), every order gives the same directives, options and plugins, and the same errors and warnings up to their order."
 },
 "C41": {
  "note": "For the whole parse of sources read from any file system, in any order of the included files. Wording of parser errors is not modelled."
 },
 "C07": {
  "note": "For every file system, token function, and order of the included files; C07_panics_only_in_files makes file parsing the only source of panics, C47_whole_parse says when."
 },
 "C50": {
  "note": "False as stated: the patterns admit decimal digits of any script, on which date and time callbacks panic (C50_never_panics_false). C50_never_panics_partial: no panic for every text whose decimal digits are ASCII. C50_panics_only: panics only where the lexer comes to a date or time in foreign digits (not in comments, strings, accounts, numbers), or refuses a text containing one. C50_foreign_date_panics and C50_foreign_time_panics: there it does panic."
 },
 "C48": {
  "note": "C48_lexemes is stated over an independent specification of lexemes without regular expressions (Spec/Lexemes.lean); C48_unambiguous and C48_ties show that it is deterministic, C48_all_lexemes_read is the other direction. Logos itself is modelled by derivatives of the regular expressions; whether it falls back to the longest match after reading further, and how long errors are, is left open (parameter Engine)."
 },
 "C22": {
  "note": "False as stated for labels with quotes or backslashes (C22_print_parse_false). C22_print_parse_partial: for every cost specification of a posting of any successful parse of any text, the printed form is lexed and read back as the same cost specification, unless the label has a quote or backslash."
 },
 "C44": {
  "note": "False as stated: total prices, tolerances, quotes and backslashes are not printed in a readable form (C44_total_price_false, C44_tolerance_false, C44_quote_false, C44_backslash_false). C44_print_parse_partial and C44_print_parse_all_partial: for every other directive of any successful parse, from texts through lexer, grammar, pragmas and sort, printing and parsing again succeeds with the same directives. Assumed of Logos: NumberThenComma and SoundNumbers."
 },
 "C51": {
  "status": "partial",
  "note": "Any report with any spans is drawn without panicking, with the right labels in order, for files and for any history of synthetic spans; writing stops at the first failing write. What the labels show is right when source names are distinct (C51_shown_partial, C51_synthetic_shown_partial, C51_synthetic_file_shown_partial) and wrong otherwise, whichever text the renderer takes (C51_shown_false, C51_synthetic_name_false), or after non-ASCII synthetic fragments (C51_synthetic_position_false)."
 },
 "C52": {
  "note": "Locations of syntax errors (an unexpected token) are chumsky's and are not modelled. The span of an empty match is a parameter."
 },
 "C53": {
  "note": "Assumed of rust_decimal: SoundNumbers, numbers which are read fit. The three exceptions do panic: see the examples."
 },
 "C54": {
  "status": "partial",
  "note": "Proved for all tokens: the cut into declarations and skipped stretches (C54_pieces), that it determines the outcome (C54_determined), one error for each stretch (C54_one_error_each), that declarations are read whatever comes after (C54_read) and that reading resumes (C54_resume). That a malformed stretch hides nothing is false (C54_hides_false, C54_lost_all); C54_hides_nothing_partial: it holds if the first declaration after the stretch has no errors of its own. Location and wording of syntax errors are chumsky's and not modelled."
 },
 "C55": {
  "status": "partial",
  "note": "Names: exact both ways. Files: C55_file_partial covers duplicates and options; the wording and location of syntax errors, the contexts appended to messages, and the texts of rust_decimal and integer parsing come from libraries and are not modelled. C55_tells_rule_false: two messages do not tell the rule."
 },
 "C56": {
  "status": "partial",
  "note": "Files, includes, directives, plugins and pushes: proved in full. Options: C56_options_partial covers all options but those on which parsing itself depends; of these the claim is false (C56_options_false), and C56_last_wins says what holds instead."
 },
 "C57": {
  "note": "The drop of layout by the lexer itself (which texts have the same tokens) is C48 and C49; here the tokens are given, with any locations in which no two keys coincide, which lexed texts meet."
 },
 "C58": {
  "note": "Written is complete for texts without lexical errors if the engine falls back to the longest lexeme seen (C58_written); texts with lexical errors must be unchanged."
 },
 "C59": {
  "note": "Texts with syntax errors are outside: recovery from an error may skip over a boundary. Passages are texts in which each word ends where the next character says so (Spec/Passage.lean)."
 },
 "C60": {
  "note": "The equivalences assume that no file goes by two names (OneName) and that no pattern expands to an error (NoGlobErrors); C60_only_found needs neither. C60_two_names shows what happens otherwise."
 },
 "C61": {
  "note": "Parses that fail are only shown to fail in both runs; errors are not compared. Parser options set in or after the included file are outside (C40)."
 },
 "C62": {
  "note": "For texts divided into passages (C59), so without lexical errors at the cuts. Files are visited in the same order in both runs (C62_read: they can be); runs that fail are only shown to fail in both."
 },
 "C63": {
  "note": "As C62. C63_rest is for one passage, in one file or in several with the same text, and says by location which directives remain; C63_fewer is for any number of passages. C63_more is the converse: what is left out can make the whole fail only by an error within a file."
 },
 "C64": {
  "note": "All getters of Options (Model/Getters.lean); stated on tokens, C56 being the same for what is kept inside. Number decoding is rust_decimal's, as in C46."
 },
 "C65": {
  "note": "C65_self_include shows why includes which lead to the root are left out. The iteration order of the hash map of included files is taken to be the same in both runs."
 },
 "C66": {
  "note": "Passages are whole lines which begin with neither a blank nor an ignored character (C59). The directives meant are those whose location begins in the passage, in a source which has the passage between the two lines in the other run. The iteration order of the hash map of included files is taken to be the same in both runs (C66_read: it can be)."
 },
 "C67": {
  "note": "Values are given by the grammar (C67_values: strings, currencies, tags, links, dates, booleans, numbers, amounts and no value at all); accounts are left out, because whether they are valid depends on the options in force. The key must be pushed nowhere else: the sample after the theorem shows that the value of an outer push would be replaced, which is what the code does. Passages, locations and the order of included files as for C66."
 },
 "C68": {
  "note": "The line is given by its tokens, so that comments and white space in it are allowed. Names of account types and long_string_maxlines are left out because what follows is read with them: without them an account may be invalid, or a string bring a warning. Passages, locations and the order of included files as for C66."
 },
 "C69": {
  "note": "Writing the reports is C51 and C34; here it is which reports there are. The sum is over numbers whatever their currency, as the program does; costs and prices are not looked at. Sums which do not fit the decimals make the program crash, so C69_no_panic has that as hypothesis. The hash map of accounts is a list of keys, of which only get and insert are used."
 },
 "C70": {
  "note": "itertools::partition is a parameter: it may reorder the postings in any way which puts those with an amount first, and does not reorder if all have one. Currencies as for C69."
 },
 "C71": {
  "note": "The converse of C68. An option is put into the root: in a file which is included under several names the question would be which of them is read. Passages, locations and the order of included files as for C66."
 },
 "C20": {
  "note": "False as stated: division by zero and overflow panic (C20_never_panics_false, C20_division_by_zero_panics). C20_panics_only_partial: nothing else does, for every expression whose literals are decimals."
 },
 "C72": {
  "note": "False as stated for total prices, tolerances, quotes and backslashes, as C44 (C72_parse_again_false). C72_prints is what is printed. C72_parse_again_partial and C72_any_number_partial: for all other directives, with accounts of the default types (dump prints no options), for every order of hash containers at each printing. Assumed of Logos: NumberThenComma and SoundNumbers. Options and plugins are lost, which the theorem says too; an account of a renamed type is a fourth witness of the full statement's being false. C72_append_partial: what is printed for one ledger and appended to another gives the directives of both and the options and plugins of the other; for a root of whole lines (Passage) which sets no option of the parser (an option there which renames an account type does matter, see the last example in Props/Append.lean)."
 },
 "C73": {
  "note": "C73_append is the result, C73_exactly_if both directions of success, C73_read what is read. Hypotheses as in C62: the files are texts of whole lines at the place of the change (Passage). C73_again: any number of passages, one after the other, by induction on their number."
 }
}