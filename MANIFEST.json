{
 "claims": [
  {
   "property": "C01",
   "status": "proved",
   "theorems": [
    "Lima.Props.C01_sort_perm",
    "Lima.Props.C01_sort_ordered",
    "Lima.Props.C01_sort_stable",
    "Lima.Props.C01_sort_unique",
    "Lima.Props.C01_whole_parse"
   ],
   "note": "Sorting of directives: permutation, ordered, stable, and uniqueness of such a list."
  },
  {
   "property": "C02",
   "status": "proved",
   "theorems": [
    "Lima.Props.C02_tags",
    "Lima.Props.C02_open_iff",
    "Lima.Props.C02_innermost",
    "Lima.Props.C02_balanced"
   ],
   "note": ""
  },
  {
   "property": "C03",
   "status": "proved",
   "theorems": [
    "Lima.Props.C03_metadata",
    "Lima.Props.C03_open_iff",
    "Lima.Props.C03_innermost",
    "Lima.Props.C03_balanced"
   ],
   "note": ""
  },
  {
   "property": "C04",
   "status": "proved",
   "theorems": [
    "Lima.Props.C04_stray_pops",
    "Lima.Props.C04_open_tags",
    "Lima.Props.C04_open_metas",
    "Lima.Props.C04_balanced"
   ],
   "note": ""
  },
  {
   "property": "C05",
   "status": "proved",
   "theorems": [
    "Lima.Props.C05_history",
    "Lima.Props.C05_order",
    "Lima.Props.C05_reached"
   ],
   "note": ""
  },
  {
   "property": "C06",
   "status": "proved",
   "theorems": [
    "Lima.Props.C06_terminates",
    "Lima.Props.C06_once",
    "Lima.Props.C06_reports",
    "Lima.Props.C06_not_opened",
    "Lima.Props.C06_no_false_duplicate"
   ],
   "note": ""
  },
  {
   "property": "C07",
   "status": "proved",
   "theorems": [
    "Lima.Props.C07_include_expanded",
    "Lima.Props.C07_processing_never_panics",
    "Lima.Props.C07_panics_only_in_files"
   ],
   "note": "For every file system, token function, and order of the included files; C07_panics_only_in_files makes file parsing the only source of panics, C47_whole_parse says when."
  },
  {
   "property": "C08",
   "status": "proved",
   "theorems": [
    "Lima.Props.C08_unreadable_files_reported",
    "Lima.Props.C08_read_outcome",
    "Lima.Props.C08_errors_only",
    "Lima.Props.C08_terminates",
    "Lima.Props.C08_read_once",
    "Lima.Props.C08_includes_recorded",
    "Lima.Props.C08_content_faithful"
   ],
   "note": ""
  },
  {
   "property": "C09",
   "status": "proved",
   "theorems": [
    "Lima.Props.C09_identifier_unique",
    "Lima.Props.C09_path_unique",
    "Lima.Props.C09_lookup",
    "Lima.Props.C09_identifier_lt"
   ],
   "note": ""
  },
  {
   "property": "C10",
   "status": "proved",
   "theorems": [
    "Lima.Props.C10_relative",
    "Lima.Props.C10_absolute",
    "Lima.Props.C10_no_directory"
   ],
   "note": ""
  },
  {
   "property": "C11",
   "status": "proved",
   "theorems": [
    "Lima.Props.C11_lines_and_runes",
    "Lima.Props.C11_bad_span",
    "Lima.Props.C11_never_panics"
   ],
   "note": ""
  },
  {
   "property": "C12",
   "status": "partial",
   "theorems": [
    "Lima.Props.C12_trim",
    "Lima.Props.C12_all_whitespace",
    "Lima.Props.C12_content_partial",
    "Lima.Props.C12_multibyte"
   ],
   "note": "False as stated: the end is the byte index of the last non-whitespace character plus one, which cuts a multibyte character and makes error_source_text panic (C12_multibyte). C12_content_partial covers a one-byte last character; a span of white space only is not trimmed (C12_all_whitespace)."
  },
  {
   "property": "C13",
   "status": "partial",
   "theorems": [
    "Lima.Props.C13_text",
    "Lima.Props.C13_identifiers",
    "Lima.Props.C13_no_clash",
    "Lima.Props.C13_lines_partial",
    "Lima.Props.C13_resolve_partial",
    "Lima.Props.C13_lines_false"
   ],
   "note": "Text, name and identifiers hold for every history. Lines and character positions hold if all fragments of the source but the last are ASCII (C13_lines_partial; C13_resolve_partial for the text) and are wrong otherwise (C13_lines_false), because the appended character indices are shifted by a number of characters instead of bytes."
  },
  {
   "property": "C14",
   "status": "proved",
   "theorems": [
    "Lima.Props.C14_naming",
    "Lima.Props.C14_bijection",
    "Lima.Props.C14_update_outcome"
   ],
   "note": ""
  },
  {
   "property": "C15",
   "status": "proved",
   "theorems": [
    "Lima.Props.C15_account_accepted_iff",
    "Lima.Props.C15_components_unique"
   ],
   "note": ""
  },
  {
   "property": "C16",
   "status": "partial",
   "theorems": [
    "Lima.Props.C16_currency_partial",
    "Lima.Props.C16_currency_panic_iff",
    "Lima.Props.C16_never_panics_false"
   ],
   "note": "False as stated: validation panics exactly on non-ASCII strings (C16_currency_panic_iff, C16_never_panics_false). The acceptance half is proved for all strings on which the code returns."
  },
  {
   "property": "C17",
   "status": "proved",
   "theorems": [
    "Lima.Props.C17_tag_link_accepted_iff",
    "Lima.Props.C17_tag_link_rejected_iff",
    "Lima.Props.C17_account_type_name_accepted_iff",
    "Lima.Props.C17_account_name_accepted_iff",
    "Lima.Props.C17_key_accepted_iff",
    "Lima.Props.C17_subaccount_accepted_iff",
    "Lima.Props.C17_account_type_name_rejected_iff",
    "Lima.Props.C17_account_name_rejected_iff",
    "Lima.Props.C17_key_rejected_iff",
    "Lima.Props.C17_flag_letter"
   ],
   "note": ""
  },
  {
   "property": "C18",
   "status": "proved",
   "theorems": [
    "Lima.Props.C18_precedence",
    "Lima.Props.C18_unambiguous",
    "Lima.Props.C18_refused",
    "Lima.Props.C18_print_parse"
   ],
   "note": ""
  },
  {
   "property": "C19",
   "status": "proved",
   "theorems": [
    "Lima.Props.C19_value",
    "Lima.Props.C19_exact_without_products"
   ],
   "note": ""
  },
  {
   "property": "C20",
   "status": "partial",
   "theorems": [
    "Lima.Props.C20_never_panics_false",
    "Lima.Props.C20_division_by_zero_panics",
    "Lima.Props.C20_panics_only_partial"
   ],
   "note": "False as stated: division by zero and overflow panic (C20_never_panics_false, C20_division_by_zero_panics). C20_panics_only_partial: nothing else does, for every expression whose literals are decimals."
  },
  {
   "property": "C21",
   "status": "proved",
   "theorems": [
    "Lima.Props.C21_at_most_once",
    "Lima.Props.C21_fields",
    "Lima.Props.C21_any_order",
    "Lima.Props.C21_errors"
   ],
   "note": ""
  },
  {
   "property": "C22",
   "status": "partial",
   "theorems": [
    "Lima.Props.C22_print_parse_partial",
    "Lima.Props.C22_print_parse_false"
   ],
   "note": "False as stated for labels with quotes or backslashes (C22_print_parse_false). C22_print_parse_partial: for every cost specification of a posting of any successful parse of any text, the printed form is lexed and read back as the same cost specification, unless the label has a quote or backslash."
  },
  {
   "property": "C23",
   "status": "proved",
   "theorems": [
    "Lima.Props.C23_keys"
   ],
   "note": ""
  },
  {
   "property": "C24",
   "status": "proved",
   "theorems": [
    "Lima.Props.C24_line_structure"
   ],
   "note": ""
  },
  {
   "property": "C25",
   "status": "proved",
   "theorems": [
    "Lima.Props.C25_significant_tokens",
    "Lima.Props.C25_nothing_lost_without_colon"
   ],
   "note": ""
  },
  {
   "property": "C26",
   "status": "partial",
   "theorems": [
    "Lima.Props.C26_final_eol_partial",
    "Lima.Props.C26_final_eol_false"
   ],
   "note": "False as documented: once any Eol was emitted, a final Eol is no longer forced (C26_final_eol_false). C26_final_eol_partial says what holds."
  },
  {
   "property": "C27",
   "status": "proved",
   "theorems": [
    "Lima.Props.C27_recovery",
    "Lima.Props.C27_recovery_in_place"
   ],
   "note": ""
  },
  {
   "property": "C28",
   "status": "partial",
   "theorems": [
    "Lima.Props.C28_date_partial",
    "Lima.Props.C28_date_panics",
    "Lima.Props.C28_date_panics_iff",
    "Lima.Props.C28_time_panics_iff",
    "Lima.Props.C28_never_panics_false",
    "Lima.Props.C28_time_partial"
   ],
   "note": "Exact for dates and times of ASCII digits. The lexer regex admits other Unicode digits, on which the code panics (C28_never_panics_false), so the full claim is false. C28_date_panics_iff and C28_time_panics_iff say exactly on which texts: foreign digits, except in the day of a date whose month does not exist."
  },
  {
   "property": "C29",
   "status": "proved",
   "theorems": [
    "Lima.Props.C29_number"
   ],
   "note": ""
  },
  {
   "property": "C30",
   "status": "proved",
   "theorems": [
    "Lima.Props.C30_unescape",
    "Lima.Props.C30_escape_roundtrip",
    "Lima.Props.C30_plain_unchanged"
   ],
   "note": "Named escapes exactly; hex, unicode and octal escapes are decoded by the external crate `unescaper`, left as a parameter."
  },
  {
   "property": "C31",
   "status": "proved",
   "theorems": [
    "Lima.Props.C31_exactly_the_language",
    "Lima.Props.C31_every_token_understood",
    "Lima.Props.C31_refused",
    "Lima.Props.C31_unambiguous"
   ],
   "note": ""
  },
  {
   "property": "C32",
   "status": "proved",
   "theorems": [
    "Lima.Props.C32_lexical_error",
    "Lima.Props.C32_foreign_token",
    "Lima.Props.C32_whole_parse"
   ],
   "note": ""
  },
  {
   "property": "C33",
   "status": "proved",
   "theorems": [
    "Lima.Props.C33_payee_and_narration"
   ],
   "note": ""
  },
  {
   "property": "C34",
   "status": "proved",
   "theorems": [
    "Lima.Props.C34_metadata",
    "Lima.Props.C34_posting"
   ],
   "note": ""
  },
  {
   "property": "C35",
   "status": "proved",
   "theorems": [
    "Lima.Props.C35_open_currencies"
   ],
   "note": ""
  },
  {
   "property": "C36",
   "status": "proved",
   "theorems": [
    "Lima.Props.C36_default_limit",
    "Lima.Props.C36_configured_limit",
    "Lima.Props.C36_long_strings",
    "Lima.Props.C36_only_long_strings",
    "Lima.Props.C36_one_string"
   ],
   "note": ""
  },
  {
   "property": "C37",
   "status": "proved",
   "theorems": [
    "Lima.Props.C37_first_wins",
    "Lima.Props.C37_duplicate_reported",
    "Lima.Props.C37_others_ignored",
    "Lima.Props.C37_run"
   ],
   "note": ""
  },
  {
   "property": "C38",
   "status": "proved",
   "theorems": [
    "Lima.Props.C38_accumulates",
    "Lima.Props.C38_duplicate_reported"
   ],
   "note": ""
  },
  {
   "property": "C39",
   "status": "proved",
   "theorems": [
    "Lima.Props.C39_lookup",
    "Lima.Props.C39_fallback",
    "Lima.Props.C39_list"
   ],
   "note": ""
  },
  {
   "property": "C40",
   "status": "partial",
   "theorems": [
    "Lima.Props.C40_order_irrelevant_partial",
    "Lima.Props.C40_order_matters"
   ],
   "note": "False in general: an included file that renames an account type decides, by the order of a hash map, whether accounts in other files are valid (C40_order_matters). C40_order_irrelevant_partial: when no included file sets an account type name or the long string limit (the root may), every order gives the same directives, options and plugins, and the same errors and warnings up to their order."
  },
  {
   "property": "C41",
   "status": "proved",
   "theorems": [
    "Lima.Props.C41_success_iff",
    "Lima.Props.C41_success",
    "Lima.Props.C41_failure",
    "Lima.Props.C41_success_language"
   ],
   "note": "For the whole parse of sources read from any file system, in any order of the included files. Wording of parser errors is not modelled."
  },
  {
   "property": "C42",
   "status": "proved",
   "theorems": [
    "Lima.Props.C42_eq",
    "Lima.Props.C42_equivalence",
    "Lima.Props.C42_hash",
    "Lima.Props.C42_map",
    "Lima.Props.C42_lookup",
    "Lima.Props.C42_lookup_moved"
   ],
   "note": ""
  },
  {
   "property": "C43",
   "status": "proved",
   "theorems": [
    "Lima.Props.C43_annotations",
    "Lima.Props.C43_annotation_text",
    "Lima.Props.C43_new",
    "Lima.Props.C43_display_related"
   ],
   "note": ""
  },
  {
   "property": "C44",
   "status": "partial",
   "theorems": [
    "Lima.Props.C44_print_parse_partial",
    "Lima.Props.C44_print_parse_all_partial",
    "Lima.Props.C44_print_parse_file_partial",
    "Lima.Props.C44_total_price_false",
    "Lima.Props.C44_tolerance_false",
    "Lima.Props.C44_quote_false",
    "Lima.Props.C44_backslash_false"
   ],
   "note": "False as stated: total prices, tolerances, quotes and backslashes are not printed in a readable form (C44_total_price_false, C44_tolerance_false, C44_quote_false, C44_backslash_false). C44_print_parse_partial and C44_print_parse_all_partial: for every other directive of any successful parse, from texts through lexer, grammar, pragmas and sort, printing and parsing again succeeds with the same directives. Assumed of Logos: NumberThenComma and SoundNumbers."
  },
  {
   "property": "C45",
   "status": "proved",
   "theorems": [
    "Lima.Props.C45_locations",
    "Lima.Props.C45_locations_in_text"
   ],
   "note": ""
  },
  {
   "property": "C46",
   "status": "partial",
   "theorems": [
    "Lima.Props.C46_decodes",
    "Lima.Props.C46_unknown",
    "Lima.Props.C46_panics_iff",
    "Lima.Props.C46_bad_value_partial",
    "Lima.Props.C46_always_reported_false",
    "Lima.Props.C46_source",
    "Lima.Props.C46_ignored"
   ],
   "note": "Decoding is exact (C46_decodes) and unknown names are reported exactly (C46_unknown). False as stated for currencies with non-ASCII characters, on which the code panics (C46_panics_iff, C46_always_reported_false)."
  },
  {
   "property": "C47",
   "status": "proved",
   "theorems": [
    "Lima.Props.C47_panics_only",
    "Lima.Props.C47_whole_parse"
   ],
   "note": ""
  },
  {
   "property": "C48",
   "status": "proved",
   "theorems": [
    "Lima.Props.C48_lexemes",
    "Lima.Props.C48_unambiguous",
    "Lima.Props.C48_ties",
    "Lima.Props.C48_all_lexemes_read",
    "Lima.Props.C48_longest_match",
    "Lima.Props.C48_in_place",
    "Lima.Props.C48_nothing_lost"
   ],
   "note": "C48_lexemes is stated over an independent specification of lexemes without regular expressions (Spec/Lexemes.lean); C48_unambiguous and C48_ties show that it is deterministic, C48_all_lexemes_read is the other direction. Logos itself is modelled by derivatives of the regular expressions; whether it falls back to the longest match after reading further, and how long errors are, is left open (parameter Engine)."
  },
  {
   "property": "C49",
   "status": "proved",
   "theorems": [
    "Lima.Props.C49_tokens_of_text"
   ],
   "note": ""
  },
  {
   "property": "C50",
   "status": "partial",
   "theorems": [
    "Lima.Props.C50_panics_only",
    "Lima.Props.C50_panics_only_with_date",
    "Lima.Props.C50_foreign_date_panics",
    "Lima.Props.C50_foreign_time_panics",
    "Lima.Props.C50_never_panics_partial",
    "Lima.Props.C50_never_panics_false"
   ],
   "note": "False as stated: the patterns admit decimal digits of any script, on which date and time callbacks panic (C50_never_panics_false). C50_never_panics_partial: no panic for every text whose decimal digits are ASCII. C50_panics_only: panics only where the lexer comes to a date or time in foreign digits (not in comments, strings, accounts, numbers), or refuses a text containing one. C50_foreign_date_panics and C50_foreign_time_panics: there it does panic."
  },
  {
   "property": "C51",
   "status": "partial",
   "theorems": [
    "Lima.Props.C51_drawn",
    "Lima.Props.C51_labels",
    "Lima.Props.C51_shown_partial",
    "Lima.Props.C51_in_order",
    "Lima.Props.C51_synthetic_drawn",
    "Lima.Props.C51_synthetic_shown_partial",
    "Lima.Props.C51_synthetic_file_shown_partial",
    "Lima.Props.C51_synthetic_in_order",
    "Lima.Props.C51_shown_false",
    "Lima.Props.C51_synthetic_name_false",
    "Lima.Props.C51_synthetic_position_false"
   ],
   "note": "Any report with any spans is drawn without panicking, with the right labels in order, for files and for any history of synthetic spans; writing stops at the first failing write. What the labels show is right when source names are distinct (C51_shown_partial, C51_synthetic_shown_partial, C51_synthetic_file_shown_partial) and wrong otherwise, whichever text the renderer takes (C51_shown_false, C51_synthetic_name_false), or after non-ASCII synthetic fragments (C51_synthetic_position_false)."
  },
  {
   "property": "C52",
   "status": "proved",
   "theorems": [
    "Lima.Props.C52_declarations",
    "Lima.Props.C52_inside_declaration",
    "Lima.Props.C52_reports_of_file",
    "Lima.Props.C52_shown",
    "Lima.Props.C52_success",
    "Lima.Props.C52_failure",
    "Lima.Props.C52_success_shown",
    "Lima.Props.C52_failure_shown"
   ],
   "note": "Locations of syntax errors (an unexpected token) are chumsky's and are not modelled. The span of an empty match is a parameter."
  },
  {
   "property": "C53",
   "status": "proved",
   "theorems": [
    "Lima.Props.C53_panics_only",
    "Lima.Props.C53_never_panics"
   ],
   "note": "Assumed of rust_decimal: SoundNumbers, numbers which are read fit. The three exceptions do panic: see the examples."
  },
  {
   "property": "C54",
   "status": "partial",
   "theorems": [
    "Lima.Props.C54_pieces",
    "Lima.Props.C54_determined",
    "Lima.Props.C54_one_error_each",
    "Lima.Props.C54_read",
    "Lima.Props.C54_resume",
    "Lima.Props.C54_hides_nothing_partial",
    "Lima.Props.C54_lost",
    "Lima.Props.C54_lost_all",
    "Lima.Props.C54_hides_false",
    "Lima.Props.C54_midline_false"
   ],
   "note": "Proved for all tokens: the cut into declarations and skipped stretches (C54_pieces), that it determines the outcome (C54_determined), one error for each stretch (C54_one_error_each), that declarations are read whatever comes after (C54_read) and that reading resumes (C54_resume). That a malformed stretch hides nothing is false (C54_hides_false, C54_lost_all); C54_hides_nothing_partial: it holds if the first declaration after the stretch has no errors of its own. Location and wording of syntax errors are chumsky's and not modelled."
  },
  {
   "property": "C55",
   "status": "partial",
   "theorems": [
    "Lima.Props.C55_currency",
    "Lima.Props.C55_flag",
    "Lima.Props.C55_tag_link",
    "Lima.Props.C55_key",
    "Lima.Props.C55_account_type_name",
    "Lima.Props.C55_account_name",
    "Lima.Props.C55_account",
    "Lima.Props.C55_readable",
    "Lima.Props.C55_option",
    "Lima.Props.C55_listed",
    "Lima.Props.C55_tells_rule_false",
    "Lima.Props.C55_cost_spec",
    "Lima.Props.C55_file_partial"
   ],
   "note": "Names: exact both ways. Files: C55_file_partial covers duplicates and options; the wording and location of syntax errors, the contexts appended to messages, and the texts of rust_decimal and integer parsing come from libraries and are not modelled. C55_tells_rule_false: two messages do not tell the rule."
  },
  {
   "property": "C56",
   "status": "partial",
   "theorems": [
    "Lima.Props.C56_files_read",
    "Lima.Props.C56_includes",
    "Lima.Props.C56_unambiguous",
    "Lima.Props.C56_language",
    "Lima.Props.C56_directives",
    "Lima.Props.C56_verbatim",
    "Lima.Props.C56_plugins",
    "Lima.Props.C56_balanced",
    "Lima.Props.C56_options_partial",
    "Lima.Props.C56_options_once",
    "Lima.Props.C56_last_wins",
    "Lima.Props.C56_options_false"
   ],
   "note": "Files, includes, directives, plugins and pushes: proved in full. Options: C56_options_partial covers all options but those on which parsing itself depends; of these the claim is false (C56_options_false), and C56_last_wins says what holds instead."
  },
  {
   "property": "C57",
   "status": "proved",
   "theorems": [
    "Lima.Props.C57_file",
    "Lima.Props.C57_sources",
    "Lima.Props.C57_read",
    "Lima.Props.C57_texts",
    "Lima.Props.C57_run",
    "Lima.Props.C57_context"
   ],
   "note": "The drop of layout by the lexer itself (which texts have the same tokens) is C48 and C49; here the tokens are given, with any locations in which no two keys coincide, which lexed texts meet."
  },
  {
   "property": "C58",
   "status": "proved",
   "theorems": [
    "Lima.Props.C58_ends",
    "Lima.Props.C58_blanks",
    "Lima.Props.C58_line_ends",
    "Lima.Props.C58_last_comment",
    "Lima.Props.C58_written",
    "Lima.Props.C58_tokens",
    "Lima.Props.C58_run"
   ],
   "note": "Written is complete for texts without lexical errors if the engine falls back to the longest lexeme seen (C58_written); texts with lexical errors must be unchanged."
  },
  {
   "property": "C59",
   "status": "proved",
   "theorems": [
    "Lima.Props.C59_tokens",
    "Lima.Props.C59_passage",
    "Lima.Props.C59_file",
    "Lima.Props.C59_text"
   ],
   "note": "Texts with syntax errors are outside: recovery from an error may skip over a boundary. Passages are texts in which each word ends where the next character says so (Spec/Passage.lean)."
  },
  {
   "property": "C60",
   "status": "proved",
   "theorems": [
    "Lima.Props.C60_only_found",
    "Lima.Props.C60_files_found",
    "Lima.Props.C60_unreadable_found",
    "Lima.Props.C60_includes_found",
    "Lima.Props.C60_two_names"
   ],
   "note": "The equivalences assume that no file goes by two names (OneName) and that no pattern expands to an error (NoGlobErrors); C60_only_found needs neither. C60_two_names shows what happens otherwise."
  },
  {
   "property": "C61",
   "status": "proved",
   "theorems": [
    "Lima.Props.C61_declarations",
    "Lima.Props.C61_found",
    "Lima.Props.C61_run"
   ],
   "note": "Parses that fail are only shown to fail in both runs; errors are not compared. Parser options set in or after the included file are outside (C40)."
  },
  {
   "property": "C62",
   "status": "proved",
   "theorems": [
    "Lima.Props.C62_read",
    "Lima.Props.C62_any_order",
    "Lima.Props.C62_same_order"
   ],
   "note": "For texts divided into passages (C59), so without lexical errors at the cuts. Files are visited in the same order in both runs (C62_read: they can be); runs that fail are only shown to fail in both."
  },
  {
   "property": "C63",
   "status": "proved",
   "theorems": [
    "Lima.Props.C63_read",
    "Lima.Props.C63_fewer",
    "Lima.Props.C63_rest",
    "Lima.Props.C63_more"
   ],
   "note": "As C62. C63_rest is for one passage, in one file or in several with the same text, and says by location which directives remain; C63_fewer is for any number of passages. C63_more is the converse: what is left out can make the whole fail only by an error within a file."
  },
  {
   "property": "C64",
   "status": "proved",
   "theorems": [
    "Lima.Props.C64_understood",
    "Lima.Props.C64_text",
    "Lima.Props.C64_value",
    "Lima.Props.C64_collected",
    "Lima.Props.C64_tolerances",
    "Lima.Props.C64_last"
   ],
   "note": "All getters of Options (Model/Getters.lean); stated on tokens, C56 being the same for what is kept inside. Number decoding is rust_decimal's, as in C46."
  },
  {
   "property": "C65",
   "status": "proved",
   "theorems": [
    "Lima.Props.C65_opens",
    "Lima.Props.C65_same_result",
    "Lima.Props.C65_same_text",
    "Lima.Props.C65_same_reads",
    "Lima.Props.C65_self_include"
   ],
   "note": "C65_self_include shows why includes which lead to the root are left out. The iteration order of the hash map of included files is taken to be the same in both runs."
  },
  {
   "property": "C66",
   "status": "proved",
   "theorems": [
    "Lima.Props.C66_read",
    "Lima.Props.C66_tagged"
   ],
   "note": "Passages are whole lines which begin with neither a blank nor an ignored character (C59). The directives meant are those whose location begins in the passage, in a source which has the passage between the two lines in the other run. The iteration order of the hash map of included files is taken to be the same in both runs (C66_read: it can be)."
  },
  {
   "property": "C67",
   "status": "proved",
   "theorems": [
    "Lima.Props.C67_values",
    "Lima.Props.C67_read",
    "Lima.Props.C67_metadata"
   ],
   "note": "Values are given by the grammar (C67_values: strings, currencies, tags, links, dates, booleans, numbers, amounts and no value at all); accounts are left out, because whether they are valid depends on the options in force. The key must be pushed nowhere else: the sample after the theorem shows that the value of an outer push would be replaced, which is what the code does. Passages, locations and the order of included files as for C66."
  },
  {
   "property": "C68",
   "status": "proved",
   "theorems": [
    "Lima.Props.C68_option",
    "Lima.Props.C68_plugin"
   ],
   "note": "The line is given by its tokens, so that comments and white space in it are allowed. Names of account types and long_string_maxlines are left out because what follows is read with them: without them an account may be invalid, or a string bring a warning. Passages, locations and the order of included files as for C66."
  },
  {
   "property": "C69",
   "status": "proved",
   "theorems": [
    "Lima.Props.C69_exact",
    "Lima.Props.C69_standing",
    "Lima.Props.C69_no_panic",
    "Lima.Props.C69_sum",
    "Lima.Props.C69_unknown",
    "Lima.Props.C69_closed"
   ],
   "note": "Writing the reports is C51 and C34; here it is which reports there are. The sum is over numbers whatever their currency, as the program does; costs and prices are not looked at. Sums which do not fit the decimals make the program crash, so C69_no_panic has that as hypothesis. The hash map of accounts is a list of keys, of which only get and insert are used."
  },
  {
   "property": "C70",
   "status": "proved",
   "theorems": [
    "Lima.Props.C70_sound",
    "Lima.Props.C70_no_panic",
    "Lima.Props.C70_balanced"
   ],
   "note": "itertools::partition is a parameter: it may reorder the postings in any way which puts those with an amount first, and does not reorder if all have one. Currencies as for C69."
  },
  {
   "property": "C71",
   "status": "proved",
   "theorems": [
    "Lima.Props.C71_plugin",
    "Lima.Props.C71_option"
   ],
   "note": "The converse of C68. An option is put into the root: in a file which is included under several names the question would be which of them is read. Passages, locations and the order of included files as for C66."
  },
  {
   "property": "C72",
   "status": "partial",
   "theorems": [
    "Lima.Props.C72_prints",
    "Lima.Props.C72_parse_again_partial",
    "Lima.Props.C72_any_number_partial",
    "Lima.Props.C72_parse_again_false",
    "Lima.Props.C72_append_partial"
   ],
   "note": "False as stated for total prices, tolerances, quotes and backslashes, as C44 (C72_parse_again_false). C72_prints is what is printed. C72_parse_again_partial and C72_any_number_partial: for all other directives, with accounts of the default types (dump prints no options), for every order of hash containers at each printing. Assumed of Logos: NumberThenComma and SoundNumbers. Options and plugins are lost, which the theorem says too; an account of a renamed type is a fourth witness of the full statement's being false. C72_append_partial: what is printed for one ledger and appended to another gives the directives of both and the options and plugins of the other; for a root of whole lines (Passage) which sets no option of the parser (an option there which renames an account type does matter, see the last example in Props/Append.lean)."
  },
  {
   "property": "C73",
   "status": "proved",
   "theorems": [
    "Lima.Props.C73_read",
    "Lima.Props.C73_append",
    "Lima.Props.C73_exactly_if",
    "Lima.Props.C73_again"
   ],
   "note": "C73_append is the result, C73_exactly_if both directions of success, C73_read what is read. Hypotheses as in C62: the files are texts of whole lines at the place of the change (Passage). C73_again: any number of passages, one after the other, by induction on their number."
  }
 ]
}
