import Verif.Model.Logos

/-!
The tests of `/repo/src/lexer/tests.rs` with short ASCII text, run on the model.  Generated by `tools/lexer_tests.py`.

They are no proofs, but evidence that the model of Logos (regular expressions, longest match, falling back) is right.
-/

namespace Lima.LexerTests

attribute [local instance] Categories.asciiOnly

/-- Logos as it appears from the tests: it falls back to the longest match. -/
def logos : Logos :=
  ⟨⟨fun _ => true, fun _ => 1⟩, ⟨fun _ => true, fun _ => 1⟩, fun _ => .error ⟨[]⟩, fun _ => none⟩

/-- `lex_and_check`. -/
def tokens (s : String) : Option (List Token) := (lexText logos s.toList).map (·.map (·.tok))

/-- `indent`, `/repo/src/lexer/tests.rs:166`. -/
example : tokens "\n2014-07-05 *\n    Equity:Something\n" =
    some [.date ⟨2014, 7, 5⟩,
      .asterisk,
      .eol,
      .indent,
      .account "Equity:Something".toList,
      .eol] := by
  decide +kernel

/-- `comma_currencies`, `/repo/src/lexer/tests.rs:184`. -/
example : tokens "\nUSD,CAD,AUD\n" =
    some [.currency "USD".toList,
      .comma,
      .currency "CAD".toList,
      .comma,
      .currency "AUD".toList,
      .eol] := by
  decide +kernel

/-- `number_space`, `/repo/src/lexer/tests.rs:267`. -/
example : tokens "\n- 1002.00 USD\n" =
    some [.minus,
      .number ⟨100200, 2⟩,
      .currency "USD".toList,
      .eol] := by
  decide +kernel

/-- `number_dots`, `/repo/src/lexer/tests.rs:277`. -/
example : tokens "\n1.234.00 USD\n" =
    some [.number ⟨1234, 3⟩,
      .error .unrecognized,
      .number ⟨0, 0⟩,
      .currency "USD".toList,
      .eol] := by
  decide +kernel

/-- `number_no_integer`, `/repo/src/lexer/tests.rs:293`. -/
example : tokens "\n.2347 USD\n" =
    some [.error .unrecognized,
      .number ⟨2347, 0⟩,
      .currency "USD".toList,
      .eol] := by
  decide +kernel

/-- `currency_number`, `/repo/src/lexer/tests.rs:308`. -/
example : tokens "\n555.00 CAD.11\n" =
    some [.number ⟨55500, 2⟩,
      .currency "CAD.11".toList,
      .eol] := by
  decide +kernel

/-- `currency_dash`, `/repo/src/lexer/tests.rs:318`. -/
example : tokens "\nTEST-DA\n" =
    some [.currency "TEST-DA".toList,
      .eol] := by
  decide +kernel

/-- `bad_date_invalid_token`, `/repo/src/lexer/tests.rs:328`. -/
example : tokens "\n2013-12-98\n" =
    some [.error ⟨"date out of range".toList⟩,
      .eol] := by
  decide +kernel

/-- `bad_date_valid_but_invalid`, `/repo/src/lexer/tests.rs:338`. -/
example : tokens "\n2013-15-01\n" =
    some [.error ⟨"month out of range".toList⟩,
      .eol] := by
  decide +kernel

/-- `date_followed_by_number`, `/repo/src/lexer/tests.rs:348`. -/
example : tokens "\n2013-12-228\n" =
    some [.date ⟨2013, 12, 22⟩,
      .number ⟨8, 0⟩,
      .eol] := by
  decide +kernel

/-- `bad_time`, `/repo/src/lexer/tests.rs:361`. -/
example : tokens "\n99:99\n2000-09-10 99:99\n" =
    some [.number ⟨99, 0⟩,
      .colon,
      .number ⟨99, 0⟩,
      .eol,
      .date ⟨2000, 9, 10⟩,
      .number ⟨99, 0⟩,
      .colon,
      .number ⟨99, 0⟩,
      .eol] := by
  decide +kernel

/-- `single_letter_account`, `/repo/src/lexer/tests.rs:383`. -/
example : tokens "\nAssets:A\n" =
    some [.account "Assets:A".toList,
      .eol] := by
  decide +kernel

/-- `account_names_with_numbers`, `/repo/src/lexer/tests.rs:395`. -/
example : tokens "\nAssets:Vouchers:99Ranch\nAssets:99Test\nAssets:Signals\n" =
    some [.account "Assets:Vouchers:99Ranch".toList,
      .eol,
      .account "Assets:99Test".toList,
      .eol,
      .account "Assets:Signals".toList,
      .eol] := by
  decide +kernel

/-- `account_names_with_dash`, `/repo/src/lexer/tests.rs:414`. -/
example : tokens "\nEquity:Beginning-Balances\n" =
    some [.account "Equity:Beginning-Balances".toList,
      .eol] := by
  decide +kernel

/-- `invalid_directive`, `/repo/src/lexer/tests.rs:426`. -/
example : tokens "\n2008-03-01 check Assets:BestBank:Savings 2340.19 USD\n" =
    some [.date ⟨2008, 3, 1⟩,
      .key "check".toList,
      .account "Assets:BestBank:Savings".toList,
      .number ⟨234019, 2⟩,
      .currency "USD".toList,
      .eol] := by
  decide +kernel

/-- `comment`, `/repo/src/lexer/tests.rs:445`. -/
example : tokens "\n;; This is a typical error that should get detected for long strings.\n2008-03-01\n" =
    some [.date ⟨2008, 3, 1⟩,
      .eol] := by
  decide +kernel

/-- `multiline_string`, `/repo/src/lexer/tests.rs:456`. -/
example : tokens "\n\"\nI'm a\nmulti-line\nstring\nbut not too long\n\"\n" =
    some [.stringLiteral "\nI'm a\nmulti-line\nstring\nbut not too long\n".toList,
      .eol] := by
  decide +kernel

/-- `string_escaped`, `/repo/src/lexer/tests.rs:506`. -/
example : tokens "\n\"The Great \\\"Juju\\\"\"\n\"The Great \\t\\n\\r\\f\\b\"\n" =
    some [.stringLiteral "The Great \"Juju\"".toList,
      .eol,
      .stringLiteral "The Great \t\n\r\x0c\x08".toList,
      .eol] := by
  decide +kernel

/-- `string_newline_long`, `/repo/src/lexer/tests.rs:530`. -/
example : tokens "\n    \"Forty\n    world\n    leaders\n    and\n    hundreds\"\n" =
    some [.stringLiteral "Forty\n    world\n    leaders\n    and\n    hundreds".toList,
      .eol] := by
  decide +kernel

/-- `popmeta`, `/repo/src/lexer/tests.rs:551`. -/
example : tokens "\n    popmeta location:\n" =
    some [.popmeta,
      .key "location".toList,
      .colon,
      .eol] := by
  decide +kernel

/-- `true_false_null`, `/repo/src/lexer/tests.rs:561`. -/
example : tokens "\n    TRUE FALSE NULL\n" =
    some [.true_,
      .false_,
      .null,
      .eol] := by
  decide +kernel

/-- `valid_commas_in_number`, `/repo/src/lexer/tests.rs:571`. -/
example : tokens "\n    45,234.00\n" =
    some [.number ⟨4523400, 2⟩,
      .eol] := by
  decide +kernel

/-- `invalid_commas_in_integer`, `/repo/src/lexer/tests.rs:582`. -/
example : tokens "\n    452,34.00\n" =
    some [.number ⟨452, 0⟩,
      .comma,
      .number ⟨3400, 2⟩,
      .eol] := by
  decide +kernel

/-- `invalid_commas_in_fractional`, `/repo/src/lexer/tests.rs:592`. -/
example : tokens "\n    45234.000,000\n" =
    some [.number ⟨45234000, 3⟩,
      .comma,
      .number ⟨0, 0⟩,
      .eol] := by
  decide +kernel

/-- `ignored_lines_comment`, `/repo/src/lexer/tests.rs:602`. -/
example : tokens "\n    ;; Long comment line about something something.\n" =
    some [] := by
  decide +kernel

/-- `ignored_lines_indented_comment`, `/repo/src/lexer/tests.rs:613`. -/
example : tokens "\noption \"title\" \"The Title\"\n      ;; Something something.\n\n" =
    some [.option,
      .stringLiteral "title".toList,
      .stringLiteral "The Title".toList,
      .eol] := by
  decide +kernel

/-- `ignored_lines_non_comment_ignored`, `/repo/src/lexer/tests.rs:633`. -/
example : tokens "\n    Regular prose appearing mid-file.\n" =
    some [.currency "R".toList,
      .key "egular".toList,
      .key "prose".toList,
      .key "appearing".toList,
      .key "mid-file".toList,
      .error .unrecognized,
      .eol] := by
  decide +kernel

/-- `ignored_lines_non_comment_non_flag`, `/repo/src/lexer/tests.rs:652`. -/
example : tokens "\n    Xxx this sentence starts with a non-flag character.\n" =
    some [.currency "X".toList,
      .key "xx".toList,
      .key "this".toList,
      .key "sentence".toList,
      .key "starts".toList,
      .key "with".toList,
      .error .unrecognized,
      .key "non-flag".toList,
      .key "character".toList,
      .error .unrecognized,
      .eol] := by
  decide +kernel

/-- `ignored_lines_non_comment_org_mode_title`, `/repo/src/lexer/tests.rs:678`. -/
example : tokens "\n* This sentence is an org-mode title.\n" =
    some [] := by
  decide +kernel

/-- `ignored_lines_non_comment_org_mode_drawer_at_start_of_file`, `/repo/src/lexer/tests.rs:708`. -/
example : tokens "\n    :PROPERTIES:\n    :this: is an org-mode property drawer\n    :END:\n" =
    some [] := by
  decide +kernel

/-- `lexer_error_invalid_text`, `/repo/src/lexer/tests.rs:721`. -/
example : tokens "\n    Not a Beancount file.\n" =
    some [.currency "N".toList,
      .key "ot".toList,
      .error .unrecognized,
      .currency "B".toList,
      .key "eancount".toList,
      .key "file".toList,
      .error .unrecognized,
      .eol] := by
  decide +kernel

/-- `lexer_error_invalid_token`, `/repo/src/lexer/tests.rs:740`. -/
example : tokens "\n    2000-01-01 open ` USD\n" =
    some [.date ⟨2000, 1, 1⟩,
      .«open»,
      .error .unrecognized,
      .currency "USD".toList,
      .eol] := by
  decide +kernel

/-- `lexer_error_recovery`, `/repo/src/lexer/tests.rs:756`. -/
example : tokens "\n    2000-13-32 open Assets:Something\n    2000-01-02 open Assets:Working\n" =
    some [.error ⟨"month out of range".toList⟩,
      .«open»,
      .account "Assets:Something".toList,
      .eol,
      .indent,
      .date ⟨2000, 1, 2⟩,
      .«open»,
      .account "Assets:Working".toList,
      .eol] := by
  decide +kernel

/-- `lexer_error_substring_with_quotes`, `/repo/src/lexer/tests.rs:778`. -/
example : tokens "\n    2016-07-15 query \"hotels\" \"SELECT * WHERE account ~ 'Expenses:Accommodation'\"\n" =
    some [.date ⟨2016, 7, 15⟩,
      .query,
      .stringLiteral "hotels".toList,
      .stringLiteral "SELECT * WHERE account ~ 'Expenses:Accommodation'".toList,
      .eol] := by
  decide +kernel

/-- `whitespace_indent_error0`, `/repo/src/lexer/tests.rs:810`. -/
example : tokens "\n2020-07-28 open Assets:Foo\n  2020-07-29 open Assets:Bar\n" =
    some [.date ⟨2020, 7, 28⟩,
      .«open»,
      .account "Assets:Foo".toList,
      .eol,
      .indent,
      .date ⟨2020, 7, 29⟩,
      .«open»,
      .account "Assets:Bar".toList,
      .eol] := by
  decide +kernel

/-- `whitespace_indent_error1`, `/repo/src/lexer/tests.rs:831`. -/
example : tokens "\n2020-07-28 open Assets:Foo\n\n  2020-07-29 open Assets:Bar\n" =
    some [.date ⟨2020, 7, 28⟩,
      .«open»,
      .account "Assets:Foo".toList,
      .eol,
      .indent,
      .date ⟨2020, 7, 29⟩,
      .«open»,
      .account "Assets:Bar".toList,
      .eol] := by
  decide +kernel

end Lima.LexerTests
