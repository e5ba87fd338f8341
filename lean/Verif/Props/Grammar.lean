import Verif.Lemmas.FirstLine
import Verif.Lemmas.SampleFile
import Verif.Lemmas.NoPanic

/-!
C31-C36, C45, C47: what a file means.

`FileP` (in `Verif.Spec.Grammar`) is the specification of the language.  `.syntax` among the errors says that
some tokens are not in the language.
-/

namespace Lima.Props

open Spec Grammar

section
variable [Unicode] [DecOps] {cfg : ParseCfg} {toks : List Ranged} {o : ParserOptions} {warns : List Report}
  {res : FileResult}

/-! ### C31 -/

/-- C31: a file is parsed without syntax errors exactly if it is in the language, and then with the declarations,
options, errors and warnings the language says. -/
theorem C31_exactly_the_language (o' : ParserOptions) (ws : List Report) (ds : List (Spanned Declaration))
    (es : List PErr) :
    (parseFile cfg toks o warns = some ⟨some ds, es, o', warns ++ ws⟩ ∧ .syntax ∉ es) ↔
      FileP cfg o toks ds o' es ws :=
  parseFile_iff toks o o' warns ws ds es

/-- C31: no token is skipped: the tokens are those of the declarations, one after the other. -/
theorem C31_every_token_understood (h : parseFile cfg toks o warns = some res) (he : .syntax ∉ res.errors) :
    ∃ ds runs, res.declarations = some ds ∧ toks = runs.flatten ∧
      List.Forall₂ (fun run d => ∃ o1 o2 after es, DeclarationP cfg o1 (run ++ after) after d o2 es) runs ds := by
  obtain ⟨ds, ws, hr, hf⟩ := parseFile_sound h he
  obtain ⟨runs, h1, h2⟩ := file_runs hf
  exact ⟨ds, runs, by rw [hr], h1, h2.imp fun _ _ h => h.2⟩

/-- C31: what is not in the language is reported. -/
theorem C31_refused (h : parseFile cfg toks o warns = some res) (hn : ∀ ds o' es ws, ¬ FileP cfg o toks ds o' es ws) :
    .syntax ∈ res.errors := by
  refine Classical.byContradiction fun he => ?_
  obtain ⟨ds, ws, _, hf⟩ := parseFile_sound h he
  exact hn _ _ _ _ hf

/-- C31: a file means one thing. -/
theorem C31_unambiguous {ds ds' : List (Spanned Declaration)} {o1 o2 : ParserOptions} {es es' : List PErr}
    {ws ws' : List Report} (h : FileP cfg o toks ds o1 es ws) (h' : FileP cfg o toks ds' o2 es' ws') :
    ds = ds' ∧ o1 = o2 ∧ es = es' ∧ ws = ws' := by
  have h1 := parseFile_complete [] h
  rw [parseFile_complete [] h'] at h1
  simp only [Option.some.injEq, FileResult.mk.injEq, List.append_cancel_left_eq] at h1
  exact ⟨h1.1.symm, h1.2.2.1.symm, h1.2.1.symm, h1.2.2.2.symm⟩

/-! ### C32 -/

/-- C32: an error of the lexer, wherever it is, is reported. -/
theorem C32_lexical_error (h : parseFile cfg toks o warns = some res) {t : Ranged} (ht : t ∈ toks)
    {e : LexerError} (he : t.tok = .error e) : .syntax ∈ res.errors := by
  refine C31_refused h fun ds o' es ws hf => ?_
  exact (good_file hf t ht).1 e he

/-- C32: so are tokens the grammar has no use for. -/
theorem C32_foreign_token (h : parseFile cfg toks o warns = some res) {t : Ranged} (ht : t ∈ toks)
    (hu : ¬ Understood t.tok) : .syntax ∈ res.errors :=
  C31_refused h fun _ _ _ _ hf => hu (good_file hf t ht)

/-! ### C33 -/

omit [Unicode] [DecOps] in
theorem txn_word {i r : List Ranged} {f : Flag} (h : TxnP i r f) : ∃ x, i = x :: r := by
  rcases h with ⟨_, _, _, h⟩ | ⟨_, _, h⟩ | ⟨_, _, _, h⟩ | ⟨_, _, _, h⟩ <;> exact ⟨_, h⟩

theorem directive_strings {i r : List Ranged} {d : Directive} {es : List PErr} {t : Transaction}
    (h : DirectiveP cfg o i r d es) (ht : d.variant = .transaction t) :
    ∃ date flag rest, i = date :: flag :: rest ∧ date.tok = .date d.date.item ∧
      ByPosition (leadingStrings cfg rest) t.payee t.narration := by
  cases h with
  | transaction h1 h2 h3 h4 h5 h6 h7 h8 =>
    cases ht
    obtain ⟨⟨x, y, rfl⟩, _⟩ := h1
    have hp := byPosition h3 (leadingStrings_none (noString_tagsLinks h4 h5))
    obtain ⟨x, rfl⟩ := txn_word h2.1
    exact ⟨_, _, _, rfl, rfl, hp⟩
  | other _ _ b =>
    cases ht
    cases b
  | custom => cases ht

/-- A directive in the result of parsing, with its tokens. -/
theorem directive_of_file (h : parseFile cfg toks o warns = some res) (he : .syntax ∉ res.errors)
    {ds : List (Spanned Declaration)} (hds : res.declarations = some ds) {d : Directive} {span : Span}
    (hd : ⟨.directive d, span⟩ ∈ ds) :
    ∃ before run after o1 es1, toks = before ++ (run ++ after) ∧ SpanOf cfg.source run span ∧ es1 <:+: res.errors ∧
      DirectiveP cfg o1 (run ++ after) after d es1 ∧ Head after (fun t => t ≠ .indent) := by
  obtain ⟨ds', ws, hr, hf⟩ := parseFile_sound h he
  have : ds' = ds := by
    rw [hr] at hds
    exact Option.some.inj hds
  subst this
  obtain ⟨before, run, after, o1, o2, es1, h1, h2, h3, h4, h5⟩ := file_mem hf hd
  cases h4 with
  | directive h _ => exact ⟨before, run, after, o1, es1, h1, h2, h3, h, h5⟩

/-- C33: after date and flag come none, one or two strings; payee and narration are as they say. -/
theorem C33_payee_and_narration (h : parseFile cfg toks o warns = some res) (he : .syntax ∉ res.errors)
    {ds : List (Spanned Declaration)} (hds : res.declarations = some ds) {d : Directive} {span : Span}
    (hd : ⟨.directive d, span⟩ ∈ ds) {t : Transaction} (ht : d.variant = .transaction t) :
    ∃ before date flag rest, toks = before ++ date :: flag :: rest ∧ date.start = span.start ∧
      date.tok = .date d.date.item ∧ ByPosition (leadingStrings cfg rest) t.payee t.narration := by
  obtain ⟨before, run, after, o1, es1, h1, ⟨first, last, h2, h3, h4⟩, -, h6, -⟩ := directive_of_file h he hds hd
  obtain ⟨date, flag, rest, h7, h8, h9⟩ := directive_strings h6 ht
  refine ⟨before, date, flag, rest, by rw [h1, h7], ?_, h8, h9⟩
  cases run with
  | nil => cases h2
  | cons x xs =>
    cases h2
    rw [List.cons_append, List.cons.injEq] at h7
    rw [h4, ← h7.1]

/-! ### C34 -/

/-- C34: a directive has the tags, links and keys which are written in its first line and its metadata lines, each
once; where one is repeated it is that of the first metadata line with it, or else the first in the first line; and
there is one report per repetition, each about one of the places. -/
theorem C34_metadata (h : parseFile cfg toks o warns = some res) (he : .syntax ∉ res.errors)
    {ds : List (Spanned Declaration)} (hds : res.declarations = some ds) {d : Directive} {span : Span}
    (hd : ⟨.directive d, span⟩ ∈ ds) :
    ∃ before run after o1 head lines rest own others reports,
      toks = before ++ (run ++ after) ∧ SpanOf cfg.source run span ∧
      head = tagsAndLinks cfg d.variant (firstLine (run ++ after)) ∧
      Many (LineP cfg o1) (afterFirstLine (run ++ after)) rest lines ∧ (∀ q x, ¬ LineP cfg o1 rest q x) ∧
      FirstOfEach (·.item) d.metadata.item.tags (lineTags lines ++ headTags head) ∧
      FirstOfEach (·.item) d.metadata.item.links (lineLinks lines ++ headLinks head) ∧
      FirstOfEach (·.1.item) d.metadata.item.keyValues (lineKeyValues lines) ∧
      reports <:+: res.errors ∧ reports.Perm (own ++ others) ∧ OtherReports cfg o1 rest after d.variant others ∧
      (∀ e ∈ own, AboutWritten (written head lines) e) ∧
      ∀ kind name, reportsOf kind name own = timesWritten kind name (written head lines) - 1 := by
  obtain ⟨before, run, after, o1, es1, h1, h2, h3, h4, h5⟩ := directive_of_file h he hds hd
  have h5 := notLine_of_head h5
  cases h4 with
  | @transaction j k l m n p _ date flag strings head lines sp postings a b c d e f g i =>
    obtain ⟨hh, hn⟩ := first_line ((quiet_date a.1).trans ((quiet_txn b.1).trans (quiet_strings c))) d e
    refine ⟨before, run, after, o1, head, lines, p,
      headErrors head ++ lineErrors lines ++ clashErrors lines head, postings.flatMap (·.2), _, h1, h2, hh.symm,
      hn ▸ f, noLine (notLine_postings i h5), metadataOf_tags _ _, metadataOf_links _ _, metadataOf_keyValues _ _, h3,
      ?_, ⟨postings, i, rfl, rfl⟩, ?_, ?_⟩
    · rw [List.append_assoc, List.append_assoc (headErrors head ++ lineErrors lines)]
      exact List.Perm.append_left _ List.perm_append_comm
    · intro e he
      rcases List.mem_append.mp he with he | he
      · rcases List.mem_append.mp he with he | he
        · exact about_head _ _ e he
        · exact about_lines _ _ e he
      · exact about_clash _ _ e he
    · intro kind name
      rw [reportsOf_append, reportsOf_append, reports_all]
  | @other j k l m n _ date keyword v es head lines sp a b c d e f g =>
    obtain ⟨hh, hn⟩ := first_line ((quiet_date a.1).trans (quiet_body b c)) d e
    have hc : tagsAndLinks cfg v (firstLine (run ++ after)) = head := by
      rw [← hh]
      cases c <;> rfl
    refine ⟨before, run, after, o1, head, lines, after,
      headErrors head ++ lineErrors lines ++ clashErrors lines head, es, _, h1, h2, hc.symm,
      hn ▸ f, noLine h5, metadataOf_tags _ _, metadataOf_links _ _, metadataOf_keyValues _ _, h3,
      ?_, ?_, ?_, ?_⟩
    · rw [List.append_assoc, List.append_assoc es, ← List.append_assoc (headErrors head)]
      exact List.perm_append_comm
    · cases c with
      | «open» =>
        intro e he
        obtain ⟨x, _, rfl⟩ := List.mem_map.mp he
        exact ⟨_, _, rfl⟩
      | _ => exact rfl
    · intro e he
      rcases List.mem_append.mp he with he | he
      · rcases List.mem_append.mp he with he | he
        · exact about_head _ _ e he
        · exact about_lines _ _ e he
      · exact about_clash _ _ e he
    · intro kind name
      rw [reportsOf_append, reportsOf_append, reports_all]
  | @custom j k l m n _ date type values lines sp a b c d e f g =>
    have hl : SameLine (run ++ after) m := (quiet_date a.1).line.trans ((SameLine.word b (by simp)).trans
      ((quiet_string c.1).line.trans (sameLine_values d)))
    have hn := (line_end hl e).2
    have hm := metadataOf_nil lines
    refine ⟨before, run, after, o1, [], lines, after, lineErrors lines, [], _, h1, h2, rfl,
      hn ▸ f, noLine h5, ?_, ?_, ?_, h3, by simp, rfl, about_lines _ _, ?_⟩
    · rw [← hm]
      exact metadataOf_tags lines []
    · rw [← hm]
      exact metadataOf_links lines []
    · rw [← hm]
      exact metadataOf_keyValues lines []
    · intro kind name
      have := reports_all kind name [] lines
      rw [← this, reports_head, reports_clash]
      simp

/-- C34 for the metadata lines of a posting. -/
theorem C34_posting {i r : List Ranged} {p : Spanned Posting} {es : List PErr} (h : PostingP cfg o i r (p, es)) :
    ∃ lines, Many (LineP cfg o) (afterFirstLine i) r lines ∧
      FirstOfEach (·.item) p.item.metadata.item.tags (lineTags lines) ∧
      FirstOfEach (·.item) p.item.metadata.item.links (lineLinks lines) ∧
      FirstOfEach (·.1.item) p.item.metadata.item.keyValues (lineKeyValues lines) ∧
      (∀ e ∈ es, AboutWritten (written [] lines) e) ∧
      ∀ kind name, reportsOf kind name es = timesWritten kind name (written [] lines) - 1 := by
  cases h with
  | @mk _ j k l _ q lines sp a b c d e =>
    have hn := (line_end ((SameLine.word a (by simp)).trans (quiet_postingLine b.1).line) c).2
    have hm := metadataOf_nil lines
    refine ⟨lines, hn ▸ d, ?_, ?_, ?_, about_lines _ _, ?_⟩
    · have := metadataOf_tags lines []
      rwa [hm, headTags, List.filterMap_nil, List.append_nil] at this
    · have := metadataOf_links lines []
      rwa [hm, headLinks, List.filterMap_nil, List.append_nil] at this
    · have := metadataOf_keyValues lines []
      rwa [hm] at this
    · intro kind name
      have := reports_all kind name [] lines
      rw [← this, reports_head, reports_clash]
      simp

/-! ### C35 -/

/-- C35: the currencies of an `open` directive are those listed after the account, each once, and there is one
report per repetition, each about one of the places. -/
theorem C35_open_currencies (h : parseFile cfg toks o warns = some res) (he : .syntax ∉ res.errors)
    {ds : List (Spanned Declaration)} (hds : res.declarations = some ds) {d : Directive} {span : Span}
    (hd : ⟨.directive d, span⟩ ∈ ds) {account : Spanned Account} {currencies : List (Spanned Str)}
    {booking : Option (Spanned Booking)} (ht : d.variant = .open account currencies booking) :
    ∃ before t1 t2 t3 rest own others reports, toks = before ++ t1 :: t2 :: t3 :: rest ∧ t1.start = span.start ∧
      t2.tok = .open ∧ t3.tok = .account account.item.name ∧
      (currencies.map (·.item)).Nodup ∧ (∀ c ∈ currencies, c ∈ listedCurrencies cfg rest) ∧
      (∀ name, name ∈ currencies.map (·.item) ↔ name ∈ (listedCurrencies cfg rest).map (·.item)) ∧
      reports <:+: res.errors ∧ reports.Perm (own ++ others) ∧ (∀ name, reportsOf .currency name others = 0) ∧
      (∀ e ∈ own, ∃ c ∈ listedCurrencies cfg rest, e = .duplicate .currency c.item c.span) ∧
      ∀ name, reportsOf .currency name own = ((listedCurrencies cfg rest).map (·.item)).count name - 1 := by
  obtain ⟨before, run, after, o1, es1, h1, ⟨first, last, h2, h3, h4⟩, h5, h6, -⟩ := directive_of_file h he hds hd
  cases h6 with
  | transaction => cases ht
  | custom => cases ht
  | @other j k l m n _ date keyword v es head lines sp a b c d e f g =>
    simp only at ht
    subst ht
    cases c with
    | @«open» _ jj kk _ acc cs bk h7 h8 h9 =>
      have hp := listedCurrencies_eq h8 (afterCurrencies h9 d e)
      obtain ⟨⟨x1, y1, ha⟩, _⟩ := a
      obtain ⟨x2, y2, rfl⟩ := b
      obtain ⟨⟨⟨x3, y3, rfl⟩, _⟩, _⟩ := h7
      refine ⟨before, _, _, _, jj, currencyErrors cs,
        headErrors head ++ lineErrors lines ++ clashErrors lines head, _, by rw [h1, ha], ?_, rfl, rfl,
        (firsts_notin _ _ _).2, fun c hc => hp.mem_iff.mpr (firsts_subset _ _ c hc), ?_, h5,
        by simp only [List.append_assoc, List.Perm.refl], ?_, ?_, ?_⟩
      · cases run with
        | nil => cases h2
        | cons x xs =>
          cases h2
          rw [List.cons_append, List.cons.injEq] at ha
          rw [h4, ← ha.1]
      · intro name
        rw [mem_firsts_name, (hp.map _).mem_iff]
        simp
      · intro name
        rw [reportsOf_append, reportsOf_append, reports_all, timesWritten_eq]
        have e1 : (head.map TagOrLink.name).count (.currency, name) = 0 := by
          rw [List.count_eq_zero]
          intro hm
          obtain ⟨x, _, hx⟩ := List.mem_map.mp hm
          cases x <;> cases hx
        have e2 : (lines.map lineName).count (.currency, name) = 0 := by
          rw [List.count_eq_zero]
          intro hm
          obtain ⟨x, _, hx⟩ := List.mem_map.mp hm
          cases x <;> cases hx
        rw [e1, e2]
      · intro e he
        obtain ⟨x, hx, rfl⟩ := List.mem_map.mp he
        exact ⟨x, hp.mem_iff.mpr (repeats_subset _ _ x hx), rfl⟩
      · intro name
        rw [reports_currency, (hp.map _).count_eq]

/-! ### C36 -/

omit [Unicode] [DecOps] in
/-- C36: without configuration the limit is 64 lines. -/
theorem C36_default_limit : ParserOptions.default.maxlines = 64 := rfl

omit [Unicode] [DecOps] in
/-- C36: a configured limit is the limit. -/
theorem C36_configured_limit (names : AccountTypeNames) (n : Sourced Nat) :
    (⟨names, some n⟩ : ParserOptions).maxlines = n.spanned.item := rfl

/-- C36: the warnings of a file are for the strings which have more lines than the limit in force where they
are.  By C31 they are accepted all the same. -/
theorem C36_long_strings (h : parseFile cfg toks o warns = some res) (he : .syntax ∉ res.errors) :
    ∃ ds runs ws, res.declarations = some ds ∧ toks = runs.flatten ∧
      List.Forall₂ (fun run d => SpanOf cfg.source run d.span) runs ds ∧
      res.warns = warns ++ ws ∧ TooLong cfg.source o.maxlines runs (ws.map (·.span)) := by
  obtain ⟨ds, ws, hr, hf⟩ := parseFile_sound h he
  obtain ⟨runs, h1, h2, h3⟩ := file_tooLong hf
  exact ⟨ds, runs, ws, by rw [hr], h1, h2, by rw [hr], h3⟩

/-- C36: nothing else is warned about. -/
theorem C36_only_long_strings (h : parseFile cfg toks o warns = some res) (he : .syntax ∉ res.errors) :
    ∃ ws, res.warns = warns ++ ws ∧ ∀ w ∈ ws, w.message = "string too long".toList := by
  obtain ⟨ds, ws, hr, hf⟩ := parseFile_sound h he
  refine ⟨ws, by rw [hr], ?_⟩
  clear hr he h
  generalize res.opts = o' at hf
  generalize res.errors = es at hf
  induction hf with
  | nil => intro w hw; cases hw
  | cons _ _ ih =>
    intro w hw
    rcases List.mem_append.mp hw with hw | hw
    · obtain ⟨t, _, ht⟩ := List.mem_filterMap.mp hw
      split at ht
      · split at ht
        · cases ht
          unfold longStringWarning
          dsimp only
          split <;> rfl
        · cases ht
      · cases ht
    · exact ih w hw

omit [Unicode] [DecOps] in
/-- C36: every single string is accepted, with a warning exactly if it has more lines than the limit.  The warning
tells the limit, how many lines would be needed and, if the limit was configured, where. -/
theorem C36_one_string (s : PSt) (text : Str) (start stop : Nat) (rest : List Ranged)
    (hs : s.toks = ⟨.stringLiteral text, start, stop⟩ :: rest) :
    ∃ w, Grammar.string cfg s = .ok text { s with toks := rest, warns := s.warns ++ w } ∧
      (text.count '\n' + 1 ≤ s.opts.maxlines → w = []) ∧
      (text.count '\n' + 1 > s.opts.maxlines → ∃ reason, w = [⟨"string too long".toList, reason,
          ⟨cfg.source, start, stop⟩, none,
          s.opts.longStringMaxlines.map (fun n => [("max allowed".toList, n.source.value)])⟩] ∧
        reason = "exceeds long_string_maxlines(".toList ++
          (if s.opts.longStringMaxlines = none then "default ".toList else []) ++
          Nat.toDigits 10 s.opts.maxlines ++
          ") - hint: would require option \"long_string_maxlines\" \"".toList ++
          Nat.toDigits 10 (text.count '\n' + 1) ++ "\"".toList) := by
  obtain ⟨toks, errs, opts, warns⟩ := s
  cases hs
  have := (fwd_string (cfg := cfg) (o := opts) (i := ⟨.stringLiteral text, start, stop⟩ :: rest) (r := rest)
    (s := text) ⟨start, stop, rfl⟩).2 errs warns
  refine ⟨warnsAt cfg opts (⟨.stringLiteral text, start, stop⟩ :: rest) rest, by simpa using this, ?_⟩
  have e : between (⟨.stringLiteral text, start, stop⟩ :: rest) rest = [⟨.stringLiteral text, start, stop⟩] :=
    between_append [_] rest
  rw [warnsAt, e]
  simp only [longStrings, List.filterMap_cons, List.filterMap_nil]
  constructor
  · intro h
    rw [if_neg (by omega)]
  · intro h
    rw [if_pos h]
    refine ⟨(longStringWarning opts (text.count '\n' + 1) ⟨cfg.source, start, stop⟩).reason, ?_, ?_⟩
    · unfold longStringWarning
      cases opts.longStringMaxlines <;> rfl
    · unfold longStringWarning
      cases opts.longStringMaxlines with
      | none => rfl
      | some n => rfl

/-! ### C45 -/

/-- C45: the location of a declaration is from the start of its first token to the end of its last; and if the
tokens come one after the other, so do the declarations. -/
theorem C45_locations (h : parseFile cfg toks o warns = some res) (he : .syntax ∉ res.errors) :
    ∃ ds runs, res.declarations = some ds ∧ toks = runs.flatten ∧
      List.Forall₂ (fun run d => SpanOf cfg.source run d.span) runs ds ∧
      (Ordered toks → (∀ d ∈ ds, d.span.start ≤ d.span.stop) ∧
        ds.Pairwise (fun a b => a.span.stop ≤ b.span.start)) := by
  obtain ⟨ds, ws, hr, hf⟩ := parseFile_sound h he
  obtain ⟨runs, h1, h2⟩ := file_runs hf
  have h3 := h2.imp (fun _ _ h => h.1)
  refine ⟨ds, runs, by rw [hr], h1, h3, fun ho => ?_⟩
  have h6 : ∀ run ∈ runs, Head run (fun t => t ≠ .indent) := by
    clear h1 h3 hf hr
    induction h2 with
    | nil => simp
    | cons h _ ih =>
      intro run hrun
      rcases List.mem_cons.mp hrun with rfl | hrun
      · obtain ⟨_, _, _, _, _, h⟩ := h; exact run_head h
      · exact ih run hrun
  obtain ⟨h4, h5⟩ := ordered_spans h3 h6 (h1 ▸ ho)
  exact ⟨fun d hd => (h4 d hd).2, h5⟩

/-! ### C47 -/

/-- C47: parsing a file, well-formed or not, panics only because of a currency with a character that is not ASCII or
because of an expression without value.  `5`: every account type has a name, as at the start and after every file. -/
theorem C47_panics_only (cfg : ParseCfg) (toks : List Ranged) (o : ParserOptions) (warns : List Report)
    (ho : o.accountTypeNames.nameByType.length = 5) :
    MayPanic toks ∨
      ∃ res, parseFile cfg toks o warns = some res ∧ res.opts.accountTypeNames.nameByType.length = 5 := by
  by_cases h : MayPanic toks
  · exact .inl h
  · exact .inr (parseFile_calm cfg warns h ho)

end

/-! ### Examples

`Sample.tx ++ Sample.opening` is a file with a transaction and an `open` directive, with a repeated tag, a repeated
currency and a string of more lines than allowed (`Verif.Lemmas.SampleFile`). -/

section
attribute [local instance] Sample.unicode Sample.decOps

/-- It is parsed as the specification says. -/
example : ∃ res, parseFile Sample.cfg (Sample.tx ++ Sample.opening) Sample.opts [] = some res ∧
    .syntax ∉ res.errors ∧ res.declarations = some Sample.declarations :=
  ⟨_, Sample.parsed, Sample.no_syntax, rfl⟩

/-- C31: an unfinished directive is refused, and is not in the language. -/
example : ∀ ds o' es ws, ¬ FileP Sample.cfg Sample.opts [⟨.date ⟨2024, 1, 2⟩, 0, 10⟩, ⟨.eol, 10, 11⟩] ds o' es ws := by
  intro ds o' es ws h
  have h1 := parseFile_complete [] h
  have h2 : (parseFile Sample.cfg [⟨.date ⟨2024, 1, 2⟩, 0, 10⟩, ⟨.eol, 10, 11⟩] Sample.opts []).all
      (fun r => r.declarations.isNone) = true := by decide +kernel
  rw [h1] at h2
  cases h2

/-- C32: a file with a lexical error, in which the next directive is still found. -/
example : ((parseFile Sample.cfg (⟨.error ⟨[]⟩, 0, 1⟩ :: Sample.opening) Sample.opts []).any
    (fun r => decide (.syntax ∈ r.errors))) = true := by decide +kernel

/-- C33: of two strings, the second is the narration. -/
example : ∃ before date flag rest, Sample.tx ++ Sample.opening = before ++ date :: flag :: rest ∧ date.start = 0 ∧
    date.tok = .date ⟨2024, 1, 2⟩ ∧
    ByPosition (leadingStrings Sample.cfg rest) none (some ⟨['n', '\n', 'm'], ⟨7, 16, 21⟩⟩) :=
  C33_payee_and_narration Sample.parsed Sample.no_syntax rfl (List.mem_cons_self) rfl

/-- C34: the tag is both in the first line and in a metadata line: the directive has that of the metadata line. -/
example : Sample.txDirective.metadata.item.tags = [⟨['-'], ⟨7, 27, 29⟩⟩] ∧
    reportsOf .tag ['-'] Sample.errors = 1 := by decide

example := C34_metadata Sample.parsed Sample.no_syntax rfl List.mem_cons_self

/-- C35: a currency listed twice. -/
example := C35_open_currencies Sample.parsed Sample.no_syntax rfl (List.mem_cons_of_mem _ List.mem_cons_self) rfl

/-- C36: the long string. -/
example : TooLong 7 1 [Sample.tx, Sample.opening] [⟨7, 16, 21⟩] :=
  .keeps (by rintro n ⟨v, rest, h, _⟩; simp [Sample.tx] at h)
    (.keeps (by rintro n ⟨v, rest, h, _⟩; simp [Sample.opening] at h) .nil)

example := C36_long_strings Sample.parsed Sample.no_syntax

/-- C45: the tokens come one after the other. -/
example : Sample.declarations.Pairwise (fun a b => a.span.stop ≤ b.span.start) := by
  obtain ⟨ds, runs, h1, _, _, h2⟩ := C45_locations Sample.parsed Sample.no_syntax
  cases h1
  exact (h2 Sample.ordered).2

/-- C47: tokens which cannot panic. -/
example : ¬ MayPanic (⟨.error ⟨[]⟩, 0, 1⟩ :: [⟨.pushtag, 0, 1⟩, ⟨.currency ['A'], 1, 2⟩]) := by
  intro h
  cases h with
  | currency t s c h1 h2 h3 h4 =>
    simp only [List.mem_cons, List.not_mem_nil, or_false] at h1
    rcases h1 with rfl | rfl | rfl
    · cases h2
    · cases h2
    · cases h2
      simp only [List.mem_singleton] at h3
      subst h3
      exact h4 (by simp [Ascii])
  | expression before i r e h1 h2 _ =>
    have : ∀ t ∈ i, t.tok ≠ .minus ∧ t.tok ≠ .plus ∧ t.tok ≠ .lparen ∧ ∀ d, t.tok ≠ .number d := by
      intro t ht
      have : t ∈ before ++ i := List.mem_append_right _ ht
      rw [← h1] at this
      simp only [List.mem_cons, List.not_mem_nil, or_false] at this
      rcases this with rfl | rfl | rfl <;> simp
    obtain ⟨j, x, hs⟩ : ∃ j x, Signed i j x := by
      obtain ⟨k, x, hp⟩ : ∃ k x, Product i k x := sum_product h2.1
      exact product_signed hp
    have first : ∀ j x, ¬ Factor i j x := by
      intro j x h
      cases h with
      | number h => obtain ⟨a, b, rfl⟩ := h; exact (this _ List.mem_cons_self).2.2.2 _ rfl
      | parens h _ _ => obtain ⟨a, b, rfl⟩ := h; exact (this _ List.mem_cons_self).2.2.1 rfl
    cases hs with
    | unsigned h => exact first _ _ h
    | plus h _ => obtain ⟨a, b, rfl⟩ := h; exact (this _ List.mem_cons_self).2.1 rfl
    | minus h _ => obtain ⟨a, b, rfl⟩ := h; exact (this _ List.mem_cons_self).1 rfl
  | option before i r n v h1 h2 _ =>
    obtain ⟨j, k, ⟨a, b, rfl⟩, _⟩ := h2
    have : (⟨.option, a, b⟩ : Ranged) ∈ before ++ ⟨.option, a, b⟩ :: j := by simp
    rw [← h1] at this
    simp at this

/-- C47: dividing by zero does panic: `pushmeta k: 1/0`. -/
example : parseFile Sample.cfg [⟨.pushmeta, 0, 8⟩, ⟨.key ['k'], 9, 10⟩, ⟨.colon, 10, 11⟩, ⟨.number ⟨1, 0⟩, 12, 13⟩,
    ⟨.slash, 13, 14⟩, ⟨.number ⟨0, 0⟩, 14, 15⟩] Sample.opts [] = none := by
  rw [← Option.isNone_iff_eq_none]
  decide +kernel

end

end Lima.Props
