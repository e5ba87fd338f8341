import Verif.Lemmas.PrintWhole
import Verif.Props.Logos

/-!
# Printing and parsing (C22, C44)

The directives of a successful parse are printed, and the text is parsed again.  `Same` is equality but for
locations and the order in hash containers.
-/

namespace Lima.Props
open Lima Lima.Spec Grammar

section
variable [Categories] [Unicode] [DecOps] {fs : FileSystem} {env : ParseEnv} {rootPath : Option Path} {rootContent : Str}
  {s : Sources} {l : Logos}

/-! ### C44 -/

/-- C44, the part that holds: take directives of a parse, as many and in any order, print them, with hash containers in
any order, and parse the text, inline or as a file: the parse succeeds with the same directives, in the order of
directives.  Missing: total prices, tolerances, quotes and backslashes (`Printable`), see the falsity theorems below.
Accounts must be of the types which there are without options, as printing does not print options.  About Logos: it
falls back from a comma after a number, and its numbers are unsigned decimals. -/
theorem C44_print_parse_partial (hwf : GlobsWF fs) (hn : NumberThenComma l) (hl : SoundNumbers l) (hlex : LexedBy l env.tokens)
    (hs : ReadInSomeOrder fs env.tokens rootPath rootContent s) {a : ParseSuccess} (ha : parseSources env s = .ok a)
    (hne : ∀ id path text, IsSource s id path text → lexText l text ≠ none)
    {ds : List Directive} (hd : ∀ d ∈ ds, ∃ x ∈ a.directives, Same x.item d) (hp : ∀ d ∈ ds, Printable d)
    (hk : ∀ d ∈ ds, ∀ acc ∈ accountsOf d, KnowsAccount ParserOptions.default acc) (path : Option Path) :
    ∃ b es, parseSources env (readWithIncludes fs env.tokens path (printAll ds)) = .ok b ∧
      List.Forall₂ (fun d e => Same d e.item) ds es ∧ b.directives = sortDirectives es := by
  have h : ∀ d ∈ ds, GoodDirective d ∧ Printable d := by
    intro d h
    obtain ⟨x, hx, hxd⟩ := hd d h
    exact ⟨(parse_good hwf hs ha hl hlex hne x hx).same hxd, hp d h⟩
  obtain ⟨b, es, h1, h2, h3, _⟩ := parse_printed hwf hlex (lexed_all hn ds h).1 h hk path
  exact ⟨b, es, h1, h2, h3⟩

/-- C44: in particular, all directives of a parse, in their order. -/
theorem C44_print_parse_all_partial (hwf : GlobsWF fs) (hn : NumberThenComma l) (hl : SoundNumbers l)
    (hlex : LexedBy l env.tokens) (hs : ReadInSomeOrder fs env.tokens rootPath rootContent s) {a : ParseSuccess}
    (ha : parseSources env s = .ok a) (hne : ∀ id path text, IsSource s id path text → lexText l text ≠ none)
    (hp : ∀ d ∈ a.directives, Printable d.item)
    (hk : ∀ d ∈ a.directives, ∀ acc ∈ accountsOf d.item, KnowsAccount ParserOptions.default acc) (path : Option Path) :
    ∃ b, parseSources env (readWithIncludes fs env.tokens path (printAll (a.directives.map (·.item)))) = .ok b ∧
      List.Forall₂ (fun d e => Same d.item e.item) a.directives b.directives := by
  obtain ⟨b, es, h1, h2, h3⟩ := C44_print_parse_partial hwf hn hl hlex hs ha hne (ds := a.directives.map (·.item))
    (fun d h => by
      obtain ⟨x, hx, rfl⟩ := List.mem_map.mp h
      exact ⟨x, hx, Same.refl _⟩)
    (fun d h => by
      obtain ⟨x, hx, rfl⟩ := List.mem_map.mp h
      exact hp x hx)
    (fun d h => by
      obtain ⟨x, hx, rfl⟩ := List.mem_map.mp h
      exact hk x hx) path
  rw [List.forall₂_map_left_iff] at h2
  have hsorted : es.Pairwise (fun a b => ¬ StrictlyBefore b.item a.item) := by
    have ho := C01_whole_parse hwf hs ha
    exact pairwise_of_same h2 ho
  have : es = sortDirectives es := C01_sort_unique es es hsorted (fun _ => rfl)
  refine ⟨b, h1, ?_⟩
  rw [h3, ← this]
  exact h2

/-- C44: what is printed, is parsed with any options which know the accounts, at any place in the sources. -/
theorem C44_print_parse_file_partial (hwf : GlobsWF fs) (hn : NumberThenComma l) (hl : SoundNumbers l)
    (hlex : LexedBy l env.tokens) (hs : ReadInSomeOrder fs env.tokens rootPath rootContent s) {a : ParseSuccess}
    (ha : parseSources env s = .ok a) (hne : ∀ id path text, IsSource s id path text → lexText l text ≠ none)
    {ds : List Directive} (hd : ∀ d ∈ ds, ∃ x ∈ a.directives, Same x.item d) (hp : ∀ d ∈ ds, Printable d)
    {o : ParserOptions} (hk : ∀ d ∈ ds, ∀ acc ∈ accountsOf d, KnowsAccount o acc) (cfg : ParseCfg) :
    ∃ toks decls ws, lexText l (printAll ds) = some toks ∧ parseFile cfg toks o [] = some ⟨some decls, [], o, ws⟩ ∧
      List.Forall₂ (fun d x => ∃ e, x.item = Declaration.directive e ∧ Same d e) ds decls := by
  have h : ∀ d ∈ ds, GoodDirective d ∧ Printable d := by
    intro d h
    obtain ⟨x, hx, hxd⟩ := hd d h
    exact ⟨(parse_good hwf hs ha hl hlex hne x hx).same hxd, hp d h⟩
  obtain ⟨toks, decls, ws, h1, _, h3, h4⟩ := print_parse cfg ds (lexed_all hn ds h).1 h hk
  exact ⟨toks, decls, _, h1, parseFile_complete [] h3, h4⟩

/-! ### C22 -/

/-- C22, the part that holds: the printed form of the cost specification of a posting of a parse is a cost
specification, and the parser reads it as the same one, whatever options there are.  Missing: labels with quotes or
backslashes, see `C22_print_parse_false`. -/
theorem C22_print_parse_partial (hwf : GlobsWF fs) (hn : NumberThenComma l) (hl : SoundNumbers l) (hlex : LexedBy l env.tokens)
    (hs : ReadInSomeOrder fs env.tokens rootPath rootContent s) {a : ParseSuccess} (ha : parseSources env s = .ok a)
    (hne : ∀ id path text, IsSource s id path text → lexText l text ≠ none)
    {d : Spanned Directive} (hd : d ∈ a.directives) {t : Transaction} (ht : d.item.variant = .transaction t)
    {p : Spanned Posting} (hp : p ∈ t.postings) {c : Spanned CostSpec} (hc : p.item.costSpec = some c)
    (hlabel : ∀ x, c.item.label = some x → '"' ∉ x.item ∧ '\\' ∉ x.item) (cfg : ParseCfg) (o : ParserOptions) :
    ∃ toks rest c', lexText l (Display.costSpec c.item) = some toks ∧ (rest.map (·.tok) = [] ∨ rest.map (·.tok) = [.eol]) ∧
      CostSpecP cfg toks rest c' ∧ SameCost c.item c' ∧
      ∃ ws, ∀ errs warns, costSpec cfg ⟨toks, errs, o, warns⟩ = .ok c' ⟨rest, errs, o, warns ++ ws⟩ := by
  have hg := parse_good hwf hs ha hl hlex hne d hd
  have hv := hg.2.2
  rw [ht] at hv
  have hcost := (hv.2.2.2 p hp).cost c hc
  have hprint : ∀ t ∈ costTokens c.item, PrintOk t := by
    intro t htok
    refine ⟨hcost.2 t htok, ?_⟩
    rintro x rfl
    rcases (stringsIn_cost (ss := c.item.label.toList.map (·.item)) (fun s h => h) _ htok).2 x rfl with h | rfl | ⟨b, rfl⟩
    · obtain ⟨y, hy, rfl⟩ := List.mem_map.mp h
      obtain ⟨h1, h2⟩ := hlabel y (by simpa using hy)
      intro ch hch
      exact ⟨fun e => h1 (e ▸ hch), fun e => h2 (e ▸ hch)⟩
    · intro c hc; cases hc
    · have : ∀ b : Booking, ∀ c ∈ Display.booking b, c ≠ '"' ∧ c ≠ '\\' := by intro b; cases b <;> decide
      exact this b
  have hlexed := Lexed.costSpec hn hprint (s := []) (.inl rfl) (.nil l)
  rw [List.append_nil, List.append_nil] at hlexed
  obtain ⟨toks, h1, h2, _⟩ := lexed_lexText hlexed (by simp [costTokens])
  have : ∃ run rest, toks = run ++ rest ∧ run.map (·.tok) = costTokens c.item ∧ (rest.map (·.tok) = [] ∨ rest.map (·.tok) = [.eol]) := by
    rcases h2 with h2 | h2
    · exact ⟨toks, [], by simp, h2, .inl rfl⟩
    · obtain ⟨run, rest, e, h3, h4⟩ := run_append h2
      exact ⟨run, rest, e, h3, .inr h4⟩
  obtain ⟨run, rest, rfl, h3, h4⟩ := this
  obtain ⟨c', h5, h6⟩ := costSpecP_of cfg hcost.1 (r := rest) h3
  refine ⟨_, rest, c', h1, h4, h5, h6, warnsAt cfg o (run ++ rest) rest, fun errs warns => ?_⟩
  have := (fwd_costSpec (o := o) h5).2 errs warns
  rw [List.append_nil] at this
  exact this

end

/-! ### Examples and counterexamples -/

section
attribute [local instance] Categories.asciiOnly Sample.unicode Sample.decOps

namespace Printed

/-- The lexer, and nothing else that matters. -/
def env : ParseEnv :=
  ⟨fun text => (lexText logos text).getD [], fun id _ => ⟨id, 0, 0⟩, fun _ => .error ⟨[]⟩, fun _ => none, fun _ _ => []⟩

/-- An inline text without includes. -/
def inline (text : Str) : Sources := ⟨none, text, charIndices text, [], [], [str "inline"], []⟩

theorem inline_read (fs : FileSystem) {text : Str} (h : getIncludes env.tokens text = []) :
    readWithIncludes fs env.tokens none text = inline text := read_plain h none

theorem numberThenComma : NumberThenComma logos := fun _ _ _ => rfl

theorem soundNumbers : SoundNumbers logos := fun _ _ h => by cases h

theorem lexedBy : LexedBy logos env.tokens := fun text toks h => by
  show (lexText logos text).getD [] = toks
  rw [h]; rfl

/-- The directives of a text, if it parses. -/
def directivesOf (text : Str) : Option (List Directive) :=
  match parseSources env (inline text) with
  | .ok a => some (a.directives.map (·.item))
  | _ => none

/-- The text parses, but what is printed does not. -/
def breaks (text : Str) : Bool :=
  match directivesOf text with
  | some ds => (directivesOf (printAll ds)).isNone
  | none => false

theorem breaks_iff {text : Str} (h : breaks text = true) : ∃ a, parseSources env (inline text) = .ok a ∧
    ∀ b, parseSources env (inline (printAll (a.directives.map (·.item)))) ≠ .ok b := by
  unfold breaks directivesOf at h
  cases ha : parseSources env (inline text) with
  | ok a =>
    refine ⟨a, rfl, fun b hb => ?_⟩
    rw [ha] at h
    simp only [hb] at h
    cases h
  | err e => rw [ha] at h; cases h
  | panic => rw [ha] at h; cases h

end Printed
open Printed

/-- C44 is false of the code: a total price is printed as `@ #`. -/
theorem C44_total_price_false : ∃ a, parseSources env (inline "2024-01-01 txn\n  Assets:A 1 USD @@ 2 GBP\n".toList) = .ok a ∧
    ∀ b, parseSources env (inline (printAll (a.directives.map (·.item)))) ≠ .ok b := breaks_iff (by decide +kernel)

/-- C44 is false of the code: a tolerance is printed after the currency. -/
theorem C44_tolerance_false : ∃ a, parseSources env (inline "2024-01-01 balance Assets:A 5 ~ 1 USD\n".toList) = .ok a ∧
    ∀ b, parseSources env (inline (printAll (a.directives.map (·.item)))) ≠ .ok b := breaks_iff (by decide +kernel)

/-- C44 is false of the code: quotes are printed as they are. -/
theorem C44_quote_false : ∃ a, parseSources env (inline "2024-01-01 note Assets:A \"a\\\"b\"\n".toList) = .ok a ∧
    ∀ b, parseSources env (inline (printAll (a.directives.map (·.item)))) ≠ .ok b := breaks_iff (by decide +kernel)

namespace Printed

/-- The text parses to one note, and so does what is printed, but the note is another one. -/
def changes (text : Str) : Bool :=
  match directivesOf text with
  | some [d] =>
    match directivesOf (printAll [d]) with
    | some [e] => match d.variant, e.variant with | .note _ x, .note _ y => decide (x.item ≠ y.item) | _, _ => false
    | _ => false
  | _ => false

theorem directivesOf_some {text : Str} {ds : List Directive} (h : directivesOf text = some ds) :
    ∃ a, parseSources env (inline text) = .ok a ∧ a.directives.map (·.item) = ds := by
  unfold directivesOf at h
  cases ha : parseSources env (inline text) with
  | ok a => rw [ha] at h; cases h; exact ⟨a, rfl, rfl⟩
  | err e => rw [ha] at h; cases h
  | panic => rw [ha] at h; cases h

end Printed

/-- C44 is false of the code: a backslash is printed as it is, and then read as the start of an escape. -/
theorem C44_backslash_false : ∃ a b, parseSources env (inline "2024-01-01 note Assets:A \"a\\\\n\"\n".toList) = .ok a ∧
    parseSources env (inline (printAll (a.directives.map (·.item)))) = .ok b ∧
    ¬ List.Forall₂ (fun d e => Same d.item e.item) a.directives b.directives := by
  have key : ∀ text, changes text = true → ∃ a b, parseSources env (inline text) = .ok a ∧
      parseSources env (inline (printAll (a.directives.map (·.item)))) = .ok b ∧
      ¬ List.Forall₂ (fun d e => Same d.item e.item) a.directives b.directives := by
    intro text h
    unfold changes at h
    split at h <;> try cases h
    rename_i d h1
    split at h <;> try cases h
    rename_i e h2
    split at h <;> try cases h
    rename_i h3 h4
    obtain ⟨a, ha, ha'⟩ := directivesOf_some h1
    obtain ⟨b, hb, hb'⟩ := directivesOf_some h2
    refine ⟨a, b, ha, by rw [ha']; exact hb, ?_⟩
    intro hf
    have hf : List.Forall₂ Same (a.directives.map (·.item)) (b.directives.map (·.item)) := by
      rw [List.forall₂_map_left_iff, List.forall₂_map_right_iff]; exact hf
    rw [ha', hb'] at hf
    cases hf with
    | cons hs _ =>
      have := hs.2.2
      rw [h3, h4] at this
      exact (of_decide_eq_true h) this.2
  exact key _ (by decide +kernel)

namespace Printed

/-- The text parses to a transaction with one posting, whose printed cost specification is not one. -/
def costBreaks (text : Str) : Bool :=
  match parseSources env (inline text) with
  | .ok ⟨[d], _, _, _⟩ =>
    match d.item.variant with
    | .transaction ⟨_, _, _, [p]⟩ =>
      match p.item.costSpec with
      | some c =>
        match lexText logos (Display.costSpec c.item) with
        | some toks => match costSpec Sample.cfg ⟨toks, [], ParserOptions.default, []⟩ with | .ok _ _ => false | _ => true
        | none => false
      | none => false
    | _ => false
  | _ => false

end Printed

/-- C22 is false of the code: quotes in a label are printed as they are. -/
theorem C22_print_parse_false : ∃ a d t p c, parseSources env (inline "2024-01-01 txn\n  Assets:A 1 USD {\"a\\\"b\"}\n".toList) = .ok a ∧
    d ∈ a.directives ∧ d.item.variant = .transaction t ∧ p ∈ t.postings ∧ p.item.costSpec = some c ∧
    ∃ toks, lexText logos (Display.costSpec c.item) = some toks ∧ ∀ rest c', ¬ CostSpecP Sample.cfg toks rest c' := by
  have key : ∀ text, costBreaks text = true → ∃ a d t p c, parseSources env (inline text) = .ok a ∧
      d ∈ a.directives ∧ d.item.variant = .transaction t ∧ p ∈ t.postings ∧ p.item.costSpec = some c ∧
      ∃ toks, lexText logos (Display.costSpec c.item) = some toks ∧ ∀ rest c', ¬ CostSpecP Sample.cfg toks rest c' := by
    intro text h
    unfold costBreaks at h
    split at h
    · rename_i d _ _ _ ha
      split at h
      · rename_i p hv
        split at h
        · rename_i c hc
          split at h
          · rename_i toks ht
            refine ⟨_, d, _, p, c, ha, by simp, hv, by simp, hc, toks, ht, ?_⟩
            intro rest c' hcs
            rw [(fwd_costSpec (o := ParserOptions.default) hcs).2 [] []] at h
            cases h
          · cases h
        · cases h
      · cases h
    · cases h
  exact key _ (by decide +kernel)

namespace Printed

/-- A check for `Printable`, and for accounts of known types. -/
def fine (d : Directive) : Bool :=
  (match d.variant with
    | .transaction t => t.postings.all (fun p => match p.item.priceAnnotation with
      | some x => match x.item with
        | .bareAmount (.total _) | .currencyAmount (.total _) _ => false
        | _ => true
      | none => true)
    | .balance _ t => t.item.tolerance.isNone
    | _ => true) &&
  (stringsOf d).all (fun s => decide ('"' ∉ s ∧ '\\' ∉ s)) &&
  (accountsOf d).all (fun a =>
    decide (ParserOptions.default.accountTypeNames.get (a.name.takeWhile (fun c => decide (c ≠ ':'))) = some a.accountType))

theorem fine_iff {d : Directive} (h : fine d = true) :
    Printable d ∧ ∀ a ∈ accountsOf d, KnowsAccount ParserOptions.default a := by
  unfold fine at h
  rw [Bool.and_eq_true, Bool.and_eq_true] at h
  obtain ⟨⟨h1, h2⟩, h3⟩ := h
  refine ⟨⟨?_, ?_, fun s hs => of_decide_eq_true (List.all_eq_true.mp h2 s hs)⟩, ?_⟩
  rotate_left 2
  · intro a ha
    have := List.all_eq_true.mp h3 a ha
    rw [decide_eq_true_eq] at this
    exact this
  · intro t ht p hp x hx hx'
    rw [ht] at h1
    have := List.all_eq_true.mp h1 p hp
    rw [hx] at this
    unfold Spec.IsTotal at hx'
    simp only at this
    split at this
    · cases this
    · cases this
    · rename_i n1 n2
      generalize hi : x.item = y at hx' n1 n2
      rcases y with _ | c | z | ⟨z, c⟩
      · exact hx'
      · exact hx'
      · cases z with
        | perUnit e => exact hx'
        | total e => exact n1 _ rfl
      · cases z with
        | perUnit e => exact hx'
        | total e => exact n2 _ _ rfl
  · intro a t ht
    rw [ht] at h1
    simpa using h1

theorem any_some {α : Type} {p : α → Bool} {x : Option α} (h : x.any p = true) : ∃ a, x = some a ∧ p a = true := by
  cases x with
  | none => cases h
  | some a => exact ⟨a, rfl, h⟩

/-- Directives of several kinds, with tags, metadata, a cost specification and prices, out of order. -/
def sampleText : Str :=
  "2024-01-02 * \"p\" \"n\" #t ^l\n  kk: 1+2\n  ! Assets:A  -1,000 USD {2 # 3 GBP, 2024-01-01, \"x\", *} @ 1.50 EUR\n    note: Assets:B\n  Assets:B\n2024-01-01 open Assets:A GBP,USD\n".toList

theorem sampleText_fine : (directivesOf sampleText).any (fun ds => decide (ds.length = 2) && ds.all fine) = true := by decide +kernel

theorem sampleText_includes : getIncludes env.tokens sampleText = [] := by decide +kernel

theorem sampleText_lexed : (lexText logos sampleText).isSome = true := by decide +kernel

theorem sample_case {text : Str} (h : (directivesOf text).any (fun ds => decide (ds.length = 2) && ds.all fine) = true)
    (hi : getIncludes env.tokens text = []) (hl : (lexText logos text).isSome = true) :
    ∃ s a b, ReadInSomeOrder Whole.files env.tokens none text s ∧ parseSources env s = .ok a ∧ a.directives.length = 2 ∧
    parseSources env (readWithIncludes Whole.files env.tokens none (printAll (a.directives.map (·.item)))) = .ok b ∧
    List.Forall₂ (fun d e => Same d.item e.item) a.directives b.directives := by
  obtain ⟨ds, hds, h⟩ := any_some h
  obtain ⟨a, ha, rfl⟩ := directivesOf_some hds
  rw [Bool.and_eq_true] at h
  have hall : ∀ d ∈ a.directives, fine d.item = true := fun d hd => List.all_eq_true.mp h.2 _ (List.mem_map_of_mem hd)
  have hread := inline_read Whole.files hi
  have hs : ReadInSomeOrder Whole.files env.tokens none text (inline text) := by
    rw [← hread]
    exact ⟨_, .refl _, rfl⟩
  obtain ⟨b, h1, h2⟩ := C44_print_parse_all_partial Whole.files_wf numberThenComma soundNumbers lexedBy hs ha
    (by
      intro id path text' ht hn
      rcases ht with ⟨_, _, ht⟩ | ⟨p, ix, _, hm⟩
      · have ht : text' = text := ht
        rw [ht] at hn
        rw [hn] at hl
        cases hl
      · cases hm)
    (fun d hd => (fine_iff (hall d hd)).1) (fun d hd => (fine_iff (hall d hd)).2) none
  exact ⟨_, a, b, hs, ha, by simpa using of_decide_eq_true h.1, h1, h2⟩

/-- The hypotheses of the theorems about C44 and C22 are met. -/
example : ∃ s a b, ReadInSomeOrder Whole.files env.tokens none sampleText s ∧ parseSources env s = .ok a ∧ a.directives.length = 2 ∧
    parseSources env (readWithIncludes Whole.files env.tokens none (printAll (a.directives.map (·.item)))) = .ok b ∧
    List.Forall₂ (fun d e => Same d.item e.item) a.directives b.directives :=
  sample_case sampleText_fine sampleText_includes sampleText_lexed

end Printed

end

end Lima.Props
