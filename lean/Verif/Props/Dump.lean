import Verif.Model.Dump
import Verif.Lemmas.SameTrans
import Verif.Props.Display

/-!
# The program `dump` (C72)

It prints the directives of a successful parse, each followed by an empty line.  What it prints can be parsed, by
`dump` itself or any other program.
-/

namespace Lima.Props
open Lima Lima.Spec Grammar

section
variable [Categories] [Unicode] [DecOps] {fs : FileSystem} {env : ParseEnv} {rootPath : Option Path} {rootContent : Str}
  {s : Sources} {l : Logos}

theorem showAll_eq (alloc : Bool) (ds : List Directive) (strings : List Str) :
    Dump.showAll alloc ds strings = some (printAllApart ds) := by
  induction ds generalizing strings with
  | nil => rfl
  | cons d ds ih =>
    unfold Dump.showAll Dump.showDirective
    cases alloc <;> simp [ih, printAllApart]

/-- C72: `dump` prints the directives of a successful parse in their order, each followed by an empty line, with and
without counts of allocations, and does not crash in doing so; for a parse which fails it prints nothing. -/
theorem C72_prints (alloc : Bool) :
    (∀ r : ParseSuccess, Dump.stdout alloc (.ok r) = some (printAllApart (r.directives.map (·.item)))) ∧
    (∀ e : ParseError, Dump.stdout alloc (.err e) = some []) :=
  ⟨fun _ => showAll_eq alloc _ _, fun _ => rfl⟩

/-- C72, the part that holds: what `dump` prints for a successful parse is parsed, inline or as a file, and the result is
the same directives in the same order, with no options and no plugins.  `c` is the result which `dump` prints: hash containers may be in any order.
Missing: total prices, tolerances, quotes and backslashes (`Printable`), see the falsity theorem below; accounts of
types which options have renamed. -/
theorem C72_parse_again_partial (hwf : GlobsWF fs) (hn : NumberThenComma l) (hl : SoundNumbers l) (hlex : LexedBy l env.tokens)
    (hs : ReadInSomeOrder fs env.tokens rootPath rootContent s) {a : ParseSuccess} (ha : parseSources env s = .ok a)
    (hne : ∀ id path text, IsSource s id path text → lexText l text ≠ none)
    (hp : ∀ d ∈ a.directives, Printable d.item)
    (hk : ∀ d ∈ a.directives, ∀ acc ∈ accountsOf d.item, KnowsAccount ParserOptions.default acc)
    {c : ParseSuccess} (hc : List.Forall₂ (fun x y => Same x.item y.item) a.directives c.directives)
    (alloc : Bool) (path : Option Path) :
    ∃ out b, Dump.stdout alloc (.ok c) = some out ∧ parseSources env (readWithIncludes fs env.tokens path out) = .ok b ∧
      List.Forall₂ (fun d e => Same d.item e.item) a.directives b.directives ∧
      b.options = Options.new ParserOptions.default ∧ b.plugins = [] := by
  have h : ∀ d ∈ c.directives.map (·.item), GoodDirective d ∧ Printable d := by
    intro d h
    obtain ⟨y, hy, rfl⟩ := List.mem_map.mp h
    obtain ⟨x, hx, hxy⟩ := forall₂_mem hc y hy
    exact ⟨(parse_good hwf hs ha hl hlex hne x hx).same hxy, Printable.same (hp x hx) hxy⟩
  have hk' : ∀ d ∈ c.directives.map (·.item), ∀ acc ∈ accountsOf d, KnowsAccount ParserOptions.default acc := by
    intro d h acc hacc
    obtain ⟨y, hy, rfl⟩ := List.mem_map.mp h
    obtain ⟨x, hx, hxy⟩ := forall₂_mem hc y hy
    exact hk x hx acc (same_accountsOf hxy hacc)
  obtain ⟨b, es, h1, h2, h3, h6⟩ := parse_printed hwf hlex (lexed_all hn _ h).2 h hk' path
  refine ⟨_, b, (C72_prints alloc).1 c, h1, ?_, h6⟩
  rw [List.forall₂_map_left_iff] at h2
  have h4 : List.Forall₂ (fun x y => Same x.item y.item) a.directives es :=
    forall₂_trans (R := fun x y : Spanned Directive => Same x.item y.item) (fun _ _ _ h k => Same.trans h k) hc h2
  have h5 : es = sortDirectives es := C01_sort_unique es es (pairwise_of_same h4 (C01_whole_parse hwf hs ha)) (fun _ => rfl)
  rw [h3, ← h5]
  exact h4

/-- The output of `dump` is parsed, printed by `dump` again and so on, a number of times; each time the hash containers may
be in another order. -/
inductive DumpedAgain (env : ParseEnv) (fs : FileSystem) : Nat → ParseSuccess → ParseSuccess → Prop
  | none {a : ParseSuccess} : DumpedAgain env fs 0 a a
  | again {n : Nat} {a b c d : ParseSuccess} {alloc : Bool} {path : Option Path} {out : Str} :
      DumpedAgain env fs n a b → List.Forall₂ (fun x y => Same x.item y.item) b.directives c.directives →
      Dump.stdout alloc (.ok c) = some out → parseSources env (readWithIncludes fs env.tokens path out) = .ok d →
      DumpedAgain env fs (n + 1) a d

/-- C72, the part that holds: the same after any number of rounds of `dump`: the directives are still the same, in the same
order, and there is a next round. -/
theorem C72_any_number_partial (hwf : GlobsWF fs) (hn : NumberThenComma l) (hl : SoundNumbers l) (hlex : LexedBy l env.tokens)
    (hs : ReadInSomeOrder fs env.tokens rootPath rootContent s) {a : ParseSuccess} (ha : parseSources env s = .ok a)
    (hne : ∀ id path text, IsSource s id path text → lexText l text ≠ none)
    (hp : ∀ d ∈ a.directives, Printable d.item)
    (hk : ∀ d ∈ a.directives, ∀ acc ∈ accountsOf d.item, KnowsAccount ParserOptions.default acc)
    {n : Nat} {b : ParseSuccess} (h : DumpedAgain env fs n a b) :
    List.Forall₂ (fun d e => Same d.item e.item) a.directives b.directives ∧
    ∀ (c : ParseSuccess) (alloc : Bool) (path : Option Path),
      List.Forall₂ (fun x y => Same x.item y.item) b.directives c.directives →
      ∃ out d, Dump.stdout alloc (.ok c) = some out ∧ parseSources env (readWithIncludes fs env.tokens path out) = .ok d := by
  have key : List.Forall₂ (fun d e => Same d.item e.item) a.directives b.directives := by
    induction h with
    | none => exact List.forall₂_same.mpr fun d _ => Same.refl _
    | @again n a b c d alloc path out _ hc ho hd ih =>
      have ih := ih ha hp hk
      obtain ⟨out', d', h1, h2, h3, _⟩ := C72_parse_again_partial hwf hn hl hlex hs ha hne hp hk
        (forall₂_trans (R := fun x y : Spanned Directive => Same x.item y.item) (fun _ _ _ h k => Same.trans h k) ih hc) alloc path
      cases h1.symm.trans ho
      cases h2.symm.trans hd
      exact h3
  refine ⟨key, fun c alloc path hc => ?_⟩
  obtain ⟨out, d, h1, h2, _⟩ := C72_parse_again_partial hwf hn hl hlex hs ha hne hp hk
    (forall₂_trans (R := fun x y : Spanned Directive => Same x.item y.item) (fun _ _ _ h k => Same.trans h k) key hc) alloc path
  exact ⟨out, d, h1, h2⟩

end

/-! ### Examples and counterexamples -/

section
attribute [local instance] Categories.asciiOnly Sample.unicode Sample.decOps
open Printed

namespace Dumped

/-- The text parses, but what `dump` prints does not. -/
def breaks (text : Str) : Bool :=
  match directivesOf text with
  | some ds => (directivesOf (printAllApart ds)).isNone
  | none => false

theorem breaks_iff {text : Str} (h : breaks text = true) (alloc : Bool) : ∃ a out, parseSources env (inline text) = .ok a ∧
    Dump.stdout alloc (.ok a) = some out ∧ ∀ b, parseSources env (inline out) ≠ .ok b := by
  unfold breaks directivesOf at h
  cases ha : parseSources env (inline text) with
  | ok a =>
    refine ⟨a, _, rfl, (C72_prints alloc).1 a, fun b hb => ?_⟩
    rw [ha] at h
    simp only [hb] at h
    cases h
  | err e => rw [ha] at h; cases h
  | panic => rw [ha] at h; cases h

end Dumped

/-- C72 is false of the code for total prices, tolerances, quotes and accounts of a renamed type: what `dump` prints is not
parsed. -/
theorem C72_parse_again_false (alloc : Bool) :
    ∀ text ∈ ["2024-01-01 txn\n  Assets:A 1 USD @@ 2 GBP\n", "2024-01-01 balance Assets:A 5 ~ 1 USD\n",
      "2024-01-01 note Assets:A \"a\\\"b\"\n", "option \"name_assets\" \"Haben\"\n2024-01-01 open Haben:A\n"],
    ∃ a out, parseSources env (inline text.toList) = .ok a ∧ Dump.stdout alloc (.ok a) = some out ∧
      ∀ b, parseSources env (inline out) ≠ .ok b := by
  intro text ht
  refine Dumped.breaks_iff ?_ alloc
  simp only [List.mem_cons, List.not_mem_nil, or_false] at ht
  rcases ht with rfl | rfl | rfl | rfl
  · decide +kernel
  · decide +kernel
  · decide +kernel
  · decide +kernel

theorem Dumped.sample_case {text : Str} (h : (directivesOf text).any (fun ds => decide (ds.length = 2) && ds.all fine) = true)
    (hi : getIncludes env.tokens text = []) (hl : (lexText logos text).isSome = true) :
    ∃ s a b c out out', ReadInSomeOrder Whole.files env.tokens none text s ∧ parseSources env s = .ok a ∧
    a.directives.length = 2 ∧
    Dump.stdout false (.ok a) = some out ∧ parseSources env (readWithIncludes Whole.files env.tokens none out) = .ok b ∧
    Dump.stdout true (.ok b) = some out' ∧ parseSources env (readWithIncludes Whole.files env.tokens none out') = .ok c ∧
    List.Forall₂ (fun d e => Same d.item e.item) a.directives c.directives := by
  obtain ⟨ds, hds, h⟩ := any_some h
  obtain ⟨a, ha, rfl⟩ := directivesOf_some hds
  rw [Bool.and_eq_true] at h
  have hall : ∀ d ∈ a.directives, fine d.item = true := fun d hd => List.all_eq_true.mp h.2 _ (List.mem_map_of_mem hd)
  have hs : ReadInSomeOrder Whole.files env.tokens none text (inline text) := by
    rw [← inline_read Whole.files hi]
    exact ⟨_, .refl _, rfl⟩
  have hne : ∀ id path text', IsSource (Printed.inline text) id path text' → lexText logos text' ≠ none := by
    intro id path text' ht hn
    rcases ht with ⟨_, _, ht⟩ | ⟨p, ix, _, hm⟩
    · have ht : text' = text := ht
      rw [ht] at hn
      rw [hn] at hl
      cases hl
    · cases hm
  have hp : ∀ d ∈ a.directives, Printable d.item := fun d hd => (fine_iff (hall d hd)).1
  have hk : ∀ d ∈ a.directives, ∀ acc ∈ accountsOf d.item, KnowsAccount ParserOptions.default acc :=
    fun d hd => (fine_iff (hall d hd)).2
  have hr : ∀ x : ParseSuccess, List.Forall₂ (fun x y => Same x.item y.item) x.directives x.directives :=
    fun x => List.forall₂_same.mpr fun d _ => Same.refl _
  obtain ⟨out, b, h1, h2, _⟩ := C72_parse_again_partial Whole.files_wf numberThenComma soundNumbers lexedBy hs ha hne hp hk
    (hr a) false none
  have hb : DumpedAgain env Whole.files 1 a b := .again .none (hr a) h1 h2
  obtain ⟨out', c, h3, h4⟩ := (C72_any_number_partial Whole.files_wf numberThenComma soundNumbers lexedBy hs ha hne hp hk hb).2 b
    true none (hr b)
  exact ⟨_, a, b, c, out, out', hs, ha, by simpa using of_decide_eq_true h.1, h1, h2, h3, h4,
    (C72_any_number_partial Whole.files_wf numberThenComma soundNumbers lexedBy hs ha hne hp hk (.again hb (hr b) h3 h4)).1⟩

/-- The hypotheses of the theorems about C72 are met: two directives, dumped twice. -/
example : ∃ s a b c out out', ReadInSomeOrder Whole.files env.tokens none Printed.sampleText s ∧ parseSources env s = .ok a ∧
    a.directives.length = 2 ∧
    Dump.stdout false (.ok a) = some out ∧ parseSources env (readWithIncludes Whole.files env.tokens none out) = .ok b ∧
    Dump.stdout true (.ok b) = some out' ∧ parseSources env (readWithIncludes Whole.files env.tokens none out') = .ok c ∧
    List.Forall₂ (fun d e => Same d.item e.item) a.directives c.directives :=
  Dumped.sample_case Printed.sampleText_fine Printed.sampleText_includes Printed.sampleText_lexed

end

end Lima.Props
