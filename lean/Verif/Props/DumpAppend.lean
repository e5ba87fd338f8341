import Verif.Lemmas.AppendPrinted
import Verif.Props.Append
import Verif.Props.Dump

/-!
# Appending what `dump` prints (C72)

What `dump` prints for one ledger may be appended to another: `dump one.beancount >> other.beancount`.
-/

set_option linter.unusedSectionVars false

namespace Lima.Props
open Lima Lima.Spec Grammar

section
variable [Categories] [Unicode] [DecOps] {l : Logos} {env : ParseEnv} {fs : FileSystem} {root root' : Option Path} {text text' out : Str}
  {s s' one : Sources}

theorem dumped_good (hwf : GlobsWF fs) (hl : SoundNumbers l) (hlex : LexedBy l env.tokens)
    (h1 : ReadInSomeOrder fs env.tokens root' text' one) {a : ParseSuccess} (ha : parseTexts l env one = .ok a)
    (hp : ∀ d ∈ a.directives, Printable d.item)
    {c : ParseSuccess} (hc : List.Forall₂ (fun x y => Same x.item y.item) a.directives c.directives) :
    ∀ d ∈ c.directives.map (·.item), GoodDirective d ∧ Printable d := by
  have ho := lexed_of_ok ha
  rw [parseTexts_eq ho] at ha
  intro d h
  obtain ⟨y, hy, rfl⟩ := List.mem_map.mp h
  obtain ⟨x, hx, hxy⟩ := forall₂_mem hc y hy
  exact ⟨(parse_good hwf h1 ha hl hlex (fun id path text hi => ho _ (mem_contentIter.mpr hi)) x hx).same hxy, Printable.same (hp x hx) hxy⟩

/-- C72, the part that holds: what `dump` prints for one ledger may be appended to the root of another.  The same files are read;
the result has the directives of both, those of the second ledger first where neither of two must come before the other, and the
options and plugins of the second alone.  `a` is the result for the first ledger, and `c` that result as `dump` prints it: hash
containers may be in any order.
Missing: as for `C72_parse_again_partial`; ledgers whose root sets options of the parser. -/
theorem C72_append_partial (hwf : GlobsWF fs) (hn : NumberThenComma l) (hl : SoundNumbers l) (hlex : LexedBy l env.tokens)
    (hx : SameEnv env env) (h1 : ReadInSomeOrder fs env.tokens root' text' one) {a : ParseSuccess} (ha : parseTexts l env one = .ok a)
    (hp : ∀ d ∈ a.directives, Printable d.item)
    (hk : ∀ d ∈ a.directives, ∀ acc ∈ accountsOf d.item, KnowsAccount ParserOptions.default acc)
    {c : ParseSuccess} (hc : List.Forall₂ (fun x y => Same x.item y.item) a.directives c.directives)
    {alloc : Bool} (hout : Dump.stdout alloc (.ok c) = some out)
    (pt : Passage l text) (ho : ¬ SetsParserOption (env.tokens text)) (hs' : ReadInSomeOrder fs env.tokens root text s')
    {r' : ParseSuccess} (hr : parseTexts l env s' = .ok r') :
    (∃ s, ReadInSomeOrder fs env.tokens root (text ++ out) s ∧ SameVisits s s') ∧
    ∀ s, ReadInSomeOrder fs env.tokens root (text ++ out) s → SameVisits s s' →
      ∃ p r, List.Forall₂ (fun d e => Same d.item e.item) a.directives p.directives ∧ parseTexts l env s = .ok r ∧ Joined r r' p := by
  have good := dumped_good hwf hl hlex h1 ha hp hc
  cases ((C72_prints alloc).1 c).symm.trans hout
  obtain ⟨b1, b2⟩ := Append.printed_begin (c.directives.map (·.item))
  obtain ⟨pa, ht⟩ := Append.after_printed hlex pt (lexed_all hn _ good).2 b1 b2
  have plain : NoPragma ((env.tokens (printAllApart (c.directives.map (·.item)))).map (·.tok)) := by
    rw [ht]
    exact Append.printed_plain _
  have hinc := (Append.includes_more pa plain).1
  constructor
  · obtain ⟨x, hc, rfl⟩ := hs'
    refine ⟨{ readWithIncludes fs env.tokens root (text ++ printAllApart (c.directives.map (·.item))) with content := x }, ⟨x, ?_, rfl⟩, rfl⟩
    rw [Append.read_root hinc]
    exact hc
  · intro s hs hv
    have hone := lexed_of_ok ha
    rw [parseTexts_eq hone] at ha
    obtain ⟨out, p, e1, e2, e3, _⟩ := C72_parse_again_partial hwf hn hl hlex h1 ha (fun id path text hi => hone _ (mem_contentIter.mpr hi))
      hp hk hc alloc root
    cases ((C72_prints alloc).1 c).symm.trans e1
    have hsp : ReadInSomeOrder fs env.tokens root (printAllApart (c.directives.map (·.item)))
        (readWithIncludes fs env.tokens root (printAllApart (c.directives.map (·.item)))) := ⟨_, .refl _, rfl⟩
    have hal := (Append.erase_all hwf hlex hx pa ho plain hs hs' hv hsp (lexed_of_ok hr)).2.1
    rw [← parseTexts_eq hal] at e2
    obtain ⟨r, q1, q2⟩ := appended_after hwf hlex hx pa ho plain hs hs' hv hsp hr e2
    exact ⟨p, r, e3, q1, q2⟩

end

/-! ### Samples -/

section
attribute [local instance] Categories.asciiOnly Sample.unicode Sample.decOps
open Printed

/-- A transaction and an account opened are dumped, and appended to a ledger with a directive and a plugin: the hypotheses of
`C72_append_partial` are met. -/
example : ∃ a out r', parseTexts logos Included.env (Ordered.alone Printed.sampleText) = .ok a ∧ a.directives.length = 2 ∧
    Dump.stdout false (.ok a) = some out ∧ parseTexts logos Included.env (Ordered.alone Appended.ledger) = .ok r' ∧
    r'.directives.length = 1 ∧ r'.plugins.length = 1 ∧
    ∃ s p r, ReadInSomeOrder Included.files Included.env.tokens Ordered.rootPath (Appended.ledger ++ out) s ∧
      List.Forall₂ (fun d e => Same d.item e.item) a.directives p.directives ∧ parseTexts logos Included.env s = .ok r ∧ Joined r r' p := by
  obtain ⟨a, ha, ka⟩ := Ordered.key (x := parseTexts logos Included.env (Ordered.alone Printed.sampleText))
    (f := fun r => decide (r.directives.length = 2) && r.directives.all (fun d => fine d.item)) (by decide +kernel)
  obtain ⟨r', hr, kr⟩ := Ordered.key (x := parseTexts logos Included.env (Ordered.alone Appended.ledger))
    (f := fun r => decide (r.directives.length = 1) && decide (r.plugins.length = 1)) (by decide +kernel)
  rw [Bool.and_eq_true] at ka kr
  have hall : ∀ d ∈ a.directives, fine d.item = true := List.all_eq_true.mp ka.2
  obtain ⟨⟨s, hs, hv⟩, h⟩ := C72_append_partial (env := Included.env) (l := logos) (alloc := false) Included.files_wf numberThenComma soundNumbers
    Laid.lexedBy Included.sameEnv (Ordered.alone_eq (by decide +kernel)) ha (fun d hd => (fine_iff (hall d hd)).1)
    (fun d hd => (fine_iff (hall d hd)).2) (c := a) (List.forall₂_same.mpr fun d _ => Same.refl _) ((C72_prints false).1 a)
    Appended.ledger_passage (Appended.sets_nothing (by decide +kernel)) (Ordered.alone_eq (by decide +kernel)) hr
  obtain ⟨p, r, h1, h2, h3⟩ := h s hs hv
  exact ⟨a, _, r', ha, of_decide_eq_true ka.1, (C72_prints false).1 a, hr, of_decide_eq_true kr.1, of_decide_eq_true kr.2, s, p, r, hs, h1, h2, h3⟩

end

end Lima.Props
