import Verif.Props.Revised
import Verif.Lemmas.AppendParse
import Verif.Spec.Append

/-!
# C73: directives written at the end of a ledger

Programs which write ledgers append to them.  What has been appended is added to the result as it would be parsed alone, and
changes nothing else.
-/

set_option linter.unusedSectionVars false

namespace Lima.Props
open Lima.Spec Grammar

section
variable [Categories] [Unicode] [DecOps] {l : Logos} {env : ParseEnv} {fs : FileSystem} {root : Option Path} {text more : Str}
  {s s' sp : Sources}

/-- C73: with directives appended to the root, the same files are read, and they may be visited in the same order. -/
theorem C73_read (hlex : LexedBy l env.tokens) (pt : Passage l text) (pm : Passage l more)
    (hn : NoPragma ((env.tokens more).map (·.tok))) (hs' : ReadInSomeOrder fs env.tokens root text s') :
    ∃ s, ReadInSomeOrder fs env.tokens root (text ++ more) s ∧ SameVisits s s' := by
  obtain ⟨c, hc, rfl⟩ := hs'
  refine ⟨{ readWithIncludes fs env.tokens root (text ++ more) with content := c }, ⟨c, ?_, rfl⟩, rfl⟩
  rw [Append.read_root (Append.includes_more (Append.after_passages hlex pt pm) hn).1]
  exact hc

theorem lexed_of_ok {r : ParseSuccess} (h : parseTexts l env s = .ok r) : Append.AllLexed l s := by
  have : ¬ s.contentIter.any (fun e => (lexText l e.2.2).isNone) = true := by
    intro hh
    unfold parseTexts at h
    rw [if_pos hh] at h
    cases h
  intro e he hn
  exact this (List.any_eq_true.mpr ⟨e, he, by rw [hn]; rfl⟩)

theorem appended_after (hwf : GlobsWF fs) (hlex : LexedBy l env.tokens) (hx : SameEnv env env) (pa : Append.After l env.tokens text more)
    (ho : ¬ SetsParserOption (env.tokens text)) (hn : NoPragma ((env.tokens more).map (·.tok)))
    (hs : ReadInSomeOrder fs env.tokens root (text ++ more) s) (hs' : ReadInSomeOrder fs env.tokens root text s') (hv : SameVisits s s')
    (hsp : ReadInSomeOrder fs env.tokens root more sp)
    {r' p : ParseSuccess} (hr : parseTexts l env s' = .ok r') (hp : parseTexts l env sp = .ok p) :
    ∃ r, parseTexts l env s = .ok r ∧ Joined r r' p := by
  obtain ⟨l1, l3, a, u, f1, f2, f3, tail, h⟩ := Append.erase_all hwf hlex hx pa ho hn hs hs' hv hsp (lexed_of_ok hr)
  rw [parseTexts_eq (lexed_of_ok hr)] at hr
  rw [parseTexts_eq l3] at hp
  rw [parseTexts_eq l1]
  obtain ⟨r2, q2, m2⟩ := Revise.same_ok_result h.same2.symm hr
  obtain ⟨r3, q3, m3⟩ := Revise.same_ok_result h.same3.symm hp
  obtain ⟨r1, q1, k⟩ := Append.merged h.ended h.begun h.sets h.plain h.first h.second h.third h.others h.complete1 h.complete2 h.complete3
    h.root1 h.root2 h.root3 h.nonempty h.iter1 h.iter2 h.iter3 h.pragmas q2 q3
  obtain ⟨r, q, m⟩ := Revise.same_ok_result h.same1 q1
  refine ⟨r, q, ⟨sortDirectives (r'.directives ++ p.directives), ⟨C01_sort_perm _, C01_sort_ordered _, fun d => ?_⟩, ?_⟩, ?_, ?_, ?_⟩
  · rw [C01_sort_stable, List.filter_append]
  · have e1 : SameButPlaces r.directives r1.directives := congrArg ParseSuccess.directives m
    have e2 : SameButPlaces r2.directives r'.directives := congrArg ParseSuccess.directives m2
    have e3 : SameButPlaces r3.directives p.directives := congrArg ParseSuccess.directives m3
    rw [k.directives] at e1
    unfold SameButPlaces at *
    rw [e1, ← Moved.sortDirectives (K := fun _ => False) (hK := fun _ _ h => h.elim), ← Moved.sortDirectives (K := fun _ => False) (hK := fun _ _ h => h.elim)]
    congr 1
    change List.map _ _ = List.map _ _
    rw [List.map_append, List.map_append]
    exact congrArg₂ _ e2 e3
  · have e1 : SameButPlaces r.options r1.options := congrArg ParseSuccess.options m
    have e2 : SameButPlaces r2.options r'.options := congrArg ParseSuccess.options m2
    rw [k.options] at e1
    exact e1.trans e2
  · have e1 : SameButPlaces r.plugins r1.plugins := congrArg ParseSuccess.plugins m
    have e2 : SameButPlaces r2.plugins r'.plugins := congrArg ParseSuccess.plugins m2
    rw [k.plugins] at e1
    exact e1.trans e2
  · refine Revise.perm_like (congrArg ParseSuccess.warnings m) k.warnings ?_
    have e2 : SameButPlaces r2.warnings r'.warnings := congrArg ParseSuccess.warnings m2
    have e3 : SameButPlaces r3.warnings p.warnings := congrArg ParseSuccess.warnings m3
    unfold SameButPlaces at *
    change List.map _ _ = List.map _ _
    rw [List.map_append, List.map_append]
    exact congrArg₂ _ e2.symm e3.symm

/-- C73: if a ledger is parsed, and so is a passage of directives on its own, then the ledger with the passage appended to its root
is parsed too.  Its directives are those of the ledger and those of the passage, in order; where neither of two must come before
the other, the passage's come after the ledger's.  Options and plugins are those of the ledger, and warnings those of both. -/
theorem C73_append (hwf : GlobsWF fs) (hlex : LexedBy l env.tokens) (hx : SameEnv env env) (pt : Passage l text) (pm : Passage l more)
    (ho : ¬ SetsParserOption (env.tokens text)) (hn : NoPragma ((env.tokens more).map (·.tok)))
    (hs : ReadInSomeOrder fs env.tokens root (text ++ more) s) (hs' : ReadInSomeOrder fs env.tokens root text s') (hv : SameVisits s s')
    (hsp : ReadInSomeOrder fs env.tokens root more sp)
    {r' p : ParseSuccess} (hr : parseTexts l env s' = .ok r') (hp : parseTexts l env sp = .ok p) :
    ∃ r, parseTexts l env s = .ok r ∧ Joined r r' p :=
  appended_after hwf hlex hx (Append.after_passages hlex pt pm) ho hn hs hs' hv hsp hr hp

/-- C73: a ledger with a passage of directives appended to its root is parsed if and only if the ledger is, and the passage is on
its own. -/
theorem C73_exactly_if (hwf : GlobsWF fs) (hlex : LexedBy l env.tokens) (hx : SameEnv env env) (pt : Passage l text) (pm : Passage l more)
    (ho : ¬ SetsParserOption (env.tokens text)) (hn : NoPragma ((env.tokens more).map (·.tok)))
    (hs : ReadInSomeOrder fs env.tokens root (text ++ more) s) (hs' : ReadInSomeOrder fs env.tokens root text s') (hv : SameVisits s s')
    (hsp : ReadInSomeOrder fs env.tokens root more sp) :
    (∃ r, parseTexts l env s = .ok r) ↔ (∃ r', parseTexts l env s' = .ok r') ∧ ∃ p, parseTexts l env sp = .ok p := by
  constructor
  · rintro ⟨r, hr⟩
    have ht : Thinned l env.tokens (text ++ more) text := by
      have := Thinned.leave (tokens := env.tokens) pt pm (Passage.nil l) hn
      simpa using this
    have hfs : FilesLike (Thinned l env.tokens) fs fs := by
      refine ⟨rfl, rfl, fun p => ?_⟩
      cases fs.read p with
      | ok t => exact .ok (.same t)
      | error e => exact .error e
    obtain ⟨r', hr', _⟩ := C63_fewer hwf hlex hx hfs ht hs hs' hv hr
    refine ⟨⟨r', hr'⟩, ?_⟩
    obtain ⟨l1, l3, a, u, f1, f2, f3, tail, h⟩ := Append.erase_all hwf hlex hx (Append.after_passages hlex pt pm) ho hn hs hs' hv hsp (lexed_of_ok hr')
    rw [parseTexts_eq l1] at hr
    rw [parseTexts_eq l3]
    obtain ⟨r1, q1, _⟩ := Revise.same_ok_result h.same1.symm hr
    obtain ⟨r3, q3⟩ := Append.alone_ok h.ended h.begun h.sets h.plain h.first h.third h.complete1 h.complete3 h.root3 h.iter1 h.iter3 q1
    obtain ⟨p, q, _⟩ := Revise.same_ok_result h.same3 q3
    exact ⟨p, q⟩
  · rintro ⟨⟨r', hr'⟩, p, hp⟩
    obtain ⟨r, hr, _⟩ := C73_append hwf hlex hx pt pm ho hn hs hs' hv hsp hr' hp
    exact ⟨r, hr⟩

end

/-! ### Samples -/

section
attribute [local instance] Categories.asciiOnly Sample.unicode Sample.decOps

namespace Appended

theorem sets_nothing {ts : List Ranged} (h : Token.option ∉ ts.map (·.tok)) : ¬ SetsParserOption ts := by
  rintro ⟨b, a, n, v, hm, _⟩
  exact h (by rw [hm]; simp)

/-- A directive and a plugin. -/
def ledger : Str := Ordered.shut ++ Worded.pushed

theorem ledger_passage : Passage logos ledger := C59_passage Ordered.shut_passage Worded.pushed_passage

end Appended

/-- A directive of an earlier day is appended to a ledger with a directive and a plugin: the hypotheses of `C73_append` are met, there
are two directives, the one appended comes first, and there is the plugin. -/
example : ∃ r' p r, parseTexts logos Included.env (Ordered.alone Appended.ledger) = .ok r' ∧
    parseTexts logos Included.env (Ordered.alone Worded.tight) = .ok p ∧
    parseTexts logos Included.env (Ordered.alone (Appended.ledger ++ Worded.tight)) = .ok r ∧ Joined r r' p ∧
    r.directives.map (fun d => d.item.date.item.day) = [2, 3] ∧ r.plugins.length = 1 := by
  obtain ⟨r', hr', _⟩ := Ordered.key (x := parseTexts logos Included.env (Ordered.alone Appended.ledger))
    (f := fun r => r.directives.length == 1) (by decide +kernel)
  obtain ⟨p, hp, _⟩ := Ordered.key (x := parseTexts logos Included.env (Ordered.alone Worded.tight))
    (f := fun r => r.directives.length == 1) (by decide +kernel)
  obtain ⟨r0, hr0, h0⟩ := Ordered.key (x := parseTexts logos Included.env (Ordered.alone (Appended.ledger ++ Worded.tight)))
    (f := fun r => r.directives.map (fun d => d.item.date.item.day) == [2, 3] && r.plugins.length == 1) (by decide +kernel)
  obtain ⟨r, hr, hj⟩ := C73_append (env := Included.env) Included.files_wf Laid.lexedBy Included.sameEnv Appended.ledger_passage
    Worded.tight_passage (Appended.sets_nothing (by decide +kernel)) Ordered.tight_plain (Ordered.alone_eq (by decide +kernel))
    (Ordered.alone_eq (by decide +kernel)) rfl (Ordered.alone_eq (by decide +kernel)) hr' hp
  cases hr.symm.trans hr0
  simp only [Bool.and_eq_true, beq_iff_eq] at h0
  exact ⟨r', p, _, hr', hp, hr, hj, h0⟩

/-- A directive is appended to a file which includes another: the hypotheses of `C73_exactly_if` are met. -/
example : ∃ s, ReadInSomeOrder Included.files Included.env.tokens Ordered.rootPath (Included.line ++ Worded.tight) s ∧
    ((∃ r, parseTexts logos Included.env s = .ok r) ↔
      (∃ r', parseTexts logos Included.env (readWithIncludes Included.files Included.env.tokens Ordered.rootPath Included.line) = .ok r') ∧
      ∃ p, parseTexts logos Included.env (Ordered.alone Worded.tight) = .ok p) := by
  obtain ⟨s, hs, hv⟩ := C73_read (fs := Included.files) (root := Ordered.rootPath) (env := Included.env) Laid.lexedBy Included.line_passage
    Worded.tight_passage Ordered.tight_plain ⟨_, .refl _, rfl⟩
  exact ⟨s, hs, C73_exactly_if (env := Included.env) Included.files_wf Laid.lexedBy Included.sameEnv Included.line_passage
    Worded.tight_passage (Appended.sets_nothing (by decide +kernel)) Ordered.tight_plain hs ⟨_, .refl _, rfl⟩ hv (Ordered.alone_eq (by decide +kernel))⟩

/-- An option in the ledger which renames account types does matter: a passage parsed on its own need not be parsed when appended. -/
example : (match parseTexts logos Included.env (Ordered.alone (str "option \"name_assets\" \"Haben\"\n")),
      parseTexts logos Included.env (Ordered.alone (str "2024-01-03 close Assets:A\n")),
      parseTexts logos Included.env (Ordered.alone (str "option \"name_assets\" \"Haben\"\n2024-01-03 close Assets:A\n")) with
    | .ok _, .ok _, .err _ => true
    | _, _, _ => false) = true := by decide +kernel

end

end Lima.Props
