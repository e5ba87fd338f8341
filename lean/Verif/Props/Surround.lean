import Verif.Lemmas.SurroundMeta
import Verif.Props.Revised

/-!
# C66, C67: a tag for a passage, and metadata for a passage

A passage between `pushtag` and `poptag` is the passage with the tag on each of its directives, and nothing else changes.  A
passage between `pushmeta` and `popmeta` is the passage with the metadata on each of its directives which has not got the key.
-/

set_option linter.unusedSectionVars false

namespace Lima.Props
open Lima.Spec Grammar

section
variable [Categories] [Unicode] [DecOps] {l : Logos} {env : ParseEnv} {fs fs' : FileSystem} {root : Option Path} {text text' : Str}
  {s s' : Sources} {t before push passage pop after : Str}

/-- C66: with a passage between `pushtag` and `poptag`, the same files are read, and they may be visited in the same order. -/
theorem C66_read (hlex : LexedBy l env.tokens)
    (hb : Between l env.tokens [.pushtag, .tag t, .eol] [.poptag, .tag t, .eol] before push passage pop after)
    (hfs : FilesLike (Surrounded before push passage pop after) fs fs') (ht : Surrounded before push passage pop after text text')
    (hs : ReadInSomeOrder fs env.tokens root text s) :
    ∃ s', ReadInSomeOrder fs' env.tokens root text' s' ∧ SameVisits s s' :=
  Surround.surround_read hlex hb (by simp) (by simp) hfs ht hs

/-- C66: a run on files of which a passage without pragmas has been put between `pushtag` and `poptag` succeeds if and only if
the run on the original files does, and then each directive of that passage has the tag, once, besides what it had, and all
else is the same but for locations: the order of the directives, the other directives, options, plugins and warnings. -/
theorem C66_tagged (hwf : GlobsWF fs) (hlex : LexedBy l env.tokens) (hx : SameEnv env env) (htag : ∀ c ∈ t, TagChar c)
    (hb : Between l env.tokens [.pushtag, .tag t, .eol] [.poptag, .tag t, .eol] before push passage pop after)
    (hfs : FilesLike (Surrounded before push passage pop after) fs fs') (ht : Surrounded before push passage pop after text text')
    (hs : ReadInSomeOrder fs env.tokens root text s) (hs' : ReadInSomeOrder fs' env.tokens root text' s') (hv : SameVisits s s') :
    (∃ r r', parseTexts l env s = .ok r ∧ parseTexts l env s' = .ok r' ∧
      EditedInside (InPassage s s' before push passage pop after) (withTag t) r r' ∧ SameButPlaces r.warnings r'.warnings) ∨
    ((∀ r, parseTexts l env s ≠ .ok r) ∧ ∀ r, parseTexts l env s' ≠ .ok r) := by
  refine (Surround.surround_run (B := Surround.tagBracket t) (quiet := True) hwf hlex hx hb (by simp) (by simp)
    (Surround.tag_line (mk := .pushtag) (by simp) htag (fun g h => ⟨g, rfl, h⟩) .pushtag (by simp))
    (Surround.tag_line (mk := .poptag) (by simp) htag (fun g h => ⟨g, rfl, h⟩) .poptag (by simp)) hfs ht hs hs' hv
    fun _ _ _ _ _ _ _ _ _ _ _ => trivial).imp ?_ id
  rintro ⟨r, r', h1, h2, h⟩
  refine ⟨r, r', h1, h2, ⟨?_, h.options, h.plugins⟩, h.quiet trivial⟩
  refine h.directives.imp fun d d' hd => ⟨fun hin => ?_, fun hin => (hd.2 hin).symm⟩
  obtain ⟨y, y', e1, e2, e3⟩ := hd.1 hin
  exact e2.trans (e3.2.trans (Surround.withTag_same t e1).symm)

/-! ### Metadata -/

variable {k : Str} {v : MetaValue} {vts : List Token}

theorem value_token {t : Token} {x : SimpleValue} (h : ∀ (o : ParserOptions) (a b : Nat) (r : List Ranged), SimpleValueP o (⟨t, a, b⟩ :: r) r x)
    (ht : t ≠ .include) : MeansValue [t] (.simple x) := by
  refine ⟨by simpa using ht.symm, .inr fun cfg o i r e hi _ => ?_⟩
  obtain ⟨⟨t', a, b⟩, i, rfl, h1, h2⟩ := List.map_eq_cons_iff.mp hi
  rw [List.map_eq_nil_iff] at h2
  dsimp only at h1
  subst h1 h2
  exact ⟨⟨.simple x, ⟨cfg.source, a, b⟩⟩, ⟨.simple (h o a b _), .inl ⟨⟨t', a, b⟩, [⟨t', a, b⟩], _, rfl, rfl, rfl, rfl⟩⟩, rfl⟩

theorem value_number {n : Dec} {e : ExprValue} (h : ExprValue.ofExpr (.value n) = some e) {a b : Nat} {r : List Ranged}
    (hr : ¬ Continues r) : ValueP (⟨.number n, a, b⟩ :: r) r e := by
  have he : e.expr = .value n := by
    unfold ExprValue.ofExpr at h
    split at h
    · cases h
    · cases h
      rfl
  refine ⟨?_, by rw [he]; exact h⟩
  rw [he]
  exact ⟨.single (.single (.unsigned (.number ⟨_, _, rfl⟩))), hr⟩

theorem not_continues {t : Token} {a b : Nat} {r : List Ranged} (h : t ≠ .plus ∧ t ≠ .minus ∧ t ≠ .asterisk ∧ t ≠ .slash) : ¬ Continues (⟨t, a, b⟩ :: r) := by
  rintro ⟨x, j, k, e, hx, ⟨p, q, hw⟩, _⟩
  cases hw
  rcases hx with rfl | rfl | rfl | rfl <;> simp at h

/-- C67: what counts as a value includes strings, currencies, tags, links, dates, booleans, numbers and amounts. -/
theorem C67_values (h : PlainValue vts v) : MeansValue vts v := by
  cases h with
  | string s => exact value_token (fun _ _ _ _ => .string ⟨_, _, rfl⟩) (by simp)
  | currency h => exact value_token (fun _ _ _ _ => .currency ⟨⟨_, _, rfl⟩, h⟩) (by simp)
  | tag h => exact value_token (fun _ _ _ _ => .tag ⟨⟨_, _, rfl⟩, h⟩) (by simp)
  | link h => exact value_token (fun _ _ _ _ => .link ⟨⟨_, _, rfl⟩, h⟩) (by simp)
  | date d => exact value_token (fun _ _ _ _ => .date ⟨_, _, rfl⟩) (by simp)
  | true => exact value_token (fun _ _ _ _ => .bool (.inl ⟨rfl, _, _, rfl⟩)) (by simp)
  | false => exact value_token (fun _ _ _ _ => .bool (.inr ⟨rfl, _, _, rfl⟩)) (by simp)
  | null => exact value_token (fun _ _ _ _ => .null ⟨_, _, rfl⟩) (by simp)
  | nothing => exact ⟨by simp, .inl ⟨rfl, rfl⟩⟩
  | @number n x h =>
    refine ⟨by simp, .inr fun cfg o i r e hi he => ?_⟩
    obtain ⟨⟨t', a, b⟩, i, rfl, h1, h2⟩ := List.map_eq_cons_iff.mp hi
    rw [List.map_eq_nil_iff] at h2
    dsimp only at h1
    subst h1 h2
    obtain ⟨ke, e1, e2⟩ := e
    dsimp only at he
    subst he
    refine ⟨⟨.simple (.expr x), ⟨cfg.source, a, b⟩⟩, ⟨.simple (.expr (value_number h (not_continues (by simp))) ?_), .inl ⟨⟨_, a, b⟩, [⟨_, a, b⟩], _, rfl, rfl, rfl, rfl⟩⟩, rfl⟩
    rintro k c ⟨⟨p, q, hw⟩, _⟩
    cases hw
  | @amount n x c h hc =>
    refine ⟨by simp, .inr fun cfg o i r e hi he => ?_⟩
    obtain ⟨⟨t', a, b⟩, i, rfl, h1, h2⟩ := List.map_eq_cons_iff.mp hi
    obtain ⟨⟨t2, a2, b2⟩, i, rfl, h3, h4⟩ := List.map_eq_cons_iff.mp h2
    rw [List.map_eq_nil_iff] at h4
    dsimp only at h1 h3
    subst h1 h3 h4
    exact ⟨⟨.amount ⟨⟨x, ⟨cfg.source, a, b⟩⟩, ⟨c, ⟨cfg.source, a2, b2⟩⟩⟩, ⟨cfg.source, a, b2⟩⟩,
      ⟨.amount (.mk ⟨value_number h (not_continues (by simp)), .inl ⟨⟨_, a, b⟩, [⟨_, a, b⟩], _, rfl, rfl, rfl, rfl⟩⟩
        ⟨⟨⟨_, _, rfl⟩, hc⟩, .inl ⟨⟨_, a2, b2⟩, [⟨_, a2, b2⟩], _, rfl, rfl, rfl, rfl⟩⟩),
        .inl ⟨⟨_, a, b⟩, [⟨_, a, b⟩, ⟨_, a2, b2⟩], _, rfl, rfl, rfl, rfl⟩⟩, rfl⟩

/-- C67: with a passage between `pushmeta` and `popmeta`, the same files are read, and they may be visited in the same order. -/
theorem C67_read (hlex : LexedBy l env.tokens) (hvts : .include ∉ vts)
    (hb : Between l env.tokens (.pushmeta :: .key k :: .colon :: (vts ++ [.eol])) [.popmeta, .key k, .colon, .eol] before push passage pop after)
    (hfs : FilesLike (Surrounded before push passage pop after) fs fs') (ht : Surrounded before push passage pop after text text')
    (hs : ReadInSomeOrder fs env.tokens root text s) :
    ∃ s', ReadInSomeOrder fs' env.tokens root text' s' ∧ SameVisits s s' :=
  Surround.surround_read hlex hb (by simpa using hvts) (by simp) hfs ht hs

/-- C67: a run on files of which a passage without pragmas has been put between `pushmeta k: v` and `popmeta k:`, where no
file pushes metadata with that key, succeeds if and only if the run on the original files does, and then each directive of that
passage which has no metadata with that key has the value for it, besides what it had, and all else is the same but for
locations: the order of the directives, the other directives, options and plugins.  Warnings are the same, but that there may
be another if the value is a string. -/
theorem C67_metadata (hwf : GlobsWF fs) (hlex : LexedBy l env.tokens) (hx : SameEnv env env) (hk : ValidKey k) (hv : MeansValue vts v)
    (hb : Between l env.tokens (.pushmeta :: .key k :: .colon :: (vts ++ [.eol])) [.popmeta, .key k, .colon, .eol] before push passage pop after)
    (hfs : FilesLike (Surrounded before push passage pop after) fs fs') (ht : Surrounded before push passage pop after text text')
    (hs : ReadInSomeOrder fs env.tokens root text s) (hs' : ReadInSomeOrder fs' env.tokens root text' s') (hvis : SameVisits s s')
    (hone : ∀ id path text, IsSource s id path text → ¬ Pushes k ((env.tokens text).map (·.tok))) :
    (∃ r r', parseTexts l env s = .ok r ∧ parseTexts l env s' = .ok r' ∧
      EditedInside (InPassage s s' before push passage pop after) (withMeta k v) r r' ∧
      (∃ ws, ws.Sublist r'.warnings ∧ SameButPlaces r.warnings ws) ∧
      ((∀ x, .stringLiteral x ∉ vts) → SameButPlaces r.warnings r'.warnings)) ∨
    ((∀ r, parseTexts l env s ≠ .ok r) ∧ ∀ r, parseTexts l env s' ≠ .ok r) := by
  refine (Surround.surround_run (B := Surround.metaBracket k v) hwf hlex hx hb (by simpa using hv.1) (by simp)
    (Surround.pushmeta_line hk hv) (Surround.popmeta_line _ hk) hfs ht hs hs' hvis
    fun e he o ds o' ws hf d hd z hz kv hkv => ?_).imp ?_ id
  · subst hkv
    rintro rfl
    exact hone _ _ _ (mem_contentIter.mp he) (Surround.pushes_of hf d hd kv hz)
  · rintro ⟨r, r', h1, h2, h⟩
    refine ⟨r, r', h1, h2, ⟨?_, h.options, h.plugins⟩, h.warnings, h.quiet⟩
    refine h.directives.imp fun d d' hd => ⟨fun hin => ?_, fun hin => (hd.2 hin).symm⟩
    obtain ⟨y, y', e1, e2, e3⟩ := hd.1 hin
    exact e2.trans (e3.2.trans (Surround.withMeta_same k v e1).symm)

end

/-! ### Samples -/

section
attribute [local instance] Categories.asciiOnly Sample.unicode Sample.decOps

namespace Tagged
open Worded Ordered

local instance (s : String) (c : Char) : Decidable (In s c) := inferInstanceAs (Decidable (c ∈ s.toList))

theorem word : WordFor logos ('#' :: str "trip") (.tag (str "trip")) := by
  refine ⟨.tag, .tag (by decide) (by unfold Upper Lower Digit; decide +kernel), fun t h => ?_, .tag⟩
  have : ∀ p ∈ literals, p.2 ≠ str "#trip" := by decide +kernel
  exact absurd rfl (this _ (fixed_iff.mp h))

def push : Str := 'p' :: str "ushtag" ++ ([' '] ++ ('#' :: str "trip" ++ ['\n']))
def pop : Str := 'p' :: str "optag" ++ ([' '] ++ ('#' :: str "trip" ++ ['\n']))

example : push = str "pushtag #trip\n" ∧ pop = str "poptag #trip\n" := by decide +kernel

theorem push_passage : Passage logos push := by
  refine ⟨⟨[.pushtag, .tag (str "trip"), .eol], ?_, .inr ⟨[_, _], rfl⟩, [], _, rfl, by simp, fun t ht => ?_⟩,
    notBlank (by decide), notIgnored (by decide)⟩
  · refine apart_spaced (w := 'p' :: str "ushtag") (fixed (t := .pushtag) (by decide +kernel) (by decide +kernel)) rfl ⟨_, _, rfl, .inl rfl⟩ ?_
    refine apart_gap (b := [' ']) ⟨by simp, by simp⟩ (notBlank (by decide)) ?_
    refine apart_spaced word rfl ⟨_, _, rfl, by decide⟩ ?_
    exact apart_line (e := ['\n']) plainEnd (by rintro _ _ ⟨⟩) (by rintro _ _ ⟨⟩) .done
  · cases ht
    exact ⟨notLine rfl, by simp⟩

theorem pop_passage : Passage logos pop := by
  refine ⟨⟨[.poptag, .tag (str "trip"), .eol], ?_, .inr ⟨[_, _], rfl⟩, [], _, rfl, by simp, fun t ht => ?_⟩,
    notBlank (by decide), notIgnored (by decide)⟩
  · refine apart_spaced (w := 'p' :: str "optag") (fixed (t := .poptag) (by decide +kernel) (by decide +kernel)) rfl ⟨_, _, rfl, .inl rfl⟩ ?_
    refine apart_gap (b := [' ']) ⟨by simp, by simp⟩ (notBlank (by decide)) ?_
    refine apart_spaced word rfl ⟨_, _, rfl, by decide⟩ ?_
    exact apart_line (e := ['\n']) plainEnd (by rintro _ _ ⟨⟩) (by rintro _ _ ⟨⟩) .done
  · cases ht
    exact ⟨notLine rfl, by simp⟩

theorem between : Between logos Included.env.tokens [.pushtag, .tag (str "trip"), .eol] [.poptag, .tag (str "trip"), .eol] tight push shut pop pushed := by
  refine ⟨?_, by decide +kernel, by decide +kernel, shut_plain⟩
  intro t ht
  simp only [List.mem_cons, List.not_mem_nil, or_false] at ht
  rcases ht with rfl | rfl | rfl | rfl | rfl
  · exact tight_passage
  · exact push_passage
  · exact shut_passage
  · exact pop_passage
  · exact pushed_passage

end Tagged

/-- Two directives and a plugin, with the second directive put between `pushtag` and `poptag`: the hypotheses are met, both runs
succeed, and it is the second directive which has the tag. -/
example : ∃ r r', parseTexts logos Included.env (Ordered.alone (Worded.tight ++ Ordered.shut ++ Worded.pushed)) = .ok r ∧
    parseTexts logos Included.env (Ordered.alone (Worded.tight ++ Tagged.push ++ Ordered.shut ++ Tagged.pop ++ Worded.pushed)) = .ok r' ∧
    r.directives.map (fun d => d.item.metadata.item.tags.map (·.item)) = [[], []] ∧
    r'.directives.map (fun d => d.item.metadata.item.tags.map (·.item)) = [[], [str "trip"]] ∧
    EditedInside (InPassage (Ordered.alone (Worded.tight ++ Ordered.shut ++ Worded.pushed))
      (Ordered.alone (Worded.tight ++ Tagged.push ++ Ordered.shut ++ Tagged.pop ++ Worded.pushed))
      Worded.tight Tagged.push Ordered.shut Tagged.pop Worded.pushed) (withTag (str "trip")) r r' := by
  obtain ⟨r, hr, hd⟩ := Ordered.key (x := parseTexts logos Included.env (Ordered.alone (Worded.tight ++ Ordered.shut ++ Worded.pushed)))
    (f := fun r => r.directives.map (fun d => d.item.metadata.item.tags.map (·.item)) == [[], []]) (by decide +kernel)
  obtain ⟨r2, hr2, hd2⟩ := Ordered.key (x := parseTexts logos Included.env
      (Ordered.alone (Worded.tight ++ Tagged.push ++ Ordered.shut ++ Tagged.pop ++ Worded.pushed)))
    (f := fun r => r.directives.map (fun d => d.item.metadata.item.tags.map (·.item)) == [[], [str "trip"]]) (by decide +kernel)
  rcases C66_tagged (env := Included.env) (s := Ordered.alone (Worded.tight ++ Ordered.shut ++ Worded.pushed))
    (s' := Ordered.alone (Worded.tight ++ Tagged.push ++ Ordered.shut ++ Tagged.pop ++ Worded.pushed)) Included.files_wf Laid.lexedBy Included.sameEnv
    (by unfold TagChar Alnum; decide +kernel) Tagged.between (Ordered.same_files (fun t => .inl rfl) Included.files) (.inr ⟨rfl, rfl⟩) (Ordered.alone_eq (by decide +kernel))
    (Ordered.alone_eq (by decide +kernel)) (Ordered.alone_visits _ _) with ⟨r0, r', h1, h2, h3, _⟩ | ⟨h, _⟩
  · rw [hr] at h1
    cases h1
    rw [hr2] at h2
    cases h2
    exact ⟨r, r2, hr, hr2, by simpa using hd, by simpa using hd2, h3⟩
  · exact absurd hr (h r)

/-- The same files can be read, too, where one of them is included. -/
example : ∃ s', ReadInSomeOrder Included.files Included.env.tokens (some (Path.ofStr (str "r")))
      (Included.line ++ Worded.tight ++ Tagged.push ++ Ordered.shut ++ Tagged.pop ++ Worded.pushed) s' ∧
    SameVisits (readWithIncludes Included.files Included.env.tokens (some (Path.ofStr (str "r"))) (Included.line ++ Worded.tight ++ Ordered.shut ++ Worded.pushed)) s' := by
  have hb := Tagged.between
  refine C66_read (env := Included.env) (before := Included.line ++ Worded.tight) Laid.lexedBy ⟨?_, hb.push, hb.pop, hb.noPragma⟩
    (Ordered.same_files (fun t => .inl rfl) Included.files) (.inr ⟨rfl, rfl⟩) ⟨_, .refl _, rfl⟩
  intro t ht
  rcases List.mem_cons.mp ht with rfl | ht
  · exact C59_passage Included.line_passage Worded.tight_passage
  · exact hb.passages t (List.mem_cons_of_mem _ ht)

namespace Tagged
open Worded Ordered

local instance (s : String) (c : Char) : Decidable (In s c) := inferInstanceAs (Decidable (c ∈ s.toList))

def pushKey : Str := 'p' :: str "ushmeta" ++ ([' '] ++ (str "kk" ++ ([':'] ++ ([' '] ++ ('T' :: str "RUE" ++ ['\n'])))))
def popKey : Str := 'p' :: str "opmeta" ++ ([' '] ++ (str "kk" ++ ([':'] ++ ['\n'])))

example : pushKey = str "pushmeta kk: TRUE\n" ∧ popKey = str "popmeta kk:\n" := by decide +kernel

theorem pushKey_passage : Passage logos pushKey := by
  refine ⟨⟨[.pushmeta, .key (str "kk"), .colon, .true_, .eol], ?_, .inr ⟨[_, _, _, _], rfl⟩, [], _, rfl, by simp, fun t ht => ?_⟩,
    notBlank (by decide), notIgnored (by decide)⟩
  · refine apart_spaced (w := 'p' :: str "ushmeta") (fixed (t := .pushmeta) (by decide +kernel) (by decide +kernel)) rfl ⟨_, _, rfl, .inl rfl⟩ ?_
    refine apart_gap (b := [' ']) ⟨by simp, by simp⟩ (notBlank (by decide)) ?_
    refine .word key key_colon ?_
    refine apart_spaced (w := [':']) (fixed (t := .colon) (by decide +kernel) (by decide +kernel)) rfl ⟨_, _, rfl, .inl rfl⟩ ?_
    refine apart_gap (b := [' ']) ⟨by simp, by simp⟩ (notBlank (by decide)) ?_
    refine apart_spaced (w := 'T' :: str "RUE") (fixed (t := .true_) (by decide +kernel) (by decide +kernel)) rfl ⟨_, _, rfl, by decide⟩ ?_
    exact apart_line (e := ['\n']) plainEnd (by rintro _ _ ⟨⟩) (by rintro _ _ ⟨⟩) .done
  · cases ht
    exact ⟨notLine rfl, by simp⟩

theorem popKey_passage : Passage logos popKey := by
  refine ⟨⟨[.popmeta, .key (str "kk"), .colon, .eol], ?_, .inr ⟨[_, _, _], rfl⟩, [], _, rfl, by simp, fun t ht => ?_⟩,
    notBlank (by decide), notIgnored (by decide)⟩
  · refine apart_spaced (w := 'p' :: str "opmeta") (fixed (t := .popmeta) (by decide +kernel) (by decide +kernel)) rfl ⟨_, _, rfl, .inl rfl⟩ ?_
    refine apart_gap (b := [' ']) ⟨by simp, by simp⟩ (notBlank (by decide)) ?_
    refine .word key key_colon ?_
    refine apart_spaced (w := [':']) (fixed (t := .colon) (by decide +kernel) (by decide +kernel)) rfl ⟨_, _, rfl, by decide⟩ ?_
    exact apart_line (e := ['\n']) plainEnd (by rintro _ _ ⟨⟩) (by rintro _ _ ⟨⟩) .done
  · cases ht
    exact ⟨notLine rfl, by simp⟩

theorem betweenKey : Between logos Included.env.tokens (.pushmeta :: .key (str "kk") :: .colon :: ([.true_] ++ [.eol]))
    [.popmeta, .key (str "kk"), .colon, .eol] pushed pushKey (tight ++ shut) popKey [] := by
  refine ⟨?_, by decide +kernel, by decide +kernel, by unfold NoPragma; decide +kernel⟩
  intro t ht
  simp only [List.mem_cons, List.not_mem_nil, or_false] at ht
  rcases ht with rfl | rfl | rfl | rfl | rfl
  · exact pushed_passage
  · exact pushKey_passage
  · exact C59_passage tight_passage shut_passage
  · exact popKey_passage
  · exact Passage.nil logos

theorem noPush : ¬ Pushes (str "kk") ((Included.env.tokens (pushed ++ (tight ++ shut) ++ [])).map (·.tok)) := by
  rintro ⟨a, b, h⟩
  have : Token.pushmeta ∈ (Included.env.tokens (pushed ++ (tight ++ shut) ++ [])).map (·.tok) := by rw [h]; simp
  exact absurd this (by decide +kernel)

end Tagged

/-- A plugin and two directives, of which the first has metadata with the key `kk`, with both directives put between `pushmeta` and
`popmeta`: the hypotheses are met, both runs succeed, and it is the second directive which gets the value. -/
example : ∃ r r', parseTexts logos Included.env (Ordered.alone (Worded.pushed ++ (Worded.tight ++ Ordered.shut) ++ [])) = .ok r ∧
    parseTexts logos Included.env (Ordered.alone (Worded.pushed ++ Tagged.pushKey ++ (Worded.tight ++ Ordered.shut) ++ Tagged.popKey ++ [])) = .ok r' ∧
    r.directives.map (fun d => d.item.metadata.item.keyValues.map (·.2.item)) = [[.simple (.string (str "x y"))], []] ∧
    r'.directives.map (fun d => d.item.metadata.item.keyValues.map (·.2.item)) = [[.simple (.string (str "x y"))], [.simple (.bool true)]] ∧
    EditedInside (InPassage (Ordered.alone (Worded.pushed ++ (Worded.tight ++ Ordered.shut) ++ []))
      (Ordered.alone (Worded.pushed ++ Tagged.pushKey ++ (Worded.tight ++ Ordered.shut) ++ Tagged.popKey ++ []))
      Worded.pushed Tagged.pushKey (Worded.tight ++ Ordered.shut) Tagged.popKey []) (withMeta (str "kk") (.simple (.bool true))) r r' := by
  obtain ⟨r, hr, hd⟩ := Ordered.key (x := parseTexts logos Included.env (Ordered.alone (Worded.pushed ++ (Worded.tight ++ Ordered.shut) ++ [])))
    (f := fun r => r.directives.map (fun d => d.item.metadata.item.keyValues.map (·.2.item)) == [[.simple (.string (str "x y"))], []]) (by decide +kernel)
  obtain ⟨r2, hr2, hd2⟩ := Ordered.key (x := parseTexts logos Included.env
      (Ordered.alone (Worded.pushed ++ Tagged.pushKey ++ (Worded.tight ++ Ordered.shut) ++ Tagged.popKey ++ [])))
    (f := fun r => r.directives.map (fun d => d.item.metadata.item.keyValues.map (·.2.item)) ==
      [[.simple (.string (str "x y"))], [.simple (.bool true)]]) (by decide +kernel)
  rcases C67_metadata (env := Included.env) (s := Ordered.alone (Worded.pushed ++ (Worded.tight ++ Ordered.shut) ++ []))
    (s' := Ordered.alone (Worded.pushed ++ Tagged.pushKey ++ (Worded.tight ++ Ordered.shut) ++ Tagged.popKey ++ [])) Included.files_wf Laid.lexedBy Included.sameEnv
    ⟨'k', ['k'], rfl, by unfold Lower; decide, by unfold Alnum; decide +kernel⟩ (C67_values .true) Tagged.betweenKey
    (Ordered.same_files (fun t => .inl rfl) Included.files) (.inr ⟨rfl, rfl⟩) (Ordered.alone_eq (by decide +kernel))
    (Ordered.alone_eq (by decide +kernel)) (Ordered.alone_visits _ _)
    (by rintro id path text (⟨_, _, rfl⟩ | ⟨p, ix, _, h⟩)
        · exact Tagged.noPush
        · cases h) with ⟨r0, r', h1, h2, h3, _⟩ | ⟨h, _⟩
  · rw [hr] at h1
    cases h1
    rw [hr2] at h2
    cases h2
    exact ⟨r, r2, hr, hr2, by simpa using hd, by simpa using hd2, h3⟩
  · exact absurd hr (h r)

/-- A key pushed twice does matter: the directive has it already, and gets another value. -/
example : (match parseTexts logos Included.env (Ordered.alone (str "pushmeta kk: FALSE\n2024-01-03 close Assets:A\npopmeta kk:\n")),
      parseTexts logos Included.env (Ordered.alone (str "pushmeta kk: FALSE\npushmeta kk: TRUE\n2024-01-03 close Assets:A\npopmeta kk:\npopmeta kk:\n")) with
    | .ok r, .ok r' => r.directives.map (fun d => d.item.metadata.item.keyValues.map (·.2.item)) == [[.simple (.bool false)]] &&
        r'.directives.map (fun d => d.item.metadata.item.keyValues.map (·.2.item)) == [[.simple (.bool true)]]
    | _, _ => false) = true := by decide +kernel

end

end Lima.Props
