import Verif.Props.InPlace
import Verif.Lemmas.ReviseText
import Verif.Lemmas.LeftOut

/-!
# C62, C63: directives in another order, and fewer of them

Between pragmas, directives may be written in any order, and each of them may be left out without an effect on the others.
-/

set_option linter.unusedSectionVars false

namespace Lima.Props
open Lima.Spec Grammar

section
variable [Categories] [Unicode] [DecOps] {l : Logos} {env : ParseEnv} {fs fs' : FileSystem} {root : Option Path} {text text' : Str}
  {s s' : Sources}

theorem run_like {strict dropping : Prop} (hwf : GlobsWF fs) (hlex : LexedBy l env.tokens) (hx : SameEnv env env)
    (hfs : FilesLike (Revise.TextLike l env.tokens strict dropping) fs fs') (ht : Revise.TextLike l env.tokens strict dropping text text')
    (hs : ReadInSomeOrder fs env.tokens root text s) (hs' : ReadInSomeOrder fs' env.tokens root text' s') (hv : SameVisits s s')
    (hf : (∃ r, parseTexts l env s = .ok r) ∨ ∃ e, parseTexts l env s = .err e ∧ ∀ id x, .parsing id x ∉ e.errors) :
    (∃ r r', parseTexts l env s = .ok r ∧ parseTexts l env s' = .ok r' ∧ Revise.ResultsLike strict dropping r r') ∨
    ((∀ r, parseTexts l env s ≠ .ok r) ∧ ∀ r, parseTexts l env s' ≠ .ok r) := by
  have hwf' : GlobsWF fs' := fun p gs hg => hwf p gs (by rw [← hfs.glob]; exact hg)
  have like := Revise.read_alike Revise.includes_like hwf' hfs ht hs hs' hv
  obtain ⟨h1, h2⟩ := Revise.content_like like
  have hl : ∀ e ∈ s.contentIter, lexText l e.2.2 ≠ none := by
    have : ¬ s.contentIter.any (fun e => (lexText l e.2.2).isNone) = true := by
      intro hh
      unfold parseTexts at hf
      rw [if_pos hh] at hf
      rcases hf with ⟨r, hr⟩ | ⟨e, he, _⟩
      · cases hr
      · cases he
    intro e he hn
    exact this (List.any_eq_true.mpr ⟨e, he, by rw [hn]; rfl⟩)
  have hl' : ∀ e ∈ s'.contentIter, lexText l e.2.2 ≠ none := by
    intro e' he'
    obtain ⟨e, he, _, _, hh⟩ := InPlaceParse.forall₂_right h1 e' he'
    exact hh.lexed.mp (hl e he)
  have apart : ∀ {s : Sources}, (∀ e ∈ s.contentIter, lexText l e.2.2 ≠ none) →
      ∀ id path text, IsSource s id path text → KeysApart (env.tokens text) := by
    intro s hl id path text hi
    obtain ⟨toks, ht⟩ := Option.ne_none_iff_exists'.mp (hl _ (mem_contentIter.mpr hi))
    rw [hlex _ _ ht]
    exact Layout.lexText_apart ht
  have c1 : Complete env.tokens s := by
    obtain ⟨c, hc, rfl⟩ := hs
    exact (read_complete hwf).perm hc
  have c2 : Complete env.tokens s' := by
    obtain ⟨c, hc, rfl⟩ := hs'
    exact (read_complete hwf').perm hc
  rw [parseTexts_eq hl] at hf ⊢
  rw [parseTexts_eq hl']
  exact Revise.parse_like hx c1 c2 (apart hl) (apart hl') like.rootPath like.globs h2 (h1.imp fun e e' h => ⟨h.1, h.2.1, h.2.2.chain⟩) hf

/-! ### Any order -/

/-- What has been rearranged can be put back. -/
theorem Rearranged.symm {tokens : Str → List Ranged} {apart : Bool} (h : Rearranged l tokens apart text text') :
    Rearranged l tokens apart text' text := by
  induction h with
  | same t => exact .same t
  | exchange pb po pq pa no nq hd => exact .exchange pb pq po pa nq no fun ha d hh => hd ha d hh.symm
  | trans _ _ h1 h2 => exact .trans h2 h1

theorem FilesLike.symm {R : Str → Str → Prop} (hR : ∀ a b, R a b → R b a) (h : FilesLike R fs fs') : FilesLike R fs' fs := by
  refine ⟨h.glob.symm, h.canonicalize.symm, fun p => ?_⟩
  have := h.read p
  generalize fs.read p = x at this
  generalize fs'.read p = y at this
  cases this with
  | ok hh => exact .ok (hR _ _ hh)
  | error e => exact .error e

/-- C62: with directives in another order, the same files are read, and they may be visited in the same order. -/
theorem C62_read {apart : Bool} (hlex : LexedBy l env.tokens) (hfs : FilesLike (Rearranged l env.tokens apart) fs fs')
    (ht : Rearranged l env.tokens apart text text') (hs : ReadInSomeOrder fs env.tokens root text s) :
    ∃ s', ReadInSomeOrder fs' env.tokens root text' s' ∧ SameVisits s s' := by
  obtain ⟨s', h1, h2⟩ := Revise.readInSomeOrder_like Revise.includes_like
    (Revise.filesLike_mono (fun _ _ => Revise.rearranged_like hlex) hfs) (Revise.rearranged_like hlex ht) hs
  refine ⟨s', h1, ?_⟩
  have := h2.content
  unfold SameVisits
  generalize s.content = c at this
  generalize s'.content = c' at this
  induction this with
  | nil => rfl
  | cons h _ ih => rw [List.map_cons, List.map_cons, h.1, ih]

theorem rearranged_run {apart : Bool} (hwf : GlobsWF fs) (hlex : LexedBy l env.tokens) (hx : SameEnv env env)
    (hfs : FilesLike (Rearranged l env.tokens apart) fs fs') (ht : Rearranged l env.tokens apart text text')
    (hs : ReadInSomeOrder fs env.tokens root text s) (hs' : ReadInSomeOrder fs' env.tokens root text' s') (hv : SameVisits s s') :
    (∃ r r', parseTexts l env s = .ok r ∧ parseTexts l env s' = .ok r' ∧ Revise.ResultsLike (apart = true) False r r') ∨
    ((∀ r, parseTexts l env s ≠ .ok r) ∧ ∀ r, parseTexts l env s' ≠ .ok r) := by
  by_cases h : ∃ r, parseTexts l env s = .ok r
  · exact run_like hwf hlex hx (Revise.filesLike_mono (fun _ _ => Revise.rearranged_like hlex) hfs) (Revise.rearranged_like hlex ht) hs hs' hv (.inl h)
  · right
    refine ⟨fun r hr => h ⟨r, hr⟩, fun r hr => ?_⟩
    have hwf' : GlobsWF fs' := fun p gs hg => hwf p gs (by rw [← hfs.glob]; exact hg)
    rcases run_like hwf' hlex hx (Revise.filesLike_mono (fun _ _ => Revise.rearranged_like hlex) (FilesLike.symm (fun _ _ => Rearranged.symm) hfs))
      (Revise.rearranged_like hlex (Rearranged.symm ht)) hs' hs (Eq.symm hv) (.inl ⟨r, hr⟩) with ⟨_, r', _, k, _⟩ | ⟨k, _⟩
    · exact h ⟨r', k⟩
    · exact k r hr

/-- C62: a run on files with their directives in another order succeeds if and only if the run on the original files does, and
then it yields the same directives, options, plugins and warnings, but for locations and for the order of directives and of
warnings. -/
theorem C62_any_order {apart : Bool} (hwf : GlobsWF fs) (hlex : LexedBy l env.tokens) (hx : SameEnv env env)
    (hfs : FilesLike (Rearranged l env.tokens apart) fs fs') (ht : Rearranged l env.tokens apart text text')
    (hs : ReadInSomeOrder fs env.tokens root text s) (hs' : ReadInSomeOrder fs' env.tokens root text' s') (hv : SameVisits s s') :
    (∃ r r', parseTexts l env s = .ok r ∧ parseTexts l env s' = .ok r' ∧ SameButOrder r r') ∨
    ((∀ r, parseTexts l env s ≠ .ok r) ∧ ∀ r, parseTexts l env s' ≠ .ok r) := by
  refine (rearranged_run hwf hlex hx hfs ht hs hs' hv).imp ?_ id
  rintro ⟨r, r', h1, h2, h3⟩
  refine ⟨r, r', h1, h2, ?_, (Revise.like_options h3).1, (Revise.like_options h3).2, ?_⟩
  · obtain ⟨r1, r2, k1, k2, k3⟩ := h3
    exact Revise.perm_like (congrArg ParseSuccess.directives k1) (k3.perm id) (congrArg ParseSuccess.directives k2)
  · obtain ⟨r1, r2, k1, k2, k3⟩ := h3
    exact Revise.perm_like (congrArg ParseSuccess.warnings k1) (k3.warnings.1 id) (congrArg ParseSuccess.warnings k2)

/-- C62: if no two passages with a date in common have been exchanged, then the directives of the result are in the same
order, too. -/
theorem C62_same_order (hwf : GlobsWF fs) (hlex : LexedBy l env.tokens) (hx : SameEnv env env)
    (hfs : FilesLike (Rearranged l env.tokens true) fs fs') (ht : Rearranged l env.tokens true text text')
    (hs : ReadInSomeOrder fs env.tokens root text s) (hs' : ReadInSomeOrder fs' env.tokens root text' s') (hv : SameVisits s s') :
    (∃ r r', parseTexts l env s = .ok r ∧ parseTexts l env s' = .ok r' ∧ SameButPlaces r.directives r'.directives) ∨
    ((∀ r, parseTexts l env s ≠ .ok r) ∧ ∀ r, parseTexts l env s' ≠ .ok r) := by
  refine (rearranged_run hwf hlex hx hfs ht hs hs' hv).imp ?_ id
  rintro ⟨r, r', h1, h2, r1, r2, k1, k2, k3⟩
  refine ⟨r, r', h1, h2, ?_⟩
  have e1 : SameButPlaces r.directives r1.directives := congrArg ParseSuccess.directives k1
  have e2 : SameButPlaces r'.directives r2.directives := congrArg ParseSuccess.directives k2
  have e3 : r2.directives = r1.directives := (k3.sublist rfl).eq_of_length (k3.perm id).length_eq.symm
  unfold SameButPlaces at *
  rw [e1, e2, e3]

/-! ### Fewer -/

/-- C63: with some directives left out, the same files are read, and they may be visited in the same order. -/
theorem C63_read (hlex : LexedBy l env.tokens) (hfs : FilesLike (Thinned l env.tokens) fs fs')
    (ht : Thinned l env.tokens text text') (hs : ReadInSomeOrder fs env.tokens root text s) :
    ∃ s', ReadInSomeOrder fs' env.tokens root text' s' ∧ SameVisits s s' := by
  obtain ⟨s', h1, h2⟩ := Revise.readInSomeOrder_like Revise.includes_like
    (Revise.filesLike_mono (fun _ _ => Revise.thinned_like hlex) hfs) (Revise.thinned_like hlex ht) hs
  refine ⟨s', h1, ?_⟩
  have := h2.content
  unfold SameVisits
  generalize s.content = c at this
  generalize s'.content = c' at this
  induction this with
  | nil => rfl
  | cons h _ ih => rw [List.map_cons, List.map_cons, h.1, ih]

/-- C63: if a run succeeds, then so does a run on the files with some directives left out; it yields some of the directives,
in the same order and each the same as before, and the same options and plugins. -/
theorem C63_fewer (hwf : GlobsWF fs) (hlex : LexedBy l env.tokens) (hx : SameEnv env env)
    (hfs : FilesLike (Thinned l env.tokens) fs fs') (ht : Thinned l env.tokens text text')
    (hs : ReadInSomeOrder fs env.tokens root text s) (hs' : ReadInSomeOrder fs' env.tokens root text' s') (hv : SameVisits s s')
    {r : ParseSuccess} (hr : parseTexts l env s = .ok r) : ∃ r', parseTexts l env s' = .ok r' ∧ Fewer r r' := by
  rcases run_like hwf hlex hx (Revise.filesLike_mono (fun _ _ => Revise.thinned_like hlex) hfs) (Revise.thinned_like hlex ht) hs hs' hv (.inl ⟨r, hr⟩)
    with ⟨r0, r', h1, h2, h3⟩ | ⟨h, _⟩
  · rw [hr] at h1
    cases h1
    refine ⟨r', h2, ?_, (Revise.like_options h3).1, (Revise.like_options h3).2, ?_⟩
    · obtain ⟨r1, r2, k1, k2, k3⟩ := h3
      exact Revise.sublist_like (congrArg ParseSuccess.directives k1) (k3.sublist trivial) (congrArg ParseSuccess.directives k2)
    · obtain ⟨r1, r2, k1, k2, k3⟩ := h3
      exact Revise.subperm_like (congrArg ParseSuccess.warnings k1) k3.warnings.2 (congrArg ParseSuccess.warnings k2)
  · exact absurd hr (h r)

/-- C63: if a run succeeds, then so does a run on the files without some passage; it yields exactly the directives which are not
in that passage, in the same order and each the same as before, and the same options and plugins. -/
theorem C63_rest {before passage after : Str} (hwf : GlobsWF fs) (hlex : LexedBy l env.tokens) (hx : SameEnv env env)
    (hp : ∀ t ∈ [before, passage, after], Passage l t) (hn : NoPragma ((env.tokens passage).map (·.tok)))
    (hfs : FilesLike (LeftOut before passage after) fs fs') (ht : LeftOut before passage after text text')
    (hs : ReadInSomeOrder fs env.tokens root text s) (hs' : ReadInSomeOrder fs' env.tokens root text' s') (hv : SameVisits s s')
    {r : ParseSuccess} (hr : parseTexts l env s = .ok r) :
    ∃ r', parseTexts l env s' = .ok r' ∧ Rest (InLeftOut s s' before passage after) r r' :=
  Lima.LeftOut.left_run hwf hlex hx hp hn hfs ht hs hs' hv hr

/-- C63: if directives are put into files of a run which succeeds, then the run fails only by errors within a file: no
directive is an error because of those in other places. -/
theorem C63_more (hwf : GlobsWF fs) (hlex : LexedBy l env.tokens) (hx : SameEnv env env)
    (hfs : FilesLike (Thinned l env.tokens) fs fs') (ht : Thinned l env.tokens text text')
    (hs : ReadInSomeOrder fs env.tokens root text s) (hs' : ReadInSomeOrder fs' env.tokens root text' s') (hv : SameVisits s s')
    {r' : ParseSuccess} (hr : parseTexts l env s' = .ok r') {e : ParseError} (he : parseTexts l env s = .err e) :
    ∃ id x, Fault.parsing id x ∈ e.errors := by
  by_contra hn
  have hn : ∀ id x, Fault.parsing id x ∉ e.errors := fun id x hm => hn ⟨id, x, hm⟩
  rcases run_like hwf hlex hx (Revise.filesLike_mono (fun _ _ => Revise.thinned_like hlex) hfs) (Revise.thinned_like hlex ht) hs hs' hv (.inr ⟨e, he, hn⟩)
    with ⟨r0, _, h1, _⟩ | ⟨_, h⟩
  · rw [he] at h1
    cases h1
  · exact h r' hr

end

/-! ### Samples -/

section
attribute [local instance] Categories.asciiOnly Sample.unicode Sample.decOps

namespace Ordered
open Worded

local instance (s : String) (c : Char) : Decidable (In s c) := inferInstanceAs (Decidable (c ∈ s.toList))

theorem later : WordFor logos ('2' :: str "024-01-03") (.date ⟨2024, 1, 3⟩) := by
  refine ⟨.date, ?_, fun t h => ?_, ?_⟩
  · refine Lexeme.date (y := str "2024") (m := str "01") (d := str "03") (s1 := '-') (s2 := '-') ?_ ?_ ?_ (by decide) (by decide) <;>
      exact ⟨rfl, by decide +kernel⟩
  · have : ∀ p ∈ literals, p.2 ≠ str "2024-01-03" := by decide +kernel
    exact absurd rfl (this _ (fixed_iff.mp h))
  · exact Denotes.date (y := [2, 0, 2, 4]) (m := [0, 1]) (d := [0, 3]) (s1 := '-') (s2 := '-') (by decide) (by decide)
      (by unfold DateExists Leap; decide)

/-- A directive of another date. -/
def shut : Str := '2' :: str "024-01-03" ++ ([' '] ++ ('c' :: str "lose" ++ ([' '] ++ ('A' :: str "ssets:A" ++ ['\n']))))

example : shut = str "2024-01-03 close Assets:A\n" := by decide +kernel

theorem shut_passage : Passage logos shut := by
  refine ⟨⟨[.date ⟨2024, 1, 3⟩, .close, .account (str "Assets:A"), .eol], ?_, .inr ⟨[_, _, _], rfl⟩, [], _, rfl, by simp, fun t ht => ?_⟩,
    notBlank (by decide), notIgnored (by decide)⟩
  · refine apart_spaced later rfl ⟨_, _, rfl, .inl rfl⟩ ?_
    refine apart_gap (b := [' ']) ⟨by simp, by simp⟩ (notBlank (by decide)) ?_
    refine apart_spaced (w := 'c' :: str "lose") (fixed (t := .close) (by decide +kernel) (by decide +kernel)) rfl ⟨_, _, rfl, .inl rfl⟩ ?_
    refine apart_gap (b := [' ']) ⟨by simp, by simp⟩ (notBlank (by decide)) ?_
    refine apart_spaced account rfl ⟨_, _, rfl, by decide⟩ ?_
    exact apart_line (e := ['\n']) plainEnd (by rintro _ _ ⟨⟩) (by rintro _ _ ⟨⟩) .done
  · cases ht
    exact ⟨notLine rfl, by simp⟩

theorem tight_plain : NoPragma ((Included.env.tokens tight).map (·.tok)) := by unfold NoPragma; decide +kernel
theorem shut_plain : NoPragma ((Included.env.tokens shut).map (·.tok)) := by unfold NoPragma; decide +kernel

theorem tight_tokens : (Included.env.tokens tight).map (·.tok) = [.date ⟨2024, 1, 2⟩, .open, .account (str "Assets:A"), .eol, .indent,
    .key (str "kk"), .colon, .stringLiteral (str "x y"), .eol] := by decide +kernel
theorem shut_tokens : (Included.env.tokens shut).map (·.tok) = [.date ⟨2024, 1, 3⟩, .close, .account (str "Assets:A"), .eol] := by decide +kernel

/-- The two directives, after an include of a file, in both orders. -/
theorem rearranged : Rearranged logos Included.env.tokens true (Included.line ++ tight ++ shut ++ pushed) (Included.line ++ shut ++ tight ++ pushed) := by
  refine .exchange Included.line_passage tight_passage shut_passage pushed_passage tight_plain shut_plain fun _ d => ?_
  rw [tight_tokens, shut_tokens]
  simp
  rintro rfl h
  cases h

theorem thinned : Thinned logos Included.env.tokens (Included.line ++ tight ++ shut) (Included.line ++ shut) :=
  .leave Included.line_passage tight_passage shut_passage tight_plain

theorem same_files {R : Str → Str → Prop} (hR : ∀ t, R t t) (fs : FileSystem) : FilesLike R fs fs := by
  refine ⟨rfl, rfl, fun p => ?_⟩
  cases fs.read p with
  | ok t => exact .ok (hR t)
  | error e => exact .error e

end Ordered

/-- The hypotheses of the theorems about C62 are met by a file with an include, two directives and a plugin, and the file with the
two directives exchanged. -/
example : ∃ s', ReadInSomeOrder Included.files Included.env.tokens (some (Path.ofStr (str "r"))) (Included.line ++ Ordered.shut ++ Worded.tight ++ Worded.pushed) s' ∧
    SameVisits (readWithIncludes Included.files Included.env.tokens (some (Path.ofStr (str "r"))) (Included.line ++ Worded.tight ++ Ordered.shut ++ Worded.pushed)) s' ∧
    ((∃ r r', parseTexts logos Included.env (readWithIncludes Included.files Included.env.tokens (some (Path.ofStr (str "r")))
        (Included.line ++ Worded.tight ++ Ordered.shut ++ Worded.pushed)) = .ok r ∧ parseTexts logos Included.env s' = .ok r' ∧
        SameButPlaces r.directives r'.directives) ∨
      ((∀ r, parseTexts logos Included.env (readWithIncludes Included.files Included.env.tokens (some (Path.ofStr (str "r")))
        (Included.line ++ Worded.tight ++ Ordered.shut ++ Worded.pushed)) ≠ .ok r) ∧ ∀ r, parseTexts logos Included.env s' ≠ .ok r)) := by
  have hfs := Ordered.same_files (R := Rearranged logos Included.env.tokens true) (fun t => .same t) Included.files
  obtain ⟨s', h1, h2⟩ := C62_read (env := Included.env) Laid.lexedBy hfs Ordered.rearranged (root := some (Path.ofStr (str "r"))) ⟨_, .refl _, rfl⟩
  exact ⟨s', h1, h2, C62_same_order Included.files_wf Laid.lexedBy Included.sameEnv hfs Ordered.rearranged ⟨_, .refl _, rfl⟩ h1 h2⟩

namespace Ordered
open Worded

theorem key {x : Res ParseError ParseSuccess} {f : ParseSuccess → Bool} (h : (match x with | .ok r => f r | _ => false) = true) :
    ∃ r, x = .ok r ∧ f r = true := by
  cases x with
  | ok r => exact ⟨r, rfl, h⟩
  | err _ => cases h
  | panic => cases h

def rootPath : Option Path := some (Path.ofStr (str "r"))

/-- A file read on its own. -/
def alone (text : Str) : Sources := ⟨rootPath, text, charIndices text, [], [], [str "r"], []⟩

theorem alone_eq {text : Str} (h : getIncludes Included.env.tokens text = []) :
    ReadInSomeOrder Included.files Included.env.tokens rootPath text (alone text) := by
  refine ⟨_, .refl _, ?_⟩
  rw [read_plain h]
  rfl

theorem alone_visits (a b : Str) : SameVisits (alone a) (alone b) := rfl

theorem first_plain : getIncludes Included.env.tokens (tight ++ shut ++ pushed) = [] := by decide +kernel
theorem second_plain : getIncludes Included.env.tokens (shut ++ tight ++ pushed) = [] := by decide +kernel

end Ordered

/-- A file with two directives, and with the first of them left out: the hypotheses of `C63_fewer` are met, the first run yields two
directives and the other yields one. -/
example : ∃ r r', parseTexts logos Included.env (Ordered.alone (Worded.tight ++ Ordered.shut)) = .ok r ∧ r.directives.length = 2 ∧
    parseTexts logos Included.env (Ordered.alone Ordered.shut) = .ok r' ∧ r'.directives.length = 1 ∧ Fewer r r' := by
  have ht : Thinned logos Included.env.tokens (Worded.tight ++ Ordered.shut) Ordered.shut := by
    have := Thinned.leave (tokens := Included.env.tokens) (Passage.nil logos) Worded.tight_passage Ordered.shut_passage Ordered.tight_plain
    simpa using this
  obtain ⟨r, hr, hd⟩ := Ordered.key (x := parseTexts logos Included.env (Ordered.alone (Worded.tight ++ Ordered.shut)))
    (f := fun r => r.directives.length == 2) (by decide +kernel)
  obtain ⟨r', hr', hf⟩ := C63_fewer (env := Included.env) Included.files_wf Laid.lexedBy Included.sameEnv
    (Ordered.same_files (fun t => .same t) Included.files) ht (Ordered.alone_eq (by decide +kernel)) (Ordered.alone_eq (by decide +kernel)) rfl hr
  obtain ⟨r2, hr2, hd2⟩ := Ordered.key (x := parseTexts logos Included.env (Ordered.alone Ordered.shut))
    (f := fun r => r.directives.length == 1) (by decide +kernel)
  rw [hr'] at hr2
  cases hr2
  exact ⟨r, r', hr, by simpa using hd, hr', by simpa using hd2, hf⟩

/-- The same file with the second directive left out: the hypotheses of `C63_rest` are met, and it is the first which remains. -/
example : ∃ r r' d e, parseTexts logos Included.env (Ordered.alone (Worded.tight ++ Ordered.shut ++ [])) = .ok r ∧ r.directives = [d, e] ∧
    ¬ InLeftOut (Ordered.alone (Worded.tight ++ Ordered.shut ++ [])) (Ordered.alone (Worded.tight ++ [])) Worded.tight Ordered.shut [] d.span ∧
    InLeftOut (Ordered.alone (Worded.tight ++ Ordered.shut ++ [])) (Ordered.alone (Worded.tight ++ [])) Worded.tight Ordered.shut [] e.span ∧
    parseTexts logos Included.env (Ordered.alone (Worded.tight ++ [])) = .ok r' ∧
    Rest (InLeftOut (Ordered.alone (Worded.tight ++ Ordered.shut ++ [])) (Ordered.alone (Worded.tight ++ [])) Worded.tight Ordered.shut []) r r' := by
  obtain ⟨r, hr, hd⟩ := Ordered.key (x := parseTexts logos Included.env (Ordered.alone (Worded.tight ++ Ordered.shut ++ [])))
    (f := fun r => r.directives.map (·.span) == [⟨0, 0, 36⟩, ⟨0, 36, 62⟩]) (by decide +kernel)
  have hd : r.directives.map (·.span) = [⟨0, 0, 36⟩, ⟨0, 36, 62⟩] := by simpa using hd
  obtain ⟨d, ds, e1, h1, h2⟩ := List.map_eq_cons_iff.mp hd
  obtain ⟨e, es, e2, h3, h4⟩ := List.map_eq_cons_iff.mp h2
  rw [List.map_eq_nil_iff] at h4
  subst h4 e2
  obtain ⟨r', hr', hf⟩ := C63_rest (env := Included.env) (before := Worded.tight) (passage := Ordered.shut) (after := []) Included.files_wf Laid.lexedBy Included.sameEnv
    (by intro t ht
        simp only [List.mem_cons, List.not_mem_nil, or_false] at ht
        rcases ht with rfl | rfl | rfl
        · exact Worded.tight_passage
        · exact Ordered.shut_passage
        · exact Passage.nil logos) Ordered.shut_plain
    (Ordered.same_files (fun t => .inl rfl) Included.files) (.inr ⟨rfl, rfl⟩) (Ordered.alone_eq (by decide +kernel)) (Ordered.alone_eq (by decide +kernel)) rfl hr
  refine ⟨r, r', d, e, hr, e1, ?_, ?_, hr', hf⟩
  · rw [h1]
    rintro ⟨_, h, _⟩
    exact absurd h (by decide +kernel)
  · rw [h3]
    exact ⟨⟨Ordered.rootPath, .inl ⟨rfl, rfl, rfl⟩, .inl ⟨rfl, rfl, rfl⟩⟩, by decide +kernel, by decide +kernel⟩

/-- Two directives and a plugin, with the directives exchanged: the runs succeed, and with the same result but for places. -/
example : ∃ r r', parseTexts logos Included.env (Ordered.alone (Worded.tight ++ Ordered.shut ++ Worded.pushed)) = .ok r ∧
    parseTexts logos Included.env (Ordered.alone (Ordered.shut ++ Worded.tight ++ Worded.pushed)) = .ok r' ∧
    r.directives.length = 2 ∧ SameButPlaces r.directives r'.directives := by
  have ht : Rearranged logos Included.env.tokens true (Worded.tight ++ Ordered.shut ++ Worded.pushed) (Ordered.shut ++ Worded.tight ++ Worded.pushed) := by
    have := Rearranged.exchange (tokens := Included.env.tokens) (apart := true) (Passage.nil logos) Worded.tight_passage Ordered.shut_passage
      Worded.pushed_passage Ordered.tight_plain Ordered.shut_plain fun _ d => by
        rw [Ordered.tight_tokens, Ordered.shut_tokens]
        simp
        rintro rfl h
        cases h
    simpa using this
  obtain ⟨r, hr, hd⟩ := Ordered.key (x := parseTexts logos Included.env (Ordered.alone (Worded.tight ++ Ordered.shut ++ Worded.pushed)))
    (f := fun r => r.directives.length == 2) (by decide +kernel)
  rcases C62_same_order (env := Included.env) (s := Ordered.alone (Worded.tight ++ Ordered.shut ++ Worded.pushed))
    (s' := Ordered.alone (Ordered.shut ++ Worded.tight ++ Worded.pushed)) Included.files_wf Laid.lexedBy Included.sameEnv
    (Ordered.same_files (fun t => .same t) Included.files) ht (Ordered.alone_eq Ordered.first_plain) (Ordered.alone_eq Ordered.second_plain)
    (Ordered.alone_visits _ _)
    with ⟨r0, r', h1, h2, h3⟩ | ⟨h, _⟩
  · rw [hr] at h1
    cases h1
    exact ⟨r, r', hr, h2, by simpa using hd, h3⟩
  · exact absurd hr (h r)

/-- Pragmas do matter: a directive moved out of the reach of a `pushmeta` is another directive. -/
example : (match parseTexts logos Included.env (Ordered.alone (str "pushmeta kk: TRUE\n2024-01-03 close Assets:A\npopmeta kk:\n")),
      parseTexts logos Included.env (Ordered.alone (str "2024-01-03 close Assets:A\npushmeta kk: TRUE\npopmeta kk:\n")) with
    | .ok r, .ok r' => r.directives.map (fun d => d.item.metadata.item.keyValues.length) == [1] &&
        r'.directives.map (fun d => d.item.metadata.item.keyValues.length) == [0]
    | _, _ => false) = true := by decide +kernel

end

end Lima.Props
