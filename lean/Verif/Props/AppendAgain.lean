import Verif.Props.Append

/-!
# C73: directives appended again and again
-/

set_option linter.unusedSectionVars false

namespace Lima.Props
open Lima.Spec Grammar

theorem inOne_sort (xs ys : List (Spanned Directive)) : InOne xs ys (sortDirectives (xs ++ ys)) :=
  ⟨C01_sort_perm _, C01_sort_ordered _, fun d => by rw [C01_sort_stable, List.filter_append]⟩

theorem sort_inOne {xs ys ds : List (Spanned Directive)} (h : InOne xs ys ds) : ds = sortDirectives (xs ++ ys) :=
  C01_sort_unique _ _ h.ordered fun d => by rw [h.first, List.filter_append]

theorem sort_places {xs ys : List (Spanned Directive)} (h : SameButPlaces xs ys) : SameButPlaces (sortDirectives xs) (sortDirectives ys) := by
  unfold SameButPlaces at *
  rw [← Moved.sortDirectives (K := fun _ => False) (hK := fun _ _ h => h.elim), ← Moved.sortDirectives (K := fun _ => False) (hK := fun _ _ h => h.elim), h]

theorem append_places {α : Type} [Places α] {a a' b b' : List α} (h : SameButPlaces a a') (h' : SameButPlaces b b') :
    SameButPlaces (a ++ b) (a' ++ b') := by
  unfold SameButPlaces at *
  change List.map _ _ = List.map _ _
  rw [List.map_append, List.map_append]
  exact congrArg₂ _ h h'

/-- A permutation, but for places. -/
def PermLike {α : Type} [Places α] (l l' : List α) : Prop := ∃ m, l.Perm m ∧ SameButPlaces m l'

theorem PermLike.refl {α : Type} [Places α] (l : List α) : PermLike l l := ⟨l, .refl _, rfl⟩

section
variable [Categories] [Unicode] [DecOps] {l : Logos} {env : ParseEnv} {fs : FileSystem} {root : Option Path} {text : Str}
  {s s' : Sources}

theorem permLike_iff {α : Type} [Places α] {l l' : List α} :
    PermLike l l' ↔ (l.map (move fun _ => ⟨0, 0, 0⟩)).Perm (l'.map (move fun _ => ⟨0, 0, 0⟩)) := by
  constructor
  · rintro ⟨m, h1, h2⟩
    rw [show l'.map (move fun _ => ⟨0, 0, 0⟩) = m.map (move fun _ => ⟨0, 0, 0⟩) from h2.symm]
    exact h1.map _
  · intro h
    obtain ⟨m, k1, k2⟩ := InPlaceParse.perm_map h
    exact ⟨m, k1, k2⟩

theorem PermLike.trans {α : Type} [Places α] {a b c : List α} (h : PermLike a b) (h' : PermLike b c) : PermLike a c :=
  permLike_iff.mpr ((permLike_iff.mp h).trans (permLike_iff.mp h'))

theorem PermLike.append {α : Type} [Places α] {a a' b b' : List α} (h : PermLike a a') (h' : PermLike b b') : PermLike (a ++ b) (a' ++ b') := by
  rw [permLike_iff] at *
  rw [List.map_append, List.map_append]
  exact h.append h'

/-- Passages one after the other, without what they are appended to. -/
theorem passages_alone (hwf : GlobsWF fs) (hlex : LexedBy l env.tokens) (hx : SameEnv env env) : ∀ (ms : List Str) (m : Str) (ps : List ParseSuccess) (p : ParseSuccess),
    (∀ x ∈ m :: ms, Passage l x ∧ NoPragma ((env.tokens x).map (·.tok))) →
    List.Forall₂ (fun x p => parseTexts l env (readWithIncludes fs env.tokens root x) = .ok p) (m :: ms) (p :: ps) →
    Passage l (m :: ms).flatten ∧ NoPragma ((env.tokens (m :: ms).flatten).map (·.tok)) ∧
    ∃ q, parseTexts l env (readWithIncludes fs env.tokens root (m :: ms).flatten) = .ok q ∧
      SameButPlaces q.directives (sortDirectives ((p :: ps).flatMap (·.directives))) ∧
      PermLike q.warnings ((p :: ps).flatMap (·.warnings))
  | [], m, ps, p, hm, h => by
    cases h with
    | cons h hn =>
    cases hn
    have e : ([m] : List Str).flatten = m := by simp
    have e1 : ([p] : List ParseSuccess).flatMap (·.directives) = p.directives := by simp
    have e2 : ([p] : List ParseSuccess).flatMap (·.warnings) = p.warnings := by simp
    rw [e, e1, e2]
    have hp := h
    rw [parseTexts_eq (lexed_of_ok h)] at hp
    refine ⟨(hm m (by simp)).1, (hm m (by simp)).2, p, h, ?_, .refl _⟩
    rw [← C01_sort_unique p.directives p.directives (C01_whole_parse hwf ⟨_, .refl _, rfl⟩ hp) fun _ => rfl]
    rfl
  | m' :: ms, m, ps, p, hm, h => by
    cases h with
    | @cons _ _ _ ps h hn =>
    cases ps with
    | nil => cases hn
    | cons p' ps =>
    obtain ⟨k1, k2, q, k3, k4, k5⟩ := passages_alone hwf hlex hx ms m' ps p' (fun x hx => hm x (List.mem_cons_of_mem _ hx)) hn
    obtain ⟨h1, h2⟩ := hm m (by simp)
    have e : (m :: m' :: ms).flatten = m ++ (m' :: ms).flatten := rfl
    rw [e]
    generalize (m' :: ms).flatten = rest at *
    have both := InPlaceParse.passages_tokens hlex h1 k1
    have hn : NoPragma ((env.tokens (m ++ rest)).map (·.tok)) := by
      rw [both]
      unfold NoPragma at *
      simp only [List.mem_append]
      tauto
    have inc : ∀ {x : Str}, NoPragma ((env.tokens x).map (·.tok)) → getIncludes env.tokens x = [] := by
      intro x hx
      unfold getIncludes
      exact Revise.includes_none hx.2.1
    obtain ⟨r, r1, r2⟩ := C73_append hwf hlex hx h1 k1 (Revise.not_sets h2) k2 (fs := fs) (root := root)
      (s := readWithIncludes fs env.tokens root (m ++ rest)) (s' := readWithIncludes fs env.tokens root m)
      ⟨_, .refl _, rfl⟩ ⟨_, .refl _, rfl⟩ (by unfold SameVisits; rw [read_plain (inc hn), read_plain (inc h2)]) ⟨_, .refl _, rfl⟩ h k3
    refine ⟨Passage.append h1 k1, hn, r, r1, ?_, ?_⟩
    · obtain ⟨ds, d1, d2⟩ := r2.directives
      rw [sort_inOne d1] at d2
      rw [List.flatMap_cons, Append.sort_both]
      have hp := h
      rw [parseTexts_eq (lexed_of_ok h)] at hp
      rw [← C01_sort_unique p.directives p.directives (C01_whole_parse hwf ⟨_, .refl _, rfl⟩ hp) fun _ => rfl]
      exact Eq.trans d2 (sort_places (append_places rfl k4))
    · rw [List.flatMap_cons]
      exact PermLike.trans r2.warnings (PermLike.append (.refl _) k5)

/-- C73: directives may be appended to a ledger again and again.  If the ledger is parsed, and each of any number of passages is on
its own, then the ledger with all of them appended is parsed, and has the directives and the warnings of all. -/
theorem C73_again (hwf : GlobsWF fs) (hlex : LexedBy l env.tokens) (hx : SameEnv env env) (pt : Passage l text)
    (ho : ¬ SetsParserOption (env.tokens text)) {ms : List Str} (hm : ∀ m ∈ ms, Passage l m ∧ NoPragma ((env.tokens m).map (·.tok)))
    (hs : ReadInSomeOrder fs env.tokens root (text ++ ms.flatten) s) (hs' : ReadInSomeOrder fs env.tokens root text s') (hv : SameVisits s s')
    {r' : ParseSuccess} (hr : parseTexts l env s' = .ok r') {ps : List ParseSuccess}
    (hp : List.Forall₂ (fun m p => parseTexts l env (readWithIncludes fs env.tokens root m) = .ok p) ms ps) :
    ∃ r, parseTexts l env s = .ok r ∧ JoinedAll r r' ps := by
  cases hp with
  | nil =>
    rw [List.flatten_nil, List.append_nil] at hs
    have e : s = s' := by
      rw [Append.read_both hwf rfl hs hs' hv]
      obtain ⟨c, _, rfl⟩ := hs'
      rfl
    subst e
    have hq := hr
    rw [parseTexts_eq (lexed_of_ok hr)] at hq
    refine ⟨r', hr, ⟨r'.directives, ?_, rfl⟩, rfl, rfl, ⟨r'.warnings, .refl _, by simp [SameButPlaces]⟩⟩
    exact ⟨by simp, C01_whole_parse hwf hs hq, fun d => by simp⟩
  | @cons m p ms ps h hn =>
    obtain ⟨k1, k2, q, k3, k4, k5⟩ := passages_alone hwf hlex hx ms m ps p hm (.cons h hn)
    obtain ⟨r, r1, r2⟩ := C73_append hwf hlex hx pt k1 ho k2 hs hs' hv ⟨_, .refl _, rfl⟩ hr k3
    refine ⟨r, r1, ⟨_, inOne_sort _ _, ?_⟩, r2.options, r2.plugins, PermLike.trans r2.warnings (PermLike.append (.refl _) k5)⟩
    obtain ⟨ds, d1, d2⟩ := r2.directives
    rw [sort_inOne d1] at d2
    have hq := hr
    rw [parseTexts_eq (lexed_of_ok hr)] at hq
    have e := C01_sort_unique r'.directives r'.directives (C01_whole_parse hwf hs' hq) fun _ => rfl
    rw [Append.sort_both, ← e]
    exact Eq.trans d2 (sort_places (append_places rfl k4))

end

/-! ### Samples -/

section
attribute [local instance] Categories.asciiOnly Sample.unicode Sample.decOps

/-- Two passages are appended to a ledger with a directive and a plugin: the hypotheses of `C73_again` are met. -/
example : ∃ r' p q r, parseTexts logos Included.env (Ordered.alone Appended.ledger) = .ok r' ∧
    r'.directives.length = 1 ∧ r'.plugins.length = 1 ∧ p.directives.length = 1 ∧ q.directives.length = 1 ∧
    parseTexts logos Included.env (Ordered.alone (Appended.ledger ++ [Worded.tight, Ordered.shut].flatten)) = .ok r ∧ JoinedAll r r' [p, q] := by
  have run : ∀ {t : Str}, getIncludes Included.env.tokens t = [] → readWithIncludes Included.files Included.env.tokens Ordered.rootPath t = Ordered.alone t := by
    intro t h
    rw [read_plain h]
    rfl
  obtain ⟨r', hr', k1⟩ := Ordered.key (x := parseTexts logos Included.env (Ordered.alone Appended.ledger))
    (f := fun r => r.directives.length == 1 && r.plugins.length == 1) (by decide +kernel)
  obtain ⟨p, hp, k2⟩ := Ordered.key (x := parseTexts logos Included.env (Ordered.alone Worded.tight))
    (f := fun r => r.directives.length == 1) (by decide +kernel)
  obtain ⟨q, hq, k3⟩ := Ordered.key (x := parseTexts logos Included.env (Ordered.alone Ordered.shut))
    (f := fun r => r.directives.length == 1) (by decide +kernel)
  simp only [Bool.and_eq_true, beq_iff_eq] at k1 k2 k3
  obtain ⟨r, h1, h2⟩ := C73_again (env := Included.env) (ms := [Worded.tight, Ordered.shut]) (ps := [p, q]) Included.files_wf Laid.lexedBy
    Included.sameEnv Appended.ledger_passage (Appended.sets_nothing (by decide +kernel))
    (by
      intro m hm
      simp only [List.mem_cons, List.not_mem_nil, or_false] at hm
      rcases hm with rfl | rfl
      · exact ⟨Worded.tight_passage, Ordered.tight_plain⟩
      · exact ⟨Ordered.shut_passage, by unfold NoPragma; decide +kernel⟩)
    (Ordered.alone_eq (by decide +kernel)) (Ordered.alone_eq (by decide +kernel)) rfl hr'
    (.cons (by rw [run (by decide +kernel)]; exact hp) (.cons (by rw [run (by decide +kernel)]; exact hq) .nil))
  exact ⟨r', p, q, r, hr', k1.1, k1.2, k2, k3, h1, h2⟩

end

end Lima.Props
