import Verif.Lemmas.PragmaReports

/-!
# Pragma processing: tags, metadata, includes (C02-C06)

A run is `processPragmas`.  `History env root parsed es visited` says that `es` are the declarations met, in
order, as described by `Spec.Splice` without reference to the processor.
-/

namespace Lima.Props
open Lima Lima.Spec

section
variable {env : PragmaEnv} {root : Option Path} {parsed : List (Option Path × List (Spanned Declaration))}
  {p : ParserOptions} {es : List Event} {visited : List (Option Path)}
  {out : List (Spanned Directive)} {data : PragmaData}

/-! ### A run to try the theorems on: the root file includes another file twice -/

def demoSpan (n : Nat) : Span := ⟨0, n, n⟩
def demoPath (s : String) : Path := ⟨false, [s.toList]⟩
def demoClose (n : Nat) (tags : List (Spanned Str)) : Directive :=
  { date := ⟨⟨2024, 1, n⟩, demoSpan n⟩
    metadata := ⟨{ tags }, demoSpan n⟩
    variant := .close ⟨⟨.assets, "A".toList⟩, demoSpan n⟩ }
def demoTag (n : Nat) (s : String) : Spanned Str := ⟨s.toList, demoSpan n⟩
def demoValue (n : Nat) (b : Bool) : Spanned MetaValue := ⟨.simple (.bool b), demoSpan n⟩

def demoRoot : List (Spanned Declaration) := [
  ⟨.pragma (.pushtag (demoTag 1 "a")), demoSpan 1⟩,
  ⟨.pragma (.pushtag (demoTag 2 "a")), demoSpan 2⟩,
  ⟨.pragma (.pushmeta ⟨demoTag 3 "k", demoValue 3 true⟩), demoSpan 3⟩,
  ⟨.directive (demoClose 4 [demoTag 4 "b"]), demoSpan 4⟩,
  ⟨.pragma (.include (demoTag 5 "f")), demoSpan 5⟩,
  ⟨.pragma (.include (demoTag 6 "f")), demoSpan 6⟩,
  ⟨.directive (demoClose 7 [demoTag 7 "a"]), demoSpan 7⟩,
  ⟨.pragma (.popmeta (demoTag 8 "x")), demoSpan 8⟩]

def demoFile : List (Spanned Declaration) := [
  ⟨.pragma (.poptag (demoTag 10 "a")), demoSpan 10⟩,
  ⟨.directive (demoClose 11 []), demoSpan 11⟩,
  ⟨.pragma (.poptag (demoTag 12 "z")), demoSpan 12⟩]

def demoParsed : List (Option Path × List (Spanned Declaration)) :=
  [(none, demoRoot), (some (demoPath "f"), demoFile)]

def demoEnv : PragmaEnv where
  globs := [(demoPath "f", .expanded [demoPath "f"])]
  errorPaths := []
  canonicalize := some
  context := fun _ _ => []

def demoEvent (path : Option Path) (opened : List Path) (d : Spanned Declaration) : Event := ⟨path, d, opened⟩

def demoHistory : List Event :=
  (demoRoot.take 4).map (demoEvent none []) ++
  [⟨none, ⟨.pragma (.include (demoTag 5 "f")), demoSpan 5⟩, [demoPath "f"]⟩] ++
  demoFile.map (demoEvent (some (demoPath "f")) []) ++
  (demoRoot.drop 5).map (demoEvent none [])

theorem demo_history : History demoEnv none demoParsed demoHistory [some (demoPath "f"), none] := by
  refine ⟨demoRoot, rfl, ?_⟩
  refine .plain _ _ _ _ _ _ (by intro g h; cases h) ?_
  refine .plain _ _ _ _ _ _ (by intro g h; cases h) ?_
  refine .plain _ _ _ _ _ _ (by intro g h; cases h) ?_
  refine .plain _ _ _ _ _ _ (by intro g h; cases h) ?_
  refine .include [none] [some (demoPath "f"), none] _ none _ (demoTag 5 "f") _
    (demoFile.map (demoEvent (some (demoPath "f")) [])) _ rfl ?_ ?_
  · refine .file _ [some (demoPath "f"), none] _ (demoPath "f") [] demoFile
      (demoFile.map (demoEvent (some (demoPath "f")) [])) [] rfl ?_ (.none _)
    refine .plain _ _ _ _ _ _ (by intro g h; cases h) ?_
    refine .plain _ _ _ _ _ _ (by intro g h; cases h) ?_
    refine .plain _ _ _ _ _ _ (by intro g h; cases h) ?_
    exact .nil _ _
  · refine .include [some (demoPath "f"), none] [some (demoPath "f"), none] _ none _ (demoTag 6 "f") _ [] _ rfl
      (.none _) ?_
    refine .plain _ _ _ _ _ _ (by intro g h; cases h) ?_
    refine .plain _ _ _ _ _ _ (by intro g h; cases h) ?_
    exact .nil _ _

theorem demo_expanded : AllExpanded demoEnv demoParsed := by
  intro q ds h d hd g hg
  have : (q, ds) ∈ demoParsed := AMap.mem_of_get h
  simp only [demoParsed, List.mem_cons, List.not_mem_nil, or_false, Prod.mk.injEq] at this
  rcases this with ⟨rfl, rfl⟩ | ⟨rfl, rfl⟩
  · simp only [demoRoot, List.mem_cons, List.not_mem_nil, or_false] at hd
    rcases hd with rfl | rfl | rfl | rfl | rfl | rfl | rfl | rfl <;> cases hg <;> decide
  · simp only [demoFile, List.mem_cons, List.not_mem_nil, or_false] at hd
    rcases hd with rfl | rfl | rfl <;> cases hg

/-! ### C05 -/

/-- C05: the declarations of the root file, with the files it includes spliced in, form exactly one history,
and the run goes through: no panic, no endless loop. -/
theorem C05_history (hroot : (AMap.get parsed root).isSome) (hexp : AllExpanded env parsed) :
    (∃ es visited, History env root parsed es visited ∧
      ∀ es' visited', History env root parsed es' visited' → es' = es ∧ visited' = visited) ∧
    (∃ out data, processPragmas env root parsed (Options.new p) = .ok (out, data)) := by
  obtain ⟨es, v, out, data, h1, h2, _, _⟩ := process_history p hroot hexp
  exact ⟨⟨es, v, h1, fun es' v' h' => History.det h' h1⟩, out, data, h2⟩

/-- C05: the directives emitted are those of the history, in order; date, variant, links and locations are
kept. -/
theorem C05_order (h : History env root parsed es visited) (hexp : AllExpanded env parsed)
    (hrun : processPragmas env root parsed (Options.new p) = .ok (out, data)) :
    out.length = (directives es).length ∧
    ∀ pre e post d, es = pre ++ e :: post → directiveOf e = some d →
      ∃ x, out[(directives pre).length]? = some x ∧ x.span = d.span ∧ x.item.date = d.item.date ∧
        x.item.variant = d.item.variant ∧ x.item.metadata.span = d.item.metadata.span ∧
        x.item.metadata.item.links = d.item.metadata.item.links := by
  refine ⟨outputs_length (History.run p h hexp hrun).2.1, ?_⟩
  intro pre e post d hes he
  obtain ⟨dat, x, _, hx, ho⟩ := History.emitted h hexp hrun hes he
  have hf := augment_fields hx
  exact ⟨_, ho, rfl, hf.1, hf.2.1, hf.2.2.1, hf.2.2.2.1⟩

/-- C05: the files whose declarations are met are those reached by includes. -/
theorem C05_reached (h : History env root parsed es visited) (q : Option Path) :
    q ∈ visited ↔ Reached (AMap.get parsed) (expansion (AMap.get env.globs)) root q := by
  obtain ⟨decls, hd, hs⟩ := h
  constructor
  · refine hs.reached (fun q hq => ?_) ⟨by simp, decls, hd, fun _ h => h⟩ q
    simp at hq; subst hq; exact .root
  · intro hr
    have honce := fun q => hs.once (show TaskVisited [root] (.body root decls) by simp [TaskVisited]) q
    induction hr with
    | root => exact hs.mono _ (by simp)
    | step p ds d g q _ hp hd' hg hq hf ih =>
      have : ∃ e ∈ es, e.path = p ∧ e.decl = d := by
        have ho := honce p
        have hds : d ∈ (es.filter (fun e => decide (e.path = p))).map (·.decl) := by
          rw [ho]
          by_cases hpr : p = root
          · subst hpr
            rw [hp] at hd; cases hd
            simp [ownDecls, hd']
          · simp [hpr, ih, hp, hd']
        obtain ⟨e, he, rfl⟩ := List.mem_map.mp hds
        have := List.mem_filter.mp he
        exact ⟨e, this.1, by simpa using this.2, rfl⟩
      obtain ⟨e, he, rfl, rfl⟩ := this
      exact hs.closed e he g hg q hq hf

example : (∃ es visited, History demoEnv none demoParsed es visited ∧
      ∀ es' visited', History demoEnv none demoParsed es' visited' → es' = es ∧ visited' = visited) ∧
    (∃ out data, processPragmas demoEnv none demoParsed (Options.new ParserOptions.default) = .ok (out, data)) :=
  C05_history (by decide) demo_expanded

/-- The included directive comes in place of the include. -/
example : ((directives demoHistory).map (·.span)) = [demoSpan 4, demoSpan 11, demoSpan 7] := by decide

example : ∃ out data, processPragmas demoEnv none demoParsed (Options.new ParserOptions.default) = .ok (out, data) ∧
    out.map (·.span) = [demoSpan 4, demoSpan 11, demoSpan 7] := ⟨_, _, rfl, by decide⟩

/-! ### C02 -/

/-- C02: the tags of an emitted directive are its own, and each tag with a push open before it that it does not
have itself, as written in the innermost open push. -/
theorem C02_tags (h : History env root parsed es visited) (hexp : AllExpanded env parsed)
    (hrun : processPragmas env root parsed (Options.new p) = .ok (out, data))
    (pre : List Event) (e : Event) (post : List Event) (d : Spanned Directive)
    (hes : es = pre ++ e :: post) (he : directiveOf e = some d) :
    ∃ x, out[(directives pre).length]? = some x ∧
      (∀ t, t ∈ x.item.metadata.item.tags ↔
        t ∈ d.item.metadata.item.tags ∨
        ((∀ u ∈ d.item.metadata.item.tags, u.item ≠ t.item) ∧ (openTags t.item pre).head? = some t)) ∧
      ((d.item.metadata.item.tags.map (·.item)).Nodup → (x.item.metadata.item.tags.map (·.item)).Nodup) := by
  obtain ⟨dat, x, hi, hx, ho⟩ := History.emitted h hexp hrun hes he
  have hf := augment_fields hx
  refine ⟨_, ho, ?_, ?_⟩
  · intro t
    simp only
    rw [hf.2.2.2.2.1]
    exact hi.tags.augment (fun t x hx => openTags_item t pre x hx) _ t
  · intro hn
    simp only
    rw [hf.2.2.2.2.1]
    exact nodup_augmentTags _ _ hn

/-- C02: a tag has a push open exactly if some stretch up to now has more pushes than pops of it. -/
theorem C02_open_iff (t : List Char) (es : List Event) :
    openTags t es ≠ [] ↔ ∃ pre post, es = pre ++ post ∧ post.countP (popsTag t) < post.countP (pushesTag t) := by
  rw [openTags_eq]
  exact runStack_ne_nil (tagOp_tells t) es

/-- C02: the innermost open push of a tag is one after which pushes and pops of the tag are balanced. -/
theorem C02_innermost (t : List Char) (es : List Event) (x : Spanned (List Char)) :
    (openTags t es).head? = some x ↔
      ∃ pre e post, es = pre ++ e :: post ∧ e.decl.item = .pragma (.pushtag x) ∧ x.item = t ∧
        Balanced (pushesTag t) (popsTag t) post := by
  rw [openTags_eq, runStack_head (tagOp_tells t)]
  have hop : ∀ e, tagOp t e = .push x ↔ e.decl.item = .pragma (.pushtag x) ∧ x.item = t := by
    intro e
    unfold tagOp
    split
    · rename_i y hy
      by_cases hyt : y.item = t
      · simp only [hyt, if_true, StackOp.push.injEq, hy, Declaration.pragma.injEq, Pragma.pushtag.injEq]
        exact ⟨fun h => ⟨h, h ▸ hyt⟩, fun h => h.1⟩
      · simp only [hyt, if_false, reduceCtorEq, hy, Declaration.pragma.injEq, Pragma.pushtag.injEq, false_iff]
        rintro ⟨rfl, h⟩; exact hyt h
    · rename_i y hy
      rw [hy]
      split <;> simp
    · rename_i h1 h2
      simp only [reduceCtorEq, false_iff]
      rintro ⟨h, _⟩
      exact h1 x h
  simp only [hop, and_assoc]

/-- With as many pushes as pops, and never more pops than pushes, a tag is not open. -/
theorem C02_balanced (t : List Char) (es : List Event) (h : Balanced (pushesTag t) (popsTag t) es) :
    openTags t es = [] := by
  rw [openTags_eq]
  obtain ⟨new, h1, h2⟩ := runStack_nested (tagOp_tells t) [] es h.2
  have : new = [] := List.eq_nil_of_length_eq_zero (by have := h.1; omega)
  rw [h1, this]
  rfl

/-- `a` was pushed twice before the first directive, and popped once in the included file; the third directive
has it already. -/
example : ∃ out data, processPragmas demoEnv none demoParsed (Options.new ParserOptions.default) = .ok (out, data) ∧
    out.map (·.item.metadata.item.tags) =
      [[demoTag 4 "b", demoTag 2 "a"], [demoTag 1 "a"], [demoTag 7 "a"]] := ⟨_, _, rfl, by decide⟩

example (out data) (hrun : processPragmas demoEnv none demoParsed (Options.new ParserOptions.default) = .ok (out, data)) :=
  C02_tags demo_history demo_expanded hrun (demoHistory.take 3) (demoEvent none [] ⟨.directive (demoClose 4 [demoTag 4 "b"]), demoSpan 4⟩)
    (demoHistory.drop 4) ⟨demoClose 4 [demoTag 4 "b"], demoSpan 4⟩ rfl rfl

example : openTags "a".toList (demoHistory.take 3) = [demoTag 2 "a", demoTag 1 "a"] := by decide

/-! ### C03 -/

/-- C03: the metadata of an emitted directive is its own, and for each key with a push open before it that it
does not have itself, the value of the innermost open push. -/
theorem C03_metadata (h : History env root parsed es visited) (hexp : AllExpanded env parsed)
    (hrun : processPragmas env root parsed (Options.new p) = .ok (out, data))
    (pre : List Event) (e : Event) (post : List Event) (d : Spanned Directive)
    (hes : es = pre ++ e :: post) (he : directiveOf e = some d) :
    ∃ x, out[(directives pre).length]? = some x ∧
      (∀ k v, (k, v) ∈ x.item.metadata.item.keyValues ↔
        (k, v) ∈ d.item.metadata.item.keyValues ∨
        ((∀ u ∈ d.item.metadata.item.keyValues, u.1.item ≠ k.item) ∧
          (openMetas k.item pre).head? = some (k.span, v))) ∧
      ((d.item.metadata.item.keyValues.map (·.1.item)).Nodup →
        (x.item.metadata.item.keyValues.map (·.1.item)).Nodup) := by
  obtain ⟨dat, x, hi, hx, ho⟩ := History.emitted h hexp hrun hes he
  have hf := augment_fields hx
  refine ⟨_, ho, ?_, ?_⟩
  · intro k v
    exact hi.metas.augment _ _ hf.2.2.2.2.2 (k, v)
  · intro hn
    exact nodup_augmentKeyValues _ _ _ hn hf.2.2.2.2.2

/-- C03: a key has a push open exactly if some stretch up to now has more pushes than pops of it. -/
theorem C03_open_iff (k : List Char) (es : List Event) :
    openMetas k es ≠ [] ↔ ∃ pre post, es = pre ++ post ∧ post.countP (popsMeta k) < post.countP (pushesMeta k) := by
  rw [openMetas_eq]
  exact runStack_ne_nil (metaOp_tells k) es

/-- C03: the innermost open push of a key is one after which pushes and pops of the key are balanced. -/
theorem C03_innermost (k : List Char) (es : List Event) (x : Span × Spanned MetaValue) :
    (openMetas k es).head? = some x ↔
      ∃ pre e post, es = pre ++ e :: post ∧ e.decl.item = .pragma (.pushmeta ⟨⟨k, x.1⟩, x.2⟩) ∧
        Balanced (pushesMeta k) (popsMeta k) post := by
  rw [openMetas_eq, runStack_head (metaOp_tells k)]
  have hop : ∀ e, metaOp k e = .push x ↔ e.decl.item = .pragma (.pushmeta ⟨⟨k, x.1⟩, x.2⟩) := by
    intro e
    unfold metaOp
    split
    · rename_i y hy
      obtain ⟨⟨yk, ys⟩, yv⟩ := y
      by_cases hyt : yk = k
      · subst hyt
        simp only [if_true, StackOp.push.injEq, hy, Declaration.pragma.injEq, Pragma.pushmeta.injEq,
          MetaKeyValue.mk.injEq, Spanned.mk.injEq, true_and]
        obtain ⟨a, b⟩ := x
        simp
      · simp only [hyt, if_false, reduceCtorEq, hy, Declaration.pragma.injEq, Pragma.pushmeta.injEq,
          MetaKeyValue.mk.injEq, Spanned.mk.injEq, false_and]
    · rename_i y hy
      rw [hy]
      split <;> simp
    · rename_i h1 h2
      simp only [reduceCtorEq, false_iff]
      intro h
      exact h1 _ h
  simp only [hop]

/-- With as many pushes as pops, and never more pops than pushes, a key is not open. -/
theorem C03_balanced (k : List Char) (es : List Event) (h : Balanced (pushesMeta k) (popsMeta k) es) :
    openMetas k es = [] := by
  rw [openMetas_eq]
  obtain ⟨new, h1, h2⟩ := runStack_nested (metaOp_tells k) [] es h.2
  have : new = [] := List.eq_nil_of_length_eq_zero (by have := h.1; omega)
  rw [h1, this]
  rfl

example : ∃ out data, processPragmas demoEnv none demoParsed (Options.new ParserOptions.default) = .ok (out, data) ∧
    out.map (·.item.metadata.item.keyValues) =
      [[(demoTag 3 "k", demoValue 3 true)], [(demoTag 3 "k", demoValue 3 true)],
        [(demoTag 3 "k", demoValue 3 true)]] := ⟨_, _, rfl, by decide⟩

example (out data) (hrun : processPragmas demoEnv none demoParsed (Options.new ParserOptions.default) = .ok (out, data)) :=
  C03_metadata demo_history demo_expanded hrun (demoHistory.take 3) (demoEvent none [] ⟨.directive (demoClose 4 [demoTag 4 "b"]), demoSpan 4⟩)
    (demoHistory.drop 4) ⟨demoClose 4 [demoTag 4 "b"], demoSpan 4⟩ rfl rfl

/-! ### C04 -/

/-- C04: each pop of a tag, and of a key, that has no push open is reported once, at the pop; no other pop is. -/
theorem C04_stray_pops (h : History env root parsed es visited) (hexp : AllExpanded env parsed)
    (hrun : processPragmas env root parsed (Options.new p) = .ok (out, data)) :
    located "invalid poptag".toList data.finalErrors = strayTagPops [] es ∧
    located "invalid popmeta".toList data.finalErrors = strayMetaPops [] es := by
  have hi := History.inv h hexp hrun
  constructor
  · change located (str "invalid poptag") _ = _
    rw [located_eq, finalErrors_msgs, pick_append, pick_append, hi.errors, pick_metas_ne _ (by decide),
      pick_tags_ne _ (by decide), pick_poptag]
    simp
  · change located (str "invalid popmeta") _ = _
    rw [located_eq, finalErrors_msgs, pick_append, pick_append, hi.errors, pick_metas_ne _ (by decide),
      pick_tags_ne _ (by decide), pick_popmeta]
    simp

/-- C04: at the end each push of a tag still open is reported once, at the push, in some order: the reports
are those of any list `ts` of distinct tags containing all that are pushed. -/
theorem C04_open_tags (h : History env root parsed es visited) (hexp : AllExpanded env parsed)
    (hrun : processPragmas env root parsed (Options.new p) = .ok (out, data))
    (ts : List (List Char)) (hts : ts.Nodup)
    (hall : ∀ e ∈ es, ∀ x, e.decl.item = .pragma (.pushtag x) → x.item ∈ ts) :
    (located "invalid pushtag".toList data.finalErrors).Perm
      (ts.flatMap (fun t => (openTags t es).map (·.span))) := by
  have hi := History.inv h hexp hrun
  change List.Perm (located (str "invalid pushtag") _) _
  rw [located_eq, finalErrors_msgs, pick_append, pick_append, hi.errors, pick_metas_ne _ (by decide),
    pick_tags_eq, pick_push _ _ _ _ _ (.inl rfl), List.append_nil, List.nil_append]
  have h1 : List.Perm (data.tags.flatMap (fun e => (e.1 :: e.2).map (·.span)))
      (data.tags.flatMap (fun e => (fun t => (openTags t es).map (·.span)) e.1.item)) := by
    refine perm_reverse_flatMap _ _ _ fun e he => ?_
    rw [hi.tags.entry e he]
    exact (List.reverse_perm _).map _
  refine h1.trans (flatMap_perm data.tags hi.tags.nodup (fun t => (openTags t es).map (·.span)) ts hts ?_ ?_)
  · intro e he
    have hs : openTags e.1.item es ≠ [] := by
      intro hn
      have := hi.tags.entry e he
      rw [hn] at this
      cases this
    cases hh : openTags e.1.item es with
    | nil => exact absurd hh hs
    | cons x xs =>
      obtain ⟨pre, ev, post, hes, hd, hx, _⟩ := (C02_innermost e.1.item es x).mp (by rw [hh]; rfl)
      rw [← hx]
      exact hall ev (by rw [hes]; simp) x hd
  · intro t _ hno
    rcases hi.tags.get t with ⟨_, hs⟩ | ⟨first, others, hm, hk, _, _⟩
    · rw [hs]; rfl
    · exact absurd hk (hno _ hm)

/-- C04: at the end each key with a push still open is reported once, at its outermost open push. -/
theorem C04_open_metas (h : History env root parsed es visited) (hexp : AllExpanded env parsed)
    (hrun : processPragmas env root parsed (Options.new p) = .ok (out, data))
    (ks : List (List Char)) (hks : ks.Nodup)
    (hall : ∀ e ∈ es, ∀ kv, e.decl.item = .pragma (.pushmeta kv) → kv.key.item ∈ ks) :
    (located "invalid pushmeta".toList data.finalErrors).Perm
      (ks.flatMap (fun k => ((openMetas k es).getLast?.map (·.1)).toList)) := by
  have hi := History.inv h hexp hrun
  change List.Perm (located (str "invalid pushmeta") _) _
  rw [located_eq, finalErrors_msgs, pick_append, pick_append, hi.errors, pick_tags_ne _ (by decide),
    pick_metas_eq, pick_push _ _ _ _ _ (.inr rfl), List.append_nil, List.nil_append]
  have h1 : data.metas.map (·.1.span) =
      data.metas.flatMap (fun e => (fun k => ((openMetas k es).getLast?.map (·.1)).toList) e.1.item) := by
    rw [List.map_eq_flatMap]
    refine congrArg List.flatten (List.map_congr_left fun e he => ?_)
    obtain ⟨h2, v, hv⟩ := hi.metas.entry e he
    rw [h2, List.head?_reverse] at hv
    simp only
    rw [hv]
    rfl
  rw [h1]
  refine flatMap_perm data.metas hi.metas.nodup
    (fun k => ((openMetas k es).getLast?.map (·.1)).toList) ks hks ?_ ?_
  · intro e he
    cases hh : openMetas e.1.item es with
    | nil =>
      obtain ⟨h2, v, hv⟩ := hi.metas.entry e he
      rw [h2, hh] at hv
      cases hv
    | cons x xs =>
      obtain ⟨pre, ev, post, hes, hd, _⟩ := (C03_innermost e.1.item es x).mp (by rw [hh]; rfl)
      exact hall ev (by rw [hes]; simp) _ hd
  · intro k _ hno
    rcases hi.metas.get k with ⟨_, hs⟩ | ⟨first, others, hm, hk, _, _⟩
    · rw [hs]; rfl
    · exact absurd hk (hno _ hm)

/-- C04: if the pushes and pops of every tag and key are balanced, none of these errors is reported. -/
theorem C04_balanced (h : History env root parsed es visited) (hexp : AllExpanded env parsed)
    (hrun : processPragmas env root parsed (Options.new p) = .ok (out, data))
    (ht : ∀ t, Balanced (pushesTag t) (popsTag t) es) (hk : ∀ k, Balanced (pushesMeta k) (popsMeta k) es) :
    ∀ r ∈ data.finalErrors, r.message ≠ "invalid pushtag".toList ∧ r.message ≠ "invalid poptag".toList ∧
      r.message ≠ "invalid pushmeta".toList ∧ r.message ≠ "invalid popmeta".toList := by
  have nil_of : ∀ m : List Char, located m data.finalErrors = [] → ∀ r ∈ data.finalErrors, r.message ≠ m := by
    intro m hm r hr he
    have hmem : r.span ∈ located m data.finalErrors :=
      List.mem_map.mpr ⟨r, List.mem_filter.mpr ⟨hr, by simpa using he⟩, rfl⟩
    rw [hm] at hmem
    cases hmem
  have hstrayT : ∀ post pre, es = pre ++ post → strayTagPops pre post = [] := by
    intro post
    induction post with
    | nil => intro pre _; rfl
    | cons e post ih =>
      intro pre hes
      unfold strayTagPops
      rw [ih (pre ++ [e]) (by rw [hes]; simp), List.append_nil]
      split
      · rename_i x hx
        split
        · rename_i ho
          exfalso
          have h1 := (ht x.item).2 (pre ++ [e]) post (by rw [hes]; simp)
          rw [countP_snoc, countP_snoc] at h1
          have h2 : popsTag x.item e = true := by simp [popsTag, hx]
          have h3 : pushesTag x.item e = false := by simp [pushesTag, hx]
          rw [h2, h3] at h1
          simp at h1
          exact absurd ho ((C02_open_iff x.item pre).mpr ⟨[], pre, rfl, by omega⟩)
        · rfl
      · rfl
  have hstrayM : ∀ post pre, es = pre ++ post → strayMetaPops pre post = [] := by
    intro post
    induction post with
    | nil => intro pre _; rfl
    | cons e post ih =>
      intro pre hes
      unfold strayMetaPops
      rw [ih (pre ++ [e]) (by rw [hes]; simp), List.append_nil]
      split
      · rename_i x hx
        split
        · rename_i ho
          exfalso
          have h1 := (hk x.item).2 (pre ++ [e]) post (by rw [hes]; simp)
          rw [countP_snoc, countP_snoc] at h1
          have h2 : popsMeta x.item e = true := by simp [popsMeta, hx]
          have h3 : pushesMeta x.item e = false := by simp [pushesMeta, hx]
          rw [h2, h3] at h1
          simp at h1
          exact absurd ho ((C03_open_iff x.item pre).mpr ⟨[], pre, rfl, by omega⟩)
        · rfl
      · rfl
  obtain ⟨p1, p2⟩ := C04_stray_pops h hexp hrun
  let ts := (es.filterMap (fun e => match e.decl.item with
    | .pragma (.pushtag x) => some x.item
    | .pragma (.pushmeta kv) => some kv.key.item
    | _ => none))
  have hcover : ∀ (l : List (List Char)), ∃ l' : List (List Char), l'.Nodup ∧ ∀ x ∈ l, x ∈ l' := by
    intro l
    induction l with
    | nil => exact ⟨[], List.nodup_nil, fun _ h => h⟩
    | cons a l ih =>
      obtain ⟨l', h1, h2⟩ := ih
      by_cases ha : a ∈ l'
      · exact ⟨l', h1, fun x hx => by rcases List.mem_cons.mp hx with rfl | hx; exacts [ha, h2 x hx]⟩
      · exact ⟨a :: l', List.nodup_cons.mpr ⟨ha, h1⟩, fun x hx => by
          rcases List.mem_cons.mp hx with rfl | hx
          · simp
          · simp [h2 x hx]⟩
  obtain ⟨l, hl, hsub⟩ := hcover ts
  have q1 := C04_open_tags h hexp hrun l hl (fun e he x hx => hsub _ (List.mem_filterMap.mpr ⟨e, he, by rw [hx]⟩))
  have q2 := C04_open_metas h hexp hrun l hl (fun e he x hx => hsub _ (List.mem_filterMap.mpr ⟨e, he, by rw [hx]⟩))
  have e1 : l.flatMap (fun t => (openTags t es).map (·.span)) = [] := by
    rw [List.flatMap_eq_nil_iff]
    intro t _
    rw [C02_balanced t es (ht t)]; rfl
  have e2 : l.flatMap (fun k => ((openMetas k es).getLast?.map (·.1)).toList) = [] := by
    rw [List.flatMap_eq_nil_iff]
    intro t _
    rw [C03_balanced t es (hk t)]; rfl
  rw [e1] at q1
  rw [e2] at q2
  intro r hr
  exact ⟨nil_of _ q1.eq_nil r hr, nil_of _ (by rw [p1]; exact hstrayT es [] rfl) r hr,
    nil_of _ q2.eq_nil r hr, nil_of _ (by rw [p2]; exact hstrayM es [] rfl) r hr⟩

example : ∃ out data, processPragmas demoEnv none demoParsed (Options.new ParserOptions.default) = .ok (out, data) ∧
    located "invalid poptag".toList data.finalErrors = [demoSpan 12] ∧
    located "invalid popmeta".toList data.finalErrors = [demoSpan 8] ∧
    located "invalid pushtag".toList data.finalErrors = [demoSpan 1] ∧
    located "invalid pushmeta".toList data.finalErrors = [demoSpan 3] := ⟨_, _, rfl, by decide⟩

example (out data) (hrun : processPragmas demoEnv none demoParsed (Options.new ParserOptions.default) = .ok (out, data)) :
    (located "invalid pushtag".toList data.finalErrors).Perm [demoSpan 1] :=
  C04_open_tags demo_history demo_expanded hrun ["a".toList] (by decide) fun e he x hx => by
    have hall : demoHistory.all (fun e => match e.decl.item with
      | .pragma (.pushtag x) => decide (x.item ∈ ["a".toList])
      | _ => true) = true := by decide
    have := List.all_eq_true.mp hall e he
    rw [hx] at this
    simpa using this

/-! ### C06 -/

/-- C06: iterating always ends, whatever the include graph, and even if an include was not expanded. -/
theorem C06_terminates (options : Options) : processPragmas env root parsed options ≠ .err () := by
  unfold processPragmas
  split
  · intro h; cases h
  · rename_i st _
    have := collectFuel_enough env (st.size + 1) st (by omega)
    unfold PragmaState.collect
    cases hc : st.collectFuel env (st.size + 1) with
    | ok r => intro h; cases h
    | err e => exact absurd hc this
    | panic => intro h; cases h

/-- C06: the declarations of a file are met once, in order, if it is reached by includes, and else not at
all. -/
theorem C06_once (h : History env root parsed es visited) (q : Option Path) :
    (q ∈ visited → ∃ ds, AMap.get parsed q = some ds ∧
      (es.filter (fun e => decide (e.path = q))).map (·.decl) = ds) ∧
    (q ∉ visited → es.filter (fun e => decide (e.path = q)) = []) := by
  have hreach := C05_reached h q
  obtain ⟨decls, hd, hs⟩ := h
  have ho := hs.once (show TaskVisited [root] (.body root decls) by simp [TaskVisited]) q
  constructor
  · intro hq
    by_cases hqr : q = root
    · subst hqr
      exact ⟨decls, hd, by rw [ho]; simp [ownDecls]⟩
    · have : (AMap.get parsed q).isSome := by
        cases hreach.mp hq with
        | root => exact absurd rfl hqr
        | step p ds d g q _ _ _ _ _ hf => exact hf
      obtain ⟨ds, hds⟩ := Option.isSome_iff_exists.mp this
      refine ⟨ds, hds, ?_⟩
      rw [ho]
      have hne : ¬ root = q := fun e => hqr e.symm
      simp [ownDecls, hne, hq, hqr, hds]
  · intro hq
    have hqr : ¬ root = q := by
      rintro rfl
      exact hq (hs.mono _ (by simp))
    rw [← List.map_eq_nil_iff (f := (·.decl)), ho]
    simp [ownDecls, hqr, hq]

/-- C06: everything reported during the run, in order. -/
theorem C06_reports (h : History env root parsed es visited) (hexp : AllExpanded env parsed)
    (hrun : processPragmas env root parsed (Options.new p) = .ok (out, data)) :
    data.errors.map (fun r => (r.message, r.span)) = allReports env p [] es :=
  (History.inv h hexp hrun).errors

/-- The reports about the paths after `ps` continue those about `ps`. -/
theorem pathReports_split (files : FileMap) (pre : List Event) (span : Span) (ps qs : List Path) (q : Path) :
    ∀ (v : List (Option Path)) (opened : List (Path × List Event)),
      (q ∈ ps ∨ q ∉ fresh files v (ps ++ q :: qs)) →
      ∃ a b, pathReports env pre span opened (fresh files v (ps ++ q :: qs)) (ps ++ q :: qs) =
        a ++ notOpenedReport env (opened ++ (fresh files v ps).map (·, pre)) pre span q ++ b := by
  induction ps with
  | nil =>
    intro v opened h
    have hq : q ∉ fresh files v (q :: qs) := by
      rcases h with h | h
      · cases h
      · exact h
    simp only [List.nil_append]
    unfold pathReports
    rw [if_neg hq]
    exact ⟨[], _, by simp [fresh]; rfl⟩
  | cons r ps ih =>
    intro v opened h
    by_cases hr : (files (some r)).isSome ∧ some r ∉ v
    · have h1 : ∀ l, fresh files v (r :: l) = r :: fresh files (some r :: v) l := by
        intro l; rw [fresh, if_pos hr]
      rw [List.cons_append, h1, h1]
      unfold pathReports
      rw [if_pos (by simp), List.erase_cons_head]
      have hcond : q ∈ ps ∨ q ∉ fresh files (some r :: v) (ps ++ q :: qs) := by
        rcases h with h | h
        · rcases List.mem_cons.mp h with rfl | h
          · exact .inr fun hm => (fresh_mem hm).2.2 (by simp)
          · exact .inl h
        · rw [List.cons_append, h1] at h
          exact .inr fun hm => h (by simp [hm])
      obtain ⟨a, b, hab⟩ := ih (some r :: v) (opened ++ [(r, pre)]) hcond
      exact ⟨a, b, by rw [hab]; simp⟩
    · have h1 : ∀ l, fresh files v (r :: l) = fresh files v l := by
        intro l; rw [fresh, if_neg hr]
      rw [List.cons_append, h1, h1]
      unfold pathReports
      have hn : r ∉ fresh files v (ps ++ q :: qs) := fun hm => hr (fresh_mem hm).2
      rw [if_neg hn]
      have hcond : q ∈ ps ∨ q ∉ fresh files v (ps ++ q :: qs) := by
        rcases h with h | h
        · rcases List.mem_cons.mp h with rfl | h
          · exact .inr hn
          · exact .inl h
        · rw [List.cons_append, h1] at h
          exact .inr h
      obtain ⟨a, b, hab⟩ := ih v opened hcond
      exact ⟨notOpenedReport env opened pre span r ++ a, b, by rw [hab]; simp⟩

/-- C06: a file included but not opened by the include is either reported at the include as unreadable, or
ignored because the same tags and metadata were pushed when it was opened, or reported as duplicate include. -/
theorem C06_not_opened (h : History env root parsed es visited) (hexp : AllExpanded env parsed)
    (hrun : processPragmas env root parsed (Options.new p) = .ok (out, data))
    (pre : List Event) (e : Event) (post : List Event) (hes : es = pre ++ e :: post)
    (g : Spanned (List Char)) (hg : e.decl.item = .pragma (.include g))
    (ps : List Path) (q : Path) (qs : List Path)
    (hpaths : expansion (AMap.get env.globs) e.path g.item = ps ++ q :: qs)
    (hq : q ∈ ps ∨ q ∉ e.opened) :
    let opened := openings [] pre ++ (e.opened.filter (· ∈ ps)).map (·, pre)
    (∃ r ∈ data.errors, r.message = "can't read file".toList ∧ r.span = g.span ∧
      ∃ msg, AMap.get env.errorPaths (some q) = some msg) ∨
    (AMap.get env.errorPaths (some q) = none ∧ Harmless env.canonicalize opened pre q) ∨
    (∃ r ∈ data.errors, r.message = "duplicate include".toList ∧ r.span = g.span ∧
      AMap.get env.errorPaths (some q) = none ∧ ¬ Harmless env.canonicalize opened pre q) := by
  intro opened
  have hrep := C06_reports h hexp hrun
  obtain ⟨_, _, hok⟩ := History.run p h hexp hrun
  obtain ⟨v, ho⟩ : ∃ v, e.opened = fresh (AMap.get parsed) v (ps ++ q :: qs) := by
    rcases hok e (by rw [hes]; simp) with ⟨g', v, hg', ho⟩ | ⟨hn, _⟩
    · rw [hg] at hg'
      cases hg'
      exact ⟨v, by rw [ho, hpaths]⟩
    · exact absurd hg (hn g)
  have hsub : (fresh (AMap.get parsed) v (ps ++ q :: qs)).filter (· ∈ ps) = fresh (AMap.get parsed) v ps := by
    have key : ∀ (ps rest : List Path) (v : List (Option Path)), (fresh (AMap.get parsed) v (ps ++ rest)).filter (· ∈ ps) =
        fresh (AMap.get parsed) v ps := by
      intro ps rest
      have outside : ∀ (P : List Path) rest v, (∀ x ∈ P, some x ∈ v ∨ ¬ (AMap.get parsed (some x)).isSome) →
          (fresh (AMap.get parsed) v rest).filter (· ∈ P) = [] := by
        intro P rest v hP
        rw [List.filter_eq_nil_iff]
        intro x hx
        simp only [decide_eq_true_eq]
        intro hxP
        have := fresh_mem hx
        rcases hP x hxP with h | h
        · exact this.2.2 h
        · exact h this.2.1
      have gen : ∀ (ps P : List Path) (v : List (Option Path)),
          (∀ x ∈ P, x ∈ ps ∨ some x ∈ v ∨ ¬ (AMap.get parsed (some x)).isSome) → (∀ x ∈ ps, x ∈ P) →
          (fresh (AMap.get parsed) v (ps ++ rest)).filter (· ∈ P) = fresh (AMap.get parsed) v ps := by
        intro ps P
        induction ps with
        | nil =>
          intro v h1 _
          rw [List.nil_append, outside P rest v (fun x hx => by
            rcases h1 x hx with h | h
            · cases h
            · exact h)]
          rfl
        | cons r ps ih =>
          intro v h1 h2
          rw [List.cons_append, fresh, fresh]
          split
          · rw [List.filter_cons, if_pos (by simpa using h2 r (by simp))]
            congr 1
            refine ih (some r :: v) ?_ (fun x hx => h2 x (by simp [hx]))
            intro x hx
            rcases h1 x hx with h | h | h
            · rcases List.mem_cons.mp h with rfl | h
              · exact .inr (.inl (by simp))
              · exact .inl h
            · exact .inr (.inl (by simp [h]))
            · exact .inr (.inr h)
          · rename_i hc
            refine ih v ?_ (fun x hx => h2 x (by simp [hx]))
            intro x hx
            rcases h1 x hx with h | h | h
            · rcases List.mem_cons.mp h with rfl | h
              · by_cases hv : some x ∈ v
                · exact .inr (.inl hv)
                · exact .inr (.inr fun hf => hc ⟨hf, hv⟩)
              · exact .inl h
            · exact .inr (.inl h)
            · exact .inr (.inr h)
      intro v
      exact gen ps ps v (fun x hx => .inl hx) (fun x hx => hx)
    exact key ps (q :: qs) v
  have hop : opened = openings [] pre ++ (fresh (AMap.get parsed) v ps).map (·, pre) := by
    rw [← hsub, ← ho]
  obtain ⟨a, b, hab⟩ := pathReports_split (env := env) (AMap.get parsed) pre g.span ps qs q v (openings [] pre)
    (by rw [← ho]; exact hq)
  have hglob : AMap.get env.globs (resolveIncludedPath e.path (Path.ofStr g.item)) = some (.expanded (ps ++ q :: qs)) := by
    unfold expansion at hpaths
    split at hpaths
    · rename_i heq; rw [heq, hpaths]
    · simp at hpaths
  have hev : ∀ x ∈ notOpenedReport env opened pre g.span q, x ∈ allReports env p [] es := by
    intro x hx
    have h1 : x ∈ reports env p pre e := by
      unfold reports
      rw [hg]
      simp only [hglob]
      have : pathReports env pre g.span (openings [] pre) e.opened (ps ++ q :: qs) =
          a ++ notOpenedReport env opened pre g.span q ++ b := by rw [ho, hab, hop]
      cases ps with
      | nil => simp only [List.nil_append] at this ⊢; rw [this]; simp [hx]
      | cons r ps => simp only [List.cons_append] at this ⊢; rw [this]; simp [hx]
    have hsplit : ∀ (pre0 pre' : List Event), allReports env p pre0 (pre' ++ e :: post) =
        allReports env p pre0 pre' ++ (reports env p (pre0 ++ pre') e ++ allReports env p (pre0 ++ pre' ++ [e]) post) := by
      intro pre0 pre'
      induction pre' generalizing pre0 with
      | nil => simp [allReports]
      | cons c pre' ih => simp [allReports, ih]
    rw [hes, hsplit]
    simp [h1]
  rw [← hrep] at hev
  unfold notOpenedReport at hev
  by_cases h1 : ∃ msg, AMap.get env.errorPaths (some q) = some msg
  · rw [if_pos h1] at hev
    left
    obtain ⟨r, hr, he⟩ := List.mem_map.mp (hev _ List.mem_cons_self)
    simp only [Prod.mk.injEq] at he
    exact ⟨r, hr, he.1, he.2, h1⟩
  · have hnone : AMap.get env.errorPaths (some q) = none := by
      cases hc : AMap.get env.errorPaths (some q) with
      | none => rfl
      | some m => exact absurd ⟨m, hc⟩ h1
    rw [if_neg h1] at hev
    right
    by_cases h2 : Harmless env.canonicalize opened pre q
    · exact .inl ⟨hnone, h2⟩
    · rw [if_neg h2] at hev
      right
      obtain ⟨r, hr, he⟩ := List.mem_map.mp (hev _ List.mem_cons_self)
      simp only [Prod.mk.injEq] at he
      exact ⟨r, hr, he.1, he.2, hnone, h2⟩

/-- C06: no duplicate include is reported unless some include names a file it does not open, harmfully. -/
theorem C06_no_false_duplicate (h : History env root parsed es visited) (hexp : AllExpanded env parsed)
    (hrun : processPragmas env root parsed (Options.new p) = .ok (out, data))
    (hnone : ∀ e ∈ es, ∀ g, e.decl.item = .pragma (.include g) →
      expansion (AMap.get env.globs) e.path g.item = e.opened) :
    located "duplicate include".toList data.finalErrors = [] := by
  have hi := History.inv h hexp hrun
  have hnoreport : ∀ (pre : List Event) (span : Span) (paths : List Path) opened,
      pathReports env pre span opened paths paths = [] := by
    intro pre span paths
    induction paths with
    | nil => intro opened; rfl
    | cons q qs ih =>
      intro opened
      unfold pathReports
      rw [if_pos (by simp), List.erase_cons_head]
      exact ih _
  change located (str "duplicate include") _ = _
  rw [located_eq, finalErrors_msgs, pick_append, pick_append, hi.errors, pick_metas_ne _ (by decide),
    pick_tags_ne _ (by decide), List.append_nil, List.append_nil]
  have gen : ∀ (l pre : List Event), (∀ e ∈ l, e ∈ es) →
      pick (str "duplicate include") (allReports env p pre l) = [] := by
    intro l
    induction l with
    | nil => intro pre _; rfl
    | cons e l ih =>
      intro pre hsub
      unfold allReports
      rw [pick_append, ih _ (fun x hx => hsub x (by simp [hx])), List.append_nil]
      cases hd : e.decl.item with
      | directive d => simp [reports, hd, pick]
      | pragma pr =>
        cases pr with
        | «include» g =>
          have hexpand := hnone e (hsub e (by simp)) g hd
          unfold reports
          rw [hd]
          simp only
          split
          · refine pick_nil_of _ _ fun x hx => ?_
            simp only [List.mem_singleton] at hx; subst hx; simp only; decide
          · rename_i paths _ hp
            have : e.opened = paths := by
              rw [← hexpand]; unfold expansion; rw [hp]
            rw [this, hnoreport]
            rfl
          · refine pick_nil_of _ _ fun x hx => ?_
            simp only [List.mem_singleton] at hx; subst hx; simp only; decide
          · rfl
        | option o => exact pick_nil_of _ _ fun x hx => by rw [option_msgs hd x hx]; decide
        | popmeta x =>
          simp only [reports, hd]
          split
          · exact pick_nil_of _ _ fun x hx => by
              simp only [List.mem_singleton] at hx; subst hx; simp only; decide
          · rfl
        | poptag x =>
          simp only [reports, hd]
          split
          · exact pick_nil_of _ _ fun x hx => by
              simp only [List.mem_singleton] at hx; subst hx; simp only; decide
          · rfl
        | _ => simp [reports, hd, pick]
  exact gen es [] (fun _ h => h)

/-- The second include of `f` is met after `f` popped a tag, hence in another context. -/
example : ∃ out data, processPragmas demoEnv none demoParsed (Options.new ParserOptions.default) = .ok (out, data) ∧
    located "duplicate include".toList data.finalErrors = [demoSpan 6] := ⟨_, _, rfl, by decide⟩

example (out data) (hrun : processPragmas demoEnv none demoParsed (Options.new ParserOptions.default) = .ok (out, data)) :=
  C06_not_opened demo_history demo_expanded hrun (demoHistory.take 8)
    (demoEvent none [] ⟨.pragma (.include (demoTag 6 "f")), demoSpan 6⟩) (demoHistory.drop 9) rfl (demoTag 6 "f") rfl
    [] (demoPath "f") [] (by decide) (by decide)

example : demoHistory.filter (fun e => decide (e.path = some (demoPath "f"))) =
    demoFile.map (demoEvent (some (demoPath "f")) []) := rfl

/-! ### Options and plugins -/

/-- C37, C38: the options of a run are those of its option pragmas, in the order met; so are the plugins. -/
theorem C37_run (h : History env root parsed es visited) (hexp : AllExpanded env parsed)
    (hrun : processPragmas env root parsed (Options.new p) = .ok (out, data)) :
    data.options = optionsAfter p (optionHistory es) ∧
    data.plugins = es.filterMap (fun e => match e.decl.item with
      | .pragma (.plugin p) => some p
      | _ => none) :=
  ⟨(History.inv h hexp hrun).options, (History.inv h hexp hrun).plugins⟩

end

end Lima.Props
