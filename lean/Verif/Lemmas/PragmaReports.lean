import Verif.Lemmas.PragmaSplice

/-!
# Running the pragma processor, and its reports by message
-/

namespace Lima
open Lima.Spec

theorem process_history {env : PragmaEnv} {root : Option Path}
    {parsed : List (Option Path × List (Spanned Declaration))} (p : ParserOptions)
    (hroot : (AMap.get parsed root).isSome) (hexp : AllExpanded env parsed) :
    ∃ es visited out data, History env root parsed es visited ∧
      processPragmas env root parsed (Options.new p) = .ok (out, data) ∧
      data = es.foldl (applyEvent env)
        { includeBy := [], tags := [], metas := [], options := Options.new p, plugins := [], errors := [] } ∧
      outputs env
        { includeBy := [], tags := [], metas := [], options := Options.new p, plugins := [], errors := [] } es = some out := by
  obtain ⟨decls, hd⟩ := Option.isSome_iff_exists.mp hroot
  let st : PragmaState := {
      currentPath := root
      current := decls
      stacked := []
      remaining := AMap.erase parsed root
      data := { includeBy := [], tags := [], metas := [], options := Options.new p, plugins := [], errors := [] } }
  have hnew : PragmaState.new root parsed (Options.new p) = some st := by
    unfold PragmaState.new
    rw [hd]
  have hrem : RemInv (AMap.get parsed) st.remaining [root] := by
    intro q
    simp only [st, AMap.get_erase, List.mem_singleton]
    by_cases h : q = root
    · simp [h]
    · have : ¬ root = q := fun e => h e.symm
      simp [h, this]
  obtain ⟨es, v', k, xs, st', h1, h2, h3, _, _, h6, h7⟩ :=
    run_task (AMap.get parsed) env hexp _ (.body root decls) [] st [root] (Nat.lt_succ_self _)
      (.inr ⟨_, _, rfl⟩) (hexp root decls hd) rfl hrem (by intro e he; cases he)
  have hdone : st'.step env = .done := by
    have := state_of_frames (f := (root, [])) (fs := []) h3
    rw [this]
    rfl
  have hcol := h2.collect_done hdone
  refine ⟨es, v', xs, st'.data, ⟨decls, hd, h1⟩, ?_, h6, h7⟩
  unfold processPragmas
  rw [hnew]
  simp only [hcol, Res.map]

theorem History.det {env : PragmaEnv} {root : Option Path}
    {parsed : List (Option Path × List (Spanned Declaration))} {es es' v v'}
    (h : History env root parsed es v) (h' : History env root parsed es' v') : es = es' ∧ v = v' := by
  obtain ⟨d, hd, h⟩ := h
  obtain ⟨d', hd', h'⟩ := h'
  rw [hd] at hd'
  cases hd'
  exact h.det h'

theorem History.run {env : PragmaEnv} {root : Option Path}
    {parsed : List (Option Path × List (Spanned Declaration))} {es v} (p : ParserOptions)
    (h : History env root parsed es v) (hexp : AllExpanded env parsed) {out data}
    (hrun : processPragmas env root parsed (Options.new p) = .ok (out, data)) :
    data = es.foldl (applyEvent env)
        { includeBy := [], tags := [], metas := [], options := Options.new p, plugins := [], errors := [] } ∧
    outputs env
        { includeBy := [], tags := [], metas := [], options := Options.new p, plugins := [], errors := [] } es = some out ∧
    ∀ e ∈ es, EventOK (AMap.get parsed) (expansion (AMap.get env.globs)) e := by
  obtain ⟨d, hd, hs⟩ := h
  obtain ⟨es', v', out', data', h1, h2, h3, h4⟩ := process_history p (root := root) (by rw [hd]; rfl) hexp
  obtain ⟨rfl, rfl⟩ := History.det ⟨d, hd, hs⟩ h1
  rw [hrun] at h2
  cases h2
  exact ⟨h3, h4, hs.eventOK⟩

theorem History.inv {env : PragmaEnv} {root : Option Path}
    {parsed : List (Option Path × List (Spanned Declaration))} {es v} {p : ParserOptions}
    (h : History env root parsed es v) (hexp : AllExpanded env parsed) {out data}
    (hrun : processPragmas env root parsed (Options.new p) = .ok (out, data)) : DataInv env p es data := by
  obtain ⟨h1, _, h3⟩ := History.run p h hexp hrun
  rw [h1]
  exact DataInv.after h3

/-- The directive at an event, as emitted. -/
theorem History.emitted {env : PragmaEnv} {root : Option Path}
    {parsed : List (Option Path × List (Spanned Declaration))} {es v} {p : ParserOptions}
    (h : History env root parsed es v) (hexp : AllExpanded env parsed) {out data}
    (hrun : processPragmas env root parsed (Options.new p) = .ok (out, data))
    {pre post : List Event} {e : Event} {y : Spanned Directive} (hes : es = pre ++ e :: post)
    (he : directiveOf e = some y) :
    ∃ d x, DataInv env p pre d ∧ d.augment y.item = some x ∧ out[(directives pre).length]? = some ⟨x, y.span⟩ := by
  obtain ⟨_, h2, h3⟩ := History.run p h hexp hrun
  subst hes
  obtain ⟨x, hx, ho⟩ := outputs_at h2 he
  exact ⟨_, x, DataInv.after (files := AMap.get parsed) (fun e he => h3 e (by simp [he])), hx, ho⟩

theorem augment_fields {d : PragmaData} {y x : Directive} (h : d.augment y = some x) :
    x.date = y.date ∧ x.variant = y.variant ∧ x.metadata.span = y.metadata.span ∧
    x.metadata.item.links = y.metadata.item.links ∧
    x.metadata.item.tags = augmentTags y.metadata.item.tags d.tags ∧
    augmentKeyValues y.metadata.item.keyValues d.metas = some x.metadata.item.keyValues := by
  unfold PragmaData.augment at h
  split at h
  · cases h
  · rename_i kvs hk
    cases h
    exact ⟨rfl, rfl, rfl, rfl, rfl, hk⟩

/-! ### Reports by message -/

/-- Locations of pairs with a given message. -/
def pick (m : Str) (l : List (Str × Span)) : List Span := (l.filter (fun r => decide (r.1 = m))).map (·.2)

theorem located_eq (m : Str) (l : List Report) : located m l = pick m (msgs l) := by
  unfold located pick msgs
  induction l with
  | nil => rfl
  | cons r l ih =>
    simp only [List.map_cons, List.filter_cons]
    split <;> simp [ih]

theorem pick_append (m : Str) (l l' : List (Str × Span)) : pick m (l ++ l') = pick m l ++ pick m l' := by
  simp [pick]

theorem pick_nil_of (m : Str) (l : List (Str × Span)) (h : ∀ x ∈ l, x.1 ≠ m) : pick m l = [] := by
  unfold pick
  rw [List.filter_eq_nil_iff.mpr (fun x hx => by simpa using h x hx)]
  rfl

theorem notOpenedReport_msg {env : PragmaEnv} {opened pre span p} :
    ∀ x ∈ notOpenedReport env opened pre span p, x.1 = str "can't read file" ∨ x.1 = str "duplicate include" := by
  intro x hx
  unfold notOpenedReport at hx
  split at hx
  · simp at hx; subst hx; exact .inl rfl
  · split at hx
    · cases hx
    · simp at hx; subst hx; exact .inr rfl

theorem pathReports_msg {env : PragmaEnv} {pre span} (paths : List Path) (opened toOpen) :
    ∀ x ∈ pathReports env pre span opened toOpen paths,
      x.1 = str "can't read file" ∨ x.1 = str "duplicate include" := by
  induction paths generalizing opened toOpen with
  | nil => intro x hx; cases hx
  | cons q qs ih =>
    intro x hx
    unfold pathReports at hx
    split at hx
    · exact ih _ _ x hx
    · rcases List.mem_append.mp hx with hx | hx
      · exact notOpenedReport_msg x hx
      · exact ih _ _ x hx

theorem option_msg (o : Options) (opt : BOption) (r : Report) (h : (o.assimilate opt).2 = some r) :
    r.message = str "invalid option" := by
  rw [Props.report_assimilate] at h
  cases hs : settingOf opt.variant with
  | none => rw [hs] at h; cases h
  | some s =>
    rw [hs] at h
    simp only [Option.bind_some, Option.map_eq_some_iff] at h
    obtain ⟨first, _, rfl⟩ := h
    split <;> rfl

/-- The messages of the reports at an include. -/
theorem include_msgs {env : PragmaEnv} {p : ParserOptions} {pre : List Event} {e : Event} {g : Spanned Str}
    (hd : e.decl.item = .pragma (.include g)) : ∀ x ∈ reports env p pre e,
      x.1 = str "include failed" ∨ x.1 = str "can't expand glob" ∨
      x.1 = str "can't read file" ∨ x.1 = str "duplicate include" := by
  intro x hx
  unfold reports at hx
  rw [hd] at hx
  simp only at hx
  split at hx
  · simp at hx; subst hx; exact .inl rfl
  · rcases pathReports_msg _ _ _ x hx with h | h
    · exact .inr (.inr (.inl h))
    · exact .inr (.inr (.inr h))
  · simp at hx; subst hx; exact .inr (.inl rfl)
  · cases hx

theorem option_msgs {env : PragmaEnv} {p : ParserOptions} {pre : List Event} {e : Event} {o : BOption}
    (hd : e.decl.item = .pragma (.option o)) : ∀ x ∈ reports env p pre e, x.1 = str "invalid option" := by
  intro x hx
  unfold reports at hx
  rw [hd] at hx
  simp only [Option.mem_toList] at hx
  obtain ⟨r, hr, rfl⟩ := Option.map_eq_some_iff.mp hx
  exact option_msg _ _ _ hr

theorem pick_poptag (env : PragmaEnv) (p : ParserOptions) (pre es : List Event) :
    pick (str "invalid poptag") (allReports env p pre es) = strayTagPops pre es := by
  induction es generalizing pre with
  | nil => rfl
  | cons e es ih =>
    unfold allReports strayTagPops
    rw [pick_append, ih]
    congr 1
    cases hd : e.decl.item with
    | directive d => simp [reports, hd, pick]
    | pragma pr =>
      cases pr with
      | «include» g =>
        exact pick_nil_of _ _ fun x hx => by
          rcases include_msgs hd x hx with h | h | h | h <;> rw [h] <;> decide
      | option o => exact pick_nil_of _ _ fun x hx => by rw [option_msgs hd x hx]; decide
      | poptag x =>
        simp only [reports, hd]
        split
        · rfl
        · rfl
      | popmeta x =>
        simp only [reports, hd]
        split
        · exact pick_nil_of _ _ fun x hx => by
            simp only [List.mem_singleton] at hx; subst hx; simp only; decide
        · rfl
      | _ => simp [reports, hd, pick]

theorem pick_popmeta (env : PragmaEnv) (p : ParserOptions) (pre es : List Event) :
    pick (str "invalid popmeta") (allReports env p pre es) = strayMetaPops pre es := by
  induction es generalizing pre with
  | nil => rfl
  | cons e es ih =>
    unfold allReports strayMetaPops
    rw [pick_append, ih]
    congr 1
    cases hd : e.decl.item with
    | directive d => simp [reports, hd, pick]
    | pragma pr =>
      cases pr with
      | «include» g =>
        exact pick_nil_of _ _ fun x hx => by
          rcases include_msgs hd x hx with h | h | h | h <;> rw [h] <;> decide
      | option o => exact pick_nil_of _ _ fun x hx => by rw [option_msgs hd x hx]; decide
      | popmeta x =>
        simp only [reports, hd]
        split
        · rfl
        · rfl
      | poptag x =>
        simp only [reports, hd]
        split
        · exact pick_nil_of _ _ fun x hx => by
            simp only [List.mem_singleton] at hx; subst hx; simp only; decide
        · rfl
      | _ => simp [reports, hd, pick]

/-- What is reported along the way never blames a push. -/
theorem pick_push (env : PragmaEnv) (p : ParserOptions) (pre es : List Event) (m : Str)
    (hm : m = str "invalid pushtag" ∨ m = str "invalid pushmeta") :
    pick m (allReports env p pre es) = [] := by
  have ne : ∀ y : Str, y = str "include failed" ∨ y = str "can't expand glob" ∨ y = str "can't read file" ∨
      y = str "duplicate include" ∨ y = str "invalid option" ∨ y = str "invalid poptag" ∨
      y = str "invalid popmeta" → y ≠ m := by
    intro y hy
    rcases hm with rfl | rfl <;> rcases hy with rfl | rfl | rfl | rfl | rfl | rfl | rfl <;> decide
  induction es generalizing pre with
  | nil => rfl
  | cons e es ih =>
    unfold allReports
    rw [pick_append, ih, List.append_nil]
    cases hd : e.decl.item with
    | directive d => simp [reports, hd, pick]
    | pragma pr =>
      cases pr with
      | «include» g =>
        exact pick_nil_of _ _ fun x hx => by
          rcases include_msgs hd x hx with h | h | h | h
          · exact ne _ (.inl h)
          · exact ne _ (.inr (.inl h))
          · exact ne _ (.inr (.inr (.inl h)))
          · exact ne _ (.inr (.inr (.inr (.inl h))))
      | option o => exact pick_nil_of _ _ fun x hx => ne _ (.inr (.inr (.inr (.inr (.inl (option_msgs hd x hx))))))
      | popmeta x =>
        simp only [reports, hd]
        split
        · exact pick_nil_of _ _ fun x hx => by
            simp only [List.mem_singleton] at hx; subst hx; exact ne _ (.inr (.inr (.inr (.inr (.inr (.inr rfl))))))
        · rfl
      | poptag x =>
        simp only [reports, hd]
        split
        · exact pick_nil_of _ _ fun x hx => by
            simp only [List.mem_singleton] at hx; subst hx; exact ne _ (.inr (.inr (.inr (.inr (.inr (.inl rfl))))))
        · rfl
      | _ => simp [reports, hd, pick]

/-! ### Errors at the end -/

theorem finalErrors_msgs (d : PragmaData) : msgs d.finalErrors = msgs d.errors ++
    d.metas.map (fun e => (str "invalid pushmeta", e.1.span)) ++
    d.tags.flatMap (fun e => (e.1 :: e.2).map (fun t => (str "invalid pushtag", t.span))) := by
  unfold PragmaData.finalErrors msgs
  simp [List.map_flatMap, Report.new, Function.comp_def]

theorem pick_metas_ne (m : Str) (hm : m ≠ str "invalid pushmeta") (l : MetaStacks) :
    pick m (l.map (fun e => (str "invalid pushmeta", e.1.span))) = [] :=
  pick_nil_of _ _ fun x hx => by
    obtain ⟨e, _, rfl⟩ := List.mem_map.mp hx
    exact fun h => hm h.symm

theorem pick_tags_ne (m : Str) (hm : m ≠ str "invalid pushtag") (l : TagStacks) :
    pick m (l.flatMap (fun e => (e.1 :: e.2).map (fun t => (str "invalid pushtag", t.span)))) = [] :=
  pick_nil_of _ _ fun x hx => by
    obtain ⟨e, _, hx⟩ := List.mem_flatMap.mp hx
    obtain ⟨t, _, rfl⟩ := List.mem_map.mp hx
    exact fun h => hm h.symm

theorem pick_metas_eq (l : MetaStacks) :
    pick (str "invalid pushmeta") (l.map (fun e => (str "invalid pushmeta", e.1.span))) = l.map (·.1.span) := by
  unfold pick
  rw [List.filter_eq_self.mpr]
  · simp
  · intro x hx
    obtain ⟨e, _, rfl⟩ := List.mem_map.mp hx
    simp

theorem pick_tags_eq (l : TagStacks) :
    pick (str "invalid pushtag") (l.flatMap (fun e => (e.1 :: e.2).map (fun t => (str "invalid pushtag", t.span)))) =
      l.flatMap (fun e => (e.1 :: e.2).map (·.span)) := by
  unfold pick
  rw [List.filter_eq_self.mpr]
  · simp [List.map_flatMap, Function.comp_def]
  · intro x hx
    obtain ⟨e, _, hx⟩ := List.mem_flatMap.mp hx
    obtain ⟨t, _, rfl⟩ := List.mem_map.mp hx
    simp

/-- A map with distinct keys, seen through a function of the key that is empty elsewhere. -/
theorem flatMap_perm {β ν : Type} (m : List (Spanned Str × ν)) (hm : SMap.Nodup m) (f : Str → List β)
    (ts : List Str) (hts : ts.Nodup) (hcover : ∀ e ∈ m, e.1.item ∈ ts)
    (hempty : ∀ t ∈ ts, (∀ e ∈ m, e.1.item ≠ t) → f t = []) :
    List.Perm (m.flatMap (fun e => f e.1.item)) (ts.flatMap f) := by
  have h1 : m.flatMap (fun e => f e.1.item) = (m.map (·.1.item)).flatMap f := by
    rw [List.flatMap_map]
  have h2 : ts.flatMap f = (ts.filter (fun t => decide (t ∈ m.map (·.1.item)))).flatMap f := by
    clear hcover hts
    induction ts with
    | nil => rfl
    | cons t ts ih =>
      have ih' := ih (fun t ht => hempty t (by simp [ht]))
      rw [List.filter_cons, List.flatMap_cons, ih']
      split
      · rw [List.flatMap_cons]
      · rename_i hn
        have : f t = [] := hempty t (by simp) (fun e he hk =>
          hn (by simp only [decide_eq_true_eq]; exact List.mem_map.mpr ⟨e, he, hk⟩))
        rw [this, List.nil_append]
  rw [h1, h2]
  refine List.Perm.flatMap_right f ?_
  rw [List.perm_ext_iff_of_nodup hm (hts.filter _)]
  intro t
  simp only [List.mem_filter, decide_eq_true_eq]
  constructor
  · intro h
    obtain ⟨e, he, rfl⟩ := List.mem_map.mp h
    exact ⟨hcover e he, h⟩
  · exact fun h => h.2

theorem perm_reverse_flatMap {β ν : Type} (m : List ν) (f g : ν → List β)
    (h : ∀ e ∈ m, List.Perm (f e) (g e)) : List.Perm (m.flatMap f) (m.flatMap g) := by
  induction m with
  | nil => exact .refl _
  | cons a m ih =>
    rw [List.flatMap_cons, List.flatMap_cons]
    exact (h a (by simp)).append (ih (fun e he => h e (by simp [he])))

end Lima
