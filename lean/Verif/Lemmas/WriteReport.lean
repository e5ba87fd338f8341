import Mathlib.Tactic.ByContra
import Verif.Spec.WriteReport
import Verif.Lemmas.BinarySearch
import Verif.Props.Synthetic

/-! # What reports are drawn with -/

namespace Lima
open Lima.Spec Lima.Props

variable {fs : FileSystem} {tokens : Str → List Ranged} {rootPath : Option Path} {rootContent : Str}

/-- How a label follows from its span. -/
def LabelOf (adjusted : Span → Option (Str × Str × Span × Span)) (e : Str × Span) (l : Label) : Prop :=
  l.message = e.1 ∧ l.start ≤ l.stop ∧ ∃ text bs, adjusted e.2 = some (text, l.source, bs, ⟨bs.source, l.start, l.stop⟩)

/-- Spans can be looked up, and end after they start. -/
def Adjusts (adjusted : Span → Option (Str × Str × Span × Span)) : Prop :=
  ∀ span, ∃ text name bs a b, adjusted span = some (text, name, bs, ⟨bs.source, a, b⟩) ∧ a ≤ b

theorem labelFor_ok {adjusted : Span → Option (Str × Str × Span × Span)} (h : Adjusts adjusted) (m : Str)
    (c : Colour) (span : Span) :
    ∃ l, labelFor adjusted m c span = some l ∧ LabelOf adjusted (m, span) l ∧ l.colour = c := by
  obtain ⟨text, name, bs, a, b, h1, h2⟩ := h span
  refine ⟨⟨name, a, b, m, c⟩, ?_, ⟨rfl, h2, text, bs, h1⟩, rfl⟩
  unfold labelFor
  simp only [h1, h2, if_true]

theorem labelsFor_ok {adjusted : Span → Option (Str × Str × Span × Span)} (h : Adjusts adjusted) (c : Colour)
    (es : List (Str × Span)) :
    ∃ ls, labelsFor adjusted c es = some ls ∧ List.Forall₂ (LabelOf adjusted) es ls ∧ ∀ l ∈ ls, l.colour = c := by
  induction es with
  | nil => exact ⟨[], rfl, .nil, by simp⟩
  | cons e es ih =>
    obtain ⟨m, span⟩ := e
    obtain ⟨l, h1, h2, h3⟩ := labelFor_ok h m c span
    obtain ⟨ls, g1, g2, g3⟩ := ih
    refine ⟨l :: ls, ?_, .cons h2 g2, ?_⟩
    · unfold labelsFor
      simp only [h1, g1]
    · intro l' hl'
      rcases List.mem_cons.mp hl' with rfl | hl'
      · exact h3
      · exact g3 l' hl'

theorem drawReport_ok {adjusted : Span → Option (Str × Str × Span × Span)} (h : Adjusts adjusted)
    (files : List (Str × Str)) (kind : ReportKind) (report : Report) :
    ∃ d, drawReport adjusted files kind report = some d ∧ d.kind = kind ∧ d.message = report.message ∧
      d.files = files ∧ List.Forall₂ (LabelOf adjusted) (pointedAt report) d.labels ∧
      (d.labels.head?.map fun l => (l.source, l.start, l.stop)) = some (d.source, d.start, d.stop) ∧
      (d.labels.map (·.colour) = kind.colour :: List.replicate (d.labels.length - 1) .yellow) := by
  obtain ⟨l, h1, h2, h3⟩ := labelFor_ok h report.reason kind.colour report.span
  obtain ⟨cs, g1, g2, g3⟩ := labelsFor_ok h .yellow (report.contextsIter.map (fun c => (str "in this " ++ c.1, c.2)))
  obtain ⟨rs, k1, k2, k3⟩ := labelsFor_ok h .yellow report.relatedIter
  have hd : drawReport adjusted files kind report =
      some ⟨kind, l.source, l.start, l.stop, report.message, l :: cs ++ rs, files⟩ := by
    unfold drawReport; simp only [h1, g1, k1]
  refine ⟨_, hd, rfl, rfl, rfl, .cons h2 (List.rel_append g2 k2), rfl, ?_⟩
  simp only [List.cons_append, List.map_cons, h3, List.length_cons, Nat.add_sub_cancel, List.cons.injEq, true_and]
  rw [List.eq_replicate_iff]
  refine ⟨by simp, ?_⟩
  intro c hc
  obtain ⟨x, hx, rfl⟩ := List.mem_map.mp hc
  rcases List.mem_append.mp hx with hx | hx
  · exact g3 x hx
  · exact k3 x hx

/-- Looking up a span in what was read. -/
theorem adjusts_read [Unicode] [PartitionPoint] (hwf : GlobsWF fs) :
    Adjusts (readWithIncludes fs tokens rootPath rootContent).adjusted := by
  intro span
  obtain ⟨r, hr⟩ := C11_never_panics (fs := fs) (tokens := tokens) (rootPath := rootPath)
    (rootContent := rootContent) hwf span
  unfold Sources.resolveSpan at hr
  have hform : ∀ text name bs rs, (readWithIncludes fs tokens rootPath rootContent).adjusted span =
      some (text, name, bs, rs) → rs.source = bs.source := by
    intro text name bs rs h
    unfold Sources.adjusted at h
    dsimp only at h
    split at h
    · cases h
    · split at h
      · cases h
      · split at h
        · cases h
        · cases h; rfl
  split at hr
  · cases hr
  · rename_i text name bs rs h
    have hs := hform _ _ _ _ h
    simp only [resolveLines] at hr
    by_cases hle : rs.start ≤ rs.stop
    · refine ⟨text, name, bs, rs.start, rs.stop, ?_, hle⟩
      rw [h, ← hs]
    · rw [if_neg hle] at hr; cases hr

/-- Looking up a span when there are synthetic ones. -/
theorem adjusts_synthetic [Unicode] [MonotonePoint] {S : Sources} {ops : List (Str × Str)} {s : Synthetic}
    (inv : SInv S ops s) (hS : Adjusts S.adjusted) : Adjusts s.adjusted := by
  intro span
  unfold Synthetic.adjusted
  by_cases hc : span.source ≥ s.baseId ∧ span.source < s.baseId + s.ids.length
  · rw [if_pos hc]
    have hk : span.source - s.baseId < s.ids.length := by omega
    rw [List.getElem?_eq_getElem hk]
    have hname : s.ids[span.source - s.baseId] ∈ ops.map (·.1) := by
      by_contra hn
      exact (inv.absent _ hn).2 (List.getElem_mem hk)
    obtain ⟨k, ix, _, h2, _⟩ := inv.present _ hname
    simp only [h2]
    obtain ⟨bs, hbs⟩ := Option.isSome_iff_exists.mp
      (trimmedSpan_isSome (syntheticText s.ids[span.source - s.baseId] ops) span)
    simp only [hbs]
    refine ⟨_, _, bs, _, _, rfl, ?_⟩
    apply MonotonePoint.point_mono
    intro x hx
    have := trimmedSpan_le _ _ _ hbs
    simp only [decide_eq_true_eq] at hx ⊢
    omega
  · rw [if_neg hc, inv.sources]
    exact hS span

/-- The table of sources. -/
theorem filesOf_ok (ids : List Str) (content : List (Path × IncludedSource))
    (h : ∀ p id text ix, (p, IncludedSource.content id text ix) ∈ content → ids[id]? = some p.render) :
    ∃ files, Sources.filesOf ids content = some files ∧ ∀ name text, (name, text) ∈ files ↔
      ∃ p id ix, name = p.render ∧ (p, IncludedSource.content id text ix) ∈ content := by
  induction content with
  | nil => exact ⟨[], rfl, by simp⟩
  | cons e content ih =>
    obtain ⟨files, h1, h2⟩ := ih (fun p id text ix hm => h p id text ix (by simp [hm]))
    obtain ⟨p, x⟩ := e
    cases x with
    | content id text ix =>
      have := h p id text ix (by simp)
      refine ⟨(p.render, text) :: files, by unfold Sources.filesOf; simp only [this, h1], ?_⟩
      intro name t
      rw [List.mem_cons, h2]
      constructor
      · rintro (h | ⟨q, i, j, hq, hm⟩)
        · cases h
          exact ⟨p, id, ix, rfl, by simp⟩
        · exact ⟨q, i, j, hq, by simp [hm]⟩
      · rintro ⟨q, i, j, hq, hm⟩
        rcases List.mem_cons.mp hm with hm | hm
        · cases hm; left; rw [hq]
        · exact .inr ⟨q, i, j, hq, hm⟩
    | error m =>
      refine ⟨files, by unfold Sources.filesOf; exact h1, ?_⟩
      intro name t
      rw [h2]
      simp
    | duplicate =>
      refine ⟨files, by unfold Sources.filesOf; exact h1, ?_⟩
      intro name t
      rw [h2]
      simp

/-- The table holds exactly the sources read, by name. -/
theorem files_read (hwf : GlobsWF fs) :
    ∃ files, (readWithIncludes fs tokens rootPath rootContent).files = some files ∧
      ∀ name text, (name, text) ∈ files ↔
        ∃ id path, IsSource (readWithIncludes fs tokens rootPath rootContent) id path text ∧
          name = writtenName path := by
  have inv := readLoop_inv (fs := fs) (tokens := tokens) (rootPath := rootPath) (rootContent := rootContent) hwf
  have hids : (readWithIncludes fs tokens rootPath rootContent).ids =
      (rootPath.map Path.render).getD (str "inline") ::
        (readWithIncludes fs tokens rootPath rootContent).reads.map Path.render := inv.ids
  have hroot : (rootPath.map Path.render).getD (str "inline") = writtenName rootPath := by
    cases rootPath <;> rfl
  obtain ⟨files, h1, h2⟩ := filesOf_ok (readWithIncludes fs tokens rootPath rootContent).ids
    (readWithIncludes fs tokens rootPath rootContent).content (by
      intro p id text ix hm
      obtain ⟨k1, k2, _, _⟩ := inv.entry p id text ix hm
      obtain ⟨k, rfl⟩ : ∃ k, id = k + 1 := ⟨id - 1, by omega⟩
      rw [hids]
      simp only [Nat.add_sub_cancel] at k2
      have k2' : (readWithIncludes fs tokens rootPath rootContent).reads[k]? = some p := k2
      simp [k2'])
  refine ⟨(writtenName rootPath, rootContent) :: files, ?_, ?_⟩
  · unfold Sources.files
    have : (readWithIncludes fs tokens rootPath rootContent).ids[0]? = some (writtenName rootPath) := by
      rw [hids, ← hroot]; rfl
    rw [this, h1]
    rfl
  · intro name text
    rw [List.mem_cons, h2]
    constructor
    · rintro (h | ⟨p, id, ix, h, hm⟩)
      · cases h
        exact ⟨0, rootPath, .inl ⟨rfl, rfl, rfl⟩, rfl⟩
      · exact ⟨id, some p, .inr ⟨p, ix, rfl, hm⟩, h⟩
    · rintro ⟨id, path, ⟨h0, rfl, rfl⟩ | ⟨p, ix, rfl, hm⟩, h⟩
      · left; rw [h]
      · exact .inr ⟨p, id, ix, h, hm⟩

theorem labels_messages {adjusted : Span → Option (Str × Str × Span × Span)} {es : List (Str × Span)}
    {ls : List Label} (h : List.Forall₂ (LabelOf adjusted) es ls) : ls.map (·.message) = es.map (·.1) := by
  induction h with
  | nil => rfl
  | cons h _ ih => rw [List.map_cons, List.map_cons, ih, h.1]

theorem labels_ordered {adjusted : Span → Option (Str × Str × Span × Span)} {es : List (Str × Span)}
    {ls : List Label} (h : List.Forall₂ (LabelOf adjusted) es ls) : ∀ l ∈ ls, l.start ≤ l.stop := by
  induction h with
  | nil => simp
  | cons h _ ih =>
    intro l hl
    rcases List.mem_cons.mp hl with rfl | hl
    · exact h.2.1
    · exact ih l hl

theorem writeAll_performs {σ ε : Type} (write : Writer σ ε) (draw : Report → Option Drawing)
    (h : ∀ r, ∃ d, draw r = some d) (w : σ) (es : List Annotated) :
    ∃ ds, List.Forall₂ (fun (e : Annotated) d => draw e.report = some d) es ds ∧
      Performs write w (expectedOps (es.zip ds)) (writeAll write draw w es) := by
  induction es generalizing w with
  | nil => exact ⟨[], .nil, .nil w⟩
  | cons e es ih =>
    obtain ⟨d, hd⟩ := h e.report
    unfold writeAll
    simp only [hd]
    cases hw : write w (.drawing d) with
    | mk w1 r =>
      cases r with
      | some err =>
        obtain ⟨ds, h1, _⟩ := ih w1
        exact ⟨d :: ds, .cons hd h1, .fail w w1 _ _ err hw⟩
      | none =>
        cases ha : e.annotation with
        | none =>
          obtain ⟨ds, h1, h2⟩ := ih w1
          refine ⟨d :: ds, .cons hd h1, .next w w1 _ _ _ hw ?_⟩
          simp only [ha, List.nil_append]
          exact h2
        | some a =>
          cases hw' : write w1 (.text (a ++ str "\n")) with
          | mk w2 r =>
            cases r with
            | some err =>
              obtain ⟨ds, h1, _⟩ := ih w2
              refine ⟨d :: ds, .cons hd h1, .next w w1 _ _ _ hw ?_⟩
              simp only [ha, hw', List.cons_append]
              exact .fail w1 w2 _ _ err hw'
            | none =>
              obtain ⟨ds, h1, h2⟩ := ih w2
              refine ⟨d :: ds, .cons hd h1, .next w w1 _ _ _ hw ?_⟩
              simp only [ha, hw', List.cons_append, List.nil_append]
              exact .next w1 w2 _ _ _ hw' h2

/-- The names of synthetic sources are recorded once. -/
theorem synthetic_keys (s : Synthetic) (ops : List (Str × Str)) (h : (s.content.map (·.1)).Nodup) :
    ((syntheticRun s ops).content.map (·.1)).Nodup := by
  induction ops generalizing s with
  | nil => exact h
  | cons o ops ih =>
    refine ih (s.create o.1 o.2).2 ?_
    unfold Synthetic.create
    split <;> exact AMap.keys_insert _ _ _ h

/-- The table with synthetic sources: the files, and each synthetic source with its text. -/
theorem files_synthetic {S : Sources} {files : List (Str × Str)} (hf : S.files = some files)
    (ops : List (Str × Str)) :
    ∃ all, (syntheticRun (Synthetic.new S) ops).files = some all ∧ ∀ name text, (name, text) ∈ all ↔
      (name, text) ∈ files ∨ (name ∈ ops.map (·.1) ∧ text = syntheticText name ops) := by
  have inv := (SInv.new S).run ops
  rw [List.nil_append] at inv
  have hn := synthetic_keys (Synthetic.new S) ops (by simp [Synthetic.new])
  refine ⟨_, by unfold Synthetic.files; rw [inv.sources, hf], ?_⟩
  intro name text
  rw [List.mem_append, List.mem_map]
  refine or_congr_right ?_
  constructor
  · rintro ⟨e, he, h⟩
    obtain ⟨n, x⟩ := e
    simp only [Prod.mk.injEq] at h
    obtain ⟨rfl, rfl⟩ := h
    have hg := AMap.get_of_mem hn he
    by_cases hm : n ∈ ops.map (·.1)
    · obtain ⟨k, ix, _, h2, _⟩ := inv.present n hm
      rw [hg] at h2
      simp only [Option.some.injEq] at h2
      exact ⟨hm, by rw [h2]⟩
    · rw [(inv.absent n hm).1] at hg; cases hg
  · rintro ⟨hm, rfl⟩
    obtain ⟨k, ix, _, h2, _⟩ := inv.present name hm
    exact ⟨_, AMap.mem_of_get h2, rfl⟩

/-- Below the identifiers of synthetic sources, spans are looked up among the files. -/
theorem synthetic_adjusted_file [Unicode] [PartitionPoint] (S : Sources) (ops : List (Str × Str)) (span : Span)
    (h : span.source < S.ids.length) :
    (syntheticRun (Synthetic.new S) ops).adjusted span = S.adjusted span := by
  have inv := (SInv.new S).run ops
  rw [List.nil_append] at inv
  unfold Synthetic.adjusted
  rw [if_neg (by rw [inv.base]; omega), inv.sources]

/-- The label is where the span was found. -/
def Follows (adjusted : Span → Option (Str × Str × Span × Span)) (e : Str × Span) (l : Label) : Prop :=
  ∀ text name bs rs, adjusted e.2 = some (text, name, bs, rs) →
    l.message = e.1 ∧ l.source = name ∧ l.start = rs.start ∧ l.stop = rs.stop

theorem labelFor_follows {adjusted : Span → Option (Str × Str × Span × Span)} {m : Str} {c : Colour} {span : Span}
    {l : Label} (h : labelFor adjusted m c span = some l) : Follows adjusted (m, span) l := by
  intro text name bs rs ha
  unfold labelFor at h
  simp only at ha
  simp only [ha] at h
  split at h
  · cases h; exact ⟨rfl, rfl, rfl, rfl⟩
  · cases h

theorem labelsFor_follows {adjusted : Span → Option (Str × Str × Span × Span)} {c : Colour} {es : List (Str × Span)}
    {ls : List Label} (h : labelsFor adjusted c es = some ls) : List.Forall₂ (Follows adjusted) es ls := by
  induction es generalizing ls with
  | nil => cases h; exact .nil
  | cons e es ih =>
    obtain ⟨m, span⟩ := e
    unfold labelsFor at h
    cases h1 : labelFor adjusted m c span with
    | none => simp [h1] at h
    | some l =>
      cases h2 : labelsFor adjusted c es with
      | none => simp [h1, h2] at h
      | some ls' =>
        simp only [h1, h2, Option.some.injEq] at h
        subst h
        exact .cons (labelFor_follows h1) (ih h2)

theorem forall₂_get {α β : Type} {R : α → β → Prop} {as : List α} {bs : List β} (h : List.Forall₂ R as bs) {i : Nat}
    {a : α} (hi : as[i]? = some a) : ∃ b, bs[i]? = some b ∧ R a b := by
  induction h generalizing i with
  | nil => cases hi
  | cons h _ ih =>
    cases i with
    | zero => cases hi; exact ⟨_, rfl, h⟩
    | succ i => exact ih hi

/-- Labels come from the spans pointed at. -/
theorem drawn_label {adjusted : Span → Option (Str × Str × Span × Span)} {files : List (Str × Str)} {kind : ReportKind}
    {report : Report} {d : Drawing} (hd : drawReport adjusted files kind report = some d)
    {i : Nat} {m : Str} {span : Span} (hi : (pointedAt report)[i]? = some (m, span))
    {text name : Str} {bs rs : Span} (hadj : adjusted span = some (text, name, bs, rs)) :
    d.files = files ∧ ∃ l, d.labels[i]? = some l ∧ l.message = m ∧ l.source = name ∧ l.start = rs.start ∧
      l.stop = rs.stop := by
  unfold drawReport at hd
  split at hd
  · cases hd
  · rename_i first h1
    split at hd
    · cases hd
    · rename_i cs h2
      split at hd
      · cases hd
      · rename_i rs' h3
        cases hd
        have hall : List.Forall₂ (Follows adjusted) (pointedAt report) (first :: cs ++ rs') :=
          .cons (labelFor_follows h1) (List.rel_append (labelsFor_follows h2) (labelsFor_follows h3))
        obtain ⟨l, hl, h⟩ := forall₂_get hall hi
        exact ⟨rfl, l, hl, h _ _ _ _ hadj⟩

/-- Where a span on character boundaries of a source is found. -/
theorem file_adjusted [Unicode] [PartitionPoint] (hwf : GlobsWF fs) (id : Nat) (path : Option Path)
    (before mid after t : Str)
    (hsrc : IsSource (readWithIncludes fs tokens rootPath rootContent) id path (before ++ mid ++ after))
    (ht : Trimmed (fun c => Unicode.isWhitespace c = true) mid t) :
    ∃ name bs, (readWithIncludes fs tokens rootPath rootContent).adjusted
        ⟨id, byteLen before, byteLen before + byteLen mid⟩ =
      some (before ++ mid ++ after, name, bs, ⟨id, before.length, before.length + t.length⟩) ∧
      name = writtenName path := by
  obtain ⟨bs', k1, k2⟩ := C09_lookup hwf id path (before ++ mid ++ after) (byteLen before)
    (byteLen before + byteLen mid) hsrc
  obtain ⟨bs'', k3, k4⟩ := runeSpan_trimmed id before mid t after ht
  rw [k1] at k3; cases k3
  rw [k4] at k2
  exact ⟨_, _, k2, by cases path <;> rfl⟩

end Lima
