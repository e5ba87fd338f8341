import Verif.Lemmas.WriteReport

/-!
# C51: written reports
-/

set_option linter.unusedSectionVars false

namespace Lima.Props
open Lima Lima.Spec

variable {fs : FileSystem} {tokens : Str → List Ranged} {rootPath : Option Path} {rootContent : Str}

/-- C51: any report, with whatever spans, can be drawn: writing it does not panic.  What is drawn is of the
right kind, has the report's message, and one label for each thing pointed at, in order, saying what is to be
said about it; its location is that of the first label; no label ends before it starts; and what is wrong is
red for an error, everything else yellow. -/
theorem C51_drawn [Unicode] [PartitionPoint] (hwf : GlobsWF fs) (kind : ReportKind) (report : Report) :
    ∃ d, (readWithIncludes fs tokens rootPath rootContent).draw kind report = some d ∧
      d.kind = kind ∧ d.message = report.message ∧
      d.labels.map (·.message) = (pointedAt report).map (·.1) ∧
      (∀ l ∈ d.labels, l.start ≤ l.stop) ∧
      (d.labels.head?.map fun l => (l.source, l.start, l.stop)) = some (d.source, d.start, d.stop) ∧
      d.labels.map (·.colour) = (match kind with | .error => Colour.red | .warning => .yellow) ::
        (report.contextsIter ++ report.relatedIter).map (fun _ => .yellow) := by
  obtain ⟨files, hf, _⟩ := files_read (tokens := tokens) (rootPath := rootPath) (rootContent := rootContent) hwf
  obtain ⟨d, h1, h2, h3, h4, h5, h6, h7⟩ := drawReport_ok
    (adjusts_read (tokens := tokens) (rootPath := rootPath) (rootContent := rootContent) hwf) files kind report
  refine ⟨d, by unfold Sources.draw; rw [hf]; exact h1, h2, h3, labels_messages h5, labels_ordered h5, h6, ?_⟩
  rw [h7, ← h5.length_eq]
  simp only [pointedAt, List.length_cons, Nat.add_sub_cancel, List.map_const', List.length_append, List.length_map]
  cases kind <;> rfl

/-- C51: a label for a span on character boundaries of a source bears the name of that source, and gives the
positions in characters of the text of the span without trailing white space. -/
theorem C51_labels [Unicode] [PartitionPoint] (hwf : GlobsWF fs) (kind : ReportKind) (report : Report) (d : Drawing)
    (hd : (readWithIncludes fs tokens rootPath rootContent).draw kind report = some d) (i : Nat) (m : Str)
    (id : Nat) (path : Option Path) (before mid after t : Str)
    (hi : (pointedAt report)[i]? = some (m, ⟨id, byteLen before, byteLen before + byteLen mid⟩))
    (hsrc : IsSource (readWithIncludes fs tokens rootPath rootContent) id path (before ++ mid ++ after))
    (ht : Trimmed (fun c => Unicode.isWhitespace c = true) mid t) :
    ∃ l, d.labels[i]? = some l ∧ l.message = m ∧ l.source = writtenName path ∧
      l.start = before.length ∧ l.stop = (before ++ t).length := by
  obtain ⟨files, hf, _⟩ := files_read (tokens := tokens) (rootPath := rootPath) (rootContent := rootContent) hwf
  unfold Sources.draw at hd
  rw [hf] at hd
  obtain ⟨name, bs, hadj, rfl⟩ := file_adjusted hwf id path before mid after t hsrc ht
  obtain ⟨_, l, h1, h2, h3, h4, h5⟩ := drawn_label hd hi hadj
  exact ⟨l, h1, h2, h3, h4, by rw [h5]; simp⟩

/-- The names under which sources are written are those of one source each, if the root is a file, or if no
included file is called `inline`. -/
theorem writtenName_unique (hwf : GlobsWF fs) (hroot : ∀ p, rootPath = some p → p.WF)
    (hinline : rootPath ≠ none ∨ ∀ id text,
      ¬ IsSource (readWithIncludes fs tokens rootPath rootContent) id (some (Path.ofStr (str "inline"))) text)
    {id id' : Nat} {path path' : Option Path} {text text' : Str}
    (h : IsSource (readWithIncludes fs tokens rootPath rootContent) id path text)
    (h' : IsSource (readWithIncludes fs tokens rootPath rootContent) id' path' text')
    (e : writtenName path = writtenName path') : text = text' := by
  have inv := readLoop_inv (fs := fs) (tokens := tokens) (rootPath := rootPath) (rootContent := rootContent) hwf
  have hp : ∀ id path text, IsSource (readWithIncludes fs tokens rootPath rootContent) id path text →
      (path = none ∧ rootPath = none) ∨ ∃ p, path = some p ∧ p.WF := by
    intro id path text h
    rcases isSource_index hwf h with ⟨_, h2, _⟩ | ⟨p, h1, h2, h3, _⟩
    · cases path with
      | none => exact .inl ⟨rfl, h2.symm⟩
      | some p => exact .inr ⟨p, rfl, hroot p h2.symm⟩
    · exact .inr ⟨p, h1, inv.wf p (List.mem_of_getElem? h3)⟩
  have hsame : path = path' := by
    rcases hp id path text h with ⟨rfl, h1⟩ | ⟨p, rfl, h1⟩ <;>
      rcases hp id' path' text' h' with ⟨rfl, h1'⟩ | ⟨p', rfl, h1'⟩
    · rfl
    · exfalso
      have e' : p' = Path.ofStr (str "inline") := by
        rw [← Path.ofStr_render p' h1']
        exact congrArg Path.ofStr e.symm
      subst e'
      rcases hinline with hi | hi
      · exact hi h1
      · exact hi _ _ h'
    · exfalso
      have e' : p = Path.ofStr (str "inline") := by
        rw [← Path.ofStr_render p h1]
        exact congrArg Path.ofStr e
      subst e'
      rcases hinline with hi | hi
      · exact hi h1'
      · exact hi _ _ h
    · have : p = p' := by
        rw [← Path.ofStr_render p h1, ← Path.ofStr_render p' h1']
        exact congrArg Path.ofStr e
      rw [this]
  subst hsame
  cases path with
  | none =>
    rcases isSource_index hwf h with ⟨_, _, h3⟩ | ⟨p, h1, _⟩
    · rcases isSource_index hwf h' with ⟨_, _, h3'⟩ | ⟨p, h1, _⟩
      · rw [h3, h3']
      · cases h1
    · cases h1
  | some p =>
    have := C09_path_unique hwf id id' p text text' h h'
    subst this
    exact (C09_identifier_unique hwf id _ _ _ _ h h').2

/-- C51, what is shown, the part that holds: if the root is a file, or no included file is called `inline`,
then however the renderer finds texts by name, each label for a span on character boundaries covers the text
of that span without trailing white space, in place.  Missing: inline input which includes a file called
`inline`, see `C51_shown_false`. -/
theorem C51_shown_partial [Unicode] [PartitionPoint] (hwf : GlobsWF fs) (hroot : ∀ p, rootPath = some p → p.WF)
    (hinline : rootPath ≠ none ∨ ∀ id text,
      ¬ IsSource (readWithIncludes fs tokens rootPath rootContent) id (some (Path.ofStr (str "inline"))) text)
    (find : List (Str × Str) → Str → Option Str) (hfind : Finds find)
    (kind : ReportKind) (report : Report) (d : Drawing)
    (hd : (readWithIncludes fs tokens rootPath rootContent).draw kind report = some d) (i : Nat) (m : Str)
    (id : Nat) (path : Option Path) (before mid after t : Str)
    (hi : (pointedAt report)[i]? = some (m, ⟨id, byteLen before, byteLen before + byteLen mid⟩))
    (hsrc : IsSource (readWithIncludes fs tokens rootPath rootContent) id path (before ++ mid ++ after))
    (ht : Trimmed (fun c => Unicode.isWhitespace c = true) mid t) :
    ∃ l, d.labels[i]? = some l ∧ l.message = m ∧ LabelCovers find d l before t := by
  obtain ⟨l, h1, h2, h3, h4, h5⟩ := C51_labels hwf kind report d hd i m id path before mid after t hi hsrc ht
  refine ⟨l, h1, h2, ?_⟩
  obtain ⟨files, hf, hmem⟩ := files_read (tokens := tokens) (rootPath := rootPath) (rootContent := rootContent) hwf
  have hfiles : d.files = files := by
    obtain ⟨d', g1, _, _, g4, _⟩ := drawReport_ok
      (adjusts_read (tokens := tokens) (rootPath := rootPath) (rootContent := rootContent) hwf) files kind report
    unfold Sources.draw at hd
    rw [hf] at hd
    simp only [g1, Option.some.injEq] at hd
    rw [← hd]; exact g4
  have hin : (l.source, before ++ mid ++ after) ∈ files := (hmem _ _).mpr ⟨id, path, hsrc, h3⟩
  cases hx : find files l.source with
  | none => exact absurd hx (hfind.complete _ _ _ hin)
  | some text =>
    obtain ⟨id', path', hs', hn'⟩ := (hmem _ _).mp (hfind.sound _ _ _ hx)
    have : before ++ mid ++ after = text :=
      writtenName_unique hwf hroot hinline hsrc hs' (by rw [← h3, ← hn'])
    obtain ⟨w, hw⟩ : ∃ w, mid = t ++ w := by
      rcases ht with ⟨body, c, w, rfl, rfl, _, _⟩ | ⟨_, rfl⟩
      · exact ⟨w, rfl⟩
      · exact ⟨[], by simp⟩
    refine ⟨w ++ after, ?_, h4, h5⟩
    rw [hfiles, hx, ← this, hw]
    simp

/-- C51: errors are written in order, each followed by its annotation, up to the first failure to write, and
writing does not panic. -/
theorem C51_in_order [Unicode] [PartitionPoint] (hwf : GlobsWF fs) (kind : ReportKind) {σ ε : Type} (write : Writer σ ε)
    (w : σ) (es : List Annotated) :
    ∃ ds, List.Forall₂ (fun e d =>
        (readWithIncludes fs tokens rootPath rootContent).draw kind e.report = some d) es ds ∧
      Performs write w (expectedOps (es.zip ds))
        (writeAll write ((readWithIncludes fs tokens rootPath rootContent).draw kind) w es) := by
  apply writeAll_performs
  intro r
  obtain ⟨d, h, _⟩ := C51_drawn (tokens := tokens) (rootPath := rootPath) (rootContent := rootContent) hwf kind r
  exact ⟨d, h⟩

/-! ## With synthetic spans -/

/-- C51: the same with synthetic spans, after any history: any report, with whatever spans, can be drawn. -/
theorem C51_synthetic_drawn [Unicode] [MonotonePoint] (hwf : GlobsWF fs) (ops : List (Str × Str)) (kind : ReportKind)
    (report : Report) :
    ∃ d, (syntheticRun (Synthetic.new (readWithIncludes fs tokens rootPath rootContent)) ops).draw kind report =
        some d ∧
      d.kind = kind ∧ d.message = report.message ∧
      d.labels.map (·.message) = (pointedAt report).map (·.1) ∧
      (∀ l ∈ d.labels, l.start ≤ l.stop) ∧
      (d.labels.head?.map fun l => (l.source, l.start, l.stop)) = some (d.source, d.start, d.stop) := by
  obtain ⟨files, hf, _⟩ := files_read (tokens := tokens) (rootPath := rootPath) (rootContent := rootContent) hwf
  obtain ⟨all, ha, _⟩ := files_synthetic hf ops
  have inv := (SInv.new (readWithIncludes fs tokens rootPath rootContent)).run ops
  rw [List.nil_append] at inv
  obtain ⟨d, h1, h2, h3, h4, h5, h6, _⟩ := drawReport_ok (adjusts_synthetic inv
    (adjusts_read (tokens := tokens) (rootPath := rootPath) (rootContent := rootContent) hwf)) all kind report
  refine ⟨d, by unfold Synthetic.draw; rw [ha]; exact h1, h2, h3, labels_messages h5, labels_ordered h5, h6⟩

/-- How a drawing with synthetic sources comes about. -/
theorem synthetic_draw_label [Unicode] [PartitionPoint] {s : Synthetic} {kind : ReportKind} {report : Report}
    {d : Drawing} {all : List (Str × Str)} (ha : s.files = some all) (hd : s.draw kind report = some d)
    {i : Nat} {m : Str} {span : Span} (hi : (pointedAt report)[i]? = some (m, span))
    {text name : Str} {bs rs : Span} (hadj : s.adjusted span = some (text, name, bs, rs)) :
    d.files = all ∧ ∃ l, d.labels[i]? = some l ∧ l.message = m ∧ l.source = name ∧ l.start = rs.start ∧
      l.stop = rs.stop := by
  unfold Synthetic.draw at hd
  rw [ha] at hd
  exact drawn_label hd hi hadj

/-- C51, synthetic spans, the part that holds: if no file read has the name of the synthetic source, and all
fragments asked for under that name but the last are ASCII, then after any further history, and however the
renderer finds texts by name, each label for the span created for a fragment covers that fragment, without
trailing white space, in place.  Missing: other characters, see `C51_synthetic_position_false`, and synthetic
sources with the name of a file, see `C51_synthetic_name_false`. -/
theorem C51_synthetic_shown_partial [Unicode] [PartitionPoint] (hwf : GlobsWF fs)
    (find : List (Str × Str) → Str → Option Str) (hfind : Finds find)
    (pre post : List (Str × Str)) (name frag t : Str)
    (hname : ∀ id path text, IsSource (readWithIncludes fs tokens rootPath rootContent) id path text →
      writtenName path ≠ name)
    (hascii : AsciiButLast name (pre ++ (name, frag) :: post))
    (ht : Trimmed (fun c => Unicode.isWhitespace c = true) frag t)
    (kind : ReportKind) (report : Report) (d : Drawing)
    (hd : (syntheticRun (Synthetic.new (readWithIncludes fs tokens rootPath rootContent))
      (pre ++ (name, frag) :: post)).draw kind report = some d) (i : Nat) (m : Str)
    (hi : (pointedAt report)[i]? = some (m, ((syntheticRun (Synthetic.new
      (readWithIncludes fs tokens rootPath rootContent)) pre).create name frag).1)) :
    ∃ l, d.labels[i]? = some l ∧ l.message = m ∧ LabelCovers find d l (syntheticText name pre) t := by
  obtain ⟨files, hf, hmem⟩ := files_read (tokens := tokens) (rootPath := rootPath) (rootContent := rootContent) hwf
  obtain ⟨all, ha, hall⟩ := files_synthetic hf (pre ++ (name, frag) :: post)
  obtain ⟨bs, _, hadj⟩ := synthetic_adjusted (readWithIncludes fs tokens rootPath rootContent) pre post name frag t
    hascii ht
  obtain ⟨hfl, l, h1, h2, h3, h4, h5⟩ := synthetic_draw_label ha hd hi hadj
  refine ⟨l, h1, h2, ?_⟩
  have hin : (name, syntheticText name (pre ++ (name, frag) :: post)) ∈ all :=
    (hall _ _).mpr (.inr ⟨by simp, rfl⟩)
  obtain ⟨w, hw⟩ : ∃ w, frag = t ++ w := by
    rcases ht with ⟨body, c, w, rfl, rfl, _, _⟩ | ⟨_, rfl⟩
    · exact ⟨w, rfl⟩
    · exact ⟨[], by simp⟩
  refine ⟨w ++ syntheticText name post, ?_, h4, ?_⟩
  · rw [hfl, h3]
    cases hx : find all name with
    | none => exact absurd hx (hfind.complete _ _ _ hin)
    | some text =>
      rcases (hall _ _).mp (hfind.sound _ _ _ hx) with hm | ⟨_, rfl⟩
      · obtain ⟨id, path, hs, hn⟩ := (hmem _ _).mp hm
        exact absurd hn.symm (hname id path text hs)
      · rw [syntheticText_split, hw]
        simp
  · rw [h5]; simp

/-- C51, files in the presence of synthetic spans, the part that holds: if no synthetic source has the name of
the file, each label covers the text of its span, as in `C51_shown_partial`. -/
theorem C51_synthetic_file_shown_partial [Unicode] [PartitionPoint] (hwf : GlobsWF fs)
    (hroot : ∀ p, rootPath = some p → p.WF)
    (hinline : rootPath ≠ none ∨ ∀ id text,
      ¬ IsSource (readWithIncludes fs tokens rootPath rootContent) id (some (Path.ofStr (str "inline"))) text)
    (find : List (Str × Str) → Str → Option Str) (hfind : Finds find) (ops : List (Str × Str))
    (kind : ReportKind) (report : Report) (d : Drawing)
    (hd : (syntheticRun (Synthetic.new (readWithIncludes fs tokens rootPath rootContent)) ops).draw kind report =
      some d) (i : Nat) (m : Str)
    (id : Nat) (path : Option Path) (before mid after t : Str)
    (hname : writtenName path ∉ ops.map (·.1))
    (hi : (pointedAt report)[i]? = some (m, ⟨id, byteLen before, byteLen before + byteLen mid⟩))
    (hsrc : IsSource (readWithIncludes fs tokens rootPath rootContent) id path (before ++ mid ++ after))
    (ht : Trimmed (fun c => Unicode.isWhitespace c = true) mid t) :
    ∃ l, d.labels[i]? = some l ∧ l.message = m ∧ LabelCovers find d l before t := by
  obtain ⟨files, hf, hmem⟩ := files_read (tokens := tokens) (rootPath := rootPath) (rootContent := rootContent) hwf
  obtain ⟨all, ha, hall⟩ := files_synthetic hf ops
  obtain ⟨name, bs, hadj, hn⟩ := file_adjusted hwf id path before mid after t hsrc ht
  rw [← synthetic_adjusted_file _ ops _ (C09_identifier_lt hwf id path _ hsrc)] at hadj
  obtain ⟨hfl, l, h1, h2, h3, h4, h5⟩ := synthetic_draw_label ha hd hi hadj
  subst hn
  refine ⟨l, h1, h2, ?_⟩
  have hin : (writtenName path, before ++ mid ++ after) ∈ all :=
    (hall _ _).mpr (.inl ((hmem _ _).mpr ⟨id, path, hsrc, rfl⟩))
  obtain ⟨w, hw⟩ : ∃ w, mid = t ++ w := by
    rcases ht with ⟨body, c, w, rfl, rfl, _, _⟩ | ⟨_, rfl⟩
    · exact ⟨w, rfl⟩
    · exact ⟨[], by simp⟩
  refine ⟨w ++ after, ?_, h4, by rw [h5]; simp⟩
  rw [hfl, h3]
  cases hx : find all (writtenName path) with
  | none => exact absurd hx (hfind.complete _ _ _ hin)
  | some text =>
    rcases (hall _ _).mp (hfind.sound _ _ _ hx) with hm | ⟨hm, _⟩
    · obtain ⟨id', path', hs', hn'⟩ := (hmem _ _).mp hm
      have := writtenName_unique hwf hroot hinline hsrc hs' hn'
      rw [← this, hw]
      simp
    · exact absurd hm hname

/-- C51: with synthetic spans too, errors are written in order, each followed by its annotation, up to the
first failure to write. -/
theorem C51_synthetic_in_order [Unicode] [MonotonePoint] (hwf : GlobsWF fs) (ops : List (Str × Str)) (kind : ReportKind)
    {σ ε : Type} (write : Writer σ ε) (w : σ) (es : List Annotated) :
    ∃ ds, List.Forall₂ (fun e d => (syntheticRun (Synthetic.new
        (readWithIncludes fs tokens rootPath rootContent)) ops).draw kind e.report = some d) es ds ∧
      Performs write w (expectedOps (es.zip ds))
        (writeAll write ((syntheticRun (Synthetic.new
          (readWithIncludes fs tokens rootPath rootContent)) ops).draw kind) w es) := by
  apply writeAll_performs
  intro r
  obtain ⟨d, h, _⟩ := C51_synthetic_drawn (tokens := tokens) (rootPath := rootPath) (rootContent := rootContent)
    hwf ops kind r
  exact ⟨d, h⟩

/-! ## What is false -/

/-- One file, called `inline`. -/
def inlineFS : FileSystem where
  glob p := .ok (if p = Path.ofStr (str "inline") then [.path p] else [])
  canonicalize p := if p = Path.ofStr (str "inline") then some p else none
  read _ := .ok (str "b")
  files := [Path.ofStr (str "inline")]
  canonicalize_mem := by
    intro p c h
    split at h
    · rename_i h'; cases h; simp [h']
    · cases h

/-- The text `a` stands for one which includes `inline`. -/
def inlineTokens (text : Str) : List Ranged :=
  if text = str "a" then [⟨.include, 0, 1⟩, ⟨.stringLiteral (str "inline"), 1, 2⟩] else []

theorem inline_result :
    readWithIncludes inlineFS inlineTokens none (str "a") =
      { rootPath := none
        rootContent := str "a"
        rootCharIndices := [0]
        globs := [(Path.ofStr (str "inline"), .expanded [Path.ofStr (str "inline")])]
        content := [(Path.ofStr (str "inline"), .content 1 (str "b") [0])]
        ids := [str "inline", str "inline"]
        reads := [Path.ofStr (str "inline")] } := by
  unfold readWithIncludes
  rw [readLoop_some rfl, readLoop_none rfl]
  rfl

theorem inlineFS_wf : GlobsWF inlineFS := by
  intro p gs h g hg
  simp only [inlineFS] at h
  split at h
  · rename_i h'
    cases h
    simp only [List.mem_singleton] at hg
    subst hg; subst h'
    exact Path.ofStr_wf (str "inline")
  · cases h; cases hg

/-- C51, what is false: when inline input includes a file called `inline`, then however the renderer finds
texts by name, a report about the one or a report about the other shows the wrong text. -/
theorem C51_shown_false [Unicode] [PartitionPoint] (find : List (Str × Str) → Str → Option Str) :
    let s := readWithIncludes inlineFS inlineTokens none (str "a")
    IsSource s 0 none (str "a") ∧ IsSource s 1 (some (Path.ofStr (str "inline"))) (str "b") ∧
    ∀ d d', s.draw .error (.new [] [] ⟨0, 0, 1⟩) = some d → s.draw .error (.new [] [] ⟨1, 0, 1⟩) = some d' →
      ∀ l l', d.labels[0]? = some l → d'.labels[0]? = some l' →
        ¬ (LabelCovers find d l [] (str "a") ∧ LabelCovers find d' l' [] (str "b")) := by
  intro s
  have h0 : IsSource s 0 none (str "a") := .inl ⟨rfl, rfl, rfl⟩
  have h1 : IsSource s 1 (some (Path.ofStr (str "inline"))) (str "b") :=
    .inr ⟨_, [0], rfl, by simp only [s]; rw [inline_result]; simp⟩
  refine ⟨h0, h1, ?_⟩
  intro d d' hd hd' l l' hl hl' ⟨⟨r, g1, _, _⟩, ⟨r', g1', _, _⟩⟩
  have ha : Unicode.isWhitespace 'a' = false := by
    rw [Unicode.whitespace_ascii 'a' (by decide)]; decide
  have hb : Unicode.isWhitespace 'b' = false := by
    rw [Unicode.whitespace_ascii 'b' (by decide)]; decide
  obtain ⟨_, k1, _, k3, _⟩ := C51_labels inlineFS_wf .error _ d hd 0 [] 0 none [] ['a'] [] ['a'] rfl h0
    (.inl ⟨[], 'a', [], rfl, rfl, by simp [ha], by simp⟩)
  obtain ⟨_, k1', _, k3', _⟩ := C51_labels inlineFS_wf .error _ d' hd' 0 [] 1 _ [] ['b'] [] ['b'] rfl h1
    (.inl ⟨[], 'b', [], rfl, rfl, by simp [hb], by simp⟩)
  rw [k1] at hl; cases hl
  rw [k1'] at hl'; cases hl'
  have hsame : l.source = l'.source := by rw [k3, k3']; rfl
  obtain ⟨files, hf, _⟩ := files_read (tokens := inlineTokens) (rootPath := none) (rootContent := str "a")
    inlineFS_wf
  have hfiles : ∀ report e, s.draw .error report = some e → e.files = files := by
    intro report e he
    obtain ⟨d', g1, _, _, g4, _⟩ := drawReport_ok
      (adjusts_read (tokens := inlineTokens) (rootPath := none) (rootContent := str "a") inlineFS_wf) files .error
      report
    unfold Sources.draw at he
    simp only [s] at he
    rw [hf] at he
    simp only [g1, Option.some.injEq] at he
    rw [← he]; exact g4
  rw [hfiles _ _ hd, hsame] at g1
  rw [hfiles _ _ hd', g1] at g1'
  simp only [Option.some.injEq] at g1'
  change 'a' :: r = 'b' :: r' at g1'
  injection g1' with e
  exact absurd e (by decide)

/-- C51, what is false: when a synthetic source has the name of a file, then however the renderer finds texts by
name, a report about the one or a report about the other shows the wrong text. -/
theorem C51_synthetic_name_false [Unicode] [PartitionPoint] (find : List (Str × Str) → Str → Option Str) :
    let s := readWithIncludes exampleFS exampleTokens (some (Path.ofStr (str "r"))) (str "a b é ")
    let r := (Synthetic.new s).create (str "r") (str "z")
    IsSource s 0 (some (Path.ofStr (str "r"))) (str "a b é ") ∧
    ∀ d d', r.2.draw .error (.new [] [] ⟨0, 0, 1⟩) = some d → r.2.draw .error (.new [] [] r.1) = some d' →
      ∀ l l', d.labels[0]? = some l → d'.labels[0]? = some l' →
        ¬ (LabelCovers find d l [] (str "a") ∧ LabelCovers find d' l' [] (str "z")) := by
  intro s r
  have h0 : IsSource s 0 (some (Path.ofStr (str "r"))) (['a'] ++ str " b é ") := .inl ⟨rfl, rfl, rfl⟩
  refine ⟨h0, ?_⟩
  intro d d' hd hd' l l' hl hl' ⟨⟨x, g1, _, _⟩, ⟨x', g1', _, _⟩⟩
  have ha : Unicode.isWhitespace 'a' = false := by
    rw [Unicode.whitespace_ascii 'a' (by decide)]; decide
  have hz : Unicode.isWhitespace 'z' = false := by
    rw [Unicode.whitespace_ascii 'z' (by decide)]; decide
  obtain ⟨files, hf, _⟩ := files_read (tokens := exampleTokens) (rootPath := some (Path.ofStr (str "r")))
    (rootContent := str "a b é ") exampleFS_wf
  obtain ⟨all, hall, _⟩ := files_synthetic hf [(str "r", str "z")]
  have hall' : r.2.files = some all := hall
  obtain ⟨name, bs, hadj, rfl⟩ := file_adjusted exampleFS_wf 0 _ [] ['a'] (str " b é ") ['a'] h0
    (.inl ⟨[], 'a', [], rfl, rfl, by simp [ha], by simp⟩)
  have hadj' := synthetic_adjusted_file s [(str "r", str "z")] ⟨0, 0, 1⟩
    (C09_identifier_lt exampleFS_wf 0 _ _ h0)
  have hadj'' : r.2.adjusted ⟨0, 0, 1⟩ = _ := hadj'.trans hadj
  obtain ⟨hfl, m, k1, _, k3, _⟩ := synthetic_draw_label hall' hd (i := 0) rfl hadj''
  obtain ⟨bs', _, hz'⟩ := synthetic_adjusted s [] [] (str "r") (str "z") ['z'] (by
      intro before frag after e hm
      match before, e with
      | [], e => cases e; cases hm
      | _ :: b, e => simp at e) (.inl ⟨[], 'z', [], rfl, rfl, by simp [hz], by simp⟩)
  have hz'' : r.2.adjusted r.1 = _ := hz'
  obtain ⟨hfl', m', k1', _, k3', _⟩ := synthetic_draw_label hall' hd' (i := 0) rfl hz''
  rw [k1] at hl; cases hl
  rw [k1'] at hl'; cases hl'
  have hsame : l.source = l'.source := by rw [k3, k3']; rfl
  rw [hfl, hsame] at g1
  rw [hfl', g1] at g1'
  simp only [Option.some.injEq] at g1'
  change 'a' :: x = 'z' :: x' at g1'
  injection g1' with e
  exact absurd e (by decide)

/-- C51, what is false: the second of two fragments of one synthetic source is shown in the wrong place, if the
first is `é`. -/
theorem C51_synthetic_position_false [Unicode] [PartitionPoint] (S : Sources)
    (find : List (Str × Str) → Str → Option Str) :
    let s1 := ((Synthetic.new S).create (str "x") (str "é")).2
    let r := s1.create (str "x") (str "\nA")
    ∀ d, r.2.draw .error (.new [] [] r.1) = some d → ∀ l, d.labels[0]? = some l →
      ¬ LabelCovers find d l (str "é") (str "\nA") := by
  intro s1 r d hd l hl ⟨x, _, h, _⟩
  have hadj : r.2.adjusted r.1 = _ := synthetic_misplaced S
  have hd' := hd
  unfold Synthetic.draw at hd'
  split at hd'
  · cases hd'
  · rename_i all hall
    obtain ⟨_, m, k1, _, _, k4, _⟩ := synthetic_draw_label hall hd (i := 0) rfl hadj
    rw [k1] at hl; cases hl
    rw [k4] at h
    change 2 = 1 at h
    omega

/-! ## Concrete cases -/

/-- A report about the root file of the example, with a context in the included one, is drawn with two labels;
the hypotheses of the theorems about what is shown are met. -/
example : let _ := Unicode.latin1; let _ := PartitionPoint.linear
    ∀ s, s = readWithIncludes exampleFS exampleTokens (some (Path.ofStr (str "r"))) (str "a b é ") →
      s.draw .error (Report.inContext (.new (str "M") (str "why") ⟨0, 0, 7⟩) (str "file") ⟨1, 0, 2⟩) =
        some ⟨.error, str "r", 0, 5, str "M",
          [⟨str "r", 0, 5, str "why", .red⟩, ⟨str "s", 0, 1, str "in this file", .yellow⟩],
          [(str "r", str "a b é "), (str "s", str "é")]⟩ := by
  intro _ _ s h
  rw [h, example_result]
  rfl

example : GlobsWF exampleFS := exampleFS_wf

example : (Path.ofStr (str "r")).WF := Path.ofStr_wf _

/-- The last entry with a name, as in a hash map: a way of finding texts. -/
def lastNamed (files : List (Str × Str)) (name : Str) : Option Str :=
  (files.reverse.find? (fun e => decide (e.1 = name))).map (·.2)

theorem lastNamed_finds : Finds lastNamed where
  sound := by
    intro files name text h
    unfold lastNamed at h
    obtain ⟨e, h1, rfl⟩ := Option.map_eq_some_iff.mp h
    have h2 := List.find?_some h1
    have h3 := List.mem_of_find?_eq_some h1
    simp only [decide_eq_true_eq] at h2
    subst h2
    simpa using h3
  complete := by
    intro files name text h e
    unfold lastNamed at e
    rw [Option.map_eq_none_iff, List.find?_eq_none] at e
    exact e (name, text) (by simpa using h) (by simp)

/-- Writing two reports, of which the first is annotated, to a writer which fails at the third operation. -/
example : let draw : Report → Option Drawing := fun r => some ⟨.error, [], 0, 0, r.message, [], []⟩
    let write : Writer Nat Unit := fun n _ => if n = 2 then (n, some ()) else (n + 1, none)
    writeAll write draw 0 [⟨.new [] [] ⟨0, 0, 0⟩, some (str "note")⟩, ⟨.new [] [] ⟨0, 0, 0⟩, none⟩] =
      .failed 2 () := rfl

end Lima.Props
