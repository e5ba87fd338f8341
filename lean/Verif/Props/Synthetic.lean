import Verif.Props.Sources

/-!
# C13: synthetic spans
-/

namespace Lima.Spec
open Lima

/-- The text of a synthetic source after a history of (name, fragment) requests: its fragments in order. -/
def syntheticText (name : Str) (ops : List (Str × Str)) : Str :=
  (ops.filter (fun o => decide (o.1 = name))).flatMap (·.2)

/-- Every fragment asked for under this name, other than the last, is ASCII. -/
def AsciiButLast (name : Str) (ops : List (Str × Str)) : Prop :=
  ∀ before frag after, ops = before ++ (name, frag) :: after → name ∈ after.map (·.1) →
    ∀ c ∈ frag, c.utf8Size = 1

/-- Synthetic spans created one after another. -/
def syntheticRun (s : Synthetic) (ops : List (Str × Str)) : Synthetic :=
  ops.foldl (fun s o => (s.create o.1 o.2).2) s

end Lima.Spec

namespace Lima.Props
open Lima Lima.Spec

/-- What holds after any history. -/
structure SInv (S : Sources) (ops : List (Str × Str)) (s : Synthetic) : Prop where
  sources : s.sources = S
  base : s.baseId = S.ids.length
  nodup : s.ids.Nodup
  absent : ∀ name, name ∉ ops.map (·.1) → AMap.get s.content name = none ∧ name ∉ s.ids
  present : ∀ name, name ∈ ops.map (·.1) → ∃ k ix, s.ids[k]? = some name ∧
    AMap.get s.content name = some (k + s.baseId, syntheticText name ops, ix) ∧
    (AsciiButLast name ops → ix = charIndices (syntheticText name ops))

theorem asciiButLast_append {name : Str} {ops more : List (Str × Str)} (h : AsciiButLast name (ops ++ more)) :
    AsciiButLast name ops := by
  intro before frag after e hm
  refine h before frag (after ++ more) (by rw [e]; simp) ?_
  rw [List.map_append]
  exact List.mem_append_left _ hm

theorem asciiButLast_before {name frag : Str} {ops : List (Str × Str)}
    (h : AsciiButLast name (ops ++ [(name, frag)])) : ∀ o ∈ ops, o.1 = name → ∀ c ∈ o.2, c.utf8Size = 1 := by
  intro o ho hn c hc
  obtain ⟨a, b, rfl⟩ := List.append_of_mem ho
  obtain ⟨n, f⟩ := o
  simp only at hn; subst hn
  exact h a f (b ++ [(n, frag)]) (by simp) (by simp) c hc

theorem syntheticText_append (name : Str) (a b : List (Str × Str)) :
    syntheticText name (a ++ b) = syntheticText name a ++ syntheticText name b := by
  simp [syntheticText]

theorem byteLen_ascii (s : Str) (h : ∀ c ∈ s, c.utf8Size = 1) : byteLen s = s.length := by
  induction s with
  | nil => rfl
  | cons c s ih =>
    rw [byteLen_cons, h c (by simp), ih (fun c hc => h c (by simp [hc])), List.length_cons]; omega

theorem charIndicesFrom_shift (k off : Nat) (s : Str) :
    (charIndicesFrom off s).map (fun i => i + k) = charIndicesFrom (off + k) s := by
  induction s generalizing off with
  | nil => rfl
  | cons c s ih => simp [charIndicesFrom, ih]; congr 1; omega

theorem SInv.create {S : Sources} {ops : List (Str × Str)} {s : Synthetic} (inv : SInv S ops s)
    (name frag : Str) : SInv S (ops ++ [(name, frag)]) (s.create name frag).2 := by
  unfold Synthetic.create
  by_cases hm : name ∈ ops.map (·.1)
  · obtain ⟨k, ix, h1, h2, h3⟩ := inv.present name hm
    simp only [h2]
    refine ⟨inv.sources, inv.base, inv.nodup, ?_, ?_⟩
    · intro n hn
      simp only [List.map_append, List.mem_append, not_or] at hn
      have := inv.absent n hn.1
      have hne : name ≠ n := by intro e; subst e; exact hn.1 hm
      simp only [AMap.get_insert, hne, if_false]
      exact this
    · intro n hn
      simp only [AMap.get_insert]
      by_cases hne : name = n
      · subst hne
        refine ⟨k, ix ++ (charIndices frag).map (fun i => i + ix.length), h1, ?_, ?_⟩
        · simp only [if_true, syntheticText_append]
          rw [Option.some.injEq, Prod.mk.injEq, Prod.mk.injEq]
          refine ⟨rfl, ?_, rfl⟩
          simp [syntheticText]
        · intro hall
          have h4 := h3 (asciiButLast_append hall)
          have h5 : ∀ c ∈ syntheticText name ops, c.utf8Size = 1 := by
            intro c hc
            simp only [syntheticText, List.mem_flatMap, List.mem_filter, decide_eq_true_eq] at hc
            obtain ⟨o, ⟨ho1, ho2⟩, ho3⟩ := hc
            exact asciiButLast_before hall o ho1 ho2 c ho3
          rw [h4]
          have : syntheticText name (ops ++ [(name, frag)]) = syntheticText name ops ++ frag := by
            rw [syntheticText_append]; simp [syntheticText]
          rw [this]
          unfold charIndices
          rw [charIndicesFrom_append, charIndicesFrom_shift, charIndicesFrom_length, byteLen_ascii _ h5]
      · have hn' : n ∈ ops.map (·.1) := by
          simp only [List.map_append, List.map_cons, List.map_nil, List.mem_append, List.mem_singleton] at hn
          rcases hn with hn | hn
          · exact hn
          · exact absurd hn.symm hne
        obtain ⟨k', ix', g1, g2, g3⟩ := inv.present n hn'
        simp only [hne, if_false]
        have ht : syntheticText n (ops ++ [(name, frag)]) = syntheticText n ops := by
          rw [syntheticText_append]; simp [syntheticText, hne]
        rw [ht]
        exact ⟨k', ix', g1, g2, fun hall => g3 (asciiButLast_append hall)⟩
  · obtain ⟨h1, h2⟩ := inv.absent name hm
    simp only [h1]
    refine ⟨inv.sources, inv.base, ?_, ?_, ?_⟩
    · refine List.nodup_append.mpr ⟨inv.nodup, by simp, ?_⟩
      intro a ha b hb e
      simp only [List.mem_singleton] at hb
      subst hb; subst e; exact h2 ha
    · intro n hn
      simp only [List.map_append, List.map_cons, List.map_nil, List.mem_append, List.mem_singleton, not_or] at hn
      have hne : name ≠ n := fun e => hn.2 e.symm
      simp only [AMap.get_insert, hne, if_false, List.mem_append, List.mem_singleton, not_or]
      exact ⟨(inv.absent n hn.1).1, (inv.absent n hn.1).2, fun e => hne e.symm⟩
    · intro n hn
      simp only [AMap.get_insert]
      by_cases hne : name = n
      · subst hne
        have ht : syntheticText name (ops ++ [(name, frag)]) = frag := by
          rw [syntheticText_append]
          have : syntheticText name ops = [] := by
            simp only [syntheticText, List.flatMap_eq_nil_iff, List.mem_filter, decide_eq_true_eq]
            intro o ho
            exact absurd (List.mem_map.mpr ⟨o, ho.1, ho.2⟩) hm
          rw [this]
          simp [syntheticText]
        refine ⟨s.ids.length, charIndices frag, by simp, ?_, fun _ => by rw [ht]⟩
        simp only [if_true, ht]
      · have hn' : n ∈ ops.map (·.1) := by
          simp only [List.map_append, List.map_cons, List.map_nil, List.mem_append, List.mem_singleton] at hn
          rcases hn with hn | hn
          · exact hn
          · exact absurd hn.symm hne
        obtain ⟨k', ix', g1, g2, g3⟩ := inv.present n hn'
        simp only [hne, if_false]
        have ht : syntheticText n (ops ++ [(name, frag)]) = syntheticText n ops := by
          rw [syntheticText_append]; simp [syntheticText, hne]
        rw [ht]
        refine ⟨k', ix', ?_, g2, fun hall => g3 (asciiButLast_append hall)⟩
        rw [List.getElem?_append_left (List.getElem?_eq_some_iff.mp g1).1]
        exact g1

theorem SInv.run {S : Sources} {ops : List (Str × Str)} {s : Synthetic} (inv : SInv S ops s)
    (more : List (Str × Str)) : SInv S (ops ++ more) (syntheticRun s more) := by
  induction more generalizing ops s with
  | nil => simpa [syntheticRun] using inv
  | cons o more ih =>
    have := ih (inv.create o.1 o.2)
    simpa [syntheticRun] using this

theorem SInv.new (S : Sources) : SInv S [] (Synthetic.new S) where
  sources := rfl
  base := rfl
  nodup := by simp [Synthetic.new]
  absent := by simp [Synthetic.new, AMap.get_nil]
  present := by simp

theorem syntheticRun_append (s : Synthetic) (a b : List (Str × Str)) :
    syntheticRun s (a ++ b) = syntheticRun (syntheticRun s a) b := by simp [syntheticRun]

theorem SInv.id_of {S : Sources} {ops : List (Str × Str)} {s : Synthetic} (inv : SInv S ops s) {k k' : Nat}
    {name : Str} (h : s.ids[k]? = some name) (h' : s.ids[k']? = some name) : k = k' := by
  exact (List.getElem?_inj (List.getElem?_eq_some_iff.mp h).1 inv.nodup).mp (h.trans h'.symm)

theorem ids_prefix (s : Synthetic) (more : List (Str × Str)) :
    s.ids <+: (syntheticRun s more).ids := by
  induction more generalizing s with
  | nil => exact List.prefix_refl _
  | cons o more ih =>
    refine List.IsPrefix.trans ?_ (ih (s.create o.1 o.2).2)
    unfold Synthetic.create
    split
    · exact List.prefix_refl _
    · exact ⟨[o.1], rfl⟩

theorem baseId_run (s : Synthetic) (more : List (Str × Str)) : (syntheticRun s more).baseId = s.baseId := by
  induction more generalizing s with
  | nil => rfl
  | cons o more ih =>
    have := ih (s.create o.1 o.2).2
    simp only [syntheticRun, List.foldl_cons] at this ⊢
    rw [this]
    unfold Synthetic.create
    split <;> rfl

/-- Where the span created for a fragment lies. -/
theorem create_span {S : Sources} (pre post : List (Str × Str)) (name frag : Str) :
    let span := ((syntheticRun (Synthetic.new S) pre).create name frag).1
    let final := syntheticRun (Synthetic.new S) (pre ++ (name, frag) :: post)
    ∃ k, span.source = k + S.ids.length ∧ final.ids[k]? = some name ∧
      span.start = byteLen (syntheticText name pre) ∧ span.stop = span.start + byteLen frag := by
  intro span final
  have inv0 := (SInv.new S).run pre
  rw [List.nil_append] at inv0
  have inv1 := inv0.create name frag
  have hfinal : final = syntheticRun ((syntheticRun (Synthetic.new S) pre).create name frag).2 post := by
    simp only [final]
    rw [syntheticRun_append]; rfl
  obtain ⟨t, ht⟩ := ids_prefix ((syntheticRun (Synthetic.new S) pre).create name frag).2 post
  rw [← hfinal] at ht
  have hbase : (syntheticRun (Synthetic.new S) pre).baseId = S.ids.length := inv0.base
  by_cases hm : name ∈ pre.map (·.1)
  · obtain ⟨k, ix, h1, h2, h3⟩ := inv0.present name hm
    refine ⟨k, ?_, ?_, ?_, ?_⟩
    · simp only [span, Synthetic.create, h2, hbase]
    · have hk : ((syntheticRun (Synthetic.new S) pre).create name frag).2.ids[k]? = some name := by
        simp only [Synthetic.create, h2]; exact h1
      rw [← ht, List.getElem?_append_left (List.getElem?_eq_some_iff.mp hk).1]
      exact hk
    · simp only [span, Synthetic.create, h2]
    · simp only [span, Synthetic.create, h2]
  · obtain ⟨h1, h2⟩ := inv0.absent name hm
    have htext : syntheticText name pre = [] := by
      simp only [syntheticText, List.flatMap_eq_nil_iff, List.mem_filter, decide_eq_true_eq]
      intro o ho
      exact absurd (List.mem_map.mpr ⟨o, ho.1, ho.2⟩) hm
    refine ⟨(syntheticRun (Synthetic.new S) pre).ids.length, ?_, ?_, ?_, ?_⟩
    · simp only [span, Synthetic.create, h1, hbase]
    · have hk : ((syntheticRun (Synthetic.new S) pre).create name frag).2.ids[
          (syntheticRun (Synthetic.new S) pre).ids.length]? = some name := by
        simp [Synthetic.create, h1]
      rw [← ht, List.getElem?_append_left (List.getElem?_eq_some_iff.mp hk).1]
      exact hk
    · simp only [span, Synthetic.create, h1, htext]; rfl
    · simp only [span, Synthetic.create, h1]; omega

/-- C13: after any further history, a synthetic span is found under the name it was created with, and its
bytes are the text it was created for. -/
theorem C13_text [Unicode] [PartitionPoint] (S : Sources) (pre post : List (Str × Str)) (name frag : Str) :
    let span := ((syntheticRun (Synthetic.new S) pre).create name frag).1
    let final := syntheticRun (Synthetic.new S) (pre ++ (name, frag) :: post)
    ∃ text bs rs, final.adjusted span = some (text, name, bs, rs) ∧
      slice text span.start span.stop = some frag := by
  intro span final
  obtain ⟨k, h1, h2, h3, h4⟩ := create_span (S := S) pre post name frag
  have inv := (SInv.new S).run (pre ++ (name, frag) :: post)
  rw [List.nil_append] at inv
  obtain ⟨k', ix, g1, g2, _⟩ := inv.present name (by simp)
  have hk : k' = k := inv.id_of g1 h2
  subst hk
  have hlt := (List.getElem?_eq_some_iff.mp h2).1
  obtain ⟨bs, hbs⟩ := Option.isSome_iff_exists.mp
    (trimmedSpan_isSome (syntheticText name (pre ++ (name, frag) :: post)) span)
  refine ⟨syntheticText name (pre ++ (name, frag) :: post), bs, byteToRune ix bs, ?_, ?_⟩
  · unfold Synthetic.adjusted
    have hb : final.baseId = S.ids.length := inv.base
    have hcond : span.source ≥ final.baseId ∧ span.source < final.baseId + final.ids.length := by
      rw [hb]; simp only [span, final]; omega
    have hsub : span.source - final.baseId = k' := by rw [hb]; simp only [span]; omega
    rw [if_pos hcond, hsub]
    simp only [final] at g2 ⊢
    simp only [h2, g2, hbs]
  · refine (slice_iff _ _ _ _).mpr ⟨syntheticText name pre, syntheticText name post, ?_, h3.symm, ?_⟩
    · have : pre ++ (name, frag) :: post = pre ++ [(name, frag)] ++ post := by simp
      rw [this, syntheticText_append, syntheticText_append]
      simp [syntheticText]
    · rw [← h3]; exact h4.symm

/-- C13: distinct names get distinct source identifiers, the same name keeps its identifier, and none clashes
with that of a file. -/
theorem C13_identifiers (S : Sources) (pre post : List (Str × Str)) (name frag : Str)
    (name' frag' : Str) :
    let span := ((syntheticRun (Synthetic.new S) pre).create name frag).1
    let span' := ((syntheticRun (Synthetic.new S) (pre ++ (name, frag) :: post)).create name' frag').1
    (span.source = span'.source ↔ name = name') ∧ span.source ≥ S.ids.length := by
  intro span span'
  obtain ⟨k, h1, h2, _, _⟩ := create_span (S := S) pre (post ++ [(name', frag')]) name frag
  obtain ⟨k', g1, g2, _, _⟩ := create_span (S := S) (pre ++ (name, frag) :: post) [] name' frag'
  have e : pre ++ (name, frag) :: post ++ [(name', frag')] = pre ++ (name, frag) :: (post ++ [(name', frag')]) := by
    simp
  rw [e] at g2
  have inv := (SInv.new S).run (pre ++ (name, frag) :: (post ++ [(name', frag')]))
  rw [List.nil_append] at inv
  refine ⟨?_, by simp only [span]; omega⟩
  constructor
  · intro h
    have : k = k' := by simp only [span, span'] at h; omega
    subst this
    rw [h2] at g2; cases g2; rfl
  · intro h
    subst h
    have := inv.id_of h2 g2
    subst this
    simp only [span, span']; omega

/-- C13: identifiers of files are below those of synthetic sources. -/
theorem C13_no_clash {fs : FileSystem} {tokens : Str → List Ranged} {rootPath : Option Path}
    {rootContent : Str} (hwf : GlobsWF fs) (id : Nat) (path : Option Path) (text : Str)
    (pre : List (Str × Str)) (name frag : Str)
    (h : IsSource (readWithIncludes fs tokens rootPath rootContent) id path text) :
    ((syntheticRun (Synthetic.new (readWithIncludes fs tokens rootPath rootContent)) pre).create name frag).1.source
      ≠ id := by
  obtain ⟨k, h1, _, _, _⟩ := create_span (S := readWithIncludes fs tokens rootPath rootContent) pre [] name frag
  have := C09_identifier_lt hwf id path text h
  omega

theorem syntheticText_split (name frag : Str) (pre post : List (Str × Str)) :
    syntheticText name (pre ++ (name, frag) :: post) =
      syntheticText name pre ++ frag ++ syntheticText name post := by
  have : pre ++ (name, frag) :: post = pre ++ [(name, frag)] ++ post := by simp
  rw [this, syntheticText_append, syntheticText_append]
  simp [syntheticText]

/-- Where a synthetic span is found. -/
theorem synthetic_adjusted [Unicode] [PartitionPoint] (S : Sources) (pre post : List (Str × Str))
    (name frag t : Str) (hascii : AsciiButLast name (pre ++ (name, frag) :: post))
    (ht : Trimmed (fun c => Unicode.isWhitespace c = true) frag t) :
    let span := ((syntheticRun (Synthetic.new S) pre).create name frag).1
    let final := syntheticRun (Synthetic.new S) (pre ++ (name, frag) :: post)
    ∃ bs, trimmedSpan (syntheticText name pre ++ frag ++ syntheticText name post)
        ⟨span.source, byteLen (syntheticText name pre), byteLen (syntheticText name pre) + byteLen frag⟩ = some bs ∧
      final.adjusted span = some (syntheticText name (pre ++ (name, frag) :: post), name, bs,
        ⟨span.source, (syntheticText name pre).length, (syntheticText name pre).length + t.length⟩) := by
  intro span final
  obtain ⟨k, h1, h2, h3, h4⟩ := create_span (S := S) pre post name frag
  have inv := (SInv.new S).run (pre ++ (name, frag) :: post)
  rw [List.nil_append] at inv
  obtain ⟨k', ix, g1, g2, g3⟩ := inv.present name (by simp)
  have hk : k' = k := inv.id_of g1 h2
  subst hk
  have hix := g3 hascii
  subst hix
  have hlt := (List.getElem?_eq_some_iff.mp h2).1
  have htext := syntheticText_split name frag pre post
  have hspan : span = ⟨span.source, byteLen (syntheticText name pre),
      byteLen (syntheticText name pre) + byteLen frag⟩ := by
    have e : span.start = byteLen (syntheticText name pre) := h3
    have e2 : span.stop = span.start + byteLen frag := h4
    cases hsp : span with
    | mk a b c => rw [hsp] at e e2; simp only at e e2; rw [e2, e]
  obtain ⟨bs, b1, b2⟩ := runeSpan_trimmed span.source (syntheticText name pre) frag t (syntheticText name post) ht
  refine ⟨bs, b1, ?_⟩
  rw [← hspan, ← htext] at b1
  rw [← htext] at b2
  unfold Synthetic.adjusted
  have hb : final.baseId = S.ids.length := inv.base
  have hcond : span.source ≥ final.baseId ∧ span.source < final.baseId + final.ids.length := by
    rw [hb]; simp only [span, final]; omega
  have hsub : span.source - final.baseId = k' := by rw [hb]; simp only [span]; omega
  rw [if_pos hcond, hsub]
  simp only [final] at g2 ⊢
  simp only [h2, g2, b1, b2]

/-- C13, lines, the part that holds: if all fragments asked for under the name but the last are ASCII, the span
resolves to the right name and lines.  Missing: fragments with other characters which are not the last of
their source, where the character positions of later fragments are computed wrongly, see
`C13_lines_false`. -/
theorem C13_lines_partial [Unicode] [PartitionPoint] (S : Sources) (pre post : List (Str × Str))
    (name frag t : Str) (hascii : AsciiButLast name (pre ++ (name, frag) :: post))
    (ht : Trimmed (fun c => Unicode.isWhitespace c = true) frag t) :
    let span := ((syntheticRun (Synthetic.new S) pre).create name frag).1
    let final := syntheticRun (Synthetic.new S) (pre ++ (name, frag) :: post)
    ∃ content, final.resolveSpan span =
      some ⟨some name, lineAfter (syntheticText name pre), lineAfter (syntheticText name pre ++ t), content⟩ := by
  intro span final
  obtain ⟨bs, b1, hadj⟩ := synthetic_adjusted S pre post name frag t hascii ht
  have htext := syntheticText_split name frag pre post
  unfold Synthetic.resolveSpan
  rw [hadj]
  simp only [resolveLines]
  rw [if_pos (Nat.le_add_right _ _)]
  have htm : ∃ w, frag = t ++ w := by
    rcases ht with ⟨body, c, w, rfl, rfl, _, _⟩ | ⟨_, rfl⟩
    · exact ⟨w, rfl⟩
    · exact ⟨[], by simp⟩
  obtain ⟨w, rfl⟩ := htm
  refine ⟨(slice (syntheticText name (pre ++ (name, t ++ w) :: post)) bs.start bs.stop).getD [], ?_⟩
  rw [htext]
  have e1 : (syntheticText name pre ++ (t ++ w) ++ syntheticText name post).take (syntheticText name pre).length =
      syntheticText name pre := by simp
  have e2 : ((syntheticText name pre ++ (t ++ w) ++ syntheticText name post).drop
      (syntheticText name pre).length).take
      ((syntheticText name pre).length + t.length - (syntheticText name pre).length) = t := by
    have : syntheticText name pre ++ (t ++ w) ++ syntheticText name post =
        syntheticText name pre ++ (t ++ (w ++ syntheticText name post)) := by simp
    rw [this, List.drop_left, Nat.add_sub_cancel_left, List.take_left]
  rw [e1, e2]
  simp only [Option.some.injEq, SpannedSource.mk.injEq, true_and, and_true]
  unfold lineAfter
  rw [countNewlines_eq, countNewlines_eq, List.count_append]
  omega

/-- C13, the text resolved to, the part that holds: if moreover the last character of the fragment that is not
white space is one byte long, the span resolves to its text without trailing white space, and that is also
the text of an error there.  Missing: as for `C13_lines_partial`, and longer last characters, as for
`C12_content_partial`. -/
theorem C13_resolve_partial [Unicode] [PartitionPoint] (S : Sources) (pre post : List (Str × Str))
    (name frag t : Str) (hascii : AsciiButLast name (pre ++ (name, frag) :: post))
    (ht : Trimmed (fun c => Unicode.isWhitespace c = true) frag t)
    (hlast : ∀ c, t.getLast? = some c → Unicode.isWhitespace c = false → c.utf8Size = 1) :
    let span := ((syntheticRun (Synthetic.new S) pre).create name frag).1
    let final := syntheticRun (Synthetic.new S) (pre ++ (name, frag) :: post)
    final.resolveSpan span =
      some ⟨some name, lineAfter (syntheticText name pre), lineAfter (syntheticText name pre ++ t), t⟩ ∧
    final.errorSourceText span = some t := by
  intro span final
  obtain ⟨bs, b1, hadj⟩ := synthetic_adjusted S pre post name frag t hascii ht
  obtain ⟨content, hres⟩ := C13_lines_partial S pre post name frag t hascii ht
  have htext := syntheticText_split name frag pre post
  have hslice : slice (syntheticText name (pre ++ (name, frag) :: post)) bs.start bs.stop = some t := by
    have hs : slice (syntheticText name pre ++ frag ++ syntheticText name post) (byteLen (syntheticText name pre))
        (byteLen (syntheticText name pre) + byteLen frag) = some frag :=
      (slice_iff _ _ _ _).mpr ⟨_, _, rfl, rfl, rfl⟩
    rw [htext]
    unfold trimmedSpan at b1
    simp only [hs] at b1
    rcases ht with ⟨body, c, w, rfl, rfl, hc, hw⟩ | ⟨hm, rfl⟩
    · rw [trim_some _ body c w _ (by simpa using hc) hw] at b1
      cases b1
      refine (slice_iff _ _ _ _).mpr ⟨syntheticText name pre, w ++ syntheticText name post, by simp, rfl, ?_⟩
      rw [byteLen_append, byteLen_cons, hlast c (by simp) (by simpa using hc)]
      have : byteLen [] = 0 := rfl
      simp only
      omega
    · rw [trim_none _ _ _ hm] at b1
      cases b1
      exact hs
  constructor
  · rw [hres]
    unfold Synthetic.resolveSpan at hres
    rw [hadj] at hres
    simp only [resolveLines] at hres
    rw [if_pos (Nat.le_add_right _ _), hslice] at hres
    simp only [Option.some.injEq, SpannedSource.mk.injEq, Option.getD_some] at hres
    rw [← hres.2.2.2]
  · unfold Synthetic.errorSourceText
    rw [hadj]
    exact hslice

/-- After a fragment `é`, the next fragment is found one character too far. -/
theorem synthetic_misplaced [Unicode] [PartitionPoint] (S : Sources) :
    let s0 := Synthetic.new S
    let s1 := (s0.create (str "x") (str "é")).2
    let r := s1.create (str "x") (str "\nA")
    r.2.adjusted r.1 = some (str "é\nA", str "x", ⟨S.ids.length, 2, 4⟩, ⟨S.ids.length, 2, 3⟩) := by
  intro s0 s1 r
  have hA : Unicode.isWhitespace 'A' = false := by
    rw [Unicode.whitespace_ascii 'A' (by decide)]; decide
  have hbs : trimmedSpan (str "é\nA") ⟨S.ids.length, 2, 4⟩ = some ⟨S.ids.length, 2, 4⟩ := by
    unfold trimmedSpan
    have hs : slice (str "é\nA") 2 4 = some (str "\nA") := rfl
    have ht := trim_some (str "é") ['\n'] 'A' [] [] hA (by simp)
    have ht' : trimTrailingWhitespace (str "é\nA") 2 4 = some 4 := ht
    simp only [hs, ht']
  have hr : r.1 = ⟨S.ids.length, 2, 4⟩ := by
    simp only [r, s1, s0, Synthetic.create, Synthetic.new, AMap.get_nil, AMap.get_insert, if_true]
    simp
    decide
  have hrune : byteToRune [0, 1, 2] ⟨S.ids.length, 2, 4⟩ = ⟨S.ids.length, 2, 3⟩ := by
    unfold byteToRune
    have h1 := PartitionPoint.point_partitioned [0, 1] [2] (fun i => decide (i < 2)) (by decide) (by decide)
    have h2 := PartitionPoint.point_partitioned [0, 1, 2] [] (fun i => decide (i < 4)) (by decide) (by decide)
    simp only [List.cons_append, List.nil_append, List.append_nil] at h1 h2
    simp only [h1, h2]
    rfl
  rw [hr]
  unfold Synthetic.adjusted
  have hb : r.2.baseId = S.ids.length := by
    simp only [r, s1, s0, Synthetic.create, Synthetic.new, AMap.get_nil, AMap.get_insert, if_true]
  have hi : r.2.ids = [str "x"] := by
    simp only [r, s1, s0, Synthetic.create, Synthetic.new, AMap.get_nil, AMap.get_insert, if_true]
    rfl
  have hg : AMap.get r.2.content (str "x") = some (S.ids.length, str "é\nA", [0, 1, 2]) := by
    simp only [r, s1, s0, Synthetic.create, Synthetic.new, AMap.get_nil, AMap.get_insert, if_true]
    rw [Option.some.injEq, Prod.mk.injEq]
    refine ⟨by simp, by decide⟩
  rw [if_pos (by rw [hb, hi]; simp)]
  have h0 : r.2.ids[S.ids.length - r.2.baseId]? = some (str "x") := by rw [hb, hi]; simp
  simp only [h0, hg, hbs, hrune]

/-- C13, what is false: after a fragment `é`, a fragment starting with a newline is reported to start on
line 2 although it starts on line 1 of its source. -/
theorem C13_lines_false [Unicode] [PartitionPoint] (S : Sources) :
    let s0 := Synthetic.new S
    let s1 := (s0.create (str "x") (str "é")).2
    let r := s1.create (str "x") (str "\nA")
    (∃ content, r.2.resolveSpan r.1 = some ⟨some (str "x"), 2, 2, content⟩) ∧
      lineAfter (syntheticText (str "x") [(str "x", str "é")]) = 1 := by
  intro s0 s1 r
  constructor
  · unfold Synthetic.resolveSpan
    rw [synthetic_misplaced S]
    exact ⟨_, rfl⟩
  · decide

/-- The hypotheses of `C13_resolve_partial` in a case with two fragments under one name, the last of which is
not ASCII. -/
example : AsciiButLast (str "x") [(str "x", str "a\n"), (str "y", str "é"), (str "x", str "é b ")] := by
  intro before frag after e hm c hc
  match before, e with
  | [], e => cases e; revert c; decide
  | [_], e => cases e
  | [_, _], e => cases e; cases hm
  | _ :: _ :: _ :: b, e => simp at e

end Lima.Props
