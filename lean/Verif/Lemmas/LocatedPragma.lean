import Verif.Lemmas.LocatedGrammar
import Verif.Lemmas.Pragma

/-! Processing the pragmas only moves locations about. -/

set_option linter.unusedSectionVars false

namespace Lima

open Spec

/-! ### Maps -/

theorem SMap.get_entry {κ ν : Type} [DecidableEq κ] {m : List (Spanned κ × ν)} {k : κ} {v : ν} (h : SMap.get m k = some v) :
    ∃ e ∈ m, e.2 = v ∧ e.1.item = k := by
  unfold SMap.get at h
  obtain ⟨e, h1, rfl⟩ := Option.map_eq_some_iff.mp h
  exact ⟨e, List.mem_of_find?_eq_some h1, rfl, by simpa using List.find?_some h1⟩

theorem SMap.insert_entry {κ ν : Type} [DecidableEq κ] {m : List (Spanned κ × ν)} {k : Spanned κ} {v : ν} {e : Spanned κ × ν}
    (h : e ∈ SMap.insert m k v) : e ∈ m ∨ (e.2 = v ∧ e.1.item = k.item ∧ (e.1 = k ∨ ∃ w, (e.1, w) ∈ m)) := by
  unfold SMap.insert at h
  split at h
  · obtain ⟨e', h1, h2⟩ := List.mem_map.mp h
    split at h2
    · rename_i hk
      subst h2
      exact .inr ⟨rfl, hk, .inr ⟨e'.2, h1⟩⟩
    · subst h2
      exact .inl h1
  · rcases List.mem_append.mp h with h | h
    · exact .inl h
    · rw [List.mem_singleton.mp h]
      exact .inr ⟨rfl, rfl, .inl rfl⟩

theorem SMap.erase_entry {κ ν : Type} [DecidableEq κ] {m : List (Spanned κ × ν)} {k : κ} {e : Spanned κ × ν}
    (h : e ∈ SMap.erase m k) : e ∈ m := List.mem_of_mem_filter h

theorem AMap.get_entry {κ ν : Type} [DecidableEq κ] {m : List (κ × ν)} {k : κ} {v : ν} (h : AMap.get m k = some v) :
    ∃ e ∈ m, e.2 = v := by
  unfold AMap.get at h
  obtain ⟨e, h1, rfl⟩ := Option.map_eq_some_iff.mp h
  exact ⟨e, List.mem_of_find?_eq_some h1, rfl⟩

theorem AMap.insert_entry {κ ν : Type} [DecidableEq κ] {m : List (κ × ν)} {k : κ} {v : ν} {e : κ × ν}
    (h : e ∈ AMap.insert m k v) : e ∈ m ∨ e.2 = v := by
  unfold AMap.insert at h
  split at h
  · obtain ⟨e', h1, h2⟩ := List.mem_map.mp h
    split at h2
    · subst h2
      exact .inr rfl
    · subst h2
      exact .inl h1
  · rcases List.mem_append.mp h with h | h
    · exact .inl h
    · rw [List.mem_singleton.mp h]
      exact .inr rfl

/-! ### The state -/

variable {G : Location → Prop}

/-- All locations in the data. -/
structure DataLocated (G : Location → Prop) (d : PragmaData) : Prop where
  forget : ∀ x, G x → G ⟨x.span, x.mayBeBlank, none⟩
  includeBy : ∀ e ∈ d.includeBy, G ⟨e.2.span, false, none⟩
  tags : ∀ e ∈ d.tags, G (reads .tag e.1) ∧ ∀ t ∈ e.2, G (reads .tag t)
  metas : ∀ e ∈ d.metas, G (reads .key e.1) ∧ ∀ v ∈ e.2, ∀ x ∈ Locations.keyValue (⟨e.1.item, v.1⟩, v.2), G x
  options : ∀ x ∈ Locations.options d.options, G x
  plugins : ∀ p ∈ d.plugins, ∀ x ∈ Locations.plugin p, G x
  errors : ∀ e ∈ d.errors, ∀ x ∈ Locations.report e, G x

/-- All locations in some declarations. -/
def DeclarationsLocated (G : Location → Prop) (ds : List (Spanned Declaration)) : Prop :=
  ∀ d ∈ ds, G (here d) ∧ ∀ x ∈ Locations.declaration d.item, G x

theorem DataLocated.report {d : PragmaData} (h : DataLocated G d) {e : Report} (he : ∀ x ∈ Locations.report e, G x) :
    DataLocated G (d.report e) := by
  refine ⟨h.forget, h.includeBy, h.tags, h.metas, h.options, h.plugins, ?_⟩
  intro e' he' x hx
  rcases List.mem_append.mp he' with h1 | h1
  · exact h.errors e' h1 x hx
  · rw [List.mem_singleton.mp h1] at hx
    exact he x hx

theorem locations_new {m r : Str} {span : Span} {x : Location} (h : x ∈ Locations.report (Report.new m r span)) :
    x = ⟨span, false, none⟩ := by
  simpa [Locations.report, Report.new, Report.contextsIter, Report.relatedIter] using h

theorem locations_related {m r n : Str} {span span' : Span} {x : Location}
    (h : x ∈ Locations.report ((Report.new m r span).relatedToNamedSpan n span')) :
    x = ⟨span, false, none⟩ ∨ x = ⟨span', false, none⟩ := by
  simpa [Locations.report, Report.new, Report.contextsIter, Report.relatedIter, Report.relatedToNamedSpan, orEmpty] using h

theorem DataLocated.pushtag {d : PragmaData} (h : DataLocated G d) {t : Spanned Str} (ht : G (reads .tag t)) :
    DataLocated G (d.pushtag t) := by
  unfold PragmaData.pushtag
  split
  · rename_i others ho
    obtain ⟨e0, he0, rfl, hi0⟩ := SMap.get_entry ho
    refine ⟨h.forget, h.includeBy, ?_, h.metas, h.options, h.plugins, h.errors⟩
    intro e he
    rcases SMap.insert_entry he with h1 | ⟨h1, hi, h2⟩
    · exact h.tags e h1
    · refine ⟨?_, ?_⟩
      · rcases h2 with h2 | ⟨w, h2⟩
        · rw [h2]; exact ht
        · exact (h.tags _ h2).1
      · rw [h1]
        intro t' ht'
        rcases List.mem_append.mp ht' with h3 | h3
        · exact (h.tags _ he0).2 t' h3
        · rw [List.mem_singleton.mp h3]; exact ht
  · refine ⟨h.forget, h.includeBy, ?_, h.metas, h.options, h.plugins, h.errors⟩
    intro e he
    rcases SMap.insert_entry he with h1 | ⟨h1, hi, h2⟩
    · exact h.tags e h1
    · refine ⟨?_, by simp [h1]⟩
      rcases h2 with h2 | ⟨w, h2⟩
      · rw [h2]; exact ht
      · exact (h.tags _ h2).1

theorem DataLocated.poptag {d : PragmaData} (h : DataLocated G d) {t : Spanned Str} (ht : G (reads .tag t)) :
    DataLocated G (d.poptag t) := by
  unfold PragmaData.poptag
  split
  · rename_i others ho
    obtain ⟨e0, he0, rfl, hi0⟩ := SMap.get_entry ho
    split
    · exact ⟨h.forget, h.includeBy, fun e he => h.tags e (SMap.erase_entry he), h.metas, h.options, h.plugins, h.errors⟩
    · refine ⟨h.forget, h.includeBy, ?_, h.metas, h.options, h.plugins, h.errors⟩
      intro e he
      rcases SMap.insert_entry he with h1 | ⟨h1, hi, h2⟩
      · exact h.tags e h1
      · refine ⟨?_, ?_⟩
        · rcases h2 with h2 | ⟨w, h2⟩
          · rw [h2]; exact ht
          · exact (h.tags _ h2).1
        · rw [h1]
          exact fun t' ht' => (h.tags _ he0).2 t' (List.mem_of_mem_dropLast ht')
  · exact h.report fun x hx => by rw [locations_new hx]; exact h.forget _ ht

theorem DataLocated.pushmeta {d : PragmaData} (h : DataLocated G d) {kv : MetaKeyValue}
    (hk : ∀ x ∈ Locations.keyValue (kv.key, kv.value), G x) : DataLocated G (d.pushmeta kv) := by
  have k1 : G (reads .key kv.key) := hk _ (by simp [Locations.keyValue])
  unfold PragmaData.pushmeta
  split
  · rename_i values ho
    obtain ⟨e0, he0, rfl, hi0⟩ := SMap.get_entry ho
    refine ⟨h.forget, h.includeBy, h.tags, ?_, h.options, h.plugins, h.errors⟩
    intro e he
    rcases SMap.insert_entry he with h1 | ⟨h1, hi, h2⟩
    · exact h.metas e h1
    · refine ⟨?_, ?_⟩
      · rcases h2 with h2 | ⟨w, h2⟩
        · rw [h2]; exact k1
        · exact (h.metas _ h2).1
      · rw [h1]
        intro v hv
        rw [hi]
        rcases List.mem_append.mp hv with h3 | h3
        · exact hi0 ▸ (h.metas _ he0).2 v h3
        · rw [List.mem_singleton.mp h3]; exact hk
  · refine ⟨h.forget, h.includeBy, h.tags, ?_, h.options, h.plugins, h.errors⟩
    intro e he
    rcases SMap.insert_entry he with h1 | ⟨h1, hi, h2⟩
    · exact h.metas e h1
    · refine ⟨?_, ?_⟩
      · rcases h2 with h2 | ⟨w, h2⟩
        · rw [h2]; exact k1
        · exact (h.metas _ h2).1
      · rw [h1]
        intro v hv
        rw [hi, List.mem_singleton.mp hv]; exact hk

theorem DataLocated.popmeta {d : PragmaData} (h : DataLocated G d) {k : Spanned Str} (hk : G (reads .key k)) :
    DataLocated G (d.popmeta k) := by
  unfold PragmaData.popmeta
  split
  · rename_i values ho
    obtain ⟨e0, he0, rfl, hi0⟩ := SMap.get_entry ho
    split
    · exact ⟨h.forget, h.includeBy, h.tags, fun e he => h.metas e (SMap.erase_entry he), h.options, h.plugins, h.errors⟩
    · refine ⟨h.forget, h.includeBy, h.tags, ?_, h.options, h.plugins, h.errors⟩
      intro e he
      rcases SMap.insert_entry he with h1 | ⟨h1, hi, h2⟩
      · exact h.metas e h1
      · refine ⟨?_, ?_⟩
        · rcases h2 with h2 | ⟨w, h2⟩
          · rw [h2]; exact hk
          · exact (h.metas _ h2).1
        · rw [h1, hi, ← hi0]
          exact fun t' ht' => (h.metas _ he0).2 t' (List.mem_of_mem_dropLast ht')
  · exact h.report fun x hx => by rw [locations_new hx]; exact h.forget _ hk

/-! ### Options -/

theorem updateOptional_locations {α : Type} {field : Option (Sourced α)} {v : α} {source : OptSource}
    (hf : ∀ x ∈ Locations.sourced field, G x) (hs : ∀ x ∈ Locations.source source, G x) :
    (∀ x ∈ Locations.sourced (updateOptional field v source).1, G x) ∧
    (∀ e, (updateOptional field v source).2 = some e → ∀ x ∈ Locations.report (e.report source), G x) := by
  unfold updateOptional
  split
  · refine ⟨?_, by simp⟩
    intro x hx
    simp only [Locations.sourced, Option.toList_some, List.flatMap_cons, List.flatMap_nil, List.append_nil,
      List.mem_cons, sourced] at hx
    rcases hx with rfl | hx
    · exact hs _ (by simp [Locations.source, here])
    · exact hs x hx
  · rename_i s
    refine ⟨hf, ?_⟩
    intro e he x hx
    cases he
    rcases locations_related hx with rfl | rfl
    · exact hs _ (by simp [Locations.source])
    · exact hf _ (by simp [Locations.sourced, Locations.source])

theorem updateHashmap_locations {κ ν : Type} [DecidableEq κ] {field : List (κ × (ν × OptSource))} {k : κ} {v : ν}
    {source : OptSource} (hf : ∀ x ∈ field.flatMap (fun e => Locations.source e.2.2), G x)
    (hs : ∀ x ∈ Locations.source source, G x) :
    (∀ x ∈ (updateHashmap field k v source).1.flatMap (fun e => Locations.source e.2.2), G x) ∧
    (∀ e, (updateHashmap field k v source).2 = some e → ∀ x ∈ Locations.report (e.report source), G x) := by
  unfold updateHashmap
  split
  · refine ⟨?_, by simp⟩
    intro x hx
    obtain ⟨e, he, hx⟩ := List.mem_flatMap.mp hx
    rcases AMap.insert_entry he with h1 | h1
    · exact hf x (List.mem_flatMap.mpr ⟨e, h1, hx⟩)
    · rw [h1] at hx
      exact hs x hx
  · rename_i e0 h0
    obtain ⟨e1, h1, h2⟩ := AMap.get_entry h0
    refine ⟨hf, ?_⟩
    intro e he x hx
    cases he
    rcases locations_related hx with rfl | rfl
    · exact hs _ (by simp [Locations.source])
    · exact hf _ (List.mem_flatMap.mpr ⟨e1, h1, by simp [Locations.source, h2]⟩)

theorem updateUnitHashmap_locations {κ : Type} [DecidableEq κ] {field : List (κ × OptSource)} {k : κ}
    {source : OptSource} (hf : ∀ x ∈ field.flatMap (fun e => Locations.source e.2), G x)
    (hs : ∀ x ∈ Locations.source source, G x) :
    (∀ x ∈ (updateUnitHashmap field k source).1.flatMap (fun e => Locations.source e.2), G x) ∧
    (∀ e, (updateUnitHashmap field k source).2 = some e → ∀ x ∈ Locations.report (e.report source), G x) := by
  unfold updateUnitHashmap
  split
  · refine ⟨?_, by simp⟩
    intro x hx
    obtain ⟨e, he, hx⟩ := List.mem_flatMap.mp hx
    rcases AMap.insert_entry he with h1 | h1
    · exact hf x (List.mem_flatMap.mpr ⟨e, h1, hx⟩)
    · rw [h1] at hx
      exact hs x hx
  · rename_i e0 h0
    obtain ⟨e1, h1, h2⟩ := AMap.get_entry h0
    refine ⟨hf, ?_⟩
    intro e he x hx
    cases he
    rcases locations_related hx with rfl | rfl
    · exact hs _ (by simp [Locations.source])
    · exact hf _ (List.mem_flatMap.mpr ⟨e1, h1, by simp [Locations.source, h2]⟩)

theorem assimilate_locations {o : Options} {opt : BOption} (ho : ∀ x ∈ Locations.options o, G x)
    (hs : ∀ x ∈ Locations.option opt, G x) :
    (∀ x ∈ Locations.options (o.assimilate opt).1, G x) ∧
    (∀ r, (o.assimilate opt).2 = some r → ∀ x ∈ Locations.report r, G x) := by
  unfold Options.assimilate
  obtain ⟨source, variant⟩ := opt
  have hs' : variant ≠ .ignored → ∀ x ∈ Locations.source source, G x := by
    intro hv x hx
    refine hs x ?_
    unfold Locations.option
    split
    · exact absurd ‹_› hv
    · exact hx
  have hr : ∀ (e : Option OptError), (∀ e', e = some e' → ∀ x ∈ Locations.report (e'.report source), G x) →
      ∀ r, e.map (OptError.report source) = some r → ∀ x ∈ Locations.report r, G x := by
    intro e h r hr
    obtain ⟨e', rfl, rfl⟩ := Option.map_eq_some_iff.mp hr
    exact h e' rfl
  simp only [Locations.options, List.forall_mem_append] at ho ⊢
  obtain ⟨⟨⟨⟨⟨⟨⟨⟨⟨⟨⟨⟨⟨⟨⟨⟨⟨h1, h2⟩, h3⟩, h4⟩, h5⟩, h6⟩, h7⟩, h8⟩, h9⟩, h10⟩, h11⟩, h12⟩, h13⟩, h14⟩, h15⟩, h16⟩, h17⟩, h18⟩ := ho
  cases variant with
  | title v =>
    have k := updateOptional_locations (v := v) h1 (hs' (by simp))
    exact ⟨⟨⟨⟨⟨⟨⟨⟨⟨⟨⟨⟨⟨⟨⟨⟨⟨⟨k.1, h2⟩, h3⟩, h4⟩, h5⟩, h6⟩, h7⟩, h8⟩, h9⟩, h10⟩, h11⟩, h12⟩, h13⟩, h14⟩, h15⟩, h16⟩, h17⟩, h18⟩, hr _ k.2⟩
  | accountPreviousBalances v =>
    have k := updateOptional_locations (v := v) h2 (hs' (by simp))
    exact ⟨⟨⟨⟨⟨⟨⟨⟨⟨⟨⟨⟨⟨⟨⟨⟨⟨⟨h1, k.1⟩, h3⟩, h4⟩, h5⟩, h6⟩, h7⟩, h8⟩, h9⟩, h10⟩, h11⟩, h12⟩, h13⟩, h14⟩, h15⟩, h16⟩, h17⟩, h18⟩, hr _ k.2⟩
  | accountPreviousEarnings v =>
    have k := updateOptional_locations (v := v) h3 (hs' (by simp))
    exact ⟨⟨⟨⟨⟨⟨⟨⟨⟨⟨⟨⟨⟨⟨⟨⟨⟨⟨h1, h2⟩, k.1⟩, h4⟩, h5⟩, h6⟩, h7⟩, h8⟩, h9⟩, h10⟩, h11⟩, h12⟩, h13⟩, h14⟩, h15⟩, h16⟩, h17⟩, h18⟩, hr _ k.2⟩
  | accountPreviousConversions v =>
    have k := updateOptional_locations (v := v) h4 (hs' (by simp))
    exact ⟨⟨⟨⟨⟨⟨⟨⟨⟨⟨⟨⟨⟨⟨⟨⟨⟨⟨h1, h2⟩, h3⟩, k.1⟩, h5⟩, h6⟩, h7⟩, h8⟩, h9⟩, h10⟩, h11⟩, h12⟩, h13⟩, h14⟩, h15⟩, h16⟩, h17⟩, h18⟩, hr _ k.2⟩
  | accountCurrentEarnings v =>
    have k := updateOptional_locations (v := v) h5 (hs' (by simp))
    exact ⟨⟨⟨⟨⟨⟨⟨⟨⟨⟨⟨⟨⟨⟨⟨⟨⟨⟨h1, h2⟩, h3⟩, h4⟩, k.1⟩, h6⟩, h7⟩, h8⟩, h9⟩, h10⟩, h11⟩, h12⟩, h13⟩, h14⟩, h15⟩, h16⟩, h17⟩, h18⟩, hr _ k.2⟩
  | accountCurrentConversions v =>
    have k := updateOptional_locations (v := v) h6 (hs' (by simp))
    exact ⟨⟨⟨⟨⟨⟨⟨⟨⟨⟨⟨⟨⟨⟨⟨⟨⟨⟨h1, h2⟩, h3⟩, h4⟩, h5⟩, k.1⟩, h7⟩, h8⟩, h9⟩, h10⟩, h11⟩, h12⟩, h13⟩, h14⟩, h15⟩, h16⟩, h17⟩, h18⟩, hr _ k.2⟩
  | accountUnrealizedGains v =>
    have k := updateOptional_locations (v := v) h7 (hs' (by simp))
    exact ⟨⟨⟨⟨⟨⟨⟨⟨⟨⟨⟨⟨⟨⟨⟨⟨⟨⟨h1, h2⟩, h3⟩, h4⟩, h5⟩, h6⟩, k.1⟩, h8⟩, h9⟩, h10⟩, h11⟩, h12⟩, h13⟩, h14⟩, h15⟩, h16⟩, h17⟩, h18⟩, hr _ k.2⟩
  | accountRounding v =>
    have k := updateOptional_locations (v := v) h8 (hs' (by simp))
    exact ⟨⟨⟨⟨⟨⟨⟨⟨⟨⟨⟨⟨⟨⟨⟨⟨⟨⟨h1, h2⟩, h3⟩, h4⟩, h5⟩, h6⟩, h7⟩, k.1⟩, h9⟩, h10⟩, h11⟩, h12⟩, h13⟩, h14⟩, h15⟩, h16⟩, h17⟩, h18⟩, hr _ k.2⟩
  | conversionCurrency v =>
    have k := updateOptional_locations (v := v) h9 (hs' (by simp))
    exact ⟨⟨⟨⟨⟨⟨⟨⟨⟨⟨⟨⟨⟨⟨⟨⟨⟨⟨h1, h2⟩, h3⟩, h4⟩, h5⟩, h6⟩, h7⟩, h8⟩, k.1⟩, h10⟩, h11⟩, h12⟩, h13⟩, h14⟩, h15⟩, h16⟩, h17⟩, h18⟩, hr _ k.2⟩
  | inferredToleranceDefault c v =>
    have k := updateHashmap_locations (k := c) (v := v) h10 (hs' (by simp))
    exact ⟨⟨⟨⟨⟨⟨⟨⟨⟨⟨⟨⟨⟨⟨⟨⟨⟨⟨h1, h2⟩, h3⟩, h4⟩, h5⟩, h6⟩, h7⟩, h8⟩, h9⟩, k.1⟩, h11⟩, h12⟩, h13⟩, h14⟩, h15⟩, h16⟩, h17⟩, h18⟩, hr _ k.2⟩
  | inferredToleranceMultiplier v =>
    have k := updateOptional_locations (v := v) h11 (hs' (by simp))
    exact ⟨⟨⟨⟨⟨⟨⟨⟨⟨⟨⟨⟨⟨⟨⟨⟨⟨⟨h1, h2⟩, h3⟩, h4⟩, h5⟩, h6⟩, h7⟩, h8⟩, h9⟩, h10⟩, k.1⟩, h12⟩, h13⟩, h14⟩, h15⟩, h16⟩, h17⟩, h18⟩, hr _ k.2⟩
  | inferToleranceFromCost v =>
    have k := updateOptional_locations (v := v) h12 (hs' (by simp))
    exact ⟨⟨⟨⟨⟨⟨⟨⟨⟨⟨⟨⟨⟨⟨⟨⟨⟨⟨h1, h2⟩, h3⟩, h4⟩, h5⟩, h6⟩, h7⟩, h8⟩, h9⟩, h10⟩, h11⟩, k.1⟩, h13⟩, h14⟩, h15⟩, h16⟩, h17⟩, h18⟩, hr _ k.2⟩
  | documents v =>
    have k := updateUnitHashmap_locations (k := v) h13 (hs' (by simp))
    exact ⟨⟨⟨⟨⟨⟨⟨⟨⟨⟨⟨⟨⟨⟨⟨⟨⟨⟨h1, h2⟩, h3⟩, h4⟩, h5⟩, h6⟩, h7⟩, h8⟩, h9⟩, h10⟩, h11⟩, h12⟩, k.1⟩, h14⟩, h15⟩, h16⟩, h17⟩, h18⟩, hr _ k.2⟩
  | operatingCurrency v =>
    have k := updateUnitHashmap_locations (k := v) h14 (hs' (by simp))
    exact ⟨⟨⟨⟨⟨⟨⟨⟨⟨⟨⟨⟨⟨⟨⟨⟨⟨⟨h1, h2⟩, h3⟩, h4⟩, h5⟩, h6⟩, h7⟩, h8⟩, h9⟩, h10⟩, h11⟩, h12⟩, h13⟩, k.1⟩, h15⟩, h16⟩, h17⟩, h18⟩, hr _ k.2⟩
  | renderCommas v =>
    have k := updateOptional_locations (v := v) h15 (hs' (by simp))
    exact ⟨⟨⟨⟨⟨⟨⟨⟨⟨⟨⟨⟨⟨⟨⟨⟨⟨⟨h1, h2⟩, h3⟩, h4⟩, h5⟩, h6⟩, h7⟩, h8⟩, h9⟩, h10⟩, h11⟩, h12⟩, h13⟩, h14⟩, k.1⟩, h16⟩, h17⟩, h18⟩, hr _ k.2⟩
  | bookingMethod v =>
    have k := updateOptional_locations (v := v) h16 (hs' (by simp))
    exact ⟨⟨⟨⟨⟨⟨⟨⟨⟨⟨⟨⟨⟨⟨⟨⟨⟨⟨h1, h2⟩, h3⟩, h4⟩, h5⟩, h6⟩, h7⟩, h8⟩, h9⟩, h10⟩, h11⟩, h12⟩, h13⟩, h14⟩, h15⟩, k.1⟩, h17⟩, h18⟩, hr _ k.2⟩
  | pluginProcessingMode v =>
    have k := updateOptional_locations (v := v) h17 (hs' (by simp))
    exact ⟨⟨⟨⟨⟨⟨⟨⟨⟨⟨⟨⟨⟨⟨⟨⟨⟨⟨h1, h2⟩, h3⟩, h4⟩, h5⟩, h6⟩, h7⟩, h8⟩, h9⟩, h10⟩, h11⟩, h12⟩, h13⟩, h14⟩, h15⟩, h16⟩, k.1⟩, h18⟩, hr _ k.2⟩
  | accountTypeName _ _ =>
    exact ⟨⟨⟨⟨⟨⟨⟨⟨⟨⟨⟨⟨⟨⟨⟨⟨⟨⟨h1, h2⟩, h3⟩, h4⟩, h5⟩, h6⟩, h7⟩, h8⟩, h9⟩, h10⟩, h11⟩, h12⟩, h13⟩, h14⟩, h15⟩, h16⟩, h17⟩, h18⟩, hr _ (by simp [Options.update])⟩
  | longStringMaxlines _ =>
    exact ⟨⟨⟨⟨⟨⟨⟨⟨⟨⟨⟨⟨⟨⟨⟨⟨⟨⟨h1, h2⟩, h3⟩, h4⟩, h5⟩, h6⟩, h7⟩, h8⟩, h9⟩, h10⟩, h11⟩, h12⟩, h13⟩, h14⟩, h15⟩, h16⟩, h17⟩, h18⟩, hr _ (by simp [Options.update])⟩
  | assimilated =>
    exact ⟨⟨⟨⟨⟨⟨⟨⟨⟨⟨⟨⟨⟨⟨⟨⟨⟨⟨h1, h2⟩, h3⟩, h4⟩, h5⟩, h6⟩, h7⟩, h8⟩, h9⟩, h10⟩, h11⟩, h12⟩, h13⟩, h14⟩, h15⟩, h16⟩, h17⟩, h18⟩, hr _ (by simp [Options.update])⟩
  | ignored =>
    exact ⟨⟨⟨⟨⟨⟨⟨⟨⟨⟨⟨⟨⟨⟨⟨⟨⟨⟨h1, h2⟩, h3⟩, h4⟩, h5⟩, h6⟩, h7⟩, h8⟩, h9⟩, h10⟩, h11⟩, h12⟩, h13⟩, h14⟩, h15⟩, h16⟩, h17⟩, h18⟩, hr _ (by simp [Options.update])⟩

theorem DataLocated.option {d : PragmaData} (h : DataLocated G d) {o : BOption} (ho : ∀ x ∈ Locations.option o, G x) :
    DataLocated G (d.option o) := by
  obtain ⟨k1, k2⟩ := assimilate_locations h.options ho
  have h' : DataLocated G { d with options := (d.options.assimilate o).1 } :=
    ⟨h.forget, h.includeBy, h.tags, h.metas, k1, h.plugins, h.errors⟩
  unfold PragmaData.option
  simp only
  split
  · rename_i e he
    exact h'.report (k2 e he)
  · exact h'

/-! ### Includes -/

theorem DataLocated.opened {env : PragmaEnv} {d : PragmaData} (h : DataLocated G d) {span : Span} (hs : G ⟨span, false, none⟩)
    (p : Path) : DataLocated G (d.opened env span p) := by
  unfold PragmaData.opened
  split
  · refine ⟨h.forget, ?_, h.tags, h.metas, h.options, h.plugins, h.errors⟩
    intro e he
    rcases AMap.insert_entry he with h1 | h1
    · exact h.includeBy e h1
    · rw [h1]; exact hs
  · exact h

theorem DataLocated.notOpened {env : PragmaEnv} {d : PragmaData} (h : DataLocated G d) {span : Span} (hs : G ⟨span, false, none⟩)
    (p : Path) : DataLocated G (d.notOpened env span p) := by
  have hn : ∀ (m r : Str), ∀ x ∈ Locations.report (Report.new m r span), G x := fun m r x hx => by
    rw [locations_new hx]; exact hs
  unfold PragmaData.notOpened
  simp only
  split
  · exact h.report (hn _ _)
  · split
    · split
      · rename_i ctx hc
        split
        · exact h
        · refine h.report fun x hx => ?_
          rcases locations_related hx with rfl | rfl
          · exact hs
          · obtain ⟨e, he, rfl⟩ := AMap.get_entry hc
            exact h.includeBy e he
      · exact h.report (hn _ _)
    · exact h.report (hn _ _)

/-- All locations in the state. -/
structure StateLocated (G : Location → Prop) (st : PragmaState) : Prop where
  current : DeclarationsLocated G st.current
  stacked : ∀ e ∈ st.stacked, DeclarationsLocated G e.2
  remaining : ∀ e ∈ st.remaining, DeclarationsLocated G e.2
  data : DataLocated G st.data

theorem StateLocated.includeOne {env : PragmaEnv} {st : PragmaState} (h : StateLocated G st) {span : Span}
    (hs : G ⟨span, false, none⟩) (p : Path) : StateLocated G (st.includeOne env span p) := by
  unfold PragmaState.includeOne
  split
  · rename_i ds hd
    obtain ⟨e, he, rfl⟩ := AMap.get_entry hd
    refine ⟨h.remaining e he, ?_, fun e he => h.remaining e (List.mem_of_mem_filter he), h.data.opened hs p⟩
    intro e' he'
    rcases List.mem_cons.mp he' with rfl | he'
    · exact h.current
    · exact h.stacked e' he'
  · exact ⟨h.current, h.stacked, h.remaining, h.data.notOpened hs p⟩

theorem StateLocated.includeGlob {env : PragmaEnv} {st st' : PragmaState} (h : StateLocated G st) {g : Spanned Str}
    (hs : G ⟨g.span, false, none⟩) (hi : st.includeGlob env g = some st') : StateLocated G st' := by
  have hrep : ∀ (m r : Str), StateLocated G { st with data := st.data.report (Report.new m r g.span) } := fun m r =>
    ⟨h.current, h.stacked, h.remaining, h.data.report fun x hx => by rw [locations_new hx]; exact hs⟩
  unfold PragmaState.includeGlob at hi
  split at hi
  · cases hi
  · rename_i paths _
    cases hi
    have : ∀ (ps : List Path) (st : PragmaState), StateLocated G st →
        StateLocated G (ps.foldl (PragmaState.includeOne env g.span) st) := by
      intro ps
      induction ps with
      | nil => exact fun _ h => h
      | cons p ps ih => exact fun st h => ih _ (h.includeOne hs p)
    refine this paths _ ?_
    split
    · exact hrep _ _
    · exact h
  · cases hi
    exact hrep _ _

/-! ### Directives -/

theorem augment_locations {d : PragmaData} (h : DataLocated G d) {dir dir' : Directive}
    (hd : ∀ x ∈ Locations.directive dir, G x) (ha : d.augment dir = some dir') :
    ∀ x ∈ Locations.directive dir', G x := by
  have ht : ∀ (tags : TagStacks) (own : List (Spanned Str)),
      (∀ e ∈ tags, G (reads .tag e.1) ∧ ∀ t ∈ e.2, G (reads .tag t)) → (∀ t ∈ own, G (reads .tag t)) →
      ∀ t ∈ augmentTags own tags, G (reads .tag t) := by
    intro tags
    induction tags with
    | nil => exact fun own _ ho => ho
    | cons e es ih =>
      intro own htags ho
      unfold augmentTags
      rw [List.foldl_cons]
      refine ih _ (fun e' he' => htags e' (List.mem_cons_of_mem _ he')) ?_
      split
      · exact ho
      · have hi : ∀ y : Spanned Str, G (reads .tag y) → ∀ t ∈ SSet.insert own y, G (reads .tag t) := by
          intro y hy t hm
          unfold SSet.insert at hm
          split at hm
          · exact ho t hm
          · rcases List.mem_append.mp hm with hm | hm
            · exact ho t hm
            · rw [List.mem_singleton.mp hm]
              exact hy
        refine hi _ ?_
        split
        · rename_i t' ht'
          exact (htags e List.mem_cons_self).2 t' (List.mem_of_getLast? ht')
        · exact (htags e List.mem_cons_self).1
  have hk : ∀ (metas : MetaStacks) (own own' : List (Spanned Str × Spanned MetaValue)),
      (∀ e ∈ metas, G (reads .key e.1) ∧ ∀ v ∈ e.2, ∀ x ∈ Locations.keyValue (⟨e.1.item, v.1⟩, v.2), G x) →
      (∀ x ∈ own.flatMap Locations.keyValue, G x) → augmentKeyValues own metas = some own' →
      ∀ x ∈ own'.flatMap Locations.keyValue, G x := by
    intro metas
    induction metas with
    | nil =>
      intro own own' _ ho h
      cases h
      exact ho
    | cons e es ih =>
      intro own own' hm ho h
      unfold augmentKeyValues at h
      rw [List.foldlM_cons] at h
      obtain ⟨own1, h1, h2⟩ := Option.bind_eq_some_iff.mp h
      refine ih own1 own' (fun e' he' => hm e' (List.mem_cons_of_mem _ he')) ?_ h2
      split at h1
      · cases h1; exact ho
      · rename_i hn
        split at h1
        · rename_i keySpan value hv
          cases h1
          have hg := (hm e List.mem_cons_self).2 _ (List.mem_of_getLast? hv)
          intro x hx
          rcases Grammar.smap_insert_locations (k := ⟨e.1.item, keySpan⟩) (by simpa using hn) hx with hx | hx
          · exact ho x hx
          · exact hg x hx
        · cases h1
  unfold PragmaData.augment at ha
  split at ha
  · cases ha
  · rename_i kvs hkv
    cases ha
    simp only [Locations.directive, Locations.spannedMetadata, Locations.metadata, List.forall_mem_append,
      List.forall_mem_cons, List.mem_map, forall_exists_index, and_imp, forall_apply_eq_imp_iff₂] at hd ⊢
    obtain ⟨⟨h1, h2, ⟨h3, h4⟩, h5⟩, h6⟩ := hd
    exact ⟨⟨h1, h2, ⟨hk _ _ _ h.metas h3 hkv, ht _ _ h.tags h4⟩, h5⟩, h6⟩

/-! ### The whole -/

/-- All locations in some directives. -/
def DirectivesLocated (G : Location → Prop) (ds : List (Spanned Directive)) : Prop :=
  ∀ d ∈ ds, G (here d) ∧ ∀ x ∈ Locations.directive d.item, G x

theorem step_located {env : PragmaEnv} {st : PragmaState} (h : StateLocated G st) :
    match st.step env with
    | .yield d st' => G (here d) ∧ (∀ x ∈ Locations.directive d.item, G x) ∧ StateLocated G st'
    | .continue st' => StateLocated G st'
    | .done => True
    | .panic => True := by
  obtain ⟨path, current, stacked, remaining, data⟩ := st
  cases current with
  | nil =>
    cases stacked with
    | nil => trivial
    | cons e es =>
      exact ⟨h.stacked e List.mem_cons_self, fun e' he' => h.stacked e' (List.mem_cons_of_mem _ he'), h.remaining, h.data⟩
  | cons d ds =>
    obtain ⟨hd1, hd2⟩ := h.current d List.mem_cons_self
    have hds : DeclarationsLocated G ds := fun e he => h.current e (List.mem_cons_of_mem _ he)
    have h' : StateLocated G ⟨path, ds, stacked, remaining, data⟩ := ⟨hds, h.stacked, h.remaining, h.data⟩
    have hdata := h.data
    simp only [PragmaState.step]
    obtain ⟨item, span⟩ := d
    cases item with
    | directive dir =>
      simp only
      cases ha : data.augment dir with
      | none => trivial
      | some dir' => exact ⟨hd1, augment_locations hdata hd2 ha, h'⟩
    | pragma p =>
      cases p with
      | pushtag t => exact ⟨hds, h.stacked, h.remaining, hdata.pushtag (hd2 _ List.mem_cons_self)⟩
      | poptag t => exact ⟨hds, h.stacked, h.remaining, hdata.poptag (hd2 _ List.mem_cons_self)⟩
      | pushmeta kv => exact ⟨hds, h.stacked, h.remaining, hdata.pushmeta hd2⟩
      | popmeta t => exact ⟨hds, h.stacked, h.remaining, hdata.popmeta (hd2 _ List.mem_cons_self)⟩
      | «include» g =>
        simp only
        cases hi : PragmaState.includeGlob env ⟨path, ds, stacked, remaining, data⟩ g with
        | none => trivial
        | some st' => exact h'.includeGlob (hdata.forget _ (hd2 _ List.mem_cons_self)) hi
      | option o => exact ⟨hds, h.stacked, h.remaining, hdata.option hd2⟩
      | plugin p =>
        refine ⟨hds, h.stacked, h.remaining, hdata.forget, hdata.includeBy, hdata.tags, hdata.metas, hdata.options, ?_, hdata.errors⟩
        intro q hq x hx
        rcases List.mem_append.mp hq with hq | hq
        · exact hdata.plugins q hq x hx
        · rw [List.mem_singleton.mp hq] at hx
          exact hd2 x hx

theorem collectFuel_located {env : PragmaEnv} : ∀ (n : Nat) {st st' : PragmaState} {ds : List (Spanned Directive)},
    StateLocated G st → st.collectFuel env n = .ok (ds, st') → DirectivesLocated G ds ∧ DataLocated G st'.data := by
  intro n
  induction n with
  | zero => intro st st' ds _ h; cases h
  | succ n ih =>
    intro st st' ds h hc
    have hs := step_located (env := env) h
    simp only [PragmaState.collectFuel] at hc
    cases ht : st.step env with
    | yield d st1 =>
      rw [ht] at hs hc
      simp only at hs hc
      cases hr : PragmaState.collectFuel env n st1 with
      | ok r =>
        rw [hr] at hc
        cases hc
        obtain ⟨k1, k2⟩ := ih hs.2.2 hr
        refine ⟨?_, k2⟩
        intro x hx
        rcases List.mem_cons.mp hx with rfl | hx
        · exact ⟨hs.1, hs.2.1⟩
        · exact k1 x hx
      | err e => rw [hr] at hc; cases hc
      | panic => rw [hr] at hc; cases hc
    | «continue» st1 =>
      rw [ht] at hs hc
      exact ih hs hc
    | done =>
      rw [ht] at hc
      cases hc
      exact ⟨fun d hd => (by cases hd), h.data⟩
    | panic => rw [ht] at hc; cases hc

theorem processPragmas_located {env : PragmaEnv} {rootPath : Option Path}
    {parsed : List (Option Path × List (Spanned Declaration))} {options : Options} {ds : List (Spanned Directive)}
    {data : PragmaData} (hG : ∀ x, G x → G ⟨x.span, x.mayBeBlank, none⟩)
    (hp : ∀ e ∈ parsed, DeclarationsLocated G e.2) (ho : ∀ x ∈ Locations.options options, G x)
    (h : processPragmas env rootPath parsed options = .ok (ds, data)) :
    DirectivesLocated G ds ∧ DataLocated G data := by
  unfold processPragmas at h
  split at h
  · cases h
  · rename_i st hst
    have hl : StateLocated G st := by
      unfold PragmaState.new at hst
      split at hst
      · cases hst
      · rename_i current hc
        cases hst
        obtain ⟨e, he, rfl⟩ := AMap.get_entry hc
        exact ⟨hp e he, fun e he => (by cases he), fun e he => hp e (List.mem_of_mem_filter he),
          hG, fun e he => (by cases he), fun e he => (by cases he), fun e he => (by cases he), ho,
          fun e he => (by cases he), fun e he => (by cases he)⟩
    unfold PragmaState.collect at h
    cases hr : st.collectFuel env (st.size + 1) with
    | ok r =>
      rw [hr] at h
      cases h
      exact collectFuel_located _ hl hr
    | err e => rw [hr] at h; cases h
    | panic => rw [hr] at h; cases h

theorem finalErrors_located {d : PragmaData} (h : DataLocated G d) : ∀ e ∈ d.finalErrors, ∀ x ∈ Locations.report e, G x := by
  intro e he x hx
  unfold PragmaData.finalErrors at he
  simp only [List.mem_append, List.mem_map, List.mem_flatMap] at he
  rcases he with (he | ⟨m, hm, rfl⟩) | ⟨t, ht, s, hs, rfl⟩
  · exact h.errors e he x hx
  · rw [locations_new hx]
    exact h.forget _ (h.metas m hm).1
  · rw [locations_new hx]
    rcases List.mem_cons.mp hs with rfl | hs
    · exact h.forget _ (h.tags t ht).1
    · exact h.forget _ ((h.tags t ht).2 s hs)

end Lima
