import Verif.Lemmas.Maps
import Verif.Spec.Grammar

/-! The collections of names without duplicates. -/

namespace Lima.Grammar

open Spec

theorem sset_insert_new {s : List (Spanned Str)} {x : Spanned Str} (h : ¬ SSet.has s x.item = true) :
    SSet.insert s x = s ++ [x] := by
  unfold SSet.insert
  rw [if_neg h]

theorem smap_insert_new {ν : Type} {s : List (Spanned Str × ν)} {k : Spanned Str} {v : ν}
    (h : ¬ SMap.has s k.item = true) : SMap.insert s k v = s ++ [(k, v)] := by
  unfold SMap.insert
  rw [if_neg h]

/-- The fold of `tags_links`. -/
def stepTagsLinks (acc : (List (Spanned Str) × List (Spanned Str)) × List PErr)
    (item : Sum (Spanned Str) (Spanned Str)) : (List (Spanned Str) × List (Spanned Str)) × List PErr :=
  match item with
  | .inl t =>
    let r := collectOne .tag (acc.1.1, acc.2) t
    ((r.1, acc.1.2), r.2)
  | .inr t =>
    let r := collectOne .link (acc.1.2, acc.2) t
    ((acc.1.1, r.1), r.2)

theorem has_snoc (s : List (Spanned Str)) (x : Spanned Str) (k : Str) :
    SSet.has (s ++ [x]) k = true ↔ k = x.item ∨ SSet.has s k = true := by
  simp only [SSet.has_iff_mem, List.map_append, List.map_cons, List.map_nil, List.mem_append, List.mem_singleton]
  tauto

theorem foldl_stepTagsLinks (l : List TagOrLink) : ∀ (seen : List (DupKind × Str)) (T L : List (Spanned Str)) (E : List PErr),
    (∀ k, (DupKind.tag, k) ∈ seen ↔ SSet.has T k = true) → (∀ k, (DupKind.link, k) ∈ seen ↔ SSet.has L k = true) →
    l.foldl stepTagsLinks ((T, L), E) =
      ((T ++ headTags (firsts TagOrLink.name seen l), L ++ headLinks (firsts TagOrLink.name seen l)),
        E ++ (repeats TagOrLink.name seen l).map TagOrLink.report) := by
  induction l with
  | nil => intro seen T L E _ _; simp [firsts, repeats, headTags, headLinks]
  | cons x xs ih =>
    intro seen T L E hT hL
    rw [List.foldl_cons]
    cases x with
    | inl t =>
      have hn : TagOrLink.name (.inl t) = (.tag, t.item) := rfl
      by_cases h : SSet.has T t.item = true
      · have hm := (hT t.item).mpr h
        have : stepTagsLinks ((T, L), E) (.inl t) = ((T, L), E ++ [.duplicate .tag t.item t.span]) := by
          simp [stepTagsLinks, collectOne, h]
        rw [this, ih seen T L _ hT hL]
        simp only [firsts, repeats, hn, hm, if_true, List.map_cons, List.append_assoc, List.singleton_append]
        rfl
      · have hm := mt (hT t.item).mp h
        have : stepTagsLinks ((T, L), E) (.inl t) = ((T ++ [t], L), E) := by
          simp [stepTagsLinks, collectOne, h, sset_insert_new h]
        rw [this, ih ((.tag, t.item) :: seen) (T ++ [t]) L _ ?_ ?_]
        · simp only [firsts, repeats, hn, hm, if_false, headTags, headLinks, List.filterMap_cons, List.append_assoc,
            List.singleton_append]
        · intro k
          rw [has_snoc, ← hT]
          simp
        · intro k
          rw [← hL]
          simp
    | inr t =>
      have hn : TagOrLink.name (.inr t) = (.link, t.item) := rfl
      by_cases h : SSet.has L t.item = true
      · have hm := (hL t.item).mpr h
        have : stepTagsLinks ((T, L), E) (.inr t) = ((T, L), E ++ [.duplicate .link t.item t.span]) := by
          simp [stepTagsLinks, collectOne, h]
        rw [this, ih seen T L _ hT hL]
        simp only [firsts, repeats, hn, hm, if_true, List.map_cons, List.append_assoc, List.singleton_append]
        rfl
      · have hm := mt (hL t.item).mp h
        have : stepTagsLinks ((T, L), E) (.inr t) = ((T, L ++ [t]), E) := by
          simp [stepTagsLinks, collectOne, h, sset_insert_new h]
        rw [this, ih ((.link, t.item) :: seen) T (L ++ [t]) _ ?_ ?_]
        · simp only [firsts, repeats, hn, hm, if_false, headTags, headLinks, List.filterMap_cons, List.append_assoc,
            List.singleton_append]
        · intro k
          rw [← hT]
          simp
        · intro k
          rw [has_snoc, ← hL]
          simp

theorem collectTagsLinks_eq (l : List TagOrLink) :
    collectTagsLinks l = ((headTags (firsts TagOrLink.name [] l), headLinks (firsts TagOrLink.name [] l)),
      headErrors l) := by
  have h := foldl_stepTagsLinks l [] [] [] [] (by simp [SSet.has]) (by simp [SSet.has])
  have e : collectTagsLinks l = l.foldl stepTagsLinks (([], []), []) := by
    unfold collectTagsLinks
    congr 1
  rw [e, h]
  simp [headErrors]

theorem smap_has_snoc {ν : Type} (s : List (Spanned Str × ν)) (x : Spanned Str) (v : ν) (k : Str) :
    SMap.has (s ++ [(x, v)]) k = true ↔ k = x.item ∨ SMap.has s k = true := by
  simp only [SMap.has_iff, List.mem_append, List.mem_singleton]
  constructor
  · rintro ⟨e, he | rfl, h⟩
    · exact .inr ⟨e, he, h⟩
    · exact .inl h.symm
  · rintro (h | ⟨e, he, h⟩)
    · exact ⟨_, .inr rfl, h.symm⟩
    · exact ⟨e, .inl he, h⟩

theorem foldl_collectMetadatum (l : List Metadatum) : ∀ (seen : List (DupKind × Str)) (m : Metadata) (E : List PErr),
    (∀ k, (DupKind.key, k) ∈ seen ↔ SMap.has m.keyValues k = true) →
    (∀ k, (DupKind.tag, k) ∈ seen ↔ SSet.has m.tags k = true) →
    (∀ k, (DupKind.link, k) ∈ seen ↔ SSet.has m.links k = true) →
    l.foldl collectMetadatum (m, E) =
      (⟨m.keyValues ++ lineKeyValues (firsts lineName seen l), m.tags ++ lineTags (firsts lineName seen l),
        m.links ++ lineLinks (firsts lineName seen l)⟩, E ++ (repeats lineName seen l).map lineReport) := by
  induction l with
  | nil => intro seen m E _ _ _; simp [firsts, repeats, lineKeyValues, lineTags, lineLinks]
  | cons x xs ih =>
    intro seen m E hK hT hL
    rw [List.foldl_cons]
    cases x with
    | keyValue kv =>
      have hn : lineName (.keyValue kv) = (.key, kv.item.key.item) := rfl
      by_cases h : SMap.has m.keyValues kv.item.key.item = true
      · have hm := (hK _).mpr h
        have : collectMetadatum (m, E) (.keyValue kv) = (m, E ++ [lineReport (.keyValue kv)]) := by
          simp [collectMetadatum, h, lineReport]
        rw [this, ih seen m _ hK hT hL]
        simp only [firsts, repeats, hn, hm, if_true, List.map_cons, List.append_assoc, List.singleton_append]
      · have hm := mt (hK _).mp h
        have : collectMetadatum (m, E) (.keyValue kv) =
            ({ m with keyValues := m.keyValues ++ [(kv.item.key, kv.item.value)] }, E) := by
          simp [collectMetadatum, h, smap_insert_new h]
        rw [this, ih ((.key, kv.item.key.item) :: seen) _ _ ?_ ?_ ?_]
        · simp only [firsts, repeats, hn, hm, if_false, lineKeyValues, lineTags, lineLinks, List.filterMap_cons,
            List.append_assoc, List.singleton_append]
        · intro k
          rw [smap_has_snoc, ← hK]
          simp
        · intro k
          rw [← hT]
          simp
        · intro k
          rw [← hL]
          simp
    | tag t =>
      have hn : lineName (.tag t) = (.tag, t.item) := rfl
      by_cases h : SSet.has m.tags t.item = true
      · have hm := (hT t.item).mpr h
        have : collectMetadatum (m, E) (.tag t) = (m, E ++ [lineReport (.tag t)]) := by
          simp [collectMetadatum, collectOne, h, lineReport]
        rw [this, ih seen m _ hK hT hL]
        simp only [firsts, repeats, hn, hm, if_true, List.map_cons, List.append_assoc, List.singleton_append]
      · have hm := mt (hT t.item).mp h
        have : collectMetadatum (m, E) (.tag t) = ({ m with tags := m.tags ++ [t] }, E) := by
          simp [collectMetadatum, collectOne, h, sset_insert_new h]
        rw [this, ih ((.tag, t.item) :: seen) _ _ ?_ ?_ ?_]
        · simp only [firsts, repeats, hn, hm, if_false, lineKeyValues, lineTags, lineLinks, List.filterMap_cons,
            List.append_assoc, List.singleton_append]
        · intro k
          rw [← hK]
          simp
        · intro k
          rw [has_snoc, ← hT]
          simp
        · intro k
          rw [← hL]
          simp
    | link t =>
      have hn : lineName (.link t) = (.link, t.item) := rfl
      by_cases h : SSet.has m.links t.item = true
      · have hm := (hL t.item).mpr h
        have : collectMetadatum (m, E) (.link t) = (m, E ++ [lineReport (.link t)]) := by
          simp [collectMetadatum, collectOne, h, lineReport]
        rw [this, ih seen m _ hK hT hL]
        simp only [firsts, repeats, hn, hm, if_true, List.map_cons, List.append_assoc, List.singleton_append]
      · have hm := mt (hL t.item).mp h
        have : collectMetadatum (m, E) (.link t) = ({ m with links := m.links ++ [t] }, E) := by
          simp [collectMetadatum, collectOne, h, sset_insert_new h]
        rw [this, ih ((.link, t.item) :: seen) _ _ ?_ ?_ ?_]
        · simp only [firsts, repeats, hn, hm, if_false, lineKeyValues, lineTags, lineLinks, List.filterMap_cons,
            List.append_assoc, List.singleton_append]
        · intro k
          rw [← hK]
          simp
        · intro k
          rw [← hT]
          simp
        · intro k
          rw [has_snoc, ← hL]
          simp

theorem collectMetadata_eq (l : List Metadatum) :
    l.foldl collectMetadatum (⟨[], [], []⟩, []) = (lineMetadata l, lineErrors l) := by
  rw [foldl_collectMetadatum l [] ⟨[], [], []⟩ [] (by simp [SMap.has]) (by simp [SSet.has]) (by simp [SSet.has])]
  simp [lineMetadata, lineErrors]

theorem foldl_collectOne (kind : DupKind) (l : List (Spanned Str)) : ∀ (seen : List Str) (s : List (Spanned Str))
    (E : List PErr), (∀ k, k ∈ seen ↔ SSet.has s k = true) →
    l.foldl (collectOne kind) (s, E) =
      (s ++ firsts (·.item) seen l, E ++ (repeats (·.item) seen l).map (fun c => .duplicate kind c.item c.span)) := by
  induction l with
  | nil => intro seen s E _; simp [firsts, repeats]
  | cons x xs ih =>
    intro seen s E hs
    rw [List.foldl_cons]
    by_cases h : SSet.has s x.item = true
    · have hm := (hs x.item).mpr h
      have : collectOne kind (s, E) x = (s, E ++ [.duplicate kind x.item x.span]) := by
        simp [collectOne, h]
      rw [this, ih seen s _ hs]
      simp only [firsts, repeats, hm, if_true, List.map_cons, List.append_assoc, List.singleton_append]
    · have hm := mt (hs x.item).mp h
      have : collectOne kind (s, E) x = (s ++ [x], E) := by
        simp [collectOne, h, sset_insert_new h]
      rw [this, ih (x.item :: seen) (s ++ [x]) _ ?_]
      · simp only [firsts, repeats, hm, if_false, List.append_assoc, List.singleton_append]
      · intro k
        rw [has_snoc, ← hs]
        simp

theorem collectCurrencies_eq (c : Spanned Str) (cs : List (Spanned Str)) :
    collectCurrencies c cs = (firsts (·.item) [] (cs ++ [c]), currencyErrors (cs ++ [c])) := by
  unfold collectCurrencies
  rw [foldl_collectOne .currency (cs ++ [c]) [] [] [] (by simp [SSet.has])]
  simp [currencyErrors]

/-! ### Merging -/

theorem firsts_notin {α κ : Type} [DecidableEq κ] (name : α → κ) (l : List α) : ∀ (seen : List κ),
    (∀ x ∈ firsts name seen l, name x ∉ seen) ∧ ((firsts name seen l).map name).Nodup := by
  induction l with
  | nil => intro seen; simp [firsts]
  | cons x xs ih =>
    intro seen
    unfold firsts
    split
    · exact ih seen
    · rename_i h
      obtain ⟨h1, h2⟩ := ih (name x :: seen)
      constructor
      · intro y hy
        rcases List.mem_cons.mp hy with rfl | hy
        · exact h
        · exact fun hm => h1 y hy (List.mem_cons_of_mem _ hm)
      · rw [List.map_cons, List.nodup_cons]
        refine ⟨?_, h2⟩
        intro hm
        obtain ⟨y, hy, he⟩ := List.mem_map.mp hm
        exact h1 y hy (by rw [he]; exact List.mem_cons_self)

theorem find_item (s : List (Spanned Str)) (a : Str) : SSet.get s a = s.find? (fun x => decide (x.item = a)) := rfl

/-- The fold of `merge_tags`. -/
def stepMerge (kind : DupKind) (acc : List (Spanned Str) × List PErr) (t : Spanned Str) :
    List (Spanned Str) × List PErr :=
  match SSet.get acc.1 t.item with
  | none => (SSet.insert acc.1 t, acc.2)
  | some existing => (acc.1, acc.2 ++ [PErr.duplicate kind t.item existing.span])

theorem mergeInto_eq (kind : DupKind) (own extra : List (Spanned Str)) (hn : (extra.map (·.item)).Nodup) :
    mergeInto kind own extra =
      (union own extra, (both own extra).map (fun t => .duplicate kind t.item t.span)) := by
  have key : ∀ (extra done : List (Spanned Str)) (E : List PErr), ((done ++ extra).map (·.item)).Nodup →
      extra.foldl (stepMerge kind) (union own done, E) =
      (union own (done ++ extra), E ++ (both own extra).map (fun t => .duplicate kind t.item t.span)) := by
    intro extra
    induction extra with
    | nil => intro done E _; simp [both]
    | cons x xs ih =>
      intro done E hn
      rw [List.foldl_cons]
      have hx : ∀ y ∈ done, y.item ≠ x.item := by
        intro y hy he
        rw [List.map_append, List.nodup_append] at hn
        exact hn.2.2 _ (List.mem_map_of_mem hy) _ (List.mem_map_of_mem List.mem_cons_self) he
      have hget : SSet.get (union own done) x.item = own.find? (fun y => decide (y.item = x.item)) := by
        rw [find_item]
        unfold union
        rw [List.find?_append]
        cases hf : own.find? (fun y => decide (y.item = x.item)) with
        | some y => rfl
        | none =>
          simp only [Option.none_or]
          rw [List.find?_eq_none]
          intro y hy
          have := hx y (List.mem_of_mem_filter hy)
          simpa using this
      have hn' : ((done ++ [x] ++ xs).map (·.item)).Nodup := by simpa using hn
      have happ : done ++ x :: xs = done ++ [x] ++ xs := by simp
      cases hf : own.find? (fun y => decide (y.item = x.item)) with
      | none =>
        have hs : stepMerge kind (union own done, E) x = (SSet.insert (union own done) x, E) := by
          simp only [stepMerge, hget, hf]
        rw [hs]
        have hu : SSet.insert (union own done) x = union own (done ++ [x]) := by
          have hno : ∀ y ∈ own, y.item ≠ x.item := by
            intro y hy
            have := List.find?_eq_none.mp hf y hy
            simpa using this
          rw [sset_insert_new]
          · unfold union
            rw [List.filter_append, List.append_assoc]
            congr 2
            simp only [List.filter_cons, List.filter_nil]
            rw [if_pos (by simpa using hno)]
          · rw [SSet.has_iff]
            rintro ⟨y, hy, he⟩
            unfold union at hy
            rcases List.mem_append.mp hy with hy | hy
            · exact hno y hy he
            · exact hx y (List.mem_of_mem_filter hy) he
        rw [hu, ih (done ++ [x]) E hn', happ]
        unfold both
        rw [List.filterMap_cons]
        simp only [hf]
      | some y =>
        have hs : stepMerge kind (union own done, E) x =
            (union own done, E ++ [PErr.duplicate kind x.item y.span]) := by
          simp only [stepMerge, hget, hf]
        rw [hs]
        have hy := List.mem_of_find?_eq_some hf
        have hye : y.item = x.item := by simpa using List.find?_some hf
        have hu : union own done = union own (done ++ [x]) := by
          unfold union
          rw [List.filter_append]
          have : List.filter (fun t => decide (∀ x ∈ own, x.item ≠ t.item)) [x] = [] := by
            simp only [List.filter_cons, List.filter_nil]
            rw [if_neg]
            simp only [decide_eq_true_eq]
            intro h
            exact h y hy hye
          rw [this, List.append_nil]
        rw [hu, ih (done ++ [x]) _ hn', happ]
        unfold both
        rw [List.filterMap_cons]
        simp only [hf, List.map_cons, List.append_assoc, List.singleton_append, hye]
  have h0 : union own [] = own := by simp [union]
  have := key extra [] [] (by simpa using hn)
  rw [h0] at this
  have e : mergeInto kind own extra = extra.foldl (stepMerge kind) (own, []) := by
    unfold mergeInto
    congr 1
  rw [e, this]
  simp

theorem headTags_nodup (l : List TagOrLink) (h : (l.map TagOrLink.name).Nodup) :
    ((headTags l).map (·.item)).Nodup ∧ ((headLinks l).map (·.item)).Nodup := by
  induction l with
  | nil => simp [headTags, headLinks]
  | cons x xs ih =>
    rw [List.map_cons, List.nodup_cons] at h
    obtain ⟨h1, h2⟩ := ih h.2
    cases x with
    | inl t =>
      refine ⟨?_, by simpa [headLinks] using h2⟩
      have : headTags (.inl t :: xs) = t :: headTags xs := rfl
      rw [this, List.map_cons, List.nodup_cons]
      refine ⟨?_, h1⟩
      intro hm
      obtain ⟨y, hy, he⟩ := List.mem_map.mp hm
      unfold headTags at hy
      obtain ⟨z, hz, hz'⟩ := List.mem_filterMap.mp hy
      cases z with
      | inl z =>
        cases hz'
        refine h.1 (List.mem_map.mpr ⟨_, hz, ?_⟩)
        simp only [TagOrLink.name, he]
      | inr z => cases hz'
    | inr t =>
      refine ⟨by simpa [headTags] using h1, ?_⟩
      have : headLinks (.inr t :: xs) = t :: headLinks xs := rfl
      rw [this, List.map_cons, List.nodup_cons]
      refine ⟨?_, h2⟩
      intro hm
      obtain ⟨y, hy, he⟩ := List.mem_map.mp hm
      unfold headLinks at hy
      obtain ⟨z, hz, hz'⟩ := List.mem_filterMap.mp hy
      cases z with
      | inr z =>
        cases hz'
        refine h.1 (List.mem_map.mpr ⟨_, hz, ?_⟩)
        simp only [TagOrLink.name, he]
      | inl z => cases hz'

theorem mergeHeader_eq (lines : List Metadatum) (head : List TagOrLink) (span : Span) :
    mergeHeader ⟨lineMetadata lines, span⟩
      (headTags (firsts TagOrLink.name [] head), headLinks (firsts TagOrLink.name [] head)) =
      (⟨metadataOf lines head, span⟩, clashErrors lines head) := by
  obtain ⟨h1, h2⟩ := headTags_nodup _ (firsts_notin TagOrLink.name head []).2
  unfold mergeHeader
  simp only [mergeInto_eq _ _ _ h1, mergeInto_eq _ _ _ h2]
  rfl

end Lima.Grammar
