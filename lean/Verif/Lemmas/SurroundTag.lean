import Verif.Lemmas.Bracketed
import Verif.Lemmas.Maps
import Verif.Lemmas.BlindWhole
import Verif.Spec.Surround

/-! A tag for a passage: what the pragma processor does with it. -/

set_option linter.unusedSectionVars false

namespace Lima.Surround
open Lima Spec Bracketed

/-! ### Maps -/

section
variable {κ ν : Type} [DecidableEq κ]

theorem insert_absent {m : List (Spanned κ × ν)} {k : Spanned κ} (h : SMap.get m k.item = none) (v : ν) : SMap.insert m k v = m ++ [(k, v)] := by
  unfold SMap.insert
  rw [SMap.has_eq_isSome, h]
  rfl

theorem insert_present {m : List (Spanned κ × ν)} {k : Spanned κ} {w : ν} (h : SMap.get m k.item = some w) (v : ν) :
    SMap.insert m k v = m.map (fun e => if e.1.item = k.item then (e.1, v) else e) := by
  unfold SMap.insert
  rw [SMap.has_eq_isSome, h]
  rfl

theorem absent {m : List (Spanned κ × ν)} {k : κ} (h : SMap.get m k = none) : ∀ e ∈ m, e.1.item ≠ k := by
  rw [← SMap.has_false_iff, SMap.has_eq_isSome, h]
  rfl

theorem erase_insert {m : List (Spanned κ × ν)} {k : Spanned κ} (h : SMap.get m k.item = none) (v : ν) : SMap.erase (SMap.insert m k v) k.item = m := by
  rw [insert_absent h]
  unfold SMap.erase
  rw [List.filter_append, List.filter_eq_self.mpr (fun e he => by simpa using absent h e he)]
  simp

theorem insert_insert {m : List (Spanned κ × ν)} (hn : SMap.Nodup m) {k k' : Spanned κ} (hk : k'.item = k.item) {w : ν} (h : SMap.get m k.item = some w) (v : ν) :
    SMap.insert (SMap.insert m k v) k' w = m := by
  rw [insert_present (w := v) (by rw [SMap.get_insert, if_pos hk.symm]), insert_present h, List.map_map]
  conv => rhs; rw [← List.map_id m]
  refine List.map_congr_left fun e he => ?_
  simp only [Function.comp, hk, id]
  by_cases hi : e.1.item = k.item
  · simp only [hi, if_true]
    have h1 := (SMap.get_eq_some_iff hn _ e.2).mpr ⟨e, he, hi, rfl⟩
    rw [h] at h1
    injection h1 with h1
    rw [h1]
  · simp only [hi, if_false]

end

/-! ### Tags -/

structure TagsInv (d : PragmaData) : Prop where
  nodup : SMap.Nodup d.tags
  items : ∀ e ∈ d.tags, ∀ x ∈ e.2, x.item = e.1.item

theorem report_tags (d : PragmaData) (e : Report) : (d.report e).tags = d.tags := rfl

theorem mem_insert {κ ν : Type} [DecidableEq κ] {m : List (Spanned κ × ν)} {k : Spanned κ} {v : ν} {e : Spanned κ × ν} (h : e ∈ SMap.insert m k v) :
    e ∈ m ∨ e.1.item = k.item ∧ e.2 = v := by
  unfold SMap.insert at h
  split at h
  · obtain ⟨x, hx, rfl⟩ := List.mem_map.mp h
    split
    · rename_i hi
      exact .inr ⟨hi, rfl⟩
    · exact .inl hx
  · rcases List.mem_append.mp h with h | h
    · exact .inl h
    · rw [List.mem_singleton] at h
      subst h
      exact .inr ⟨rfl, rfl⟩

theorem inv_pushtag {d : PragmaData} (h : TagsInv d) (t : Spanned Str) : TagsInv (d.pushtag t) := by
  unfold PragmaData.pushtag
  split
  · rename_i others ho
    refine ⟨SMap.nodup_insert h.nodup _ _, ?_⟩
    intro e he x hx
    rcases mem_insert he with he | ⟨h1, h2⟩
    · exact h.items e he x hx
    · rw [h2] at hx
      rcases List.mem_append.mp hx with hx | hx
      · obtain ⟨y, hy, k1, k2⟩ := (SMap.get_eq_some_iff h.nodup _ _).mp ho
        rw [h1, ← k1]
        exact h.items y hy x (by rw [k2]; exact hx)
      · rw [List.mem_singleton] at hx
        rw [hx, h1]
  · refine ⟨SMap.nodup_insert h.nodup _ _, ?_⟩
    intro e he x hx
    rcases mem_insert he with he | ⟨h1, h2⟩
    · exact h.items e he x hx
    · rw [h2] at hx; cases hx

theorem inv_poptag {d : PragmaData} (h : TagsInv d) (t : Spanned Str) : TagsInv (d.poptag t) := by
  unfold PragmaData.poptag
  split
  · rename_i others ho
    split
    · refine ⟨SMap.nodup_erase h.nodup _, ?_⟩
      intro e he
      exact h.items e (List.mem_filter.mp he).1
    · refine ⟨SMap.nodup_insert h.nodup _ _, ?_⟩
      intro e he x hx
      rcases mem_insert he with he | ⟨h1, h2⟩
      · exact h.items e he x hx
      · rw [h2] at hx
        obtain ⟨y, hy, k1, k2⟩ := (SMap.get_eq_some_iff h.nodup _ _).mp ho
        rw [h1, ← k1]
        exact h.items y hy x (by rw [k2]; exact List.dropLast_subset _ hx)
  · exact ⟨h.nodup, h.items⟩

theorem inv_same {d d' : PragmaData} (ht : d'.tags = d.tags) (h : TagsInv d) : TagsInv d' := ⟨by rw [ht]; exact h.nodup, by rw [ht]; exact h.items⟩

theorem inv_act (p : Pragma) {d : PragmaData} (h : TagsInv d) : TagsInv (act p d) := by
  cases p with
  | pushtag t => exact inv_pushtag h t
  | poptag t => exact inv_poptag h t
  | pushmeta kv =>
    refine inv_same ?_ h
    unfold act PragmaData.pushmeta
    dsimp only
    split <;> rfl
  | popmeta k =>
    refine inv_same ?_ h
    unfold act PragmaData.popmeta
    dsimp only
    split
    · split <;> rfl
    · rfl
  | «include» g => exact h
  | option o =>
    refine inv_same ?_ h
    unfold act PragmaData.option
    dsimp only
    split <;> rfl
  | plugin p => exact inv_same (d := d) rfl h

theorem push_pop {d : PragmaData} (h : TagsInv d) {t t' : Spanned Str} (ht : t'.item = t.item) : (d.pushtag t).poptag t' = d := by
  unfold PragmaData.pushtag
  split
  · rename_i others ho
    unfold PragmaData.poptag
    dsimp only
    rw [SMap.get_insert, if_pos ht.symm]
    dsimp only
    rw [if_neg (by simp), List.dropLast_concat, insert_insert h.nodup ht ho]
  · rename_i ho
    unfold PragmaData.poptag
    dsimp only
    rw [SMap.get_insert, if_pos ht.symm]
    dsimp only
    rw [List.isEmpty_nil, if_pos rfl, ht, erase_insert ho]

/-! ### Directives -/

def tagStep (own : List (Spanned Str)) (e : Spanned Str × List (Spanned Str)) : List (Spanned Str) :=
  if SSet.has own e.1.item then own
  else SSet.insert own (match e.2.getLast? with
    | some t => t
    | none => e.1)

theorem augmentTags_eq (own : List (Spanned Str)) (tags : TagStacks) : augmentTags own tags = tags.foldl tagStep own := rfl

theorem has_items {a b : List (Spanned Str)} (h : a.map (·.item) = b.map (·.item)) (t : Str) : SSet.has a t = SSet.has b t := by
  rw [Bool.eq_iff_iff, SSet.has_iff_mem, SSet.has_iff_mem, h]

theorem tagStep_items {own : List (Spanned Str)} {e : Spanned Str × List (Spanned Str)} (he : ∀ x ∈ e.2, x.item = e.1.item) :
    (tagStep own e).map (·.item) = if e.1.item ∈ own.map (·.item) then own.map (·.item) else own.map (·.item) ++ [e.1.item] := by
  unfold tagStep
  by_cases hm : e.1.item ∈ own.map (·.item)
  · rw [if_pos ((SSet.has_iff_mem _ _).mpr hm), if_pos hm]
  · have hh : SSet.has own e.1.item = false := by
      rw [← Bool.not_eq_true, SSet.has_iff_mem]
      exact hm
    have key : ∀ x : Spanned Str, x.item = e.1.item → (SSet.insert own x).map (·.item) = own.map (·.item) ++ [e.1.item] := by
      intro x hx
      unfold SSet.insert
      rw [hx, hh]
      simp [hx]
    rw [hh, if_neg hm]
    cases hl : e.2.getLast? with
    | none => exact key _ rfl
    | some x => exact key _ (he x (List.mem_of_getLast? hl))

theorem foldl_items (f : Spanned Str × List (Spanned Str) → Spanned Str × List (Spanned Str)) :
    ∀ (tags : TagStacks) (own own' : List (Spanned Str)), own'.map (·.item) = own.map (·.item) →
    (∀ e ∈ tags, (f e).1.item = e.1.item ∧ (∀ x ∈ e.2, x.item = e.1.item) ∧ ∀ x ∈ (f e).2, x.item = (f e).1.item) →
    ((tags.map f).foldl tagStep own').map (·.item) = (tags.foldl tagStep own).map (·.item)
  | [], _, _, h, _ => h
  | e :: tags, own, own', h, hf => by
    rw [List.map_cons, List.foldl_cons, List.foldl_cons]
    refine foldl_items f tags _ _ ?_ fun x hx => hf x (List.mem_cons_of_mem _ hx)
    obtain ⟨h1, h2, h3⟩ := hf e (by simp)
    rw [tagStep_items h2, tagStep_items h3, h1, h]

theorem foldl_has : ∀ (tags : TagStacks) (own : List (Spanned Str)) (t : Str), (∀ e ∈ tags, ∀ x ∈ e.2, x.item = e.1.item) →
    (t ∈ own.map (·.item) ∨ ∃ e ∈ tags, e.1.item = t) → t ∈ (tags.foldl tagStep own).map (·.item)
  | [], own, t, _, h => by
    rcases h with h | ⟨e, he, _⟩
    · exact h
    · cases he
  | e :: tags, own, t, hi, h => by
    rw [List.foldl_cons]
    refine foldl_has tags _ t (fun x hx => hi x (List.mem_cons_of_mem _ hx)) ?_
    rw [tagStep_items (hi e (by simp))]
    rcases h with h | ⟨x, hx, hh⟩
    · left
      split
      · exact h
      · exact List.mem_append_left _ h
    · rcases List.mem_cons.mp hx with rfl | hx
      · left
        split
        · rename_i hm
          rwa [hh] at hm
        · rw [hh]; simp
      · exact .inr ⟨x, hx, hh⟩

theorem same_tags {a b : List (Spanned Str)} (h : a.map (·.item) = b.map (·.item)) : SameButPlaces a b := by
  have : ∀ l : List (Spanned Str), move (fun _ => (⟨0, 0, 0⟩ : Span)) l = (l.map (·.item)).map fun x => (⟨x, ⟨0, 0, 0⟩⟩ : Spanned Str) := by
    intro l
    rw [List.map_map]
    rfl
  unfold SameButPlaces
  rw [this, this, h]

/-- The directive which gets other tags. -/
def retag (d : Directive) (ts : List (Spanned Str)) : Directive :=
  { d with metadata := ⟨{ d.metadata.item with tags := ts }, d.metadata.span⟩ }

theorem same_retag (d : Directive) {a b : List (Spanned Str)} (h : a.map (·.item) = b.map (·.item)) : SameButPlaces (retag d a) (retag d b) := by
  have := same_tags h
  unfold SameButPlaces at *
  have e : ∀ x : List (Spanned Str), move (fun _ => (⟨0, 0, 0⟩ : Span)) (retag d x) = retag (move (fun _ => (⟨0, 0, 0⟩ : Span)) d) (move (fun _ => (⟨0, 0, 0⟩ : Span)) x) :=
    fun _ => rfl
  rw [e, e, this]

theorem withTag_retag (t : Str) (d : Directive) : withTag t d = retag d (if t ∈ d.metadata.item.tags.map (·.item) then d.metadata.item.tags
    else d.metadata.item.tags ++ [⟨t, ⟨0, 0, 0⟩⟩]) := by
  unfold withTag
  split <;> rfl

theorem aug_tag {d : PragmaData} (h : TagsInv d) {t : Spanned Str} {x y y' : Directive} (h1 : d.augment x = some y)
    (h2 : (d.pushtag t).augment x = some y') : (y'.date = y.date ∧ y'.variant = y.variant) ∧ SameButPlaces y' (withTag t.item y) := by
  have hm : (d.pushtag t).metas = d.metas := by
    unfold PragmaData.pushtag
    split <;> rfl
  unfold PragmaData.augment at h1 h2
  rw [hm] at h2
  cases hk : augmentKeyValues x.metadata.item.keyValues d.metas with
  | none => rw [hk] at h1; cases h1
  | some kvs =>
    rw [hk] at h1 h2
    injection h1 with h1
    injection h2 with h2
    subst h1
    subst h2
    refine ⟨⟨rfl, rfl⟩, ?_⟩
    rw [withTag_retag]
    refine same_retag { x with metadata := ⟨{ x.metadata.item with keyValues := kvs }, x.metadata.span⟩ } ?_
    dsimp only
    rw [augmentTags_eq, augmentTags_eq]
    unfold PragmaData.pushtag
    cases ho : SMap.get d.tags t.item with
    | none =>
      dsimp only
      rw [insert_absent ho, List.foldl_append, List.foldl_cons, List.foldl_nil, tagStep_items (by simp)]
      dsimp only
      split <;> simp
    | some others =>
      dsimp only
      obtain ⟨e, he, k1, k2⟩ := (SMap.get_eq_some_iff h.nodup _ _).mp ho
      rw [insert_present ho, if_pos (foldl_has d.tags _ _ h.items (.inr ⟨e, he, k1⟩))]
      refine foldl_items _ d.tags _ _ rfl fun z hz => ?_
      split
      · rename_i hz1
        refine ⟨rfl, h.items z hz, ?_⟩
        intro w hw
        rcases List.mem_append.mp hw with hw | hw
        · dsimp only
          rw [hz1, ← k1]
          exact h.items e he w (by rw [k2]; exact hw)
        · rw [List.mem_singleton] at hw
          rw [hw, hz1]
      · exact ⟨rfl, h.items z hz, h.items z hz⟩

/-- A tag, pushed and popped. -/
def tagBracket (t : Str) : Pair where
  Inv := TagsInv
  fine := fun _ => True
  push := fun p => ∃ g : Spanned Str, p = .pushtag g ∧ g.item = t
  pop := fun p => ∃ g : Spanned Str, p = .poptag g ∧ g.item = t
  Rel := fun y y' => (y'.date = y.date ∧ y'.variant = y.variant) ∧ SameButPlaces y' (withTag t y)
  init := fun _ => ⟨by simp [SMap.Nodup], by simp⟩
  same := fun _ _ h _ k => inv_same h k
  keep := fun p _ _ h => inv_act p h
  pushes := by
    rintro p ⟨g, rfl, _⟩ _ h
    cases h
  pops := by
    rintro p ⟨g, rfl, _⟩ _ h
    cases h
  back := by
    rintro d p q h ⟨g, rfl, h1⟩ ⟨g', rfl, h2⟩
    exact push_pop h (h2.trans h1.symm)
  aug := by
    rintro d p x y y' h ⟨g, rfl, rfl⟩ h1 h2
    exact aug_tag h h1 h2
  rank := fun _ _ h => h.1

/-- Having a tag does not depend on places. -/
theorem withTag_same (t : Str) {d d' : Directive} (h : SameButPlaces d d') : SameButPlaces (withTag t d) (withTag t d') := by
  have hs : move (fun _ => (⟨0, 0, 0⟩ : Span)) d.metadata.item.tags = move (fun _ => (⟨0, 0, 0⟩ : Span)) d'.metadata.item.tags :=
    congrArg (fun x : Directive => x.metadata.item.tags) h
  have hi : d.metadata.item.tags.map (·.item) = d'.metadata.item.tags.map (·.item) := by
    have := congrArg (List.map Spanned.item) hs
    have e : ∀ l : List (Spanned Str), (move (fun _ => (⟨0, 0, 0⟩ : Span)) l : List (Spanned Str)).map (·.item) = l.map (·.item) := by
      intro l
      change (l.map _).map _ = _
      rw [List.map_map]
      rfl
    rwa [e, e] at this
  unfold withTag
  rw [hi]
  split
  · exact h
  · have e : ∀ d : Directive, SameButPlaces (retag d (d.metadata.item.tags ++ [⟨t, ⟨0, 0, 0⟩⟩])) (retag (move (fun _ => (⟨0, 0, 0⟩ : Span)) d)
        (move (fun _ => (⟨0, 0, 0⟩ : Span)) d.metadata.item.tags ++ [⟨t, ⟨0, 0, 0⟩⟩])) := by
      intro d
      have : SameButPlaces (retag d (d.metadata.item.tags ++ [⟨t, ⟨0, 0, 0⟩⟩])) (move (fun _ => (⟨0, 0, 0⟩ : Span)) (retag d (d.metadata.item.tags ++ [⟨t, ⟨0, 0, 0⟩⟩]))) :=
        (same_move_left _ _).symm
      refine this.trans ?_
      have : move (fun _ => (⟨0, 0, 0⟩ : Span)) (retag d (d.metadata.item.tags ++ [⟨t, ⟨0, 0, 0⟩⟩])) =
          retag (move (fun _ => (⟨0, 0, 0⟩ : Span)) d) (move (fun _ => (⟨0, 0, 0⟩ : Span)) d.metadata.item.tags ++ [⟨t, ⟨0, 0, 0⟩⟩]) := by
        change retag (move (fun _ => (⟨0, 0, 0⟩ : Span)) d) (move (fun _ => (⟨0, 0, 0⟩ : Span)) (d.metadata.item.tags ++ [⟨t, ⟨0, 0, 0⟩⟩])) = _
        congr 1
        change List.map _ _ = List.map _ _ ++ _
        rw [List.map_append]
        rfl
      rw [this]
    change SameButPlaces (retag d _) (retag d' _)
    have h0 : move (fun _ => (⟨0, 0, 0⟩ : Span)) d = move (fun _ => (⟨0, 0, 0⟩ : Span)) d' := h
    have e' := e d'
    rw [← hs, ← h0] at e'
    exact (e d).trans e'.symm

end Lima.Surround
