import Verif.Model.Report
import Verif.Lemmas.Maps

/-!
# C42 locations do not matter for equality, C43 annotations of errors
-/

namespace Lima.Spec
open Lima

/-- A call which annotates an error or warning. -/
inductive Annotate where
  | relatedTo (elementType : Str) (span : Span)
  | relatedToNamed (name : Str) (span : Span)
  | relatedToAll (elements : List (Str × Span))
  | inContext (elementType : Str) (span : Span)
  | inContexts (elements : List (Str × Span))

/-- What a call adds to the related items. -/
def Annotate.addsRelated : Annotate → List (Str × Span)
  | .relatedTo n s => [(n, s)]
  | .relatedToNamed n s => [(n, s)]
  | .relatedToAll es => es
  | .inContext _ _ => []
  | .inContexts _ => []

/-- What a call adds to the contexts. -/
def Annotate.addsContexts : Annotate → List (Str × Span)
  | .relatedTo _ _ => []
  | .relatedToNamed _ _ => []
  | .relatedToAll _ => []
  | .inContext n s => [(n, s)]
  | .inContexts es => es

end Lima.Spec

namespace Lima.Props
open Lima Lima.Spec

/-- Performing a call. -/
def annotate (e : Report) : Annotate → Report
  | .relatedTo n s => e.relatedTo n s
  | .relatedToNamed n s => e.relatedToNamedSpan n s
  | .relatedToAll es => e.relatedToAll es
  | .inContext n s => e.inContext n s
  | .inContexts es => e.inContexts es

theorem annotate_facts (e : Report) (a : Annotate) :
    (annotate e a).message = e.message ∧ (annotate e a).reason = e.reason ∧ (annotate e a).span = e.span ∧
    (annotate e a).relatedIter = e.relatedIter ++ a.addsRelated ∧
    (annotate e a).contextsIter = e.contextsIter ++ a.addsContexts := by
  cases a <;> cases e with
  | mk m r s c l =>
    cases c <;> cases l <;>
      simp [annotate, Report.relatedTo, Report.relatedToNamedSpan, Report.relatedToAll, Report.inContext,
        Report.inContexts, Report.relatedIter, Report.contextsIter, orEmpty, Annotate.addsRelated,
        Annotate.addsContexts]

/-- C43: after any sequence of annotation calls the message, reason and location are unchanged, and the related
items and contexts are the earlier ones followed by the added ones in call order. -/
theorem C43_annotations (e : Report) (calls : List Annotate) :
    let e' := calls.foldl annotate e
    e'.message = e.message ∧ e'.reason = e.reason ∧ e'.span = e.span ∧
    e'.relatedIter = e.relatedIter ++ calls.flatMap Annotate.addsRelated ∧
    e'.contextsIter = e.contextsIter ++ calls.flatMap Annotate.addsContexts := by
  induction calls generalizing e with
  | nil => simp
  | cons a calls ih =>
    obtain ⟨h1, h2, h3, h4, h5⟩ := annotate_facts e a
    obtain ⟨g1, g2, g3, g4, g5⟩ := ih (annotate e a)
    simp only [List.foldl_cons, List.flatMap_cons]
    exact ⟨g1.trans h1, g2.trans h2, g3.trans h3, by rw [g4, h4, List.append_assoc],
      by rw [g5, h5, List.append_assoc]⟩

/-- C43: annotating with a text keeps the report and the text; a plain report has no text. -/
theorem C43_annotation_text (e : Report) (text : Str) :
    (e.withAnnotation text).report = e ∧ (e.withAnnotation text).annotation = some text ∧
    (Annotated.ofReport e).report = e ∧ (Annotated.ofReport e).annotation = none := ⟨rfl, rfl, rfl, rfl⟩

/-- C43: a new error of an element carries the element's location, and no annotations. -/
theorem C43_new {α : Type} (elementType reason : Str) (x : Spanned α) :
    (x.error elementType reason).span = x.span ∧ (x.error elementType reason).reason = reason ∧
    (x.error elementType reason).message = str "invalid " ++ elementType ∧
    (x.warning elementType reason).message = str "questionable " ++ elementType ∧
    (x.error elementType reason).relatedIter = [] ∧ (x.error elementType reason).contextsIter = [] :=
  ⟨rfl, rfl, rfl, rfl, rfl, rfl⟩

/-- C43: the printed form depends on the related items in no way, so relating an error never changes its
message line. -/
theorem C43_display_related (debug : Span → Str) (e : Report) (calls : List Annotate)
    (h : ∀ c ∈ calls, c.addsContexts = [] ∧ ∀ es, c ≠ .inContexts es) :
    (calls.foldl annotate e).display debug = e.display debug := by
  induction calls generalizing e with
  | nil => rfl
  | cons a calls ih =>
    rw [List.foldl_cons, ih _ (fun c hc => h c (by simp [hc]))]
    obtain ⟨h1, h2⟩ := h a (by simp)
    cases a with
    | inContext n s => simp [Annotate.addsContexts] at h1
    | inContexts es => exact absurd rfl (h2 es)
    | relatedTo n s => rfl
    | relatedToNamed n s => rfl
    | relatedToAll es => rfl

/-- A history meeting the hypotheses of `C43_display_related`, and what `C43_annotations` gives for it. -/
example :
    let s : Span := ⟨0, 1, 2⟩
    let calls := [Annotate.relatedTo (str "account") s, .relatedToAll [(str "tag", s), (str "key", s)]]
    (∀ c ∈ calls, c.addsContexts = [] ∧ ∀ es, c ≠ .inContexts es) ∧
      (calls.foldl annotate (Report.new (str "m") (str "r") s)).relatedIter =
        [(str "account", s), (str "tag", s), (str "key", s)] := by
  constructor
  · intro c hc
    simp at hc
    rcases hc with rfl | rfl <;> exact ⟨rfl, by simp⟩
  · rfl

/-- C42: located items are equal exactly when the items are. -/
theorem C42_eq {α : Type} [DecidableEq α] (a b : Spanned α) : a.eq b = true ↔ a.item = b.item := by
  simp [Spanned.eq]

/-- C42: equality of located items is an equivalence relation. -/
theorem C42_equivalence {α : Type} [DecidableEq α] :
    Equivalence (fun a b : Spanned α => a.eq b = true) where
  refl a := by simp [Spanned.eq]
  symm h := by simp only [C42_eq] at *; exact h.symm
  trans h h' := by simp only [C42_eq] at *; exact h.trans h'

/-- C42: equal located items hash equally, whatever the item's hash function. -/
theorem C42_hash {α : Type} [DecidableEq α] (h : α → Nat) (a b : Spanned α) (heq : a.eq b = true) :
    a.hash h = b.hash h := by
  simp only [C42_eq] at heq
  simp [Spanned.hash, heq]

/-- C42: mapping keeps the location. -/
theorem C42_map {α β : Type} (f : α → β) (a : Spanned α) :
    (a.map f).span = a.span ∧ (a.map f).item = f a.item := ⟨rfl, rfl⟩

/-- C42: looking up a key finds the value written for it, whatever its location and wherever it is in the
iteration order of the hash map; keys are unique in a hash map. -/
theorem C42_lookup (m : Metadata) (hm : SMap.Nodup m.keyValues) (key : Str) (v : Spanned MetaValue) :
    m.keyValue key = some v ↔ ∃ span, (⟨key, span⟩, v) ∈ m.keyValues := by
  have h : m.keyValue key = SMap.get m.keyValues key := by
    unfold Metadata.keyValue SMap.get
    cases hk : m.keyValues with
    | nil => simp
    | cons e es => simp [Spanned.eq]
  rw [h, SMap.get_eq_some_iff hm]
  constructor
  · rintro ⟨⟨⟨k, sp⟩, w⟩, hm, rfl, rfl⟩
    exact ⟨sp, hm⟩
  · rintro ⟨sp, hm⟩
    exact ⟨_, hm, rfl, rfl⟩

/-- C42: moving the keys to other locations does not change any lookup. -/
theorem C42_lookup_moved (m m' : Metadata) (move : Span → Span) (key : Str)
    (h : m'.keyValues = m.keyValues.map (fun e => (⟨e.1.item, move e.1.span⟩, e.2))) :
    m'.keyValue key = m.keyValue key := by
  unfold Metadata.keyValue
  rw [h]
  cases hk : m.keyValues with
  | nil => simp
  | cons e es =>
    simp only [List.map_cons, List.map_map]
    have : ∀ l : List (Spanned Str × Spanned MetaValue),
        ((l.map (fun e => ((⟨e.1.item, move e.1.span⟩ : Spanned Str), e.2))).find?
          (fun e' => Spanned.eq e'.1 ⟨key, move e.1.span⟩)).map (·.2) =
        (l.find? (fun e' => Spanned.eq e'.1 ⟨key, e.1.span⟩)).map (·.2) := by
      intro l
      induction l with
      | nil => rfl
      | cons x l ih =>
        by_cases hx : x.1.item = key <;> simp [Spanned.eq, hx] at ih ⊢
        exact ih
    exact this (e :: es)

/-- The hypothesis of `C42_lookup` for two keys at distinct places. -/
example : SMap.Nodup [((⟨str "aa", ⟨0, 3, 4⟩⟩ : Spanned Str), (1 : Nat)), (⟨str "bb", ⟨1, 7, 9⟩⟩, 2)] := by
  unfold SMap.Nodup; decide

end Lima.Props
