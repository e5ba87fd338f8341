import Verif.Lemmas.FileSound

/-! What is written once or repeatedly, and how it is collected and reported. -/

namespace Lima.Grammar

open Spec

/-! ### The first of each name -/

section
variable {α β κ κ' : Type} [DecidableEq κ] [DecidableEq κ'] {name : α → κ} {name' : β → κ'}

omit [DecidableEq κ'] in
theorem find_firsts (l : List α) : ∀ (seen : List κ) (k : κ), k ∉ seen →
    (firsts name seen l).find? (fun y => decide (name y = k)) = l.find? (fun y => decide (name y = k)) := by
  induction l with
  | nil => intro seen k _; rfl
  | cons x xs ih =>
    intro seen k hk
    unfold firsts
    split
    · rename_i hx
      have : name x ≠ k := fun e => hk (e ▸ hx)
      rw [ih seen k hk, List.find?_cons_of_neg (by simpa using this)]
    · by_cases e : name x = k
      · rw [List.find?_cons_of_pos (by simpa using e), List.find?_cons_of_pos (by simpa using e)]
      · rw [List.find?_cons_of_neg (by simpa using e), List.find?_cons_of_neg (by simpa using e)]
        refine ih _ k ?_
        simp only [List.mem_cons, not_or]
        exact ⟨fun h => e h.symm, hk⟩

omit [DecidableEq κ'] in
theorem mem_iff_find {l : List α} (h : (l.map name).Nodup) (x : α) :
    x ∈ l ↔ l.find? (fun y => decide (name y = name x)) = some x := by
  constructor
  · intro hx
    induction l with
    | nil => cases hx
    | cons y ys ih =>
      rw [List.map_cons, List.nodup_cons] at h
      rcases List.mem_cons.mp hx with rfl | hx
      · exact List.find?_cons_of_pos (by simp)
      · have : name y ≠ name x := fun e => h.1 (e ▸ List.mem_map_of_mem hx)
        rw [List.find?_cons_of_neg (by simpa using this)]
        exact ih h.2 hx
  · exact fun hf => List.mem_of_find?_eq_some hf

omit [DecidableEq κ'] in
theorem firstOfEach_firsts (l : List α) : FirstOfEach name (firsts name [] l) l :=
  ⟨(firsts_notin name l []).2, fun x => by
    rw [mem_iff_find (firsts_notin name l []).2 x, find_firsts l [] (name x) (by simp)]⟩

theorem filterMap_firsts {f : α → Option β} {K : κ' → κ} (hK : ∀ a b, K a = K b → a = b)
    (hf : ∀ a b, f a = some b → name a = K (name' b)) (hn : ∀ a k, f a = none → name a ≠ K k) (l : List α) :
    ∀ (seen : List κ) (seen' : List κ'), (∀ k, K k ∈ seen ↔ k ∈ seen') →
    (firsts name seen l).filterMap f = firsts name' seen' (l.filterMap f) := by
  induction l with
  | nil => intro seen seen' _; rfl
  | cons x xs ih =>
    intro seen seen' hs
    rw [firsts]
    cases hx : f x with
    | none =>
      rw [List.filterMap_cons_none hx]
      split
      · exact ih seen seen' hs
      · rw [List.filterMap_cons_none hx]
        refine ih _ _ fun k => ?_
        rw [List.mem_cons, ← hs k, or_iff_right (fun e => hn x k hx e.symm)]
    | some y =>
      rw [List.filterMap_cons_some hx, firsts, hf x y hx]
      by_cases h : name' y ∈ seen'
      · rw [if_pos h, if_pos ((hs _).mpr h)]
        exact ih seen seen' hs
      · rw [if_neg h, if_neg (fun e => h ((hs _).mp e)), List.filterMap_cons_some hx]
        congr 1
        refine ih _ _ fun k => ?_
        rw [List.mem_cons, List.mem_cons, hs k]
        constructor
        · rintro (e | e)
          · exact .inl (hK _ _ e)
          · exact .inr e
        · rintro (e | e)
          · exact .inl (by rw [e])
          · exact .inr e

omit [DecidableEq κ'] in
theorem firsts_congr (l : List α) : ∀ (s t : List κ), (∀ k, k ∈ s ↔ k ∈ t) → firsts name s l = firsts name t l := by
  induction l with
  | nil => intro s t _; rfl
  | cons x xs ih =>
    intro s t h
    rw [firsts, firsts]
    by_cases hx : name x ∈ s
    · rw [if_pos hx, if_pos ((h _).mp hx), ih s t h]
    · rw [if_neg hx, if_neg (fun e => hx ((h _).mpr e)), ih (name x :: s) (name x :: t)]
      intro k
      rw [List.mem_cons, List.mem_cons, h k]

omit [DecidableEq κ'] in
theorem firsts_append (l m : List α) : ∀ seen : List κ,
    firsts name seen (l ++ m) = firsts name seen l ++ firsts name (l.map name ++ seen) m := by
  induction l with
  | nil => intro seen; rfl
  | cons x xs ih =>
    intro seen
    rw [List.cons_append, firsts, firsts]
    split
    · rename_i h
      rw [ih]
      congr 1
      refine firsts_congr _ _ _ fun k => ?_
      simp only [List.map_cons, List.cons_append, List.mem_cons, List.mem_append]
      constructor
      · exact .inr
      · rintro (rfl | e)
        · exact .inr h
        · exact e
    · rw [ih, List.cons_append]
      congr 2
      refine firsts_congr _ _ _ fun k => ?_
      simp only [List.map_cons, List.cons_append, List.mem_cons, List.mem_append]
      tauto

omit [DecidableEq κ'] in
theorem mem_firsts_name (l : List α) : ∀ (seen : List κ) (k : κ),
    k ∈ (firsts name seen l).map name ↔ k ∈ l.map name ∧ k ∉ seen := by
  induction l with
  | nil => intro seen k; simp [firsts]
  | cons x xs ih =>
    intro seen k
    rw [firsts]
    split
    · rename_i h
      rw [ih, List.map_cons, List.mem_cons]
      constructor
      · exact fun ⟨a, b⟩ => ⟨.inr a, b⟩
      · rintro ⟨rfl | a, b⟩
        · exact absurd h b
        · exact ⟨a, b⟩
    · rename_i h
      rw [List.map_cons, List.mem_cons, ih, List.map_cons, List.mem_cons, List.mem_cons, not_or]
      constructor
      · rintro (rfl | ⟨a, b, c⟩)
        · exact ⟨.inl rfl, h⟩
        · exact ⟨.inr a, c⟩
      · rintro ⟨rfl | a, b⟩
        · exact .inl rfl
        · by_cases e : k = name x
          · exact .inl e
          · exact .inr ⟨a, e, b⟩

omit [DecidableEq κ'] in
theorem firsts_filter (m : List α) : ∀ (s t : List κ),
    (firsts name s m).filter (fun x => decide (name x ∉ t)) = firsts name (t ++ s) m := by
  induction m with
  | nil => intro s t; rfl
  | cons x xs ih =>
    intro s t
    rw [firsts, firsts]
    by_cases h : name x ∈ s
    · rw [if_pos h, if_pos (List.mem_append_right _ h), ih]
    · rw [if_neg h]
      by_cases h' : name x ∈ t
      · rw [if_pos (List.mem_append_left _ h'), List.filter_cons_of_neg (by simpa using h'), ih]
        refine firsts_congr _ _ _ fun k => ?_
        simp only [List.mem_append, List.mem_cons]
        constructor
        · rintro (a | rfl | a)
          · exact .inl a
          · exact .inl h'
          · exact .inr a
        · tauto
      · rw [if_neg (by simp [h, h']), List.filter_cons_of_pos (by simpa using h'), ih]
        congr 1
        refine firsts_congr _ _ _ fun k => ?_
        simp only [List.mem_append, List.mem_cons]
        tauto

/-! ### Counting repetitions -/

omit [DecidableEq κ'] in
theorem count_repeats [BEq κ] [LawfulBEq κ] (l : List α) (k : κ) : ∀ seen : List κ,
    ((repeats name seen l).map name).count k =
      if k ∈ seen then (l.map name).count k else (l.map name).count k - 1 := by
  induction l with
  | nil => intro seen; simp [repeats]
  | cons x xs ih =>
    intro seen
    rw [repeats]
    by_cases h : name x ∈ seen
    · rw [if_pos h, List.map_cons, List.count_cons, ih, List.map_cons, List.count_cons]
      by_cases e : name x = k
      · subst e
        simp [h]
      · simp [e]
    · rw [if_neg h, ih, List.map_cons, List.count_cons]
      by_cases e : name x = k
      · subst e
        simp [h]
      · have : k ∈ name x :: seen ↔ k ∈ seen := by
          rw [List.mem_cons, or_iff_right (fun h => e h.symm)]
        simp [this, e]

omit [DecidableEq κ'] in
theorem repeats_subset (l : List α) : ∀ seen : List κ, ∀ x ∈ repeats name seen l, x ∈ l := by
  induction l with
  | nil => intro seen x hx; cases hx
  | cons y ys ih =>
    intro seen x hx
    rw [repeats] at hx
    split at hx
    · rcases List.mem_cons.mp hx with rfl | hx
      · exact List.mem_cons_self
      · exact List.mem_cons_of_mem _ (ih _ x hx)
    · exact List.mem_cons_of_mem _ (ih _ x hx)

end

theorem union_firsts (A B : List (Spanned Str)) :
    union (firsts (·.item) [] A) (firsts (·.item) [] B) = firsts (·.item) [] (A ++ B) := by
  rw [firsts_append, List.append_nil, union]
  congr 1
  have h := firsts_filter (name := fun x : Spanned Str => x.item) B [] (A.map (·.item))
  rw [List.append_nil] at h
  rw [← h]
  refine List.filter_congr fun t _ => ?_
  rw [decide_eq_decide]
  have := mem_firsts_name (name := fun x : Spanned Str => x.item) A [] t.item
  constructor
  · intro h1 h2
    obtain ⟨y, hy, he⟩ := List.mem_map.mp (this.mpr ⟨h2, by simp⟩)
    exact h1 y hy he
  · intro h1 y hy he
    exact h1 (this.mp (List.mem_map.mpr ⟨y, hy, he⟩)).1

theorem count_both {own extra : List (Spanned Str)} (h : (extra.map (·.item)).Nodup) (k : Str) :
    ((both own extra).map (·.item)).count k =
      if k ∈ own.map (·.item) ∧ k ∈ extra.map (·.item) then 1 else 0 := by
  induction extra with
  | nil => simp [both]
  | cons x xs ih =>
    rw [List.map_cons, List.nodup_cons] at h
    have ih := ih h.2
    unfold both at ih ⊢
    cases hf : own.find? (fun y => decide (y.item = x.item)) with
    | none =>
      rw [List.filterMap_cons]
      simp only [hf]
      rw [ih]
      have hno : ∀ y ∈ own, y.item ≠ x.item := fun y hy => by simpa using List.find?_eq_none.mp hf y hy
      by_cases e : k = x.item
      · subst e
        have h1 : x.item ∉ own.map (·.item) := by
          intro hm
          obtain ⟨y, hy, he⟩ := List.mem_map.mp hm
          exact hno y hy he
        simp [h1]
      · simp only [List.map_cons, List.mem_cons, e, false_or]
    | some y =>
      rw [List.filterMap_cons]
      simp only [hf]
      rw [List.map_cons, List.count_cons, ih]
      have hy := List.mem_of_find?_eq_some hf
      have hye : y.item = x.item := by simpa using List.find?_some hf
      by_cases e : k = x.item
      · subst e
        have h1 : x.item ∈ own.map (·.item) := List.mem_map.mpr ⟨y, hy, hye⟩
        simp only [h.1, and_false, if_false, h1, List.map_cons, List.mem_cons, true_or, and_self, if_true, hye]
        simp
      · have : ¬ x.item = k := fun h => e h.symm
        simp [List.mem_cons, e, hye, this]

theorem mem_both {own extra : List (Spanned Str)} {x : Spanned Str} (h : x ∈ both own extra) : x ∈ own := by
  obtain ⟨t, _, ht⟩ := List.mem_filterMap.mp h
  exact List.mem_of_find?_eq_some ht

/-! ### Metadata -/

theorem lineTags_firsts (lines : List Metadatum) :
    lineTags (firsts lineName [] lines) = firsts (·.item) [] (lineTags lines) :=
  filterMap_firsts (K := fun k => (DupKind.tag, k)) (fun _ _ h => by simpa using h)
    (fun a b h => by cases a <;> cases h; rfl) (fun a k h => by cases a <;> simp [lineName] at h ⊢) lines [] []
    (fun _ => by simp)

theorem lineLinks_firsts (lines : List Metadatum) :
    lineLinks (firsts lineName [] lines) = firsts (·.item) [] (lineLinks lines) :=
  filterMap_firsts (K := fun k => (DupKind.link, k)) (fun _ _ h => by simpa using h)
    (fun a b h => by cases a <;> cases h; rfl) (fun a k h => by cases a <;> simp [lineName] at h ⊢) lines [] []
    (fun _ => by simp)

theorem lineKeyValues_firsts (lines : List Metadatum) :
    lineKeyValues (firsts lineName [] lines) = firsts (·.1.item) [] (lineKeyValues lines) :=
  filterMap_firsts (K := fun k => (DupKind.key, k)) (fun _ _ h => by simpa using h)
    (fun a b h => by cases a <;> cases h; rfl) (fun a k h => by cases a <;> simp [lineName] at h ⊢) lines [] []
    (fun _ => by simp)

theorem headTags_firsts (head : List TagOrLink) :
    headTags (firsts TagOrLink.name [] head) = firsts (·.item) [] (headTags head) :=
  filterMap_firsts (K := fun k => (DupKind.tag, k)) (fun _ _ h => by simpa using h)
    (fun a b h => by cases a <;> cases h; rfl) (fun a k h => by cases a <;> simp [TagOrLink.name] at h ⊢) head [] []
    (fun _ => by simp)

theorem headLinks_firsts (head : List TagOrLink) :
    headLinks (firsts TagOrLink.name [] head) = firsts (·.item) [] (headLinks head) :=
  filterMap_firsts (K := fun k => (DupKind.link, k)) (fun _ _ h => by simpa using h)
    (fun a b h => by cases a <;> cases h; rfl) (fun a k h => by cases a <;> simp [TagOrLink.name] at h ⊢) head [] []
    (fun _ => by simp)

theorem metadataOf_tags (lines : List Metadatum) (head : List TagOrLink) :
    FirstOfEach (·.item) (metadataOf lines head).tags (lineTags lines ++ headTags head) := by
  have : (metadataOf lines head).tags = firsts (·.item) [] (lineTags lines ++ headTags head) := by
    simp only [metadataOf, lineMetadata, lineTags_firsts, headTags_firsts, union_firsts]
  rw [this]
  exact firstOfEach_firsts _

theorem metadataOf_links (lines : List Metadatum) (head : List TagOrLink) :
    FirstOfEach (·.item) (metadataOf lines head).links (lineLinks lines ++ headLinks head) := by
  have : (metadataOf lines head).links = firsts (·.item) [] (lineLinks lines ++ headLinks head) := by
    simp only [metadataOf, lineMetadata, lineLinks_firsts, headLinks_firsts, union_firsts]
  rw [this]
  exact firstOfEach_firsts _

theorem metadataOf_keyValues (lines : List Metadatum) (head : List TagOrLink) :
    FirstOfEach (·.1.item) (metadataOf lines head).keyValues (lineKeyValues lines) := by
  have : (metadataOf lines head).keyValues = firsts (·.1.item) [] (lineKeyValues lines) := by
    simp only [metadataOf, lineMetadata, lineKeyValues_firsts]
  rw [this]
  exact firstOfEach_firsts _

theorem metadataOf_nil (lines : List Metadatum) : metadataOf lines [] = lineMetadata lines := by
  simp [metadataOf, headTags, headLinks, firsts, union]

/-! ### Reports -/

theorem reportsOf_append (kind : DupKind) (n : Str) (a b : List PErr) :
    reportsOf kind n (a ++ b) = reportsOf kind n a + reportsOf kind n b := by
  simp [reportsOf]

theorem reportsOf_map {α : Type} (kind : DupKind) (n : Str) (name : α → DupKind × Str) (report : α → PErr)
    (h : ∀ x, ∃ span, report x = .duplicate (name x).1 (name x).2 span) (l : List α) :
    reportsOf kind n (l.map report) = (l.map name).count (kind, n) := by
  induction l with
  | nil => rfl
  | cons x xs ih =>
    obtain ⟨span, hx⟩ := h x
    rw [List.map_cons, List.map_cons, List.count_cons, ← ih]
    simp only [reportsOf, List.countP_cons, hx]
    congr 1
    by_cases e : name x = (kind, n)
    · simp [e]
    · have : ¬ ((name x).1 = kind ∧ (name x).2 = n) := fun h => e (Prod.ext h.1 h.2)
      simp [e, this]

theorem reports_head (kind : DupKind) (n : Str) (head : List TagOrLink) :
    reportsOf kind n (headErrors head) = (head.map TagOrLink.name).count (kind, n) - 1 := by
  rw [headErrors, reportsOf_map kind n TagOrLink.name _ (by rintro (x | x) <;> exact ⟨_, rfl⟩), count_repeats]
  simp

theorem reports_lines (kind : DupKind) (n : Str) (lines : List Metadatum) :
    reportsOf kind n (lineErrors lines) = (lines.map lineName).count (kind, n) - 1 := by
  rw [lineErrors, reportsOf_map kind n lineName _ (by rintro (x | x | x) <;> exact ⟨_, rfl⟩), count_repeats]
  simp

theorem count_kind (kind : DupKind) (n : Str) (k : DupKind) (l : List (Spanned Str)) :
    reportsOf kind n (l.map (fun t => .duplicate k t.item t.span)) =
      if k = kind then (l.map (·.item)).count n else 0 := by
  induction l with
  | nil => simp [reportsOf]
  | cons x xs ih =>
    rw [List.map_cons, List.map_cons, List.count_cons]
    simp only [reportsOf, List.countP_cons] at ih ⊢
    rw [ih]
    by_cases e : k = kind <;> by_cases e' : x.item = n <;> simp [e, e']

theorem reports_currency (n : Str) (cs : List (Spanned Str)) :
    reportsOf .currency n (currencyErrors cs) = (cs.map (·.item)).count n - 1 := by
  rw [currencyErrors, count_kind, count_repeats]
  simp

theorem mem_tags_name (lines : List Metadatum) (n : Str) :
    n ∈ (lineTags lines).map (·.item) ↔ (DupKind.tag, n) ∈ lines.map lineName := by
  simp only [lineTags, List.mem_map, List.mem_filterMap]
  constructor
  · rintro ⟨t, ⟨l, hl, h⟩, rfl⟩
    refine ⟨l, hl, ?_⟩
    cases l <;> cases h
    rfl
  · rintro ⟨l, hl, h⟩
    cases l <;> cases h
    exact ⟨_, ⟨_, hl, rfl⟩, rfl⟩

theorem mem_links_name (lines : List Metadatum) (n : Str) :
    n ∈ (lineLinks lines).map (·.item) ↔ (DupKind.link, n) ∈ lines.map lineName := by
  simp only [lineLinks, List.mem_map, List.mem_filterMap]
  constructor
  · rintro ⟨t, ⟨l, hl, h⟩, rfl⟩
    refine ⟨l, hl, ?_⟩
    cases l <;> cases h
    rfl
  · rintro ⟨l, hl, h⟩
    cases l <;> cases h
    exact ⟨_, ⟨_, hl, rfl⟩, rfl⟩

theorem mem_headTags_name (head : List TagOrLink) (n : Str) :
    n ∈ (headTags head).map (·.item) ↔ (DupKind.tag, n) ∈ head.map TagOrLink.name := by
  simp only [headTags, List.mem_map, List.mem_filterMap]
  constructor
  · rintro ⟨t, ⟨l, hl, h⟩, rfl⟩
    refine ⟨l, hl, ?_⟩
    cases l <;> cases h
    rfl
  · rintro ⟨l, hl, h⟩
    cases l <;> cases h
    exact ⟨_, ⟨_, hl, rfl⟩, rfl⟩

theorem mem_headLinks_name (head : List TagOrLink) (n : Str) :
    n ∈ (headLinks head).map (·.item) ↔ (DupKind.link, n) ∈ head.map TagOrLink.name := by
  simp only [headLinks, List.mem_map, List.mem_filterMap]
  constructor
  · rintro ⟨t, ⟨l, hl, h⟩, rfl⟩
    refine ⟨l, hl, ?_⟩
    cases l <;> cases h
    rfl
  · rintro ⟨l, hl, h⟩
    cases l <;> cases h
    exact ⟨_, ⟨_, hl, rfl⟩, rfl⟩

theorem reports_clash (kind : DupKind) (n : Str) (lines : List Metadatum) (head : List TagOrLink) :
    reportsOf kind n (clashErrors lines head) =
      if (kind, n) ∈ lines.map lineName ∧ (kind, n) ∈ head.map TagOrLink.name then 1 else 0 := by
  obtain ⟨h1, h2⟩ := headTags_nodup _ (firsts_notin TagOrLink.name head []).2
  simp only [clashErrors, reportsOf_append, count_kind, count_both h1, count_both h2]
  simp only [lineMetadata, lineTags_firsts, lineLinks_firsts, headTags_firsts, headLinks_firsts, mem_firsts_name,
    List.not_mem_nil, not_false_eq_true, and_true, mem_tags_name, mem_links_name, mem_headTags_name, mem_headLinks_name]
  have hk : ∀ k, (k ≠ .tag ∧ k ≠ .link) → ¬ (k, n) ∈ head.map TagOrLink.name := by
    rintro k ⟨hk1, hk2⟩ hm
    obtain ⟨x, _, hx⟩ := List.mem_map.mp hm
    cases x <;> cases hx
    · exact hk1 rfl
    · exact hk2 rfl
  cases kind with
  | tag => simp
  | link => simp
  | key => simp [hk .key (by simp)]
  | currency => simp [hk .currency (by simp)]

theorem timesWritten_eq (kind : DupKind) (n : Str) (head : List TagOrLink) (lines : List Metadatum) :
    timesWritten kind n (written head lines) =
      (head.map TagOrLink.name).count (kind, n) + (lines.map lineName).count (kind, n) := by
  rw [timesWritten, written, List.countP_append]
  congr 1
  · rw [List.countP_map, List.count, List.countP_map]
    refine List.countP_congr fun x _ => ?_
    cases x <;> simp [TagOrLink.name]
  · rw [List.countP_map, List.count, List.countP_map]
    refine List.countP_congr fun x _ => ?_
    cases x <;> simp [lineName]

/-- One report per repetition. -/
theorem reports_all (kind : DupKind) (n : Str) (head : List TagOrLink) (lines : List Metadatum) :
    reportsOf kind n (headErrors head) + reportsOf kind n (lineErrors lines) + reportsOf kind n (clashErrors lines head) =
      timesWritten kind n (written head lines) - 1 := by
  rw [reports_head, reports_lines, reports_clash, timesWritten_eq]
  simp only [← List.count_pos_iff]
  split <;> omega

theorem about_head (head : List TagOrLink) (lines : List Metadatum) :
    ∀ e ∈ headErrors head, AboutWritten (written head lines) e := by
  intro e he
  obtain ⟨x, hx, rfl⟩ := List.mem_map.mp he
  have hx := repeats_subset _ _ x hx
  cases x with
  | inl t => exact ⟨(.tag, t), List.mem_append_left _ (List.mem_map.mpr ⟨_, hx, rfl⟩), rfl⟩
  | inr t => exact ⟨(.link, t), List.mem_append_left _ (List.mem_map.mpr ⟨_, hx, rfl⟩), rfl⟩

theorem about_lines (head : List TagOrLink) (lines : List Metadatum) :
    ∀ e ∈ lineErrors lines, AboutWritten (written head lines) e := by
  intro e he
  obtain ⟨x, hx, rfl⟩ := List.mem_map.mp he
  have hx := repeats_subset _ _ x hx
  cases x with
  | keyValue kv => exact ⟨(.key, kv.item.key), List.mem_append_right _ (List.mem_map.mpr ⟨_, hx, rfl⟩), rfl⟩
  | tag t => exact ⟨(.tag, t), List.mem_append_right _ (List.mem_map.mpr ⟨_, hx, rfl⟩), rfl⟩
  | link t => exact ⟨(.link, t), List.mem_append_right _ (List.mem_map.mpr ⟨_, hx, rfl⟩), rfl⟩

theorem firsts_subset {α κ : Type} [DecidableEq κ] {name : α → κ} (l : List α) : ∀ seen : List κ,
    ∀ x ∈ firsts name seen l, x ∈ l := by
  induction l with
  | nil => intro seen x hx; cases hx
  | cons y ys ih =>
    intro seen x hx
    rw [firsts] at hx
    split at hx
    · exact List.mem_cons_of_mem _ (ih _ x hx)
    · rcases List.mem_cons.mp hx with rfl | hx
      · exact List.mem_cons_self
      · exact List.mem_cons_of_mem _ (ih _ x hx)

theorem about_clash (head : List TagOrLink) (lines : List Metadatum) :
    ∀ e ∈ clashErrors lines head, AboutWritten (written head lines) e := by
  intro e he
  rcases List.mem_append.mp he with he | he
  · obtain ⟨x, hx, rfl⟩ := List.mem_map.mp he
    have hx := mem_both hx
    simp only [lineMetadata] at hx
    obtain ⟨l, hl, h⟩ := List.mem_filterMap.mp hx
    have hl := firsts_subset _ _ l hl
    cases l <;> cases h
    exact ⟨(.tag, x), List.mem_append_right _ (List.mem_map.mpr ⟨_, hl, rfl⟩), rfl⟩
  · obtain ⟨x, hx, rfl⟩ := List.mem_map.mp he
    have hx := mem_both hx
    simp only [lineMetadata] at hx
    obtain ⟨l, hl, h⟩ := List.mem_filterMap.mp hx
    have hl := firsts_subset _ _ l hl
    cases l <;> cases h
    exact ⟨(.link, x), List.mem_append_right _ (List.mem_map.mpr ⟨_, hl, rfl⟩), rfl⟩

end Lima.Grammar
