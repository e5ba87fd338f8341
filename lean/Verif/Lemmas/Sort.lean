import Verif.Model.Sort

/-! Lemmas about the bucket sort. -/

namespace Lima

variable {κ ν : Type}

/-- `lt` is a strict total order. -/
structure StrictTotal (lt : κ → κ → Bool) : Prop where
  irrefl : ∀ a, lt a a = false
  trans : ∀ a b c, lt a b = true → lt b c = true → lt a c = true
  total : ∀ a b, lt a b = false → lt b a = false → a = b

/-- All items in bucket order. -/
def flatBuckets (m : List (κ × List ν)) : List ν := m.flatMap (·.2)

/-- Buckets are in increasing key order, non-empty, and hold items of their key. -/
structure BucketInv (lt : κ → κ → Bool) (key : ν → κ) (m : List (κ × List ν)) : Prop where
  sorted : m.Pairwise (fun a b => lt a.1 b.1 = true)
  nonempty : ∀ b ∈ m, b.2 ≠ []
  keyed : ∀ b ∈ m, ∀ v ∈ b.2, key v = b.1

theorem SortState.collect_cons (x : ν) (xs : List ν) (m : List (κ × List ν)) :
    SortState.collect ⟨some (x :: xs), m⟩ = x :: SortState.collect ⟨some xs, m⟩ := by
  rw [SortState.collect]
  split
  · rename_i h; simp [SortState.next] at h
  · rename_i h
    simp [SortState.next] at h
    rw [h.1, h.2]

theorem SortState.collect_bucket (xs : List ν) (m : List (κ × List ν)) :
    SortState.collect ⟨some xs, m⟩ = xs ++ SortState.collect ⟨some [], m⟩ := by
  induction xs with
  | nil => simp
  | cons x xs ih => rw [SortState.collect_cons, ih]; simp

theorem SortState.collect_step (hb : Option (List ν)) (hhb : hb = none ∨ hb = some [])
    (k : κ) (x : ν) (xs : List ν) (m : List (κ × List ν)) :
    SortState.collect ⟨hb, (k, x :: xs) :: m⟩ = x :: SortState.collect ⟨some xs, m⟩ := by
  rw [SortState.collect]
  split
  · rename_i h
    rcases hhb with rfl | rfl <;> simp [SortState.next] at h
  · rename_i h
    rcases hhb with rfl | rfl <;> (simp [SortState.next] at h; rw [h.1, h.2])

theorem SortState.collect_end (hb : Option (List ν)) (hhb : hb = none ∨ hb = some []) :
    SortState.collect (⟨hb, []⟩ : SortState κ ν) = [] := by
  rw [SortState.collect]
  split
  · rfl
  · rename_i h
    rcases hhb with rfl | rfl <;> simp [SortState.next] at h

theorem SortState.collect_eq_flat (hb : Option (List ν)) (hhb : hb = none ∨ hb = some [])
    (m : List (κ × List ν)) (hne : ∀ b ∈ m, b.2 ≠ []) :
    SortState.collect ⟨hb, m⟩ = flatBuckets m := by
  induction m generalizing hb with
  | nil => rw [SortState.collect_end hb hhb]; rfl
  | cons b m ih =>
    obtain ⟨k, vs⟩ := b
    match vs with
    | [] => exact absurd rfl (hne (k, []) (by simp))
    | x :: xs =>
      rw [SortState.collect_step hb hhb, SortState.collect_bucket,
        ih (some []) (Or.inr rfl) (fun b hb => hne b (by simp [hb]))]
      simp [flatBuckets]

theorem bucketPush_keys {lt : κ → κ → Bool} (m : List (κ × List ν)) (k : κ) (v : ν)
    (b : κ × List ν) (hb : b ∈ bucketPush lt m k v) : b.1 = k ∨ ∃ b' ∈ m, b'.1 = b.1 := by
  induction m with
  | nil => simp [bucketPush] at hb; left; rw [hb]
  | cons x m ih =>
    obtain ⟨k', vs⟩ := x
    unfold bucketPush at hb
    split at hb
    · simp only [List.mem_cons] at hb
      rcases hb with rfl | rfl | hb
      · left; rfl
      · right; exact ⟨(k', vs), by simp, rfl⟩
      · right; exact ⟨b, by simp [hb], rfl⟩
    · split at hb
      · simp only [List.mem_cons] at hb
        rcases hb with rfl | hb
        · right; exact ⟨(k', vs), by simp, rfl⟩
        · rcases ih hb with h | ⟨b', hb', h⟩
          · left; exact h
          · right; exact ⟨b', by simp [hb'], h⟩
      · simp only [List.mem_cons] at hb
        rcases hb with rfl | hb
        · right; exact ⟨(k', vs), by simp, rfl⟩
        · right; exact ⟨b, by simp [hb], rfl⟩

theorem bucketPush_inv {lt : κ → κ → Bool} (hlt : StrictTotal lt) {key : ν → κ}
    {m : List (κ × List ν)} (h : BucketInv lt key m) (v : ν) :
    BucketInv lt key (bucketPush lt m (key v) v) := by
  induction m with
  | nil =>
    constructor
    · simp [bucketPush]
    · intro b hb; simp [bucketPush] at hb; subst hb; simp
    · intro b hb w hw
      simp [bucketPush] at hb; subst hb
      simp at hw; rw [hw]
  | cons x m ih =>
    obtain ⟨k', vs⟩ := x
    have hs := h.sorted
    rw [List.pairwise_cons] at hs
    have hm : BucketInv lt key m :=
      ⟨hs.2, fun b hb => h.nonempty b (by simp [hb]), fun b hb => h.keyed b (by simp [hb])⟩
    have ih := ih hm
    unfold bucketPush
    split
    · rename_i hk
      constructor
      · rw [List.pairwise_cons]
        refine ⟨?_, h.sorted⟩
        intro b hb
        rcases List.mem_cons.mp hb with rfl | hb
        · exact hk
        · exact hlt.trans _ _ _ hk (hs.1 b hb)
      · intro b hb
        rcases List.mem_cons.mp hb with rfl | hb
        · simp
        · exact h.nonempty b hb
      · intro b hb w hw
        rcases List.mem_cons.mp hb with rfl | hb
        · simp at hw; rw [hw]
        · exact h.keyed b hb w hw
    · split
      · rename_i hk
        constructor
        · rw [List.pairwise_cons]
          refine ⟨?_, ih.sorted⟩
          intro b hb
          rcases bucketPush_keys m (key v) v b hb with h' | ⟨b', hb', h'⟩
          · rw [h']; exact hk
          · rw [← h']; exact hs.1 b' hb'
        · intro b hb
          rcases List.mem_cons.mp hb with rfl | hb
          · exact h.nonempty (k', vs) (by simp)
          · exact ih.nonempty b hb
        · intro b hb w hw
          rcases List.mem_cons.mp hb with rfl | hb
          · exact h.keyed (k', vs) (by simp) w hw
          · exact ih.keyed b hb w hw
      · rename_i h1 h2
        have hk : key v = k' := hlt.total _ _ (by simpa using h1) (by simpa using h2)
        constructor
        · rw [List.pairwise_cons]
          exact ⟨hs.1, hs.2⟩
        · intro b hb
          rcases List.mem_cons.mp hb with rfl | hb
          · simp
          · exact h.nonempty b (by simp [hb])
        · intro b hb w hw
          rcases List.mem_cons.mp hb with rfl | hb
          · simp only [List.mem_append, List.mem_singleton] at hw
            rcases hw with hw | rfl
            · exact h.keyed (k', vs) (by simp) w hw
            · exact hk
          · exact h.keyed b (by simp [hb]) w hw

theorem bucketPush_perm {lt : κ → κ → Bool} (m : List (κ × List ν)) (k : κ) (v : ν) :
    (flatBuckets (bucketPush lt m k v)).Perm (flatBuckets m ++ [v]) := by
  induction m with
  | nil => simp [bucketPush, flatBuckets]
  | cons x m ih =>
    obtain ⟨k', vs⟩ := x
    unfold bucketPush
    split
    · simp only [flatBuckets, List.flatMap_cons]
      exact (List.perm_append_comm (l₁ := [v])).trans (by simp)
    · split
      · simp only [flatBuckets, List.flatMap_cons, List.append_assoc]
        exact List.Perm.append_left _ ih
      · simp only [flatBuckets, List.flatMap_cons, List.append_assoc]
        exact List.Perm.append_left _ List.perm_append_comm

theorem flat_filter_none {lt : κ → κ → Bool} {key : ν → κ} [DecidableEq κ]
    {m : List (κ × List ν)} (h : BucketInv lt key m) (k : κ) (hk : ∀ b ∈ m, b.1 ≠ k) :
    (flatBuckets m).filter (fun v => decide (key v = k)) = [] := by
  rw [List.filter_eq_nil_iff]
  intro v hv
  obtain ⟨b, hb, hvb⟩ := List.mem_flatMap.mp hv
  rw [h.keyed b hb v hvb]
  simpa using hk b hb

theorem bucketPush_filter {lt : κ → κ → Bool} (hlt : StrictTotal lt) {key : ν → κ} [DecidableEq κ]
    {m : List (κ × List ν)} (h : BucketInv lt key m) (v : ν) (k : κ) :
    (flatBuckets (bucketPush lt m (key v) v)).filter (fun w => decide (key w = k))
      = (flatBuckets m ++ [v]).filter (fun w => decide (key w = k)) := by
  induction m with
  | nil => simp [bucketPush, flatBuckets]
  | cons x m ih =>
    obtain ⟨k', vs⟩ := x
    have hs := h.sorted
    rw [List.pairwise_cons] at hs
    have hm : BucketInv lt key m :=
      ⟨hs.2, fun b hb => h.nonempty b (by simp [hb]), fun b hb => h.keyed b (by simp [hb])⟩
    have ih := ih hm
    unfold bucketPush
    split
    · rename_i hk
      by_cases hv : key v = k
      · have hnone : (flatBuckets ((k', vs) :: m)).filter (fun w => decide (key w = k)) = [] := by
          apply flat_filter_none h
          intro b hb heq
          rcases List.mem_cons.mp hb with rfl | hb
          · rw [hv, ← heq] at hk
            simp [hlt.irrefl] at hk
          · have := hlt.trans _ _ _ hk (hs.1 b hb)
            rw [heq, hv] at this
            simp [hlt.irrefl] at this
        rw [List.filter_append, hnone]
        simp only [flatBuckets, List.flatMap_cons, List.filter_append] at hnone ⊢
        rw [hnone]
        simp
      · simp [flatBuckets, hv]
    · split
      · simp only [flatBuckets, List.flatMap_cons, List.filter_append, List.append_assoc] at ih ⊢
        rw [ih]
      · rename_i h1 h2
        have hk : key v = k' := hlt.total _ _ (by simpa using h1) (by simpa using h2)
        by_cases hv : key v = k
        · have hnone : (flatBuckets m).filter (fun w => decide (key w = k)) = [] := by
            apply flat_filter_none hm
            intro b hb heq
            have := hs.1 b hb
            simp only at this
            rw [heq, ← hk, hv] at this
            simp [hlt.irrefl] at this
          simp only [flatBuckets, List.flatMap_cons, List.filter_append, List.append_assoc] at hnone ⊢
          rw [hnone]
          simp
        · simp [flatBuckets, hv]

theorem flat_sorted {lt : κ → κ → Bool} (hlt : StrictTotal lt) {key : ν → κ}
    {m : List (κ × List ν)} (h : BucketInv lt key m) :
    (flatBuckets m).Pairwise (fun a b => lt (key b) (key a) = false) := by
  induction m with
  | nil => simp [flatBuckets]
  | cons x m ih =>
    obtain ⟨k', vs⟩ := x
    have hs := h.sorted
    rw [List.pairwise_cons] at hs
    have hm : BucketInv lt key m :=
      ⟨hs.2, fun b hb => h.nonempty b (by simp [hb]), fun b hb => h.keyed b (by simp [hb])⟩
    simp only [flatBuckets, List.flatMap_cons]
    rw [List.pairwise_append]
    refine ⟨?_, ih hm, ?_⟩
    · apply List.pairwise_of_forall_mem_list
      intro a ha b hb
      rw [h.keyed (k', vs) (by simp) a ha, h.keyed (k', vs) (by simp) b hb]
      exact hlt.irrefl _
    · intro a ha b hb
      obtain ⟨c, hc, hbc⟩ := List.mem_flatMap.mp hb
      rw [h.keyed (k', vs) (by simp) a ha, hm.keyed c hc b hbc]
      have h1 := hs.1 c hc
      cases h2 : lt c.1 k' with
      | false => rfl
      | true =>
        have := hlt.trans _ _ _ h1 h2
        simp [hlt.irrefl] at this

/-- The three facts that characterise a stable sort. -/
theorem sortBy_spec {lt : κ → κ → Bool} (hlt : StrictTotal lt) [DecidableEq κ] (key : ν → κ)
    (items : List ν) :
    (sortBy lt key items).Perm items
    ∧ (sortBy lt key items).Pairwise (fun a b => lt (key b) (key a) = false)
    ∧ ∀ k, (sortBy lt key items).filter (fun v => decide (key v = k))
        = items.filter (fun v => decide (key v = k)) := by
  have gen : ∀ (items : List ν) (m : List (κ × List ν)), BucketInv lt key m →
      BucketInv lt key (items.foldl (fun m v => bucketPush lt m (key v) v) m)
      ∧ (flatBuckets (items.foldl (fun m v => bucketPush lt m (key v) v) m)).Perm (flatBuckets m ++ items)
      ∧ ∀ k, (flatBuckets (items.foldl (fun m v => bucketPush lt m (key v) v) m)).filter
          (fun v => decide (key v = k)) = (flatBuckets m ++ items).filter (fun v => decide (key v = k)) := by
    intro items
    induction items with
    | nil => intro m h; exact ⟨h, by simp, by simp⟩
    | cons x xs ih =>
      intro m h
      have h' := bucketPush_inv hlt h x
      obtain ⟨i1, i2, i3⟩ := ih _ h'
      refine ⟨i1, ?_, ?_⟩
      · refine i2.trans ?_
        have := (bucketPush_perm (lt := lt) m (key x) x).append_right xs
        simpa using this
      · intro k
        rw [List.foldl_cons, i3, List.filter_append, bucketPush_filter hlt h x k,
          ← List.filter_append, List.append_assoc, List.singleton_append]
  have h0 : BucketInv lt key ([] : List (κ × List ν)) := ⟨by simp, by simp, by simp⟩
  obtain ⟨i1, i2, i3⟩ := gen items [] h0
  unfold sortBy SortState.new
  rw [SortState.collect_eq_flat none (Or.inl rfl) _ i1.nonempty]
  refine ⟨by simpa [flatBuckets] using i2, flat_sorted hlt i1, ?_⟩
  intro k
  rw [i3]; simp [flatBuckets]

theorem Date.lt_iff (a b : Date) : a.lt b = true ↔ (a.year < b.year ∨ (a.year = b.year ∧
    (a.month < b.month ∨ (a.month = b.month ∧ a.day < b.day)))) := by
  simp [Date.lt]

theorem dateRankLt_iff (a b : Date × Nat) :
    dateRankLt a b = true ↔ (a.1.year < b.1.year ∨ (a.1.year = b.1.year ∧
      (a.1.month < b.1.month ∨ (a.1.month = b.1.month ∧
        (a.1.day < b.1.day ∨ (a.1.day = b.1.day ∧ a.2 < b.2)))))) := by
  obtain ⟨⟨y, m, d⟩, r⟩ := a
  obtain ⟨⟨y', m', d'⟩, r'⟩ := b
  simp only [dateRankLt, Bool.or_eq_true, Bool.and_eq_true, decide_eq_true_eq, Date.lt_iff,
    Date.mk.injEq]
  omega

theorem dateRankLt_strictTotal : StrictTotal dateRankLt where
  irrefl a := by
    cases h : dateRankLt a a with
    | false => rfl
    | true => rw [dateRankLt_iff] at h; omega
  trans a b c h1 h2 := by
    rw [dateRankLt_iff] at *; omega
  total a b h1 h2 := by
    have h1' : ¬ dateRankLt a b = true := by simp [h1]
    have h2' : ¬ dateRankLt b a = true := by simp [h2]
    rw [dateRankLt_iff] at h1' h2'
    obtain ⟨⟨y, m, d⟩, r⟩ := a
    obtain ⟨⟨y', m', d'⟩, r'⟩ := b
    simp only [Prod.mk.injEq, Date.mk.injEq] at *
    omega

end Lima
