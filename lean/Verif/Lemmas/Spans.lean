import Verif.Spec.Sources
import Verif.Lemmas.Text
import Verif.Lemmas.Names

/-! # Lemmas about trimming and character offsets -/

namespace Lima
open Lima.Spec

theorem utf8Size_pos (c : Char) : 1 ≤ c.utf8Size := Char.utf8Size_pos c

theorem rfindFrom_none (p : Char → Bool) (off : Nat) (s : Str) (h : ∀ x ∈ s, p x = false) :
    rfindFrom p off s = none := by
  induction s generalizing off with
  | nil => rfl
  | cons c s ih =>
    rw [rfindFrom, ih _ (fun x hx => h x (by simp [hx]))]
    simp [h c (by simp)]

theorem rfindFrom_some (p : Char → Bool) (off : Nat) (body : Str) (c : Char) (w : Str)
    (hc : p c = true) (hw : ∀ x ∈ w, p x = false) :
    rfindFrom p off (body ++ c :: w) = some (off + byteLen body) := by
  induction body generalizing off with
  | nil =>
    rw [List.nil_append, rfindFrom, rfindFrom_none p _ w hw]
    simp [hc, byteLen]
  | cons b body ih =>
    rw [List.cons_append, rfindFrom, ih, byteLen_cons]
    simp [Nat.add_assoc]

theorem trim_some [Unicode] (p body : Str) (c : Char) (w r : Str)
    (hc : Unicode.isWhitespace c = false) (hw : ∀ x ∈ w, Unicode.isWhitespace x = true) :
    trimTrailingWhitespace (p ++ (body ++ [c] ++ w) ++ r) (byteLen p) (byteLen p + byteLen (body ++ [c] ++ w)) =
      some (byteLen p + byteLen body + 1) := by
  unfold trimTrailingWhitespace
  have hs : slice (p ++ (body ++ [c] ++ w) ++ r) (byteLen p) (byteLen p + byteLen (body ++ [c] ++ w)) =
      some (body ++ [c] ++ w) := (slice_iff _ _ _ _).mpr ⟨p, r, rfl, rfl, rfl⟩
  rw [hs]
  have hr := rfindFrom_some (fun c => !Unicode.isWhitespace c) 0 body c w (by simp [hc])
    (by intro x hx; simp [hw x hx])
  simp only [List.append_assoc, List.cons_append, List.nil_append]
  rw [hr]
  simp

theorem trim_none [Unicode] (p m r : Str) (hm : ∀ x ∈ m, Unicode.isWhitespace x = true) :
    trimTrailingWhitespace (p ++ m ++ r) (byteLen p) (byteLen p + byteLen m) = some (byteLen p + byteLen m) := by
  unfold trimTrailingWhitespace
  have hs : slice (p ++ m ++ r) (byteLen p) (byteLen p + byteLen m) = some m :=
    (slice_iff _ _ _ _).mpr ⟨p, r, rfl, rfl, rfl⟩
  rw [hs]
  simp only
  rw [rfindFrom_none _ _ _ (by intro x hx; simp [hm x hx])]

theorem trimmedSpan_isSome [Unicode] (s : Str) (sp : Span) : (trimmedSpan s sp).isSome = true := by
  unfold trimmedSpan trimTrailingWhitespace
  cases slice s sp.start sp.stop with
  | none => rfl
  | some m =>
    simp only
    cases rfindFrom (fun c => !Unicode.isWhitespace c) 0 m <;> rfl

/-- Where the trimmed span ends, and that it never ends before it starts. -/
theorem trimmedSpan_le [Unicode] (s : Str) (sp t : Span) (h : trimmedSpan s sp = some t) : t.start ≤ t.stop := by
  unfold trimmedSpan trimTrailingWhitespace at h
  cases hs : slice s sp.start sp.stop with
  | none => rw [hs] at h; cases h; exact Nat.le_refl _
  | some m =>
    rw [hs] at h
    simp only at h
    have := slice_byteLen hs
    cases hr : rfindFrom (fun c => !Unicode.isWhitespace c) 0 m with
    | none => rw [hr] at h; cases h; simp; omega
    | some i => rw [hr] at h; cases h; simp; omega

theorem charIndicesFrom_append (off : Nat) (a b : Str) :
    charIndicesFrom off (a ++ b) = charIndicesFrom off a ++ charIndicesFrom (off + byteLen a) b := by
  induction a generalizing off with
  | nil => simp [charIndicesFrom, byteLen]
  | cons c a ih => simp [charIndicesFrom, ih, byteLen_cons, Nat.add_assoc]

theorem charIndicesFrom_length (off : Nat) (s : Str) : (charIndicesFrom off s).length = s.length := by
  induction s generalizing off with
  | nil => rfl
  | cons c s ih => simp [charIndicesFrom, ih]

theorem charIndicesFrom_lt (off : Nat) (s : Str) : ∀ i ∈ charIndicesFrom off s, off ≤ i ∧ i < off + byteLen s := by
  induction s generalizing off with
  | nil => simp [charIndicesFrom]
  | cons c s ih =>
    intro i hi
    rw [charIndicesFrom, List.mem_cons] at hi
    have := utf8Size_pos c
    rw [byteLen_cons]
    rcases hi with rfl | hi
    · omega
    · have := ih _ i hi; omega

/-- The number of characters before an offset just after the first byte of the last character. -/
theorem partition_inside [PartitionPoint] (body : Str) (c : Char) (b : Str) :
    PartitionPoint.point (charIndices (body ++ [c] ++ b)) (fun i => decide (i < byteLen body + 1)) =
      body.length + 1 := by
  unfold charIndices
  have hc := utf8Size_pos c
  rw [charIndicesFrom_append, PartitionPoint.point_partitioned, charIndicesFrom_length]
  · simp
  · intro i hi
    rw [charIndicesFrom_append] at hi
    rcases List.mem_append.mp hi with hi | hi
    · have := charIndicesFrom_lt 0 body i hi
      simp; omega
    · simp [charIndicesFrom] at hi
      simp; omega
  · intro i hi
    have := charIndicesFrom_lt _ b i hi
    rw [byteLen_append, byteLen_cons] at this
    simp; omega

theorem partition_edge [PartitionPoint] (a b : Str) :
    PartitionPoint.point (charIndices (a ++ b)) (fun i => decide (i < byteLen a)) = a.length := by
  unfold charIndices
  rw [charIndicesFrom_append, PartitionPoint.point_partitioned, charIndicesFrom_length]
  · intro i hi
    have := charIndicesFrom_lt 0 a i hi
    simp; omega
  · intro i hi
    have := charIndicesFrom_lt _ b i hi
    simp; omega

theorem partition_zero [PartitionPoint] (l : List Nat) :
    PartitionPoint.point l (fun i => decide (i < 0)) = 0 := by
  have := PartitionPoint.point_partitioned [] l (fun i => decide (i < 0)) (by simp) (by simp)
  simpa using this

theorem countNewlines_eq (s : Str) : countNewlines s = s.count '\n' := by
  unfold countNewlines
  induction s with
  | nil => rfl
  | cons c s ih =>
    by_cases h : c = '\n' <;> simp [h, ih, List.count_cons]

/-- The heart of resolving: for a span on character boundaries, the rune span covers exactly the trimmed text. -/
theorem runeSpan_trimmed [Unicode] [PartitionPoint] (id : Nat) (p m t r : Str)
    (ht : Trimmed (fun c => Unicode.isWhitespace c = true) m t) :
    ∃ b, trimmedSpan (p ++ m ++ r) ⟨id, byteLen p, byteLen p + byteLen m⟩ = some b ∧
      byteToRune (charIndices (p ++ m ++ r)) b = ⟨id, p.length, p.length + t.length⟩ := by
  have hs : slice (p ++ m ++ r) (byteLen p) (byteLen p + byteLen m) = some m :=
    (slice_iff _ _ _ _).mpr ⟨p, r, rfl, rfl, rfl⟩
  rcases ht with ⟨body, c, w, rfl, rfl, hc, hw⟩ | ⟨hm, rfl⟩
  · have htr := trim_some p body c w r (by simpa using hc) hw
    refine ⟨⟨id, byteLen p, byteLen p + byteLen body + 1⟩, ?_, ?_⟩
    · unfold trimmedSpan
      simp only [hs, htr]
    · unfold byteToRune
      simp only [Span.mk.injEq, true_and]
      constructor
      · rw [List.append_assoc]; exact partition_edge p _
      · have := partition_inside (p ++ body) c (w ++ r)
        rw [byteLen_append] at this
        simp only [List.append_assoc] at this ⊢
        rw [this]
        simp [Nat.add_assoc]
  · have htr := trim_none p t r hm
    refine ⟨⟨id, byteLen p, byteLen p + byteLen t⟩, ?_, ?_⟩
    · unfold trimmedSpan
      simp only [hs, htr]
    · unfold byteToRune
      simp only [Span.mk.injEq, true_and]
      constructor
      · rw [List.append_assoc]; exact partition_edge p _
      · have := partition_edge (p ++ t) r
        rw [byteLen_append] at this
        rw [this]; simp

theorem point_mono [PartitionPoint] (s : Str) (a b : Nat) (h : a ≤ b) :
    PartitionPoint.point (charIndices s) (fun i => decide (i < a)) ≤
      PartitionPoint.point (charIndices s) (fun i => decide (i < b)) := by
  -- on a sorted list both are counts
  have hcount : ∀ n, ∃ x y, s = x ++ y ∧ (∀ i ∈ charIndicesFrom 0 x, i < n) ∧
      (∀ i ∈ charIndicesFrom (byteLen x) y, ¬ i < n) := by
    intro n
    have : ∀ (x0 y : Str), (∀ i ∈ charIndicesFrom 0 x0, i < n) → ∃ x y', x0 ++ y = x ++ y' ∧
        (∀ i ∈ charIndicesFrom 0 x, i < n) ∧ (∀ i ∈ charIndicesFrom (byteLen x) y', ¬ i < n) := by
      intro x0 y
      induction y generalizing x0 with
      | nil => intro h; exact ⟨x0, [], by simp, h, by simp [charIndicesFrom]⟩
      | cons c y ih =>
        intro h
        by_cases hlt : byteLen x0 < n
        · obtain ⟨x, y', e, h1, h2⟩ := ih (x0 ++ [c]) (by
            intro i hi
            rw [charIndicesFrom_append] at hi
            rcases List.mem_append.mp hi with hi | hi
            · exact h i hi
            · simp [charIndicesFrom] at hi; omega)
          exact ⟨x, y', by rw [← e]; simp, h1, h2⟩
        · refine ⟨x0, c :: y, rfl, h, ?_⟩
          intro i hi
          have := charIndicesFrom_lt _ _ i hi
          omega
    simpa using this [] s (by simp [charIndicesFrom])
  obtain ⟨x, y, e, h1, h2⟩ := hcount a
  obtain ⟨x', y', e', h1', h2'⟩ := hcount b
  have ha : PartitionPoint.point (charIndices s) (fun i => decide (i < a)) = x.length := by
    rw [e]; unfold charIndices
    rw [charIndicesFrom_append, PartitionPoint.point_partitioned, charIndicesFrom_length]
    · intro i hi; simpa using h1 i hi
    · intro i hi; simpa using h2 i (by simpa using hi)
  have hb : PartitionPoint.point (charIndices s) (fun i => decide (i < b)) = x'.length := by
    rw [e']; unfold charIndices
    rw [charIndicesFrom_append, PartitionPoint.point_partitioned, charIndicesFrom_length]
    · intro i hi; simpa using h1' i hi
    · intro i hi; simpa using h2' i (by simpa using hi)
  rw [ha, hb]
  rcases Nat.lt_or_ge x'.length x.length with hlt | hge
  · exfalso
    -- then x' is a strict prefix of x, so its next index is below a, hence below b
    have hx : ∃ c z, x = x' ++ c :: z := by
      have h3 : x' ++ y' = x ++ y := by rw [← e', ← e]
      rcases List.append_eq_append_iff.mp h3 with ⟨z, hz1, hz2⟩ | ⟨z, hz1, hz2⟩
      · cases z with
        | nil => simp at hz1; rw [hz1] at hlt; omega
        | cons c z => exact ⟨c, z, hz1⟩
      · rw [hz1] at hlt; simp at hlt
        omega
    obtain ⟨c, z, rfl⟩ := hx
    have hi1 : byteLen x' ∈ charIndicesFrom 0 (x' ++ c :: z) := by
      rw [charIndicesFrom_append]; simp [charIndicesFrom]
    have := h1 _ hi1
    have h4 : y' = c :: z ++ y := by
      have h3 : x' ++ y' = x' ++ (c :: z ++ y) := by rw [← e', e]; simp
      exact List.append_cancel_left h3
    have := h2' (byteLen x') (by rw [h4]; simp [charIndicesFrom])
    omega
  · exact hge

end Lima
