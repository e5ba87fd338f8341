import Verif.Lemmas.Revise
import Verif.Props.Order

/-! Directives exchanged or left out: what comes of sorting. -/

set_option linter.unusedSectionVars false

namespace Lima.Revise
open Lima Spec Props

variable {strict dropping : Prop}

abbrev ofRank (d : Directive) (l : List (Spanned Directive)) : List (Spanned Directive) := l.filter fun x => decide (SameRank x.item d)

theorem same_rank_of {a b : Directive} (h : ¬ StrictlyBefore a b) (h' : ¬ StrictlyBefore b a) : SameRank a b := by
  unfold StrictlyBefore at h h'
  unfold SameRank
  generalize a.date.item = dy at *
  generalize b.date.item = dx at *
  obtain ⟨y1, y2, y3⟩ := dy
  obtain ⟨x1, x2, x3⟩ := dx
  simp only [Date.mk.injEq] at *
  omega

theorem rank_symm {a b : Directive} (h : SameRank a b) : SameRank b a := ⟨h.1.symm, h.2.symm⟩
theorem rank_trans {a b c : Directive} (h : SameRank a b) (h' : SameRank b c) : SameRank a c := ⟨h.1.trans h'.1, h.2.trans h'.2⟩

theorem before_congr {a b c : Directive} (h : SameRank a b) : StrictlyBefore a c ↔ StrictlyBefore b c := by
  unfold StrictlyBefore
  rw [h.1, h.2]

theorem ofRank_congr {d d' : Directive} (h : SameRank d d') (l : List (Spanned Directive)) : ofRank d l = ofRank d' l := by
  unfold ofRank
  congr 1
  funext x
  have : SameRank x.item d ↔ SameRank x.item d' := ⟨fun k => rank_trans k h, fun k => rank_trans k (rank_symm h)⟩
  simp [this]

/-- Of ordered lists, the one which has for each rank some of what the other has, in the same order, has some of what the other has. -/
theorem sublist_of_ranks : ∀ (l l' : List (Spanned Directive)), l.Pairwise (fun a b => ¬ StrictlyBefore b.item a.item) →
    l'.Pairwise (fun a b => ¬ StrictlyBefore b.item a.item) → (∀ d, (ofRank d l').Sublist (ofRank d l)) → l'.Sublist l
  | [], l', _, _, h => by
    cases l' with
    | nil => exact .slnil
    | cons y l' =>
      have := h y.item
      simp [ofRank, SameRank] at this
  | x :: l, l', hl, hl', h => by
    cases l' with
    | nil => exact List.nil_sublist _
    | cons y l' =>
      have hl1 := List.pairwise_cons.mp hl
      have hl1' := List.pairwise_cons.mp hl'
      have skip : (ofRank x.item (y :: l')).Sublist (ofRank x.item l) → (y :: l').Sublist (x :: l) := by
        intro hk
        refine List.Sublist.cons _ (sublist_of_ranks l (y :: l') hl1.2 hl' fun d => ?_)
        by_cases hd : SameRank x.item d
        · rw [← ofRank_congr hd, ← ofRank_congr hd]
          exact hk
        · have := h d
          rw [show ofRank d (x :: l) = ofRank d l by simp [ofRank, hd]] at this
          exact this
      by_cases hxy : SameRank y.item x.item
      · have hh := h x.item
        have e1 : ofRank x.item (x :: l) = x :: ofRank x.item l := by
          have : SameRank x.item x.item := ⟨rfl, rfl⟩
          simp [ofRank, this]
        have e2 : ofRank x.item (y :: l') = y :: ofRank x.item l' := by simp [ofRank, hxy]
        rw [e1, e2] at hh
        rw [List.sublist_cons_iff] at hh
        rcases hh with hh | ⟨r, h1, h2⟩
        · exact skip (by rw [e2]; exact hh)
        · cases h1
          refine List.Sublist.cons_cons _ (sublist_of_ranks l l' hl1.2 hl1'.2 fun d => ?_)
          by_cases hd : SameRank x.item d
          · rw [← ofRank_congr hd, ← ofRank_congr hd]
            exact h2
          · have := h d
            rw [show ofRank d (x :: l) = ofRank d l by simp [ofRank, hd],
              show ofRank d (x :: l') = ofRank d l' by simp [ofRank, hd]] at this
            exact this
      · apply skip
        have hmem : y ∈ x :: l := by
          have h1 : y ∈ ofRank y.item (y :: l') := List.mem_filter.mpr ⟨by simp, by simp [SameRank]⟩
          exact (List.mem_filter.mp ((h y.item).subset h1)).1
        have hxy' : ¬ StrictlyBefore y.item x.item := by
          rcases List.mem_cons.mp hmem with rfl | hm
          · exact absurd ⟨rfl, rfl⟩ hxy
          · exact hl1.1 y hm
        have : ofRank x.item (y :: l') = [] := by
          unfold ofRank
          rw [List.filter_eq_nil_iff]
          intro z hz hk
          have hk : SameRank z.item x.item := by simpa using hk
          rcases List.mem_cons.mp hz with rfl | hz
          · exact hxy hk
          · have := hl1'.1 z hz
            rw [before_congr hk] at this
            exact hxy (same_rank_of hxy' this)
        rw [this]
        exact List.nil_sublist _

theorem Outs.perm (hd : ¬ dropping) {l l' : List (Spanned Directive)} (h : Outs strict dropping l l') : l.Perm l' := by
  induction h with
  | nil => exact .nil
  | cons d _ ih => exact ih.cons d
  | swap _ _ ih => exact (List.Perm.swap _ _ _).trans ((ih.cons _).cons _)
  | drop _ h _ _ => exact absurd h hd

theorem Outs.ranks (hs : strict) {l l' : List (Spanned Directive)} (h : Outs strict dropping l l') (d : Directive) :
    (ofRank d l').Sublist (ofRank d l) := by
  induction h with
  | nil => exact .slnil
  | cons x _ ih =>
    unfold ofRank at ih ⊢
    rw [List.filter_cons, List.filter_cons]
    split
    · exact ih.cons_cons _
    · exact ih
  | @swap x y l l' hm _ ih =>
    have hne : ¬ (SameRank x.item d ∧ SameRank y.item d) := fun ⟨h1, h2⟩ => hm hs (h1.1.trans h2.1.symm)
    unfold ofRank at ih ⊢
    rw [List.filter_cons, List.filter_cons, List.filter_cons, List.filter_cons]
    by_cases hx : SameRank x.item d <;> by_cases hy : SameRank y.item d
    · exact absurd ⟨hx, hy⟩ hne
    · simpa [hx, hy] using ih
    · simpa [hx, hy] using ih
    · simpa [hx, hy] using ih
  | drop x _ _ ih =>
    unfold ofRank at ih ⊢
    rw [List.filter_cons]
    split
    · exact ih.cons _
    · exact ih

theorem Outs.sorted (hs : strict) {l l' : List (Spanned Directive)} (h : Outs strict dropping l l') :
    (sortDirectives l').Sublist (sortDirectives l) := by
  refine sublist_of_ranks _ _ (C01_sort_ordered l) (C01_sort_ordered l') fun d => ?_
  unfold ofRank
  rw [C01_sort_stable, C01_sort_stable]
  exact h.ranks hs d

/-- All changes, one after the other. -/
theorem sorted_chain (hs : strict) {l l' : List (Spanned Directive)} (h : Relation.ReflTransGen (Outs strict dropping) l l') :
    (sortDirectives l').Sublist (sortDirectives l) := by
  induction h with
  | refl => exact List.Sublist.refl _
  | tail _ h ih => exact (h.sorted hs).trans ih

theorem perm_chain (hd : ¬ dropping) {l l' : List (Spanned Directive)} (h : Relation.ReflTransGen (Outs strict dropping) l l') :
    (sortDirectives l).Perm (sortDirectives l') := by
  have : l.Perm l' := by
    induction h with
    | refl => exact .refl _
    | tail _ h ih => exact ih.trans (h.perm hd)
  exact (C01_sort_perm l).trans (this.trans (C01_sort_perm l').symm)

theorem same_chain (hs : strict) (hd : ¬ dropping) {l l' : List (Spanned Directive)} (h : Relation.ReflTransGen (Outs strict dropping) l l') :
    sortDirectives l' = sortDirectives l :=
  (sorted_chain hs h).eq_of_length (perm_chain hd h).length_eq.symm

end Lima.Revise
