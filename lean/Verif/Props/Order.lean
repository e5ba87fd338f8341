import Verif.Lemmas.Sort
import Verif.Spec.Order

/-! # C01: order of directives -/

namespace Lima.Props
open Lima Lima.Spec

theorem variantRank_eq (d : Directive) : variantRank d.variant = kindRank d := by
  obtain ⟨_, _, v⟩ := d
  cases v <;> rfl

/-- C01 (permutation): sorting neither drops, duplicates nor invents directives. -/
theorem C01_sort_perm (ds : List (Spanned Directive)) : (sortDirectives ds).Perm ds :=
  (sortBy_spec dateRankLt_strictTotal _ ds).1

/-- C01 (order): no directive is followed by one that must come strictly before it. -/
theorem C01_sort_ordered (ds : List (Spanned Directive)) :
    (sortDirectives ds).Pairwise (fun a b => ¬ StrictlyBefore b.item a.item) := by
  refine List.Pairwise.imp ?_ (sortBy_spec dateRankLt_strictTotal _ ds).2.1
  intro a b h hb
  have h' : ¬ dateRankLt (b.item.date.item, variantRank b.item.variant)
      (a.item.date.item, variantRank a.item.variant) = true := by simp [h]
  rw [dateRankLt_iff, variantRank_eq, variantRank_eq] at h'
  exact h' hb

/-- C01 (stability): the directives of any given rank appear in their original order. -/
theorem C01_sort_stable (ds : List (Spanned Directive)) (d : Directive) :
    (sortDirectives ds).filter (fun x => decide (SameRank x.item d))
      = ds.filter (fun x => decide (SameRank x.item d)) := by
  have h := (sortBy_spec dateRankLt_strictTotal
    (fun d : Spanned Directive => (d.item.date.item, variantRank d.item.variant)) ds).2.2
    (d.date.item, variantRank d.variant)
  have e : ∀ x : Spanned Directive, decide (SameRank x.item d)
      = decide ((x.item.date.item, variantRank x.item.variant) = (d.date.item, variantRank d.variant)) := by
    intro x
    apply decide_eq_decide.mpr
    simp [SameRank, variantRank_eq]
  simp only [e]
  exact h

/-- C01: the three facts determine the output completely, so this is a full specification. -/
theorem C01_sort_unique (ds out : List (Spanned Directive))
    (hord : out.Pairwise (fun a b => ¬ StrictlyBefore b.item a.item))
    (hstable : ∀ d : Directive, out.filter (fun x => decide (SameRank x.item d))
      = ds.filter (fun x => decide (SameRank x.item d))) :
    out = sortDirectives ds := by
  have key : ∀ (l l' : List (Spanned Directive)),
      l.Pairwise (fun a b => ¬ StrictlyBefore b.item a.item) →
      l'.Pairwise (fun a b => ¬ StrictlyBefore b.item a.item) →
      (∀ d : Directive, l.filter (fun x => decide (SameRank x.item d))
        = l'.filter (fun x => decide (SameRank x.item d))) → l = l' := by
    intro l
    induction l with
    | nil =>
      intro l' _ _ h
      cases l' with
      | nil => rfl
      | cons y l' =>
        have := h y.item
        simp [SameRank] at this
    | cons x l ih =>
      intro l' hl hl' h
      cases l' with
      | nil =>
        have := h x.item
        simp [SameRank] at this
      | cons y l' =>
        -- both heads are minimal, so they have the same rank
        have hxmem : x ∈ y :: l' := by
          have : x ∈ (y :: l').filter (fun z => decide (SameRank z.item x.item)) := by
            rw [← h x.item]; simp [SameRank]
          exact (List.mem_filter.mp this).1
        have hymem : y ∈ x :: l := by
          have : y ∈ (x :: l).filter (fun z => decide (SameRank z.item y.item)) := by
            rw [h y.item]; simp [SameRank]
          exact (List.mem_filter.mp this).1
        have irr : ∀ d : Directive, ¬ StrictlyBefore d d := by
          intro d; unfold StrictlyBefore; omega
        have hxy : ¬ StrictlyBefore x.item y.item := by
          rcases List.mem_cons.mp hxmem with rfl | hm
          · exact irr _
          · exact (List.pairwise_cons.mp hl').1 x hm
        have hyx : ¬ StrictlyBefore y.item x.item := by
          rcases List.mem_cons.mp hymem with rfl | hm
          · exact irr _
          · exact (List.pairwise_cons.mp hl).1 y hm
        have hsame : SameRank y.item x.item := by
          unfold StrictlyBefore at hxy hyx
          unfold SameRank
          generalize y.item.date.item = dy at *
          generalize x.item.date.item = dx at *
          obtain ⟨y1, y2, y3⟩ := dy
          obtain ⟨x1, x2, x3⟩ := dx
          simp only [Date.mk.injEq] at *
          omega
        have hhead := h x.item
        have hxx : SameRank x.item x.item := ⟨rfl, rfl⟩
        simp only [List.filter_cons, hxx, hsame, decide_true, if_true, List.cons.injEq] at hhead
        obtain ⟨rfl, _⟩ := hhead
        congr 1
        refine ih l' (List.pairwise_cons.mp hl).2 (List.pairwise_cons.mp hl').2 ?_
        intro d
        have := h d
        simp only [List.filter_cons] at this
        split at this
        · exact (List.cons.injEq .. ▸ this).2
        · exact this
  exact key out (sortDirectives ds) hord (C01_sort_ordered ds)
    (fun d => (hstable d).trans (C01_sort_stable ds d).symm)

/-- Witness: a mixed list of an old Close, and a Balance and two Opens on a later day. -/
example :
    let sp : Span := ⟨0, 0, 0⟩
    let acc : Spanned Account := ⟨⟨.assets, str "Assets:A"⟩, sp⟩
    let acc' : Spanned Account := ⟨⟨.assets, str "Assets:B"⟩, sp⟩
    let mk (d : Nat) (v : DirectiveVariant) : Spanned Directive := ⟨⟨⟨⟨2020, 1, d⟩, sp⟩, ⟨{}, sp⟩, v⟩, sp⟩
    let bal : DirectiveVariant := .commodity ⟨str "USD", sp⟩
    sortDirectives [mk 2 bal, mk 2 (.open acc [] none), mk 1 (.close acc), mk 2 (.open acc' [] none)]
      = [mk 1 (.close acc), mk 2 (.open acc [] none), mk 2 (.open acc' [] none), mk 2 bal] := by
  intro sp acc acc' mk bal
  unfold sortDirectives sortBy SortState.new
  rw [SortState.collect_eq_flat none (Or.inl rfl) _ (by decide)]
  decide

end Lima.Props
