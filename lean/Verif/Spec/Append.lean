import Verif.Spec.Order
import Verif.Spec.Revised

/-!
# Specification of directives written at the end of a ledger (C73)
-/

namespace Lima.Spec

/-- The directives of both lists in one, in order; of those where neither must come before the other, the first list's come first,
and each list's in their order. -/
structure InOne (xs ys ds : List (Spanned Directive)) : Prop where
  all : ds.Perm (xs ++ ys)
  ordered : ds.Pairwise (fun a b => ¬ StrictlyBefore b.item a.item)
  first : ∀ d : Directive, ds.filter (fun x => decide (SameRank x.item d)) =
    xs.filter (fun x => decide (SameRank x.item d)) ++ ys.filter (fun x => decide (SameRank x.item d))

/-- A result is, but for places, another with the directives and the warnings of a third. -/
structure Joined (r r' p : ParseSuccess) : Prop where
  directives : ∃ ds, InOne r'.directives p.directives ds ∧ SameButPlaces r.directives ds
  options : SameButPlaces r.options r'.options
  plugins : SameButPlaces r.plugins r'.plugins
  warnings : ∃ ws, r.warnings.Perm ws ∧ SameButPlaces ws (r'.warnings ++ p.warnings)

/-- The same with several results, one after the other. -/
structure JoinedAll (r r' : ParseSuccess) (ps : List ParseSuccess) : Prop where
  directives : ∃ ds, InOne r'.directives (ps.flatMap (·.directives)) ds ∧ SameButPlaces r.directives ds
  options : SameButPlaces r.options r'.options
  plugins : SameButPlaces r.plugins r'.plugins
  warnings : ∃ ws, r.warnings.Perm ws ∧ SameButPlaces ws (r'.warnings ++ ps.flatMap (·.warnings))

end Lima.Spec
