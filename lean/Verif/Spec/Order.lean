import Verif.Model.Ast

/-!
# Specification of the order of directives (C01)

Independent of the sort's implementation: directives are ranked by year, month, day, then Open before
Balance before everything else.
-/

namespace Lima.Spec

/-- Open first, Balance second, everything else last. -/
def kindRank (d : Directive) : Nat :=
  match d.variant with
  | .open .. => 0
  | .balance .. => 1
  | .transaction .. => 2
  | .price .. => 2
  | .close .. => 2
  | .commodity .. => 2
  | .pad .. => 2
  | .document .. => 2
  | .note .. => 2
  | .event .. => 2
  | .query .. => 2
  | .custom .. => 2

/-- `a` must come strictly before `b`: earlier day, or same day and lower kind. -/
def StrictlyBefore (a b : Directive) : Prop :=
  a.date.item.year < b.date.item.year ∨ (a.date.item.year = b.date.item.year ∧
    (a.date.item.month < b.date.item.month ∨ (a.date.item.month = b.date.item.month ∧
      (a.date.item.day < b.date.item.day ∨ (a.date.item.day = b.date.item.day ∧
        kindRank a < kindRank b)))))

/-- Neither must come before the other. -/
def SameRank (a b : Directive) : Prop :=
  a.date.item = b.date.item ∧ kindRank a = kindRank b

instance (a b : Directive) : Decidable (SameRank a b) := by unfold SameRank; infer_instance

end Lima.Spec
