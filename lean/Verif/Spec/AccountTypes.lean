import Verif.Model.Ast

/-!
# Specification of account type naming (C14)

The state is a function from account types to names.  A renaming is refused when a different type already
has the name, otherwise it changes just that type's name.
-/

namespace Lima.Spec
open Lima

/-- The current name of each account type. -/
abbrev Naming := AccountType → List Char

/-- The names used when no option changes them. -/
def Naming.initial : Naming
  | .assets => "Assets".toList
  | .liabilities => "Liabilities".toList
  | .equity => "Equity".toList
  | .income => "Income".toList
  | .expenses => "Expenses".toList

/-- Another type than `t` is called `name`. -/
def Naming.Clash (f : Naming) (t : AccountType) (name : List Char) : Prop := ∃ t', t' ≠ t ∧ f t' = name

open Classical in
/-- Rename `t`, unless that clashes. -/
noncomputable def Naming.rename (f : Naming) (u : AccountType × List Char) : Naming :=
  if f.Clash u.1 u.2 then f else fun t' => if t' = u.1 then u.2 else f t'

/-- The naming after a sequence of renamings. -/
noncomputable def Naming.after (us : List (AccountType × List Char)) : Naming :=
  us.foldl Naming.rename Naming.initial

end Lima.Spec
