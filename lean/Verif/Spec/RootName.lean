import Verif.Spec.Revised

/-!
# Specification of the root of a tree: a file, or a text given directly (C65)
-/

namespace Lima.Spec
open Lima

/-- The directory against which the root resolves the paths written in it: that of the file, and for a text given
directly the current directory. -/
inductive InDirectory : Option Path → Path → Prop
  | text : InDirectory none ⟨false, []⟩
  | file (root : Bool) (names : List (List Char)) (name : List Char) :
      InDirectory (some ⟨root, names ++ [name]⟩) ⟨root, names⟩

/-- No include finds the file `root`, whether by its own name or by another. -/
def NotIncluded (fs : FileSystem) (root : Option Path) (s : Sources) : Prop :=
  ∀ p ∈ root, ∀ e ∈ s.content, e.1 ≠ p ∧ ∀ c ∈ fs.canonicalize p, fs.canonicalize e.1 ≠ some c

end Lima.Spec
