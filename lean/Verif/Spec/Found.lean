import Verif.Spec.Sources

/-!
# Specification of the files found

Which files are found from a root file by following its includes, whatever the order in which they are followed.
-/

namespace Lima.Spec

section
variable (fs : FileSystem) (tokens : Str → List Ranged) (root : Option Path) (rootText : Str)

/-- The text has this include. -/
def Includes (text i : Str) : Prop := [Token.include, Token.stringLiteral i] <:+: (tokens text).map (·.tok)

/-- The file with this path and text is the root, or an include of a file found matches it, it exists, is not the root, and
has this text. -/
inductive Found : Option Path → Str → Prop
  | root : Found root rootText
  | step {path : Option Path} {text i : Str} {gs : List Globbed} {q : Path} {text' : Str} (h : Found path text)
      (hi : Includes tokens text i) (hg : fs.glob (resolveIncludedPath path (Path.ofStr i)) = .ok gs) (hq : .path q ∈ gs)
      (hr : some q ≠ root) (hc : fs.canonicalize q ≠ none) (ht : fs.read q = .ok text') : Found (some q) text'

/-- An include of a file found matches the path. -/
def LedTo (q : Path) : Prop :=
  ∃ path text i gs, Found fs tokens root rootText path text ∧ Includes tokens text i ∧
    fs.glob (resolveIncludedPath path (Path.ofStr i)) = .ok gs ∧ .path q ∈ gs

/-- Nothing is led to by two names, and the root is led to by its own name only. -/
def OneName : Prop :=
  ∀ q q' c, (LedTo fs tokens root rootText q ∨ root = some q) → (LedTo fs tokens root rootText q' ∨ root = some q') →
    fs.canonicalize q = some c → fs.canonicalize q' = some c → q = q'

/-- No pattern expands to an error. -/
def NoGlobErrors : Prop := ∀ p m, ¬ GlobError fs p m

end

end Lima.Spec
