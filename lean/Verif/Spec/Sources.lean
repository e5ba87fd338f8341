import Verif.Model.Sources

/-!
# Specification of sources and spans (C08-C13)
-/

namespace Lima.Spec
open Lima

/-- `t` is `m` without its trailing white space; a text of nothing but white space is left alone. -/
def Trimmed (ws : Char → Prop) (m t : Str) : Prop :=
  (∃ body c w, m = body ++ [c] ++ w ∧ t = body ++ [c] ∧ ¬ ws c ∧ ∀ x ∈ w, ws x) ∨
  ((∀ x ∈ m, ws x) ∧ t = m)

/-- The source with this identifier is the file with this path and text; the root has identifier 0. -/
def IsSource (s : Sources) (id : Nat) (path : Option Path) (text : Str) : Prop :=
  (id = 0 ∧ path = s.rootPath ∧ text = s.rootContent) ∨
  ∃ p ix, path = some p ∧ (p, IncludedSource.content id text ix) ∈ s.content

/-- The name under which a source is reported: its path, or nothing for inline input. -/
def sourceName (path : Option Path) : Option Str := path.map Path.render

/-- Every path the file system produces is the path of some text. -/
def GlobsWF (fs : FileSystem) : Prop :=
  ∀ p gs, fs.glob p = .ok gs → ∀ g ∈ gs, g.thePath.WF

/-- Line number of the character after `p`: one more than the newlines in `p`. -/
def lineAfter (p : Str) : Nat := 1 + p.count '\n'

/-- Reading steps from a state: `n` turns of the loop. -/
inductive Reads (fs : FileSystem) (tokens : Str → List Ranged) : Nat → ReadState → ReadState → Prop
  | zero (s) : Reads fs tokens 0 s s
  | succ (n s s' s'') : readStep fs tokens s = some s' → Reads fs tokens n s' s'' → Reads fs tokens (n + 1) s s''

/-- Some pattern expands to an error about this path. -/
def GlobError (fs : FileSystem) (p : Path) (m : Str) : Prop :=
  ∃ g gs, fs.glob g = .ok gs ∧ Globbed.error p m ∈ gs

end Lima.Spec
