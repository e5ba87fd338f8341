import Verif.Model.Callbacks

/-!
# Paths

`std::path::Path` on Unix, as far as it is used: equality and hashing go by components, so a path is modelled
by its components.  Simplifications: path texts are valid UTF-8 (no lossy conversion); two texts with the same
components (`a//b`, `a/./b`, `a/b`) are the same path also for the glob library.
-/

namespace Lima

/-- A path by its components (`Path::components`): whether it has a root, then the names, where `.` appears
only in front of a relative path. -/
structure Path where
  root : Bool
  names : List Str
deriving Repr, DecidableEq, Inhabited

/-- A component that survives normalisation other than in front. -/
def isName (c : Str) : Bool := decide (c ≠ []) && decide (c ≠ ['.'])

/-- The names of a relative path text that is about to be appended to another. -/
def pathNames (s : Str) : List Str := (splitBy (fun c => decide (c = '/')) s).filter isName

/-- `Path::new`, seen through `components()`. -/
def Path.ofStr (s : Str) : Path :=
  match splitBy (fun c => decide (c = '/')) s with
  | [] => ⟨false, []⟩
  | first :: rest =>
    { root := decide (first = [] ∧ rest ≠ [])
      names := (if first = [] then [] else [first]) ++ rest.filter isName }

/-- The names separated by slashes. -/
def renderNames : List Str → Str
  | [] => []
  | [n] => n
  | n :: ns => n ++ '/' :: renderNames ns

/-- The text of a path (`to_string_lossy`). -/
def Path.render (p : Path) : Str := (if p.root then ['/'] else []) ++ renderNames p.names

/-- `Path::parent`. -/
def Path.parent (p : Path) : Option Path := if p.names = [] then none else some ⟨p.root, p.names.dropLast⟩

/-- `as_os_str().is_empty()`. -/
def Path.isEmpty (p : Path) : Bool := !p.root && decide (p.names = [])

/-- `Path::join`: an absolute argument replaces the path. -/
def Path.join (p q : Path) : Path :=
  if q.root then q
  else if p.isEmpty then q
  else ⟨p.root, p.names ++ q.names.filter isName⟩

/-- `path_dir`, `/repo/src/sources.rs:606-614`. -/
def pathDir (p : Path) : Option Path :=
  match p.parent with
  | some d => if d.isEmpty then none else some d
  | none => none

/-- `resolve_included_path`, `/repo/src/sources.rs:595-603`. -/
def resolveIncludedPath (including : Option Path) (included : Path) : Path :=
  match including.bind pathDir with
  | some d => d.join included
  | none => included

/-- The paths that are the components of some text. -/
def Path.WF (p : Path) : Prop :=
  (∀ n ∈ p.names, n ≠ [] ∧ '/' ∉ n) ∧
  (∀ n ∈ (if p.root then p.names else p.names.drop 1), n ≠ ['.'])

end Lima
