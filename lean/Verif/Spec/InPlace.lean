import Verif.Spec.Pragma
import Verif.Spec.Parse
import Verif.Spec.Passage
import Verif.Spec.Found

/-!
# Specification of an include as its text in place

One run has a root file with an include of one file, the other a root file with the contents of that file in place of the
include.
-/

namespace Lima.Spec

/-- No include of the file `path` with these declarations leads to the file `b`, by whatever name. -/
def Avoids (env : PragmaEnv) (b : Path) (path : Option Path) (ds : List (Spanned Declaration)) : Prop :=
  ∀ d ∈ ds, ∀ g, d.item = .pragma (.include g) → ∀ q ∈ expansion (AMap.get env.globs) path g.item,
    q ≠ b ∧ ∀ c, env.canonicalize b = some c → env.canonicalize q ≠ some c

/-- The includes of a file are looked up alike in two environments. -/
def SameGlobs (env env' : PragmaEnv) (path : Option Path) (ds : List (Spanned Declaration)) : Prop :=
  ∀ d ∈ ds, ∀ g, d.item = .pragma (.include g) →
    AMap.get env'.globs (resolveIncludedPath path (Path.ofStr g.item)) =
      AMap.get env.globs (resolveIncludedPath path (Path.ofStr g.item))

/-- The declarations of all files: in `files`, the root file has declarations `before`, then an include of the file `b`, then
`after`; in `files'` it has the declarations of `b` in place of the include, and `b` is not among the files.  No other include
leads to `b`, and the includes in `b` mean the same in the root file. -/
structure InPlace (env env' : PragmaEnv) (root : Option Path) (b : Path)
    (files files' : List (Option Path × List (Spanned Declaration))) : Prop where
  root_split : ∃ before inc g after contents, inc.item = .pragma (.include g) ∧
    AMap.get env.globs (resolveIncludedPath root (Path.ofStr g.item)) = some (.expanded [b]) ∧
    AMap.get files root = some (before ++ inc :: after) ∧
    AMap.get files (some b) = some contents ∧
    AMap.get files' root = some (before ++ contents ++ after) ∧
    ∀ d ∈ contents, ∀ g, d.item = .pragma (.include g) →
      resolveIncludedPath (some b) (Path.ofStr g.item) = resolveIncludedPath root (Path.ofStr g.item)
  not_root : root ≠ some b
  gone : AMap.get files' (some b) = none
  others : ∀ p, p ≠ root → p ≠ some b → AMap.get files' p = AMap.get files p
  avoids : ∀ p ds, AMap.get files' p = some ds → Avoids env b p ds
  globs : ∀ p ds, AMap.get files' p = some ds → SameGlobs env env' p ds
  errorPaths : ∀ p, AMap.get env'.errorPaths p = AMap.get env.errorPaths p
  canonicalize : env'.canonicalize = env.canonicalize
  context : env'.context = env.context

/-- Two runs.  In the first, the root file consists of `before`, a line which includes the file `b` by the name `name`, and
`after`; the text of `b`, which is in the same directory, is `contents`.  In the second, the root file has `contents` in place
of the line; nothing else leads to `b` there, and the file systems are otherwise the same. -/
structure IncludedText [Categories] (l : Logos) (tokens : Str → List Ranged) (fs fs' : FileSystem) (root : Option Path) (b : Path)
    (before line contents after name : Str) : Prop where
  passages : ∀ t ∈ [before, line, contents, after], Passage l t
  lineTokens : (tokens line).map (·.tok) = [.include, .stringLiteral name, .eol]
  leads : fs.glob (resolveIncludedPath root (Path.ofStr name)) = .ok [.path b]
  isFile : fs.canonicalize b ≠ none
  bText : fs.read b = .ok contents
  notRoot : root ≠ some b
  directory : root.bind pathDir = pathDir b
  glob : fs'.glob = fs.glob
  canonicalize : fs'.canonicalize = fs.canonicalize
  read : ∀ p, some p ≠ root → fs'.read p = fs.read p
  once : ¬ LedTo fs' tokens root (before ++ contents ++ after) b
  names : OneName fs tokens root (before ++ line ++ after)
  noErrors : NoGlobErrors fs

/-- Options on which parsing depends are set in the first part of the root file only. -/
def OptionsFirst (tokens : Str → List Ranged) (fs : FileSystem) (root : Option Path) (rootText after : Str) : Prop :=
  ¬ SetsParserOption (tokens after) ∧
    ∀ p text, some p ≠ root → Found fs tokens root rootText (some p) text → ¬ SetsParserOption (tokens text)

/-- The same result of two runs, wherever in the files: the same directives in the same order, options and plugins; the
first has the warnings of the second in some order, and may have one more. -/
structure SameSuccess (r r' : ParseSuccess) : Prop where
  directives : SameButPlaces r.directives r'.directives
  options : SameButPlaces r.options r'.options
  plugins : SameButPlaces r.plugins r'.plugins
  warnings : ∃ all extra, r.warnings.Perm all ∧ extra.length ≤ 1 ∧ SameButPlaces all (extra ++ r'.warnings)

end Lima.Spec
