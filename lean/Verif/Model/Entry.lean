import Verif.Model.Sources

/-!
# Where sources come from, `/repo/src/sources.rs:52-55, 398-425`
-/

namespace Lima

/-- `TryFrom<PathBuf>` and `TryFrom<&Path>`, that is `try_read_with_includes`, `/repo/src/sources.rs:52-55, 398-412`; an error is
that of reading the root. -/
def Sources.tryFromPath (fs : FileSystem) (tokens : Str → List Ranged) (p : Path) : Except Str Sources :=
  match fs.read p with
  | .error e => .error e
  | .ok text => .ok (readWithIncludes fs tokens (some p) text)

/-- `From<String>` and `From<&str>`, `/repo/src/sources.rs:414-425`. -/
def Sources.fromString (fs : FileSystem) (tokens : Str → List Ranged) (text : Str) : Sources :=
  readWithIncludes fs tokens none text

end Lima
