import Verif.Spec.Success
import Verif.Spec.Options

/-!
# Specification of what the options can be asked for (C64)
-/

namespace Lima.Spec
open Lima

section
variable [Unicode]

/-- `option "name" "value"` is written in a source, which is the file at `path` if any, with the value at this location. -/
def OptionWritten (env : ParseEnv) (s : Sources) (path : Option Path) (name value : List Char) (at' : Span) : Prop :=
  ∃ id text nameAt, IsSource s id path text ∧ WritesOption (env.tokens text) id name value ⟨nameAt, at'⟩

/-- The same, in whichever source. -/
def OptionSet (env : ParseEnv) (s : Sources) (name value : List Char) (at' : Span) : Prop :=
  ∃ path, OptionWritten env s path name value at'

/-- `option "documents" "value"`, as a path: relative to the directory of the file in which it is written. -/
inductive DocumentsPath : Option Path → List Char → Path → Prop
  | inline (v : List Char) : DocumentsPath none v (Path.ofStr v)
  | bare (f : Path) (v : List Char) : f.names = [] → DocumentsPath (some f) v (Path.ofStr v)
  | inFile (f : Path) (v : List Char) : f.names ≠ [] →
      DocumentsPath (some f) v (Path.join ⟨f.root, f.names.dropLast⟩ (Path.ofStr v))

/-- `option "inferred_tolerance_default" "value"` is written in a source, for a currency, or for all with `*`: a colon follows,
and a number. -/
inductive ToleranceSet (env : ParseEnv) (s : Sources) : Option (List Char) → Dec → Prop
  | any {t : List Char} {d : Dec} {at' : Span} : OptionSet env s "inferred_tolerance_default".toList ('*' :: ':' :: t) at' →
      env.decimal t = .ok d → ToleranceSet env s none d
  | currency {c t : List Char} {d : Dec} {at' : Span} : OptionSet env s "inferred_tolerance_default".toList (c ++ ':' :: t) at' →
      ValidCurrency c → env.decimal t = .ok d → ToleranceSet env s (some c) d

end

end Lima.Spec
