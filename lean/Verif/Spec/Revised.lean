import Verif.Spec.Passage
import Verif.Spec.Parse
import Mathlib.Data.List.Perm.Subperm

/-!
# Specification of directives written in another order, or left out (C62, C63)

A text is edited at places where it consists of passages, that is of whole lines.  What is moved, or left out, are passages
without pragmas: between pragmas, that is, since a pragma is never moved past.
-/

namespace Lima.Spec

/-- Nothing among the tokens is a pragma: an option, an include, a plugin, or the pushing or popping of tags or metadata. -/
def NoPragma (ts : List Token) : Prop :=
  .option ∉ ts ∧ .include ∉ ts ∧ .plugin ∉ ts ∧ .pushtag ∉ ts ∧ .poptag ∉ ts ∧ .pushmeta ∉ ts ∧ .popmeta ∉ ts

/-- No date is among the tokens of both. -/
def NoDateInCommon (ts ts' : List Token) : Prop := ∀ d, ¬ (.date d ∈ ts ∧ .date d ∈ ts')

section
variable [Categories]

/-- A text, and the text with directives in another order: two neighbouring passages without pragmas are exchanged, any number
of times.  If `apart`, they have no date in common. -/
inductive Rearranged (l : Logos) (tokens : Str → List Ranged) (apart : Bool) : Str → Str → Prop
  | same (text : Str) : Rearranged l tokens apart text text
  | exchange {before one other after : Str} : Passage l before → Passage l one → Passage l other → Passage l after →
      NoPragma ((tokens one).map (·.tok)) → NoPragma ((tokens other).map (·.tok)) →
      (apart = true → NoDateInCommon ((tokens one).map (·.tok)) ((tokens other).map (·.tok))) →
      Rearranged l tokens apart (before ++ one ++ other ++ after) (before ++ other ++ one ++ after)
  | trans {text text' text'' : Str} : Rearranged l tokens apart text text' → Rearranged l tokens apart text' text'' →
      Rearranged l tokens apart text text''

/-- A text, and the text with some of its directives left out: passages without pragmas are left out, any number of times. -/
inductive Thinned (l : Logos) (tokens : Str → List Ranged) : Str → Str → Prop
  | same (text : Str) : Thinned l tokens text text
  | leave {before passage after : Str} : Passage l before → Passage l passage → Passage l after →
      NoPragma ((tokens passage).map (·.tok)) → Thinned l tokens (before ++ passage ++ after) (before ++ after)
  | trans {text text' text'' : Str} : Thinned l tokens text text' → Thinned l tokens text' text'' → Thinned l tokens text text''

end

/-- A file with a text like the other's, or none in either. -/
inductive FileLike (R : Str → Str → Prop) : Except Str Str → Except Str Str → Prop
  | ok {text text' : Str} (h : R text text') : FileLike R (.ok text) (.ok text')
  | error (e : Str) : FileLike R (.error e) (.error e)

/-- The same files, but that each text of the one is as `R` has it like the text of the other. -/
structure FilesLike (R : Str → Str → Prop) (fs fs' : FileSystem) : Prop where
  glob : fs'.glob = fs.glob
  canonicalize : fs'.canonicalize = fs.canonicalize
  read : ∀ p, FileLike R (fs.read p) (fs'.read p)

/-- The included files are visited in the same order. -/
def SameVisits (s s' : Sources) : Prop := s'.content.map (·.1) = s.content.map (·.1)

/-- The same result, in another order: the directives are the same but for their order and locations, and so are the warnings;
options and plugins are the same but for locations. -/
structure SameButOrder (r r' : ParseSuccess) : Prop where
  directives : ∃ ds, r.directives.Perm ds ∧ SameButPlaces ds r'.directives
  options : SameButPlaces r.options r'.options
  plugins : SameButPlaces r.plugins r'.plugins
  warnings : ∃ ws, r.warnings.Perm ws ∧ SameButPlaces ws r'.warnings

/-- The second result has some of the directives of the first, in the same order, and some of its warnings, in any order;
options and plugins are the same. -/
structure Fewer (r r' : ParseSuccess) : Prop where
  directives : ∃ ds, ds.Sublist r.directives ∧ SameButPlaces ds r'.directives
  options : SameButPlaces r.options r'.options
  plugins : SameButPlaces r.plugins r'.plugins
  warnings : ∃ ws, List.Subperm ws r.warnings ∧ SameButPlaces ws r'.warnings

/-- A text, and the text without a passage of it; or it is any text, as it was. -/
def LeftOut (before passage after text text' : Str) : Prop :=
  text' = text ∨ (text = before ++ passage ++ after ∧ text' = before ++ after)

/-- The location is in the passage which is left out of the other sources. -/
def InLeftOut (s s' : Sources) (before passage after : Str) (sp : Span) : Prop :=
  (∃ path, IsSource s sp.source path (before ++ passage ++ after) ∧ IsSource s' sp.source path (before ++ after)) ∧
  byteLen before ≤ sp.start ∧ sp.start < byteLen (before ++ passage)

/-- The second list is the first without the directives located `inside`, but for locations. -/
inductive Without (inside : Span → Prop) : List (Spanned Directive) → List (Spanned Directive) → Prop
  | nil : Without inside [] []
  | stays {d d' : Spanned Directive} {ds ds'} : ¬ inside d.span → SameButPlaces d d' → Without inside ds ds' → Without inside (d :: ds) (d' :: ds')
  | goes {d : Spanned Directive} {ds ds'} : inside d.span → Without inside ds ds' → Without inside (d :: ds) ds'

/-- The second result has exactly those directives of the first which are not located `inside`, in the same order, and some of
its warnings; options and plugins are the same.  All this but for locations. -/
structure Rest (inside : Span → Prop) (r r' : ParseSuccess) : Prop where
  directives : Without inside r.directives r'.directives
  options : SameButPlaces r.options r'.options
  plugins : SameButPlaces r.plugins r'.plugins
  warnings : ∃ ws, ws.Sublist r.warnings ∧ SameButPlaces ws r'.warnings

end Lima.Spec
